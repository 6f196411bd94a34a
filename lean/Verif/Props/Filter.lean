import Verif.Lemmas.Filter
import Verif.Props.Observe
/-! Property C87: programs with an input and an output (Spec/Filter.lean). -/
namespace CStr

/-- C87. Every program with input and output - whatever it does next may depend on every answer it has got, from the library and from the operating system - sees and writes what it would if
its buffers and views were byte strings, for every way in which the operating system splits the transfers or lets them fail: its first `n` actions, for every `n`, have the answers and the effects
that Spec/Filter.lean gives them. It cannot go wrong in any other way than by an illegal answer of the allocator. -/
theorem C87_refinement {cfg : Cfg} (hcfg : cfg.Ok) {dflt : Alloc} {K : Nat → List Byte} {ka : Nat → Addr} (os : Nat → Option Nat) (p : IProgram) (n : Nat) {A : Mixed} {X : MState}
    (r : MRep K ka A X) (w : World) (t : List Answer) (hl : LegalIPlay cfg dflt K os p n t A w) :
    iplay cfg dflt K ka os p n t X w = .env .alloc ∨
      ∃ t' A' X' w', IPlays cfg dflt K os p n t A w t' A' w' ∧ iplay cfg dflt K ka os p n t X w = .ok (t', X', w') ∧ MRep K ka A' X' := by
  induction n generalizing t A X w with
  | zero => exact .inr ⟨t, A, X, w, .zero t A w, rfl, r⟩
  | succ n ih =>
    cases hp : p t with
    | none => exact .inr ⟨t, A, X, w, .stop hp, by simp only [iplay, hp], r⟩
    | some x =>
      obtain ⟨h1, h2⟩ := hl x hp
      rcases iact_ok hcfg r w (os t.length) h1 with h | ⟨a, B, Y, w1, i1, i2, i3⟩
      · left; simp only [iplay, hp, h]; rfl
      · rcases ih i3 w1 (t ++ [a]) (h2 a B w1 i1) with h | ⟨t', A', X', w', j1, j2, j3⟩
        · left; simp only [iplay, hp, i2, Res.bind_ok]; exact h
        · exact .inr ⟨t', A', X', w', .next hp i1 j1, by simp only [iplay, hp, i2, Res.bind_ok]; exact j2, j3⟩

/-! ### The effects are unambiguous -/

theorem IAct.Step.unique {cfg : Cfg} {dflt : Alloc} {K : Nat → List Byte} {d : Option Nat} {A B B' : Mixed} {w w1 w1' : World} {x : IAct} {a a' : Answer}
    (h : x.Step cfg dflt K d A w a B w1) (h' : x.Step cfg dflt K d A w a' B' w1') : a = a' ∧ B = B' ∧ w1 = w1' := by
  have split : ∀ {l r l' r' x : List Byte}, x = l ++ r → x = l' ++ r' → l.length = l'.length → l = l' ∧ r = r' := by
    intro l r l' r' x e e' hl
    exact List.append_inj (e.symm.trans e') hl
  cases x with
  | act x =>
    obtain ⟨h, rfl⟩ := h; obtain ⟨h', rfl⟩ := h'
    obtain ⟨rfl, rfl⟩ := h.unique h'
    exact ⟨rfl, rfl, rfl⟩
  | read k =>
    rcases h with ⟨e, rfl, rfl, rfl⟩ | ⟨b, e, h⟩ <;> rcases h' with ⟨e', rfl, rfl, rfl⟩ | ⟨b', e', h'⟩
    · exact ⟨rfl, rfl, rfl⟩
    · rw [e] at e'; cases e'
    · rw [e] at e'; cases e'
    · rw [e] at e'; cases e'
      rcases h with ⟨hd, rfl, rfl, rfl⟩ | ⟨j, l, rest, hd, g1, g2, rfl, rfl, rfl⟩ <;> rcases h' with ⟨hd', rfl, rfl, rfl⟩ | ⟨j', l', rest', hd', g1', g2', rfl, rfl, rfl⟩
      · exact ⟨rfl, rfl, rfl⟩
      · rw [hd] at hd'; cases hd'
      · rw [hd] at hd'; cases hd'
      · rw [hd] at hd'; cases hd'
        obtain ⟨rfl, rfl⟩ := split g1 g1' (g2.trans g2'.symm)
        exact ⟨rfl, rfl, rfl⟩
  | write k =>
    rcases h with ⟨e, rfl, rfl, rfl⟩ | ⟨b, e, h⟩ <;> rcases h' with ⟨e', rfl, rfl, rfl⟩ | ⟨b', e', h'⟩
    · exact ⟨rfl, rfl, rfl⟩
    · rw [e] at e'; cases e'
    · rw [e] at e'; cases e'
    · rw [e] at e'; cases e'
      rcases h with ⟨hd, rfl, rfl, rfl⟩ | ⟨j, l, rest, hd, g1, g2, rfl, rfl, rfl⟩ <;> rcases h' with ⟨hd', rfl, rfl, rfl⟩ | ⟨j', l', rest', hd', g1', g2', rfl, rfl, rfl⟩
      · exact ⟨rfl, rfl, rfl⟩
      · rw [hd] at hd'; cases hd'
      · rw [hd] at hd'; cases hd'
      · rw [hd] at hd'; cases hd'
        obtain ⟨rfl, rfl⟩ := split g1 g1' (g2.trans g2'.symm)
        exact ⟨rfl, rfl, rfl⟩
  | writeView k =>
    rcases h with ⟨e, rfl, rfl, rfl⟩ | ⟨e, h⟩ <;> rcases h' with ⟨e', rfl, rfl, rfl⟩ | ⟨e', h'⟩
    · exact ⟨rfl, rfl, rfl⟩
    · exact absurd e e'
    · exact absurd e' e
    · rcases h with ⟨hd, rfl, rfl, rfl⟩ | ⟨j, l, rest, hd, g1, g2, rfl, rfl, rfl⟩ <;> rcases h' with ⟨hd', rfl, rfl, rfl⟩ | ⟨j', l', rest', hd', g1', g2', rfl, rfl, rfl⟩
      · exact ⟨rfl, rfl, rfl⟩
      · rw [hd] at hd'; cases hd'
      · rw [hd] at hd'; cases hd'
      · rw [hd] at hd'; cases hd'
        obtain ⟨rfl, rfl⟩ := split g1 g1' (g2.trans g2'.symm)
        exact ⟨rfl, rfl, rfl⟩
  | pack k j o ty y =>
    obtain ⟨rfl, rfl, b, e, rfl⟩ := h
    obtain ⟨rfl, rfl, b', e', rfl⟩ := h'
    rw [e] at e'; cases e'
    exact ⟨rfl, rfl, rfl⟩
  | unpack i j o ty =>
    obtain ⟨rfl, y, rest, g1, g2, rfl, rfl⟩ := h
    obtain ⟨rfl, y', rest', g1', g2', rfl, rfl⟩ := h'
    obtain ⟨e1, rfl⟩ := split g2 g2' (by rw [wire_length, wire_length])
    rw [wire_inj g1 g1' e1]
    exact ⟨rfl, rfl, rfl⟩
  | encrypt k key iv j =>
    obtain ⟨rfl, rfl, b, out, e, g, rfl⟩ := h
    obtain ⟨rfl, rfl, b', out', e', g', rfl⟩ := h'
    rw [e] at e'; cases e'
    rw [C56_cbc_unique g g']
    exact ⟨rfl, rfl, rfl⟩
  | decrypt k key iv j =>
    obtain ⟨rfl, rfl, b, out, e, g, rfl⟩ := h
    obtain ⟨rfl, rfl, b', out', e', g', rfl⟩ := h'
    rw [e] at e'; cases e'
    rw [g.unique g']
    exact ⟨rfl, rfl, rfl⟩

/-- C87. What a program sees, holds and writes is determined by what it holds at the start, by its input, and by how the operating system divides the transfers. -/
theorem C87_deterministic {cfg : Cfg} {dflt : Alloc} {K : Nat → List Byte} {os : Nat → Option Nat} {p : IProgram} {n : Nat} {t t1 t2 : List Answer} {A B1 B2 : Mixed} {w w1 w2 : World}
    (h1 : IPlays cfg dflt K os p n t A w t1 B1 w1) (h2 : IPlays cfg dflt K os p n t A w t2 B2 w2) : t1 = t2 ∧ B1 = B2 ∧ w1 = w2 := by
  induction h1 with
  | zero => cases h2; exact ⟨rfl, rfl, rfl⟩
  | stop hp =>
    cases h2 with
    | stop _ => exact ⟨rfl, rfl, rfl⟩
    | next hp' _ _ => rw [hp] at hp'; cases hp'
  | next hp hs _ ih =>
    cases h2 with
    | stop hp' => rw [hp] at hp'; cases hp'
    | next hp' hs' k =>
      rw [hp] at hp'; cases hp'
      obtain ⟨rfl, rfl, rfl⟩ := hs.unique hs'
      exact ih k

/-- C87. Nor can anyone who reads the output tell where things are in the program's memory: started in two machines with the same input, the same program gets the same answers and writes the same
bytes, unless the allocator misbehaves in one of them. -/
theorem C87_indistinguishable {cfg : Cfg} (hcfg : cfg.Ok) {dflt : Alloc} {K : Nat → List Byte} {ka ka' : Nat → Addr} {s s' : St} (hs : Start K ka s) (hs' : Start K ka' s')
    (os : Nat → Option Nat) (p : IProgram) (n : Nat) (w : World) (hl : LegalIPlay cfg dflt K os p n [] .start w) :
    iplay cfg dflt K ka os p n [] (.start s) w = .env .alloc ∨ iplay cfg dflt K ka' os p n [] (.start s') w = .env .alloc ∨
    ∃ t X X' w', iplay cfg dflt K ka os p n [] (.start s) w = .ok (t, X, w') ∧ iplay cfg dflt K ka' os p n [] (.start s') w = .ok (t, X', w') := by
  rcases C87_refinement hcfg os p n hs.mrep w [] hl with e | ⟨t, A, X, w1, h1, h2, -⟩
  · exact .inl e
  rcases C87_refinement hcfg os p n hs'.mrep w [] hl with e | ⟨t', A', X', w1', h1', h2', -⟩
  · exact .inr (.inl e)
  obtain ⟨rfl, -, rfl⟩ := C87_deterministic h1 h1'
  exact .inr (.inr ⟨t, X, X', w1, h2, h2'⟩)

/-- C87. The input is consumed from the front, the output only grows: nothing is read twice, skipped at a failure, or taken back. -/
theorem C87_streams {cfg : Cfg} {dflt : Alloc} {K : Nat → List Byte} {os : Nat → Option Nat} {p : IProgram} {n : Nat} {t t' : List Answer} {A A' : Mixed} {w w' : World}
    (h : IPlays cfg dflt K os p n t A w t' A' w') : w'.inp <:+ w.inp ∧ w.out <+: w'.out := by
  have one : ∀ {d : Option Nat} {A B : Mixed} {w w1 : World} {x : IAct} {a : Answer}, x.Step cfg dflt K d A w a B w1 → w1.inp <:+ w.inp ∧ w.out <+: w1.out := by
    intro d A B w w1 x a hs
    have same : w.inp <:+ w.inp ∧ w.out <+: w.out := ⟨List.suffix_refl _, List.prefix_refl _⟩
    cases x with
    | act x => obtain ⟨-, rfl⟩ := hs; exact same
    | read k =>
      rcases hs with ⟨-, -, -, rfl⟩ | ⟨b, -, ⟨-, -, -, rfl⟩ | ⟨j, l, rest, -, e, -, -, -, rfl⟩⟩
      · exact same
      · exact same
      · exact ⟨⟨l, e.symm⟩, List.prefix_refl _⟩
    | write k =>
      rcases hs with ⟨-, -, -, rfl⟩ | ⟨b, -, ⟨-, -, -, rfl⟩ | ⟨j, l, rest, -, e, -, -, -, rfl⟩⟩
      · exact same
      · exact same
      · exact ⟨List.suffix_refl _, ⟨l, rfl⟩⟩
    | writeView k =>
      rcases hs with ⟨-, -, -, rfl⟩ | ⟨-, ⟨-, -, -, rfl⟩ | ⟨j, l, rest, -, e, -, -, rfl, -⟩⟩
      · exact same
      · exact same
      · exact ⟨List.suffix_refl _, ⟨l, rfl⟩⟩
    | pack k j o ty y => obtain ⟨rfl, -⟩ := hs; exact same
    | unpack i j o ty => obtain ⟨rfl, -⟩ := hs; exact same
    | encrypt k key iv j => obtain ⟨rfl, -⟩ := hs; exact same
    | decrypt k key iv j => obtain ⟨rfl, -⟩ := hs; exact same
  induction h with
  | zero => exact ⟨List.suffix_refl _, List.prefix_refl _⟩
  | stop _ => exact ⟨List.suffix_refl _, List.prefix_refl _⟩
  | next _ hs _ ih =>
    obtain ⟨a1, a2⟩ := one hs
    exact ⟨ih.1.trans a1, a2.trans ih.2⟩

/-! ### Non-vacuity -/

/-- A buffer of capacity 5 is filled from the input, a view of it is written, in as many calls as it takes, then the buffer is written once. -/
def copyTwice : IProgram := fun t =>
  match t with
  | [] => some (.act (.cmd (.cmd (.createEmpty 0 5 none))))
  | [_] => some (.read 0)
  | [_, _] => some (.act (.cmd (.view 0)))
  | _ :: _ :: _ :: t => match t.getLast? with
    | none => some (.writeView 0)
    | some (.int 0) => none
    | some (.int _) => some (.act (.ask (.valid 0)))
    | some (.bool true) => some (.writeView 0)
    | _ => some (.write 0)

/-- It is legal, for every input and operating system. -/
example (os : Nat → Option Nat) (w : World) : LegalIPlay exCfg ⟨0, 1⟩ demoK os copyTwice 4 [] .start w := by
  intro x hx; cases hx
  refine ⟨⟨rfl, ⟨by decide, by decide, by decide⟩, by decide⟩, ?_⟩
  rintro a B w1 ⟨⟨rfl, rfl⟩, rfl⟩ x hx; cases hx
  refine ⟨fun o h => ⟨_, (Option.some.inj h).symm⟩, ?_⟩
  rintro a B w2 (⟨e, -⟩ | ⟨b, e, ⟨-, rfl, rfl, rfl⟩ | ⟨j, l, rest, -, -, -, rfl, rfl, rfl⟩⟩) x hx
  · cases e
  · cases hx
    refine ⟨fun o h => ⟨_, (Option.some.inj h).symm⟩, ?_⟩
    rintro a B w3 ⟨⟨rfl, rfl⟩, rfl⟩ x hx; cases hx
    exact ⟨(by intro h; cases h), fun _ _ _ _ => trivial⟩
  · cases hx
    refine ⟨fun o h => ⟨_, (Option.some.inj h).symm⟩, ?_⟩
    rintro a B w3 ⟨⟨rfl, rfl⟩, rfl⟩ x hx; cases hx
    exact ⟨(by intro h; cases h), fun _ _ _ _ => trivial⟩

/-- A run: seven bytes of input, of which five are taken; the view is written by 2, fails, 2 and 1 bytes; the buffer by 3 bytes. -/
example : ((iplay exCfg ⟨0, 1⟩ demoK demoKa (fun k => [none, some 9, none, some 2, none, none, none, some 2, none, some 9, none, some 3].getD k none) copyTwice 12 [] (.start demoSt)
    ⟨[1, 2, 3, 4, 5, 6, 7], []⟩).bind fun r => .ok (r.1.drop 1, r.2.2.inp, r.2.2.out)) =
    .ok ([.int 5, .done, .int 2, .bool true, .int (-1), .bool true, .int 2, .bool true, .int 1, .bool false, .int 3], [6, 7], [1, 2, 3, 4, 5, 1, 2, 3]) := by decide +kernel

end CStr
