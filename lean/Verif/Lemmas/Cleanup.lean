import Verif.Spec.Cleanup
import Verif.Lemmas.Tasks
import Verif.Lemmas.BufLog
/-! Helper lemmas for C90. -/
namespace CStr

/-! ### The calls of the allocator in programs with input and output -/

section
variable {I : St → Prop} {cfg : Cfg} {dflt : Alloc} {T : Nat → List Byte} {ka : Nat → Addr}

theorem mcmd_keeps (K : Kept I) {X : MState} (h : I X.s) (c : MCmd) : Res.Sat (fun Y : MState => I Y.s) (c.exec cfg dflt T ka X) := by
  cases c with
  | cmd c => exact .bind' (exec_keeps K h c) fun _ h => .ok h
  | op k o => exact .bind' (run_keeps K h _ _) fun _ h => .ok h
  | create k i o => exact .bind' (create_init_keeps K h _ _ _) fun _ h => .ok h
  | view k => exact .bind fun _ _ => .ok h
  | const k => exact .ok h
  | call c => exact .bind fun _ _ => .ok h

theorem query_state (q : Query) (X : MState) : Res.Sat (fun r : Answer × MState => r.2.s = X.s) (q.ask X) := by
  have conv : ∀ i r, Res.Sat (fun r : Answer × MState => r.2.s = X.s) (converted X i r) := by
    rintro i ⟨e, _ | d, _ | v⟩ <;> first | exact .env | exact .ok rfl
  cases q with
  | valid i | viewSize i | isNull k => exact .ok rfl
  | viewChar i k | isMatch i j | isMatchNocase i j | startsWith i j | startsWithNocase i j | contains i j | containsNocase i j | compare i j | bufSize k | capacity k | bufChar k i | strChar k i =>
    exact .bind fun _ _ => .ok rfl
  | popChar i =>
    refine .bind fun r _ => ?_
    rcases r with ⟨c, _ | v⟩ <;> first | exact .env | exact .ok rfl
  | unsigned t i o d => exact .bind fun _ _ => conv i _
  | signed t i o d => exact .bind fun _ _ => conv i _

theorem read_keeps (K : Kept I) {s : St} (h : I s) (bp : Option Addr) (d : Option Nat) (inp : List Byte) : Res.Sat (fun r => I r.2.1) (strbuf_append_read cfg s bp d inp) := by
  rw [strbuf_append_read]
  walk

theorem write_keeps (K : Kept I) {s : St} (h : I s) (bp : Option Addr) (d : Option Nat) (out : List Byte) : Res.Sat (fun r => I r.2.2.1) (strbuf_write cfg s bp d out) := by
  rw [strbuf_write]
  split
  · with_reducible apply Res.Sat.bind; intro _ _
    with_reducible apply Res.Sat.bind; rintro ⟨n, out'⟩ _
    show Res.Sat _ (if n > 0 then _ else _)
    split
    · with_reducible apply Res.Sat.bind; intro _ _
      with_reducible apply Res.Sat.bind; intro _ _
      refine .bind' (assign_keeps K h _ _) ?_
      intro r hr; exact .ok hr
    · exact .ok h
  · exact .ok h

theorem crypt_keeps (K : Kept I) {s : St} (h : I s) (f : EncDec) (bp : Option Addr) (key iv stack : Addr) : Res.Sat (fun r => I r.2.2) (strbuf_crypt cfg f s bp key iv stack) := by
  rw [strbuf_crypt]
  split
  · with_reducible apply Res.Sat.bind; intro _ _
    split
    · with_reducible apply Res.Sat.bind; intro _ _
      with_reducible apply Res.Sat.bind; intro _ _
      refine .bind' (grow_keeps K h _ _) ?_
      rintro ⟨v, bp, s⟩ hr
      cases bp with
      | none => exact ⟨fun _ e => by cases e⟩
      | some p =>
        with_reducible apply Res.Sat.bind; intro _ _
        refine .bind' (K.call hr _ _ _) ?_
        intro r hr
        with_reducible apply Res.Sat.bind; intro _ _
        with_reducible apply Res.Sat.bind; intro _ _
        with_reducible apply Res.Sat.bind; intro _ _
        with_reducible apply Res.Sat.bind; intro _ _
        refine .bind' (K.call (K.mem hr _) _ _ _) ?_
        intro r hr
        walk
    · walk
  · walk

theorem iact_keeps (K : Kept I) {X : MState} (h : I X.s) (x : IAct) (d : Option Nat) (w : World) : Res.Sat (fun r : Answer × MState × World => I r.2.1.s) (x.exec cfg dflt T ka d X w) := by
  cases x with
  | act x =>
    refine .bind' (P := fun r => I r.2.s) ?_ fun r h => .ok h
    cases x with
    | cmd c => exact .bind' (mcmd_keeps K h c) fun _ h => .ok h
    | ask q => exact ⟨fun r e => by rw [(query_state q X).1 r e]; exact h⟩
  | read k => exact .bind' (read_keeps K h _ _ _) fun _ h => .ok h
  | write k => exact .bind' (write_keeps K h _ _ _) fun _ h => .ok h
  | writeView i =>
    refine .bind fun r _ => ?_
    rcases r with ⟨n, _ | v, out⟩ <;> first | exact .env | exact .ok h
  | pack k j o t x => exact .bind' (P := fun r => I r.2.2) (.bind fun _ _ => append_keeps K (K.mem h _) _ _) fun _ h => .ok h
  | unpack i k o t => exact .bind fun _ _ => .ok (K.mem h _)
  | encrypt k key iv j => exact .bind' (crypt_keeps K h _ _ _ _ _) fun _ h => .ok h
  | decrypt k key iv j => exact .bind' (crypt_keeps K h _ _ _ _ _) fun _ h => .ok h

theorem iplay_keeps (K : Kept I) {os : Nat → Option Nat} {p : IProgram} (n : Nat) {t : List Answer} {X : MState} (h : I X.s) (w : World) :
    Res.Sat (fun r : List Answer × MState × World => I r.2.1.s) (iplay cfg dflt T ka os p n t X w) := by
  induction n generalizing t X w with
  | zero => exact .ok h
  | succ n ih =>
    rw [iplay]
    split
    · exact .ok h
    · exact .bind' (iact_keeps K h _ _ _) fun r hr => ih hr _

theorem tasks_keeps (K : Kept I) {os : Nat → Nat → Option Nat} {ps : Nat → IProgram} (sched : List Nat) {Y : Tasks} (h : I Y.s) :
    Res.Sat (fun Y : Tasks => I Y.s) (Y.run cfg dflt T ka os ps sched) := by
  induction sched generalizing Y with
  | nil => exact .ok h
  | cons i sched ih =>
    rw [Tasks.run]
    refine .bind' (P := fun Y => I Y.s) ?_ fun Y hY => ih hY
    rw [Tasks.turn]
    split
    · exact .ok h
    · exact .bind' (iact_keeps K (X := Y.state i) h _ _ _) fun r hr => .ok hr

end

/-! ### A program followed by the release of its buffers -/

section
variable {cfg : Cfg} {dflt : Alloc} {K : Nat → List Byte} {p : IProgram} {hs : List Nat}

/-- The program has not finished before the last of the answers. -/
def Running (p : IProgram) (t : List Answer) : Prop := ∀ k < t.length, p (t.take k) ≠ none

theorem Running.nil : Running p [] := fun k hk => by cases hk

theorem Running.snoc {t : List Answer} (r : Running p t) {x : IAct} (h : p t = some x) (a : Answer) : Running p (t ++ [a]) := by
  intro k hk
  rw [List.length_append, List.length_singleton] at hk
  rcases Nat.lt_succ_iff_lt_or_eq.1 hk with h1 | rfl
  · rw [List.take_append_of_le_length (by omega)]; exact r k h1
  · rw [List.take_append_of_le_length (by omega), List.take_length, h]; simp

theorem andFree_run {t : List Answer} (r : Running p t) {x : IAct} (h : p t = some x) : p.andFree hs t = some x := by
  have : p.finishedAt t = none := by
    rw [IProgram.finishedAt, List.find?_eq_none]
    intro k hk
    have hk := List.mem_range.1 hk
    rcases Nat.lt_succ_iff_lt_or_eq.1 hk with h1 | rfl
    · have := r k h1
      cases e : p (t.take k) with
      | none => exact absurd e this
      | some y => simp
    · rw [List.take_length, h]; simp
  rw [IProgram.andFree, this, h]

theorem andFree_free {t : List Answer} (r : Running p t) (h : p t = none) (u : List Answer) : p.andFree hs (t ++ u) = hs[u.length]?.map fun h => .act (.cmd (.cmd (.destroy h))) := by
  have : p.finishedAt (t ++ u) = some t.length := by
    rw [IProgram.finishedAt, List.find?_range_eq_some]
    refine ⟨?_, List.mem_range.2 (by simp; omega), ?_⟩
    · rw [List.take_append_of_le_length (by omega), List.take_length, h]; rfl
    · intro j hj
      rw [List.take_append_of_le_length (by omega)]
      have := r j hj
      cases e : p (t.take j) with
      | none => exact absurd e this
      | some y => rfl
  rw [IProgram.andFree, this]
  simp

/-- Destroy. -/
theorem destroy_step {d : Option Nat} {A B : Mixed} {w w1 : World} {h : Nat} {a : Answer} (hs : (IAct.act (.cmd (.cmd (.destroy h)))).Step cfg dflt K d A w a B w1) :
    a = .done ∧ w1 = w ∧ B.σ = A.σ.set h none := by
  obtain ⟨⟨rfl, rfl⟩, rfl⟩ := hs
  exact ⟨rfl, rfl, rfl⟩

theorem handle_set {σ : AState} {h k : Nat} (hk : σ.Handle k) : (σ.set h none).Handle k := by
  intro o e
  by_cases e1 : k = h
  · subst e1; rw [AState.set_same] at e; cases e
  · rw [AState.set_ne _ _ e1] at e; exact hk o e

theorem free_legal {os : Nat → Option Nat} {t : List Answer} (r : Running p t) (h : p t = none) (m : Nat) (u : List Answer) {A : Mixed} (w : World) (hh : ∀ h ∈ hs, A.σ.Handle h) :
    LegalIPlay cfg dflt K os (p.andFree hs) m (t ++ u) A w := by
  induction m generalizing u A w with
  | zero => trivial
  | succ m ih =>
    intro x hx
    rw [andFree_free r h] at hx
    obtain ⟨k, hk, rfl⟩ := Option.map_eq_some_iff.1 hx
    refine ⟨hh k (List.mem_of_getElem? hk), fun a B w1 hs' => ?_⟩
    obtain ⟨-, -, e⟩ := destroy_step hs'
    rw [List.append_assoc]
    exact ih _ _ fun k hk => by rw [e]; exact handle_set (hh k hk)

theorem free_plays {os : Nat → Option Nat} {t : List Answer} (r : Running p t) (h : p t = none) {m : Nat} {t0 t' : List Answer} {A A' : Mixed} {w w' : World}
    (hp : IPlays cfg dflt K os (p.andFree hs) m t0 A w t' A' w') : ∀ u, t0 = t ++ u → w' = w ∧ ∃ u', t' = t ++ u' ∧ (u'.length = u.length + m ∨ p.andFree hs t' = none) ∧ u.length ≤ u'.length ∧
      ∀ k, A'.σ k = if k ∈ (hs.take u'.length).drop u.length then none else A.σ k := by
  induction hp with
  | zero t0 A w => rintro u rfl; exact ⟨rfl, u, rfl, .inl rfl, Nat.le_refl _, fun k => by rw [if_neg (by simp)]⟩
  | stop hn => rintro u rfl; exact ⟨rfl, u, rfl, .inr hn, Nat.le_refl _, fun k => by rw [if_neg (by simp)]⟩
  | @next n t0 t1 x a A B C w w1 w2 hx hs' _ ih =>
    rintro u rfl
    rw [andFree_free r h] at hx
    obtain ⟨k, hk, rfl⟩ := Option.map_eq_some_iff.1 hx
    obtain ⟨-, rfl, e⟩ := destroy_step hs'
    obtain ⟨rfl, u', rfl, h2, h3, h4⟩ := ih (u ++ [a]) (by rw [List.append_assoc])
    rw [List.length_append, List.length_singleton] at h2 h3 h4
    refine ⟨rfl, u', rfl, ?_, by omega, fun j => ?_⟩
    · rcases h2 with h2 | h2
      · exact .inl (by omega)
      · exact .inr h2
    · rw [h4, e]
      have hlt : u.length < hs.length := (List.getElem?_eq_some_iff.1 hk).1
      have hd : (hs.take u'.length).drop u.length = k :: (hs.take u'.length).drop (u.length + 1) := by
        have hl : u.length < (hs.take u'.length).length := by rw [List.length_take]; omega
        rw [List.drop_eq_getElem_cons hl]
        congr 1
        rw [List.getElem_take]
        exact (List.getElem?_eq_some_iff.1 hk).2
      rw [hd]
      by_cases hj : j = k
      · subst hj
        rw [AState.set_same, if_pos (List.mem_cons_self ..)]
        split <;> rfl
      · rw [AState.set_ne _ _ hj]
        simp only [List.mem_cons, hj, false_or]

theorem andFree_legal {os : Nat → Option Nat} (m : Nat) {t : List Answer} (r : Running p t) {A : Mixed} {w : World} (hl : LegalIPlay cfg dflt K os p m t A w)
    (hfin : ∀ n t' A' w', n ≤ m → IPlays cfg dflt K os p n t A w t' A' w' → p t' = none → ∀ h ∈ hs, A'.σ.Handle h) : LegalIPlay cfg dflt K os (p.andFree hs) m t A w := by
  induction m generalizing t A w with
  | zero => trivial
  | succ m ih =>
    cases hp : p t with
    | none =>
      have := free_legal (cfg := cfg) (dflt := dflt) (K := K) (os := os) r hp (m + 1) [] w (hfin 0 t A w (by omega) (.zero t A w) hp)
      rwa [List.append_nil] at this
    | some x =>
      intro y hy
      rw [andFree_run r hp] at hy; cases hy
      obtain ⟨h1, h2⟩ := hl x hp
      refine ⟨h1, fun a B w1 hs' => ih (r.snoc hp a) (h2 a B w1 hs') fun n t' A' w' hn hpl => hfin (n + 1) t' A' w' (by omega) (.next hp hs' hpl)⟩

theorem andFree_plays {os : Nat → Option Nat} {m : Nat} {t t' : List Answer} (r : Running p t) {A A' : Mixed} {w w' : World} (h : IPlays cfg dflt K os (p.andFree hs) m t A w t' A' w')
    (hn : p.andFree hs t' = none) : ∃ n t1 A1, n ≤ m ∧ IPlays cfg dflt K os p n t A w t1 A1 w' ∧ p t1 = none ∧ ∀ k, A'.σ k = if k ∈ hs then none else A1.σ k := by
  have fin : ∀ {m t t' A A' w w'}, Running p t → p t = none → IPlays cfg dflt K os (p.andFree hs) m t A w t' A' w' → p.andFree hs t' = none → w' = w ∧ ∀ k, A'.σ k = if k ∈ hs then none else A.σ k := by
    intro m t t' A A' w w' r hp h hn
    obtain ⟨rfl, u', rfl, -, -, h4⟩ := free_plays r hp h [] (by rw [List.append_nil])
    refine ⟨rfl, fun k => ?_⟩
    rw [andFree_free r hp] at hn
    have hlen : hs.length ≤ u'.length := List.getElem?_eq_none_iff.1 (Option.map_eq_none_iff.1 hn)
    rw [h4, List.take_of_length_le hlen]
    rfl
  induction h with
  | zero t A w =>
    cases hp : p t with
    | some x => rw [andFree_run r hp] at hn; cases hn
    | none =>
      obtain ⟨-, e⟩ := fin r hp (.zero t A w) hn
      exact ⟨0, t, A, Nat.le_refl _, .zero _ _ _, hp, e⟩
  | @stop n t A w hx =>
    cases hp : p t with
    | some x => rw [andFree_run r hp] at hn; cases hn
    | none =>
      obtain ⟨-, e⟩ := fin r hp (.stop (n := n) (w := w) hx) hn
      exact ⟨0, t, A, Nat.zero_le _, .zero _ _ _, hp, e⟩
  | @next n t t' x a A B C w w1 w2 hx hs' hpl ih =>
    cases hp : p t with
    | some y =>
      rw [andFree_run r hp] at hx; cases hx
      obtain ⟨n', t1, A1, g1, g2, g3, g4⟩ := ih (r.snoc hp a) hn
      exact ⟨n' + 1, t1, A1, by omega, .next hp hs' g2, g3, g4⟩
    | none =>
      obtain ⟨rfl, e⟩ := fin r hp (.next hx hs' hpl) hn
      exact ⟨0, t, A, Nat.zero_le _, .zero _ _ _, hp, e⟩

/-- It finishes after `p` has, and after one more action for each variable. -/
theorem andFree_ends {os : Nat → Option Nat} {n : Nat} {t : List Answer} (r : Running p t) {A : Mixed} {w : World} (hl : ∀ t' A' w', IPlays cfg dflt K os p n t A w t' A' w' → p t' = none)
    {t' : List Answer} {A' : Mixed} {w' : World} {m : Nat} (hm : n + hs.length ≤ m) (h : IPlays cfg dflt K os (p.andFree hs) m t A w t' A' w') : p.andFree hs t' = none := by
  have fin : ∀ {m t t' A A' w w'}, Running p t → p t = none → hs.length ≤ m → IPlays cfg dflt K os (p.andFree hs) m t A w t' A' w' → p.andFree hs t' = none := by
    intro m t t' A A' w w' r hp hm h
    obtain ⟨rfl, u', rfl, h2, -, -⟩ := free_plays r hp h [] (by rw [List.append_nil])
    rcases h2 with h2 | h2
    · rw [andFree_free r hp, List.getElem?_eq_none (by simp only [List.length_nil, Nat.zero_add] at h2; omega)]; rfl
    · exact h2
  induction n generalizing t A w m with
  | zero => exact fin r (hl t A w (.zero _ _ _)) (by omega) h
  | succ n ih =>
    cases hp : p t with
    | none => exact fin r hp (by omega) h
    | some x =>
      cases m with
      | zero => omega
      | succ m =>
        cases h with
        | stop hx => exact hx
        | next hx hs' hpl =>
          rw [andFree_run r hp] at hx; cases hx
          exact ih (r.snoc hp _) (fun t' A' w' g => hl t' A' w' (.next hp hs' g)) (by omega) hpl

end

/-! ### Programs without C strings -/

section
variable {cfg : Cfg} {dflt : Alloc} {K : Nat → List Byte} {hs : List Nat}

theorem BuffersIn.buf {σ : AState} (h : σ.BuffersIn hs) {k : Nat} (hk : k ∈ hs) (b : Buf) : (σ.set k (some (.buf b))).BuffersIn hs := by
  refine ⟨fun j hj o e => ?_, fun j o hj e => ?_⟩
  · by_cases hjk : j = k
    · subst hjk; rw [AState.set_same] at e; cases e; exact ⟨_, rfl⟩
    · rw [AState.set_ne _ _ hjk] at e; exact h.1 j hj o e
  · have hjk : j ≠ k := fun e => hj (e ▸ hk)
    rw [AState.set_ne _ _ hjk] at e; exact h.2 j o hj e

theorem BuffersIn.none {σ : AState} (h : σ.BuffersIn hs) (k : Nat) : (σ.set k none).BuffersIn hs := by
  refine ⟨fun j hj o e => ?_, fun j o hj e => ?_⟩ <;>
  · by_cases hjk : j = k
    · subst hjk; rw [AState.set_same] at e; cases e
    · rw [AState.set_ne _ _ hjk] at e
      first | exact h.1 j hj o e | exact h.2 j o hj e

theorem BuffersIn.mem {σ : AState} (h : σ.BuffersIn hs) {k : Nat} {b : Buf} (hk : σ k = some (.buf b)) : k ∈ hs :=
  Classical.byContradiction fun hn => by obtain ⟨n, e⟩ := h.2 k _ hn hk; cases e

theorem cmd_buffers {σ : AState} (h : σ.BuffersIn hs) {c : Cmd} (hc : ∀ k, (IAct.act (.cmd (.cmd c))).creates = some k → k ∈ hs) (hn : ∀ h k, c ≠ .toCstr h k) : (c.step cfg dflt K σ).BuffersIn hs := by
  cases c with
  | createEmpty k n o => exact BuffersIn.buf h (hc k rfl) _
  | createInit k n o => exact BuffersIn.buf h (hc k rfl) _
  | createFixed k j n => exact BuffersIn.buf (BuffersIn.none h j) (hc k rfl) _
  | destroy k => exact BuffersIn.none h k
  | toCstr k j => exact absurd rfl (hn k j)
  | freeStr k al => exact BuffersIn.none h k
  | op k o =>
    simp only [Cmd.step]
    split
    · next b e => exact BuffersIn.buf h (BuffersIn.mem h e) _
    · exact h

theorem own_all (A : Mixed) : A.Own fun _ => True := by
  intro v _
  cases v with
  | part r i n => cases r <;> trivial
  | _ => trivial

theorem iact_buffers {A B : Mixed} {w w1 : World} {d : Option Nat} {a : Answer} {x : IAct} (h : A.σ.BuffersIn hs) (hc : ∀ k, x.creates = some k → k ∈ hs)
    (hn : ∀ h k, x ≠ .act (.cmd (.cmd (.toCstr h k)))) (hs' : x.Step cfg dflt K d A w a B w1) : B.σ.BuffersIn hs := by
  have same : ∀ {B : Mixed}, Local (fun _ => True) A A.σ B A.σ → B.σ.BuffersIn hs := fun l => by
    have : _ = A.σ := funext fun k => l.agree k trivial
    rw [this]; exact h
  have content : ∀ {k : Nat} {b : Buf} {l : List Byte}, A.σ k = some (.buf b) → (A.content k b l).σ.BuffersIn hs := fun e => BuffersIn.buf h (BuffersIn.mem h e) _
  have moved : ∀ {k : Nat} {b b' : Buf}, A.σ k = some (.buf b) → (A.moved k b').σ.BuffersIn hs := fun e => BuffersIn.buf h (BuffersIn.mem h e) _
  have crypted : ∀ {k : Nat} {b : Buf} {l : List Byte}, A.σ k = some (.buf b) → (A.crypted k b l).σ.BuffersIn hs := fun e => by
    rw [Mixed.crypted]; split
    · exact moved e
    · exact content e
  cases x with
  | act x =>
    obtain ⟨hs', -⟩ := hs'
    cases x with
    | ask q => exact same (query_on (own_all A) (fun _ _ => rfl) (fun _ _ => trivial) hs').2
    | cmd c =>
      obtain ⟨-, hs'⟩ := hs'
      cases c with
      | cmd c => cases hs'; exact cmd_buffers h hc fun k j e => hn k j (by rw [e])
      | op k o => cases hs'; exact cmd_buffers (dflt := dflt) h (c := .op k _) (by intro j e; cases e) (by intro _ _ e; cases e)
      | create k i o => cases hs'; exact cmd_buffers (cfg := cfg) h (c := .createInit k _ _) (by intro j e; cases e; exact hc k rfl) (by intro _ _ e; cases e)
      | view k => cases hs'; exact h
      | const k => cases hs'; exact h
      | call c => exact same (vcall_on (own_all A) (fun _ _ => rfl) hs').2
  | read k =>
    rcases hs' with ⟨-, -, rfl, -⟩ | ⟨b, h1, ⟨-, -, rfl, -⟩ | ⟨j, l, rest, -, -, -, -, rfl, -⟩⟩
    · exact h
    · exact h
    · exact content h1
  | write k =>
    rcases hs' with ⟨-, -, rfl, -⟩ | ⟨b, h1, ⟨-, -, rfl, -⟩ | ⟨j, l, rest, -, -, -, -, rfl, -⟩⟩
    · exact h
    · exact h
    · exact content h1
  | writeView i =>
    rcases hs' with ⟨-, -, rfl, -⟩ | ⟨-, ⟨-, -, rfl, -⟩ | ⟨j, l, rest, -, -, -, -, -, rfl⟩⟩ <;> exact h
  | pack k k' o' t x =>
    obtain ⟨-, -, b, h1, rfl⟩ := hs'
    split
    · exact content h1
    · exact moved h1
  | unpack i k o' t => obtain ⟨-, x, rest, -, -, -, rfl⟩ := hs'; exact h
  | encrypt k key iv k' => obtain ⟨-, -, b, out, h1, -, rfl⟩ := hs'; exact crypted h1
  | decrypt k key iv k' => obtain ⟨-, -, b, out, h1, -, rfl⟩ := hs'; exact crypted h1

theorem iplays_buffers {p : IProgram} {os : Nat → Option Nat} (hp : p.BuffersIn hs) {n : Nat} {t t' : List Answer} {A A' : Mixed} {w w' : World} (h : IPlays cfg dflt K os p n t A w t' A' w')
    (h0 : A.σ.BuffersIn hs) : A'.σ.BuffersIn hs := by
  induction h with
  | zero => exact h0
  | stop _ => exact h0
  | next hx hs' _ ih => exact ih (iact_buffers h0 (hp _ _ hx).1 (hp _ _ hx).2 hs')

end

end CStr
