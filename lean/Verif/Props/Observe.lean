import Verif.Lemmas.Observe
import Verif.Props.HeldViews
import Verif.Lemmas.Examples
/-! Property C86: what a program sees. Programs that ask questions and go on by the answers (Spec/Observe.lean). -/
namespace CStr

/-- C86. Every program - whatever it does next may depend on every answer it has got - sees what it would see if its buffers and views were byte strings: its first `n` actions, for every `n`,
have the answers and the effects that Spec/Observe.lean gives them. It cannot go wrong in any other way than by an illegal answer of the allocator. -/
theorem C86_refinement {cfg : Cfg} (hcfg : cfg.Ok) {dflt : Alloc} {K : Nat → List Byte} {ka : Nat → Addr} (p : Program) (n : Nat) {A : Mixed} {X : MState} (r : MRep K ka A X)
    (t : List Answer) (hl : LegalPlay cfg dflt K p n t A) :
    play cfg dflt K ka p n t X = .env .alloc ∨
      ∃ t' A' X', Plays cfg dflt K p n t A t' A' ∧ play cfg dflt K ka p n t X = .ok (t', X') ∧ MRep K ka A' X' := by
  induction n generalizing t A X with
  | zero => exact .inr ⟨t, A, X, .zero t A, rfl, r⟩
  | succ n ih =>
    cases hp : p t with
    | none => exact .inr ⟨t, A, X, .stop hp, by simp only [play, hp], r⟩
    | some x =>
      obtain ⟨h1, h2⟩ := hl x hp
      rcases act_ok hcfg r h1 with h | ⟨a, B, Y, i1, i2, i3⟩
      · left; simp only [play, hp, h]; rfl
      · rcases ih i3 (t ++ [a]) (h2 a B i1) with h | ⟨t', A', X', j1, j2, j3⟩
        · left; simp only [play, hp, i2, Res.bind_ok]; exact h
        · exact .inr ⟨t', A', X', .next hp i1 j1, by simp only [play, hp, i2, Res.bind_ok]; exact j2, j3⟩

/-! ### The answers are unambiguous -/

theorem ConvStep.unique {A B B' : Mixed} {i : Nat} {l ds rest : List Byte} {P : Prop} {d v : Int} {a a' : Answer} (h : ConvStep A i l ds rest P d v a B)
    (h' : ConvStep A i l ds rest P d v a' B') : a = a' ∧ B = B' := by
  rcases h with ⟨h1, rfl, rfl⟩ | ⟨h1, h2, rfl, rfl⟩ | ⟨h1, h2, rfl, rfl⟩ <;> rcases h' with ⟨g1, rfl, rfl⟩ | ⟨g1, g2, rfl, rfl⟩ | ⟨g1, g2, rfl, rfl⟩ <;>
    first | exact ⟨rfl, rfl⟩ | exact absurd h1 g1 | exact absurd g1 h1 | exact absurd h2 g2 | exact absurd g2 h2

theorem Query.Step.unique {K : Nat → List Byte} {A B B' : Mixed} {q : Query} {a a' : Answer} (h : q.Step K A a B) (h' : q.Step K A a' B') : a = a' ∧ B = B' := by
  have yes : ∀ {P : Prop} {B B' : Mixed}, (B = A ∧ ∃ r, a = .bool r ∧ (r = true ↔ P)) → (B' = A ∧ ∃ r, a' = .bool r ∧ (r = true ↔ P)) → a = a' ∧ B = B' := by
    rintro P B B' ⟨e1, r, e2, g⟩ ⟨e1', r', e2', g'⟩
    exact ⟨by rw [e2, e2', Bool.eq_iff_iff.2 (g.trans g'.symm)], e1.trans e1'.symm⟩
  have irr : ∀ l : List Byte, ¬ l < l := fun l => List.lt_irrefl l
  cases q with
  | valid i | isMatch i j | isMatchNocase i j | startsWith i j | startsWithNocase i j | contains i j | containsNocase i j | isNull i => exact yes h h'
  | viewSize i => obtain ⟨rfl, rfl⟩ := h; obtain ⟨rfl, rfl⟩ := h'; exact ⟨rfl, rfl⟩
  | viewChar i k =>
    obtain ⟨rfl, c, rfl, e⟩ := h; obtain ⟨rfl, c', rfl, e'⟩ := h'
    rw [e] at e'; cases e'; exact ⟨rfl, rfl⟩
  | compare i j =>
    obtain ⟨rfl, h⟩ := h; obtain ⟨rfl, h'⟩ := h'
    refine ⟨?_, rfl⟩
    rcases h with ⟨rfl, h⟩ | ⟨rfl, h⟩ | ⟨rfl, h⟩ <;> rcases h' with ⟨rfl, h'⟩ | ⟨rfl, h'⟩ | ⟨rfl, h'⟩ <;>
      first | rfl | (rw [h] at h'; exact absurd h' (irr _)) | (rw [h'] at h; exact absurd h (irr _)) | exact absurd (List.lt_trans h h') (irr _)
  | bufSize x | capacity x =>
    obtain ⟨rfl, b, e, rfl⟩ := h; obtain ⟨rfl, b', e', rfl⟩ := h'
    rw [e] at e'; cases e'; exact ⟨rfl, rfl⟩
  | bufChar x k =>
    obtain ⟨rfl, b, c, e, g, rfl⟩ := h; obtain ⟨rfl, b', c', e', g', rfl⟩ := h'
    rw [e] at e'; cases e'; rw [g] at g'; cases g'; exact ⟨rfl, rfl⟩
  | strChar x k =>
    obtain ⟨rfl, l, al, c, e, g, rfl⟩ := h; obtain ⟨rfl, l', al', c', e', g', rfl⟩ := h'
    rw [e] at e'; cases e'; rw [g] at g'; cases g'; exact ⟨rfl, rfl⟩
  | popChar i =>
    rcases h with ⟨e, rfl, rfl⟩ | ⟨c, t, e, rfl, rfl⟩ <;> rcases h' with ⟨e', rfl, rfl⟩ | ⟨c', t', e', rfl, rfl⟩
    · exact ⟨rfl, rfl⟩
    · rw [e] at e'; cases e'
    · rw [e] at e'; cases e'
    · rw [e] at e'; cases e'; exact ⟨rfl, rfl⟩
  | unsigned t i o d =>
    obtain ⟨l1, l2, base, ds, n, rest, h1, h2, h3, h4⟩ := h
    obtain ⟨l1', l2', base', ds', n', rest', h1', h2', h3', h4'⟩ := h'
    obtain rfl := h1.unique h1'
    obtain ⟨rfl, rfl⟩ := h2.unique h2'
    obtain ⟨rfl, rfl, rfl⟩ := h3.unique h2.base h3'
    exact h4.unique h4'
  | signed t i o d =>
    obtain ⟨l1, l2, l3, neg, base, ds, n, rest, h1, hs, h2, h3, h4⟩ := h
    obtain ⟨l1', l2', l3', neg', base', ds', n', rest', h1', hs', h2', h3', h4'⟩ := h'
    obtain rfl := h1.unique h1'
    obtain ⟨rfl, rfl⟩ := hs.unique hs'
    obtain ⟨rfl, rfl⟩ := h2.unique h2'
    obtain ⟨rfl, rfl, rfl⟩ := h3.unique h2.base h3'
    exact h4.unique h4'

theorem Act.Step.unique {cfg : Cfg} {dflt : Alloc} {K : Nat → List Byte} {A B B' : Mixed} {x : Act} {a a' : Answer} (h : x.Step cfg dflt K A a B) (h' : x.Step cfg dflt K A a' B') :
    a = a' ∧ B = B' := by
  cases x with
  | cmd c =>
    obtain ⟨rfl, h⟩ := h; obtain ⟨rfl, h'⟩ := h'
    exact ⟨rfl, C80_deterministic (.cons h (.nil _)) (.cons h' (.nil _))⟩
  | ask q => exact Query.Step.unique h h'

/-- C86. What a program sees and what it holds are determined by what it holds at the start. -/
theorem C86_deterministic {cfg : Cfg} {dflt : Alloc} {K : Nat → List Byte} {p : Program} {n : Nat} {t t1 t2 : List Answer} {A B1 B2 : Mixed} (h1 : Plays cfg dflt K p n t A t1 B1)
    (h2 : Plays cfg dflt K p n t A t2 B2) : t1 = t2 ∧ B1 = B2 := by
  induction h1 with
  | zero => cases h2; exact ⟨rfl, rfl⟩
  | stop hp =>
    cases h2 with
    | stop _ => exact ⟨rfl, rfl⟩
    | next hp' _ _ => rw [hp] at hp'; cases hp'
  | next hp hs _ ih =>
    cases h2 with
    | stop hp' => rw [hp] at hp'; cases hp'
    | next hp' hs' k =>
      rw [hp] at hp'; cases hp'
      obtain ⟨rfl, rfl⟩ := hs.unique hs'
      exact ih k

/-- C86. A program cannot tell where things are: started in two machines - with other addresses of its constants, other memory around them, other answers of the allocator - it gets the same
answers, unless the allocator misbehaves in one of them. -/
theorem C86_indistinguishable {cfg : Cfg} (hcfg : cfg.Ok) {dflt : Alloc} {K : Nat → List Byte} {ka ka' : Nat → Addr} {s s' : St} (hs : Start K ka s) (hs' : Start K ka' s')
    (p : Program) (n : Nat) (hl : LegalPlay cfg dflt K p n [] .start) :
    play cfg dflt K ka p n [] (.start s) = .env .alloc ∨ play cfg dflt K ka' p n [] (.start s') = .env .alloc ∨
    ∃ t X X', play cfg dflt K ka p n [] (.start s) = .ok (t, X) ∧ play cfg dflt K ka' p n [] (.start s') = .ok (t, X') := by
  rcases C86_refinement hcfg p n hs.mrep [] hl with e | ⟨t, A, X, h1, h2, -⟩
  · exact .inl e
  rcases C86_refinement hcfg p n hs'.mrep [] hl with e | ⟨t', A', X', h1', h2', -⟩
  · exact .inr (.inl e)
  obtain ⟨rfl, -⟩ := C86_deterministic h1 h1'
  exact .inr (.inr ⟨t, X, X', h2, h2'⟩)

/-- C86. Asking changes nothing: not a byte of memory, no buffer variable, and at most the one view that a conversion or a pop consumes. -/
theorem C86_questions_read_only {X X' : MState} {q : Query} {a : Answer} (h : q.ask X = .ok (a, X')) :
    X'.s = X.s ∧ X'.ρ = X.ρ ∧ X'.eol = X.eol ∧ X'.views.length = X.views.length ∧
    ∀ j, (∀ i ∈ q.uses, j ≠ i) → viewAt X'.views j = viewAt X.views j := by
  have yes : ∀ {r : Res Bool}, yesNo X r = .ok (a, X') → X' = X := by
    intro r h
    obtain ⟨b, -, h⟩ := Res.ok_of_bind h
    cases h; rfl
  have same : X' = X → X'.s = X.s ∧ X'.ρ = X.ρ ∧ X'.eol = X.eol ∧ X'.views.length = X.views.length ∧
      ∀ j, (∀ i ∈ q.uses, j ≠ i) → viewAt X'.views j = viewAt X.views j := by
    rintro rfl; exact ⟨rfl, rfl, rfl, rfl, fun _ _ => rfl⟩
  have set : ∀ {i : Nat} {v : View}, i ∈ q.uses → X' = { X with views := X.views.set i v } → X'.s = X.s ∧ X'.ρ = X.ρ ∧ X'.eol = X.eol ∧ X'.views.length = X.views.length ∧
      ∀ j, (∀ i ∈ q.uses, j ≠ i) → viewAt X'.views j = viewAt X.views j := by
    rintro i v hi rfl
    refine ⟨rfl, rfl, rfl, by simp, fun j hj => ?_⟩
    have := hj i hi
    simp only [viewAt, List.getD_eq_getElem?_getD, List.getElem?_set_ne (Ne.symm this)]
  have conv : ∀ {i : Nat} {z : Int × Option Int × Option View}, i ∈ q.uses → converted X i z = .ok (a, X') → X'.s = X.s ∧ X'.ρ = X.ρ ∧ X'.eol = X.eol ∧
      X'.views.length = X.views.length ∧ ∀ j, (∀ i ∈ q.uses, j ≠ i) → viewAt X'.views j = viewAt X.views j := by
    intro i z hi h
    unfold converted at h
    split at h
    · cases h; exact set hi rfl
    · cases h
  cases q with
  | valid i | viewSize i | isNull i => cases h; exact same rfl
  | isMatch i j | isMatchNocase i j | startsWith i j | startsWithNocase i j | contains i j | containsNocase i j => exact same (yes h)
  | viewChar i k | bufSize i | capacity i | bufChar i k | strChar i k | compare i k =>
    obtain ⟨c, -, h⟩ := Res.ok_of_bind h
    cases h; exact same rfl
  | popChar i =>
    obtain ⟨c, -, h⟩ := Res.ok_of_bind h
    split at h
    · cases h; exact set (by simp [Query.uses]) rfl
    · cases h
  | unsigned t i o d =>
    obtain ⟨c, -, h⟩ := Res.ok_of_bind h
    exact conv (by simp [Query.uses]) h
  | signed t i o d =>
    obtain ⟨c, -, h⟩ := Res.ok_of_bind h
    exact conv (by simp [Query.uses]) h

/-! ### A program with a loop -/

/-- Reads the numbers of constant 0, separated by single characters, until one cannot be read:
```
v = constant 0;
while(!strnum_value(&d, &v, 0)) strview_pop_first_char(&v);
``` -/
def readLoop (d : Int) : Program := fun t =>
  match t.getLast? with
  | none => some (.cmd (.const 0))
  | some .done | some (.char _) => some (.ask (.signed .int 0 0 d))
  | some (.conv err _) => if err = 0 then some (.ask (.popChar 0)) else none
  | _ => none

/-- Numbers in decimal, separated by commas. -/
def numbersText : List Int → List Byte
  | [] => []
  | [x] => printSigned x
  | x :: y :: r => printSigned x ++ 44 :: numbersText (y :: r)

/-- What the loop sees. -/
def numbersSeen (d : Int) : List Int → List Answer
  | [] => [.conv EINVAL d]
  | [x] => [.conv 0 x, .char 0, .conv EINVAL d]
  | x :: y :: r => .conv 0 x :: .char 44 :: numbersSeen d (y :: r)

theorem cut_fresh {a : AView} {c : Cut} : a.cut c ≠ .stale := by
  cases a <;> cases c <;> (intro h; cases h)

theorem shorten_fresh {A : Mixed} {i j : Nat} {c : Cut} (h : A.Fresh j) : (A.shorten i c).Fresh j := by
  unfold Mixed.Fresh Mixed.shorten at *
  rw [view_set]
  split
  · exact cut_fresh
  · exact h

theorem conv_fresh {A B : Mixed} {i j : Nat} {l ds rest : List Byte} {P : Prop} {d v : Int} {a : Answer} (h : ConvStep A i l ds rest P d v a B) (hf : A.Fresh j) : B.Fresh j := by
  rcases h with ⟨-, -, rfl⟩ | ⟨-, -, -, rfl⟩ | ⟨-, -, -, rfl⟩
  · exact hf
  · exact hf
  · exact shorten_fresh hf

/-- Non-vacuity: the loop is legal for ever, whatever the constant is. -/
theorem readLoop_legal (cfg : Cfg) (dflt : Alloc) (K : Nat → List Byte) (d : Int) (n : Nat) (t : List Answer) (A : Mixed) (h : A.Fresh 0) : LegalPlay cfg dflt K (readLoop d) n t A := by
  induction n generalizing t A with
  | zero => trivial
  | succ n ih =>
    intro x hx
    unfold readLoop at hx
    split at hx
    · cases hx
      refine ⟨trivial, fun a B hs => ih _ _ ?_⟩
      obtain ⟨-, rfl⟩ := hs
      unfold Mixed.Fresh
      rw [view_append]
      split
      · intro h; cases h
      · exact h
    · cases hx
      refine ⟨⟨fun i hi => ?_, trivial⟩, fun a B hs => ih _ _ ?_⟩
      · rw [show i = 0 by simpa [Query.uses] using hi]; exact h
      · obtain ⟨l1, l2, l3, neg, base, ds, n, rest, -, -, -, -, h4⟩ := hs
        exact conv_fresh h4 h
    · cases hx
      refine ⟨⟨fun i hi => ?_, trivial⟩, fun a B hs => ih _ _ ?_⟩
      · rw [show i = 0 by simpa [Query.uses] using hi]; exact h
      · obtain ⟨l1, l2, l3, neg, base, ds, n, rest, -, -, -, -, h4⟩ := hs
        exact conv_fresh h4 h
    · split at hx
      · cases hx
        refine ⟨⟨fun i hi => ?_, trivial⟩, fun a B hs => ih _ _ ?_⟩
        · rw [show i = 0 by simpa [Query.uses] using hi]; exact h
        · rcases hs with ⟨-, -, rfl⟩ | ⟨c, t, -, -, rfl⟩
          · exact h
          · exact shorten_fresh h
      · cases hx
    · cases hx

/-- The text of a view that has been shortened to its end. -/
theorem shorten_text {K : Nat → List Byte} {A : Mixed} {i : Nat} {pre rest : List Byte} {r : Ref} {a n : Nat} (hv : A.view i = .part r a n) (ht : A.text K i = pre ++ rest) :
    (A.shorten i (some (pre.length, rest.length))).view i = .part r (a + pre.length) rest.length ∧ (A.shorten i (some (pre.length, rest.length))).text K i = rest := by
  have hlt : i < A.views.length := by
    rcases Nat.lt_or_ge i A.views.length with h | h
    · exact h
    · simp only [Mixed.view, List.getD_eq_getElem?_getD, List.getElem?_eq_none h] at hv
      cases hv
  have h1 : (A.shorten i (some (pre.length, rest.length))).view i = .part r (a + pre.length) rest.length := by
    rw [Mixed.shorten, view_set, if_pos ⟨rfl, hlt⟩, hv]; rfl
  refine ⟨h1, ?_⟩
  simp only [Mixed.text, hv, AView.bytes] at ht
  simp only [Mixed.text, h1, AView.bytes]
  have e : (((r.text K A.σ).drop a).take n).drop pre.length = rest := by rw [ht, List.drop_left]
  rw [List.drop_take, List.drop_drop] at e
  show ((r.text K A.σ).drop (a + pre.length)).take rest.length = rest
  have := congrArg (List.take rest.length) e
  rw [List.take_take, List.take_length] at this
  have hle := congrArg List.length e
  rw [List.length_take] at hle
  rwa [Nat.min_eq_left (by omega)] at this

theorem comma_ends (n : Nat) (t : List Byte) : EndsDecimal 0 n (44 :: t) := by
  refine ⟨?_, .inr (.inr (by simp))⟩
  rintro b t' e ⟨x, hx, -⟩
  cases e
  simp [digitVal] at hx

theorem nil_ends (n : Nat) : EndsDecimal 0 n [] := ⟨(fun _ _ e => by cases e), .inr (.inr (by simp))⟩

/-- One number is read. -/
theorem read_one {K : Nat → List Byte} {ka : Nat → Addr} {A : Mixed} {X : MState} (r : MRep K ka A X) {d x : Int} {rest : List Byte} {q : Ref} {i n : Nat} (hv : A.view 0 = .part q i n)
    (ht : A.text K 0 = printSigned x ++ rest) (hr : EndsDecimal 0 x.natAbs rest) (hx : STy.InRange .int x) :
    ∃ B Y j, (Query.signed .int 0 0 d).ask X = .ok (.conv 0 x, Y) ∧ MRep K ka B Y ∧ B.view 0 = .part q j rest.length ∧ B.text K 0 = rest := by
  have hf : A.Fresh 0 := by rw [Mixed.Fresh, hv]; intro h; cases h
  obtain ⟨a, B, Y, h1, h2, h3⟩ := query_ok (q := .signed .int 0 0 d) r ⟨fun i hi => by rw [show i = 0 by simpa [Query.uses] using hi]; exact hf, trivial⟩
  obtain ⟨neg, hs, hn⟩ := signedText_print (o := 0) (n := x) (by decide) (by decide) (by decide) hr
  obtain ⟨l1, l2, l3, g1, gs, g2, g3⟩ := hs.parts
  have step : (Query.signed .int 0 0 d).Step K A (.conv 0 x) (A.shorten 0 (some ((printSigned x).length, rest.length))) := by
    rw [← ht] at g1
    refine ⟨l1, l2, l3, neg, 10, _, _, rest, g1, gs, g2, g3.actual (fun e => by cases e), .inr (.inr ⟨printBytes_ne_nil _ _, by rw [hn]; exact hx, by rw [hn], ?_⟩)⟩
    rw [ht, List.length_append, Nat.add_sub_cancel]
  obtain ⟨rfl, rfl⟩ := h1.unique step
  obtain ⟨k1, k2⟩ := shorten_text hv ht
  exact ⟨_, Y, _, h2, h3, k1, k2⟩

/-- The loop from the top, with the numbers `xs` still to be read. -/
theorem read_rest {cfg : Cfg} {dflt : Alloc} {K : Nat → List Byte} {ka : Nat → Addr} (d : Int) (xs : List Int) (hx : ∀ x ∈ xs, STy.InRange .int x) {A : Mixed} {X : MState}
    (r : MRep K ka A X) {q : Ref} {i n : Nat} (hv : A.view 0 = .part q i n) (ht : A.text K 0 = numbersText xs) (t : List Answer)
    (hlast : t.getLast? = some .done ∨ ∃ c, t.getLast? = some (.char c)) (k : Nat) (hk : 2 * xs.length + 1 < k) :
    ∃ Y, play cfg dflt K ka (readLoop d) k t X = .ok (t ++ numbersSeen d xs, Y) := by
  have top : ∀ {t : List Answer}, (t.getLast? = some .done ∨ ∃ c, t.getLast? = some (.char c)) → readLoop d t = some (.ask (.signed .int 0 0 d)) := by
    intro t h
    unfold readLoop
    rcases h with h | ⟨c, h⟩ <;> rw [h]
  have pop : ∀ (t : List Answer) (v : Int), readLoop d (t ++ [.conv 0 v]) = some (.ask (.popChar 0)) := by
    intro t v
    simp [readLoop]
  have stop : ∀ (t : List Answer) (v : Int), readLoop d (t ++ [.conv EINVAL v]) = none := by
    intro t v
    simp [readLoop, EINVAL]
  -- at the end of the text
  have fin : ∀ {A : Mixed} {X : MState}, MRep K ka A X → A.Fresh 0 → A.text K 0 = [] → ∀ (t : List Answer) (k : Nat),
      (t.getLast? = some .done ∨ ∃ c, t.getLast? = some (.char c)) → 1 < k → ∃ Y, play cfg dflt K ka (readLoop d) k t X = .ok (t ++ [.conv EINVAL d], Y) := by
    intro A X r hf ht t k hlast hk
    obtain ⟨k, rfl⟩ : ∃ j, k = j + 2 := ⟨k - 2, by omega⟩
    obtain ⟨a, B, Y, h1, h2, h3⟩ := query_ok (q := .signed .int 0 0 d) r ⟨fun i hi => by rw [show i = 0 by simpa [Query.uses] using hi]; exact hf, trivial⟩
    have ha : a = .conv EINVAL d := by
      obtain ⟨l1, l2, l3, neg, base, ds, n, rest, g1, gs, g2, g3, g4⟩ := h1
      rw [ht] at g1
      have := no_digits_signed g1 gs g2 g3
      rcases g4 with ⟨-, h, -⟩ | ⟨h, -⟩ | ⟨h, -⟩
      · exact h
      · exact absurd this h
      · exact absurd this h
    subst ha
    refine ⟨Y, ?_⟩
    simp only [play, top hlast, Act.exec, h2, Res.bind_ok, stop]
  induction xs generalizing A X t k i n with
  | nil => exact fin r (by rw [Mixed.Fresh, hv]; intro h; cases h) ht t k hlast (by simp at hk; omega)
  | cons x xs ih =>
    obtain ⟨k, rfl⟩ : ∃ j, k = j + 2 := ⟨k - 2, by simp at hk; omega⟩
    cases xs with
    | nil =>
      obtain ⟨B, Y, j, h1, h2, h3, h4⟩ := read_one (d := d) (rest := []) r hv (by rw [ht, List.append_nil]; rfl) (nil_ends _) (hx x (by simp))
      have hf : B.Fresh 0 := by rw [Mixed.Fresh, h3]; intro h; cases h
      obtain ⟨a, C, Z, g1, g2, g3⟩ := query_ok (q := .popChar 0) h2 ⟨fun i hi => by rw [show i = 0 by simpa [Query.uses] using hi]; exact hf, trivial⟩
      rcases g1 with ⟨-, rfl, rfl⟩ | ⟨c, t', e, -⟩
      · obtain ⟨W, hW⟩ := fin g3 hf h4 (t ++ [.conv 0 x] ++ [.char 0]) k (.inr ⟨0, by simp⟩) (by simp at hk; omega)
        refine ⟨W, ?_⟩
        simp only [play, top hlast, Act.exec, h1, Res.bind_ok, pop, g2]
        rw [hW]; simp [numbersSeen]
      · rw [h4] at e; cases e
    | cons y ys =>
      obtain ⟨B, Y, j, h1, h2, h3, h4⟩ := read_one (d := d) (rest := 44 :: numbersText (y :: ys)) r hv (by rw [ht]; rfl) (comma_ends _ _) (hx x (by simp))
      have hf : B.Fresh 0 := by rw [Mixed.Fresh, h3]; intro h; cases h
      obtain ⟨a, C, Z, g1, g2, g3⟩ := query_ok (q := .popChar 0) h2 ⟨fun i hi => by rw [show i = 0 by simpa [Query.uses] using hi]; exact hf, trivial⟩
      rcases g1 with ⟨e, -⟩ | ⟨c, t', e, rfl, rfl⟩
      · rw [h4] at e; cases e
      · rw [h4] at e; cases e
        obtain ⟨k1, k2⟩ := shorten_text (pre := [44]) h3 (by rw [h4]; rfl)
        obtain ⟨W, hW⟩ := ih (fun z hz => hx z (by simp [hz])) g3 k1 k2 (t ++ [.conv 0 x] ++ [.char 44]) (.inr ⟨44, by simp⟩) k (by simp only [List.length_cons] at hk ⊢; omega)
        refine ⟨W, ?_⟩
        simp only [play, top hlast, Act.exec, h1, Res.bind_ok, pop, g2]
        rw [hW]; simp [numbersSeen]

/-- C86. A loop: for every list of `int`s of every length, written in decimal with commas between them, the loop reads exactly these numbers in order, and then stops; the destination of the
failing last call is left alone. -/
theorem C86_read_loop {cfg : Cfg} {dflt : Alloc} {K : Nat → List Byte} {ka : Nat → Addr} {s : St} (hs : Start K ka s) (d : Int) (xs : List Int) (hx : ∀ x ∈ xs, STy.InRange .int x)
    (hK : K 0 = numbersText xs) (n : Nat) (hn : 2 * xs.length + 2 < n) :
    ∃ X, play cfg dflt K ka (readLoop d) n [] (.start s) = .ok (.done :: numbersSeen d xs, X) := by
  obtain ⟨n, rfl⟩ : ∃ j, n = j + 1 := ⟨n - 1, by omega⟩
  have r := hs.mrep.push (a := .part (.const 0) 0 (K 0).length) (u := ⟨ka 0, (K 0).length⟩) ⟨trivial, by simp only [Ref.text]; omega, by simp [Ref.addr]⟩
  obtain ⟨X, h⟩ := read_rest (cfg := cfg) (dflt := dflt) d xs hx r (q := .const 0) (i := 0) (n := (K 0).length) rfl
    (by simp only [Mixed.text, Mixed.view, Mixed.start, List.nil_append, List.getD_cons_zero, AView.bytes, Ref.text, List.drop_zero, List.take_length]; exact hK)
    [.done] (.inl rfl) n (by omega)
  refine ⟨X, ?_⟩
  show (do let (a, X) ← Act.exec cfg dflt K ka (.start s) (.cmd (.const 0)); play cfg dflt K ka (readLoop d) n ([] ++ [a]) X) = _
  exact h

/-! ### Non-vacuity -/

/-- The constant is in memory and the allocator answers with ever higher addresses. -/
def oneSt (l : List Byte) : St where
  mem := memAt 64 (l ++ [0])
  live := fun _ => none
  picks := fun i => ⟨4096 + 65536 * i, fun _ => 170⟩
  calls := 0
  log := []

theorem oneStart (l : List Byte) (h : l.length < 2 ^ 30) : Start (fun _ => l) (fun _ => 64) (oneSt l) := by
  refine ⟨fun _ => rfl, fun i => by simp only [oneSt]; omega, fun k => ⟨by decide, ?_, ?_⟩⟩
  · simp only [INT_MAX]; omega
  · exact holds_memAt 64 (l ++ [0]) (by decide) (by simp only [List.length_append, List.length_singleton, litBase]; omega)

/-- The text "3,-14,2147483647". -/
example : numbersText [3, -14, 2147483647] = [51, 44, 45, 49, 52, 44, 50, 49, 52, 55, 52, 56, 51, 54, 52, 55] ∧ ∀ x ∈ [(3 : Int), -14, 2147483647], STy.InRange .int x := by
  refine ⟨by decide +kernel, ?_⟩
  intro x hx
  simp only [List.mem_cons, List.not_mem_nil, or_false] at hx
  rcases hx with rfl | rfl | rfl <;> simp [STy.InRange, STy.bits]

/-- The run of the loop on it, by the modelled functions. -/
example : (play exCfg ⟨0, 1⟩ (fun _ => [51, 44, 45, 49, 52, 44, 50, 49, 52, 55, 52, 56, 51, 54, 52, 55]) (fun _ => 64) (readLoop 5) 100 []
    (.start (oneSt [51, 44, 45, 49, 52, 44, 50, 49, 52, 55, 52, 56, 51, 54, 52, 55]))).bind (fun r => .ok r.1) =
    .ok [.done, .conv 0 3, .char 44, .conv 0 (-14), .char 44, .conv 0 2147483647, .char 0, .conv EINVAL 5] := by decide +kernel

/-- A program that changes a buffer by what it sees: buffer 0 is made from constant 0; if it contains constant 1 then "!" is appended, otherwise "?"; then it looks at the last byte and at the size. -/
def branching : Program := fun t =>
  match t with
  | [] => some (.cmd (.cmd (.createInit 0 (.const 0) none)))
  | [_] => some (.cmd (.view 0))
  | [_, _] => some (.cmd (.const 1))
  | [_, _, _] => some (.ask (.contains 0 1))
  | [_, _, _, a] => some (.cmd (.cmd (.op 0 (.appendChar (if a = .bool true then 33 else 63)))))
  | [_, _, _, _, _] => some (.ask (.bufChar 0 2))
  | [_, _, _, _, _, _] => some (.ask (.bufSize 0))
  | _ => none

/-- It is legal. -/
example : LegalPlay exCfg ⟨0, 1⟩ demoK branching 8 [] .start := by
  intro x hx; cases hx
  refine ⟨⟨rfl, ⟨by decide, by decide, by decide⟩, trivial⟩, ?_⟩
  rintro a B ⟨rfl, rfl⟩ x hx; cases hx
  refine ⟨fun o h => ⟨_, (Option.some.inj h).symm⟩, ?_⟩
  rintro a B ⟨rfl, rfl⟩ x hx; cases hx
  refine ⟨trivial, ?_⟩
  rintro a B ⟨rfl, rfl⟩ x hx; cases hx
  refine ⟨⟨?_, trivial⟩, ?_⟩
  · intro i hi
    simp only [Query.uses, List.mem_cons, List.not_mem_nil, or_false] at hi
    rcases hi with rfl | rfl <;> (intro h; cases h)
  rintro a B ⟨rfl, r, rfl, -⟩ x hx; cases hx
  refine ⟨⟨fun o h => ⟨_, (Option.some.inj h).symm⟩, trivial, fun b e => by cases e; exact ⟨.inl rfl, trivial⟩⟩, ?_⟩
  rintro a B ⟨rfl, rfl⟩ x hx; cases hx
  refine ⟨⟨fun i hi => (by simp [Query.uses] at hi), _, rfl, by cases r <;> decide⟩, ?_⟩
  rintro a B ⟨rfl, -⟩ x hx; cases hx
  refine ⟨⟨fun i hi => (by simp [Query.uses] at hi), _, rfl⟩, ?_⟩
  rintro a B ⟨rfl, -⟩ x hx; cases hx

/-- What it sees: "l" is not in "ab". -/
example : (play exCfg ⟨0, 1⟩ demoK demoKa branching 8 [] (.start demoSt)).bind (fun r => .ok r.1) =
    .ok [.done, .done, .done, .bool false, .done, .char 63, .int 3] := by decide +kernel

end CStr
