import Verif.Spec.Grep
import Verif.Lemmas.Filter
import Verif.Props.HeldViews
/-! The invariant of the program of Spec/Grep.lean. -/
namespace CStr

/-! ## State machines -/

theorem Machine.state_append {S : Type} (m : Machine S) (t : List Answer) (a : Answer) : m.state (t ++ [a]) = m.upd (m.state t) a := by
  simp [Machine.state]

/-- An invariant that every step keeps, whatever the operating system does within `Good`. -/
theorem machine_inv {S : Type} {m : Machine S} {cfg : Cfg} {dflt : Alloc} {K : Nat → List Byte} {os : Nat → Option Nat} {Good : Option Nat → Prop} (hos : ∀ k, Good (os k))
    {Inv : S → Mixed → World → Prop}
    (step : ∀ p A w x, Inv p A w → m.act p = some x → x.Legal cfg dflt K A ∧ ∀ d a B w1, Good d → x.Step cfg dflt K d A w a B w1 → Inv (m.upd p a) B w1)
    (n : Nat) {t : List Answer} {A : Mixed} {w : World} (h : Inv (m.state t) A w) :
    LegalIPlay cfg dflt K os m.program n t A w ∧ ∀ t' A' w', IPlays cfg dflt K os m.program n t A w t' A' w' → Inv (m.state t') A' w' := by
  induction n generalizing t A w with
  | zero => exact ⟨trivial, fun t' A' w' hp => by cases hp; exact h⟩
  | succ n ih =>
    constructor
    · intro x hx
      obtain ⟨h1, h2⟩ := step _ A w x h hx
      refine ⟨h1, fun a B w1 hs => (ih ?_).1⟩
      rw [Machine.state_append]
      exact h2 _ a B w1 (hos _) hs
    · intro t' A' w' hp
      cases hp with
      | stop _ => exact h
      | next hx hs hp =>
        refine (ih ?_).2 _ _ _ hp
        rw [Machine.state_append]
        exact (step _ A w _ h hx).2 _ _ _ _ (hos _) hs

/-- With a measure that falls at every step the program finishes. -/
theorem machine_ends {S : Type} {m : Machine S} {cfg : Cfg} {dflt : Alloc} {K : Nat → List Byte} {os : Nat → Option Nat} {Good : Option Nat → Prop} (hos : ∀ k, Good (os k))
    {Inv : S → Mixed → World → Nat → Prop}
    (step : ∀ p A w μ x, Inv p A w μ → m.act p = some x → ∀ d a B w1, Good d → x.Step cfg dflt K d A w a B w1 → ∃ μ' < μ, Inv (m.upd p a) B w1 μ')
    (n : Nat) {t : List Answer} {A : Mixed} {w : World} {μ : Nat} (h : Inv (m.state t) A w μ) (hn : μ < n) :
    ∀ t' A' w', IPlays cfg dflt K os m.program n t A w t' A' w' → m.program t' = none := by
  induction n generalizing t A w μ with
  | zero => omega
  | succ n ih =>
    intro t' A' w' hp
    cases hp with
    | stop hx => exact hx
    | next hx hs hp =>
      obtain ⟨μ', h1, h2⟩ := step _ A w μ _ h hx _ _ _ _ (hos _) hs
      refine ih (μ := μ') ?_ (by omega) _ _ _ hp
      rw [Machine.state_append]
      exact h2

/-! ## Views under commands -/

theorem map_view (vs : List AView) (f : AView → AView) (hf : f .null = .null) (σ : AState) (e : Byte) (k : Nat) : (Mixed.mk σ (vs.map f) e).view k = f (vs.getD k .null) := by
  simp only [Mixed.view, List.getD_eq_getElem?_getD, List.getElem?_map]
  cases vs[k]? with
  | none => simp [hf]
  | some a => rfl

theorem mrun_view (cfg : Cfg) (dflt : Alloc) (K : Nat → List Byte) (A : Mixed) (c : Cmd) (k : Nat) : (A.run cfg dflt K c).view k = (A.view k).after cfg K A.σ c :=
  map_view _ _ rfl _ _ _

theorem run_view_const {cfg : Cfg} {dflt : Alloc} {K : Nat → List Byte} {A : Mixed} {c : Cmd} {k j i n : Nat} (h : A.view k = .part (.const j) i n) :
    (A.run cfg dflt K c).view k = .part (.const j) i n := by rw [mrun_view, h]; rfl

theorem run_view_buf {cfg : Cfg} {dflt : Alloc} {K : Nat → List Byte} {A : Mixed} {c : Cmd} {k j i n : Nat} (h : A.view k = .part (.buf j) i n) (hc : j ∉ c.changes) :
    (A.run cfg dflt K c).view k = .part (.buf j) i n := by
  rw [mrun_view, h]
  simp only [AView.after, leaves_of_not_mem hc, if_true]

theorem run_view_null {cfg : Cfg} {dflt : Alloc} {K : Nat → List Byte} {A : Mixed} {c : Cmd} {k : Nat} (h : A.view k = .null) : (A.run cfg dflt K c).view k = .null := by
  rw [mrun_view, h]; rfl

theorem run_number {cfg : Cfg} {dflt : Alloc} {K : Nat → List Byte} {A : Mixed} {c : Cmd} : (A.run cfg dflt K c).views.length = A.views.length := by
  simp [Mixed.run]

theorem run_op {cfg : Cfg} {dflt : Alloc} {K : Nat → List Byte} {A : Mixed} {h : Nat} {o : HOp} {b : Buf} (hb : A.σ h = some (.buf b)) :
    (A.run cfg dflt K (.op h o)).σ = A.σ.set h (some (.buf ((o.edit K A.σ h b).apply cfg b))) := by
  simp only [Mixed.run, Cmd.step, hb]

/-! ## Lines -/

theorem joinLines_append (xs ys : List (List Byte)) : joinLines (xs ++ ys) = joinLines xs ++ joinLines ys := by simp [joinLines]

theorem joinLines_one (l : List Byte) : joinLines [l] = l ++ [10] := by simp [joinLines]

theorem joinLines_cons (l : List Byte) (ls : List (List Byte)) : joinLines (l :: ls) = l ++ [10] ++ joinLines ls := by simp [joinLines]

theorem selected_append (n : List Byte) (xs ys : List (List Byte)) : selected n (xs ++ ys) = selected n xs ++ selected n ys := by simp [selected]

theorem selected_yes {n l : List Byte} (h : n <:+: l) : selected n [l] = [l] := by simp [selected, h]

theorem selected_no {n l : List Byte} (h : ¬ n <:+: l) : selected n [l] = [] := by simp [selected, h]

theorem selected_length (n : List Byte) (ls : List (List Byte)) : (joinLines (selected n ls)).length ≤ (joinLines ls).length := by
  induction ls with
  | nil => exact Nat.le_refl _
  | cons l ls ih =>
    by_cases h : n <:+: l
    · have : selected n (l :: ls) = l :: selected n ls := by simp [selected, h]
      rw [this, joinLines_cons, joinLines_cons]; simp only [List.length_append]; omega
    · have : selected n (l :: ls) = selected n ls := by simp [selected, h]
      rw [this, joinLines_cons]; simp only [List.length_append]; omega

/-- The first line is determined. -/
theorem line_unique {x y : List Byte} (hx : (10 : Byte) ∉ x) (hy : (10 : Byte) ∉ y) {r r' : List Byte} (h : x ++ 10 :: r = y ++ 10 :: r') : x = y ∧ r = r' := by
  induction x generalizing y with
  | nil =>
    cases y with
    | nil => exact ⟨rfl, (List.cons.inj h).2⟩
    | cons c y => have := (List.cons.inj h).1; subst this; simp at hy
  | cons c x ih =>
    cases y with
    | nil => have := (List.cons.inj h).1; subst this; simp at hx
    | cons d y =>
      obtain ⟨rfl, g⟩ := List.cons.inj h
      obtain ⟨rfl, e⟩ := ih (fun hm => hx (by simp [hm])) (fun hm => hy (by simp [hm])) g
      exact ⟨rfl, e⟩

/-- A text is in lines in only one way. -/
theorem lines_unique {xs ys : List (List Byte)} {r r' : List Byte} (hx : ∀ l ∈ xs, (10 : Byte) ∉ l) (hy : ∀ l ∈ ys, (10 : Byte) ∉ l) (hr : (10 : Byte) ∉ r) (hr' : (10 : Byte) ∉ r')
    (h : joinLines xs ++ r = joinLines ys ++ r') : xs = ys ∧ r = r' := by
  have ten : ∀ (l : List Byte) (ls : List (List Byte)) (r : List Byte), (10 : Byte) ∈ joinLines (l :: ls) ++ r := by
    intro l ls r; rw [joinLines_cons]; simp
  induction xs generalizing ys with
  | nil =>
    cases ys with
    | nil => exact ⟨rfl, h⟩
    | cons y ys => exact absurd (by rw [show r = joinLines (y :: ys) ++ r' from h]; exact ten _ _ _) hr
  | cons x xs ih =>
    cases ys with
    | nil => exact absurd (by rw [show r' = joinLines (x :: xs) ++ r from h.symm]; exact ten _ _ _) hr'
    | cons y ys =>
      rw [joinLines_cons, joinLines_cons] at h
      simp only [List.append_assoc, List.cons_append, List.nil_append] at h
      obtain ⟨rfl, g⟩ := line_unique (hx x (by simp)) (hy y (by simp)) h
      obtain ⟨rfl, e⟩ := ih (fun l hl => hx l (by simp [hl])) (fun l hl => hy l (by simp [hl])) g
      exact ⟨rfl, e⟩

/-- Splitting at the first newline. -/
theorem splitFirst_line {K : Nat → List Byte} (hK : K 0 = [10]) {l : List Byte} {c s : Cut} (h : SplitFirstTo false (delimsOf K (some 0)) l c s) :
    (∃ pre post, l = pre ++ 10 :: post ∧ (10 : Byte) ∉ pre ∧ c = some (0, pre.length) ∧ s = some (behindAt pre post, post.length)) ∨
    ((10 : Byte) ∉ l ∧ c = some (0, l.length) ∧ s = none) := by
  rw [show delimsOf K (some 0) = [10] from hK] at h
  rcases h with ⟨pre, d, post, ⟨e, hd, -⟩, hmin, hc, hs⟩ | ⟨hno, hc, hs⟩
  · obtain rfl : d = 10 := by simpa using hd
    refine .inl ⟨pre, post, e, fun hm => ?_, hc, hs⟩
    obtain ⟨u, w, rfl⟩ := List.append_of_mem hm
    have := hmin u 10 (w ++ 10 :: post) ⟨by rw [e]; simp, by simp, fun h => by cases h⟩
    simp at this
    omega
  · refine .inr ⟨fun hm => ?_, hc, hs⟩
    obtain ⟨u, w, rfl⟩ := List.append_of_mem hm
    exact hno u 10 w ⟨rfl, by simp, fun h => by cases h⟩

/-! ## The invariant -/

/-- View `k` shows the part `l` of the buffer `b`, which is in variable 0. -/
def Seg (A : Mixed) (b : Buf) (k : Nat) (l : List Byte) : Prop :=
  ∃ i n, A.view k = .part (.buf 0) i n ∧ i + n ≤ b.data.length ∧ (b.data.drop i).take n = l

/-- What holds throughout the loop: `done` are the lines that have been dealt with, `pend` is the text that has been read and not dealt with, `o` is what has been selected. -/
structure Grepping (K : Nat → List Byte) (inp : List Byte) (A : Mixed) (w : World) (v : Nat) (done : List (List Byte)) (pend o : List Byte) (b0 b1 : Buf) : Prop where
  buf0 : A.σ 0 = some (.buf b0)
  buf1 : A.σ 1 = some (.buf b1)
  dyn0 : b0.Dynamic
  dyn1 : b1.Dynamic
  number : A.views.length = v
  needle : A.view 0 = .part (.const 1) 0 (K 1).length
  lines : ∀ l ∈ done, (10 : Byte) ∉ l
  total : inp = joinLines done ++ pend ++ w.inp
  out : w.out ++ b1.data = o

/-- The measure without the part for the place. -/
def pot (w : World) (pend : List Byte) (b1 : Buf) : Nat := 16 * w.inp.length + 8 * pend.length + 2 * b1.data.length

/-- The text found so far. -/
def found (K : Nat → List Byte) (done : List (List Byte)) : List Byte := joinLines (selected (K 1) done)

/-- With the last, unterminated line. -/
def foundAll (K : Nat → List Byte) (done : List (List Byte)) (pend : List Byte) : List Byte := found K done ++ if K 1 <:+: pend then pend else []

/-- The invariant at each place, with the measure. -/
def GrepInv (dflt : Alloc) (K : Nat → List Byte) (inp : List Byte) (p : Place) (A : Mixed) (w : World) (μ : Nat) : Prop :=
  match p with
  | .empty0 => A.σ 0 = none ∧ A.σ 1 = none ∧ A.views = [] ∧ w = ⟨inp, []⟩ ∧ μ = 16 * inp.length + 11
  | .empty1 => A.σ 0 = some (.buf ⟨[], 0, dflt⟩) ∧ A.σ 1 = none ∧ A.views = [] ∧ w = ⟨inp, []⟩ ∧ μ = 16 * inp.length + 10
  | .needle => A.σ 0 = some (.buf ⟨[], 0, dflt⟩) ∧ A.σ 1 = some (.buf ⟨[], 0, dflt⟩) ∧ A.views = [] ∧ w = ⟨inp, []⟩ ∧ μ = 16 * inp.length + 9
  | .top v => ∃ done pend b0 b1, Grepping K inp A w v done pend (found K done) b0 b1 ∧ b0.data = pend ∧ 10 ∉ pend ∧ μ = pot w pend b1 + 8
  | .grow v n => ∃ done pend b0 b1, Grepping K inp A w v done pend (found K done) b0 b1 ∧ b0.data = pend ∧ 10 ∉ pend ∧ n = b0.data.length ∧ μ = pot w pend b1 + 7
  | .read v => ∃ done pend b0 b1, Grepping K inp A w v done pend (found K done) b0 b1 ∧ b0.data = pend ∧ 10 ∉ pend ∧ b0.data.length < b0.cap ∧ μ = pot w pend b1 + 6
  | .src v => ∃ done pend b0 b1, Grepping K inp A w v done pend (found K done) b0 b1 ∧ b0.data = pend ∧ μ = pot w pend b1 + 13
  | .split v k => 0 < k ∧ k < v ∧ ∃ done pend b0 b1, Grepping K inp A w v done pend (found K done) b0 b1 ∧ Seg A b0 k pend ∧ μ = pot w pend b1 + 12
  | .valid l k => 0 < k ∧ k < l ∧ ∃ done pend b0 b1, Grepping K inp A w (l + 1) done pend (found K done) b0 b1 ∧ μ = pot w pend b1 + 11 ∧
      ((A.view k = .null ∧ 10 ∉ pend ∧ Seg A b0 l pend) ∨ ∃ ln post, pend = ln ++ 10 :: post ∧ 10 ∉ ln ∧ Seg A b0 l ln ∧ Seg A b0 k post)
  | .has l k => 0 < k ∧ k < l ∧ ∃ done pend b0 b1, Grepping K inp A w (l + 1) done pend (found K done) b0 b1 ∧ μ = pot w pend b1 + 10 ∧
      ∃ ln post, pend = ln ++ 10 :: post ∧ 10 ∉ ln ∧ Seg A b0 l ln ∧ Seg A b0 k post
  | .app l k => 0 < k ∧ k < l ∧ ∃ done pend b0 b1, Grepping K inp A w (l + 1) done pend (found K done) b0 b1 ∧ μ = pot w pend b1 + 9 ∧
      ∃ ln post, pend = ln ++ 10 :: post ∧ 10 ∉ ln ∧ Seg A b0 l ln ∧ Seg A b0 k post ∧ K 1 <:+: ln
  | .eol l k => 0 < k ∧ k < l ∧ ∃ done ln pend b0 b1, Grepping K inp A w (l + 1) (done ++ [ln]) pend (found K done ++ ln) b0 b1 ∧ μ = pot w pend b1 + 15 ∧
      Seg A b0 k pend ∧ K 1 <:+: ln
  | .keep l => 0 < l ∧ ∃ done pend b0 b1, Grepping K inp A w (l + 1) done pend (found K done) b0 b1 ∧ μ = pot w pend b1 + 10 ∧ 10 ∉ pend ∧ Seg A b0 l pend
  | .rest v => ∃ done pend b0 b1, Grepping K inp A w v done pend (found K done) b0 b1 ∧ b0.data = pend ∧ 10 ∉ pend ∧ w.inp = [] ∧ μ = pot w pend b1 + 5
  | .lastHas l => 0 < l ∧ ∃ done pend b0 b1, Grepping K inp A w (l + 1) done pend (found K done) b0 b1 ∧ μ = pot w pend b1 + 4 ∧ 10 ∉ pend ∧ w.inp = [] ∧ Seg A b0 l pend
  | .lastApp l => 0 < l ∧ ∃ done pend b0 b1, Grepping K inp A w (l + 1) done pend (found K done) b0 b1 ∧ μ = pot w pend b1 + 3 ∧ 10 ∉ pend ∧ w.inp = [] ∧ Seg A b0 l pend ∧
      K 1 <:+: pend
  | .flush v false => ∃ done pend b0 b1, Grepping K inp A w v done pend (found K done) b0 b1 ∧ b0.data = pend ∧ 10 ∉ pend ∧ μ = pot w pend b1 + 9
  | .write v false => ∃ done pend b0 b1, Grepping K inp A w v done pend (found K done) b0 b1 ∧ b0.data = pend ∧ 10 ∉ pend ∧ b1.data ≠ [] ∧ μ = pot w pend b1 + 8
  | .flush v true => ∃ done pend b0 b1, Grepping K inp A w v done pend (foundAll K done pend) b0 b1 ∧ w.inp = [] ∧ 10 ∉ pend ∧ μ = 2 * b1.data.length + 1
  | .write v true => ∃ done pend b0 b1, Grepping K inp A w v done pend (foundAll K done pend) b0 b1 ∧ w.inp = [] ∧ 10 ∉ pend ∧ b1.data ≠ [] ∧ μ = 2 * b1.data.length
  | .stop => ∃ v done pend b0 b1, Grepping K inp A w v done pend (foundAll K done pend) b0 b1 ∧ w.inp = [] ∧ 10 ∉ pend ∧ b1.data = [] ∧ μ = 0

section

variable {cfg : Cfg} {dflt : Alloc} {K : Nat → List Byte} {inp : List Byte} {A : Mixed} {w : World} {v : Nat} {done : List (List Byte)} {pend o : List Byte} {b0 b1 : Buf}

theorem Grepping.pos (g : Grepping K inp A w v done pend o b0 b1) : 0 < v := by
  rw [← g.number]
  rcases hv : A.views with - | ⟨a, vs⟩
  · have := g.needle; simp [Mixed.view, hv] at this
  · simp

theorem Grepping.text (g : Grepping K inp A w v done pend o b0 b1) : A.text K 0 = K 1 := by
  simp [Mixed.text, g.needle, AView.bytes, Ref.text]

theorem Grepping.fresh (g : Grepping K inp A w v done pend o b0 b1) : A.Fresh 0 := by rw [Mixed.Fresh, g.needle]; intro h; cases h

theorem Seg.fresh {k : Nat} {l : List Byte} (h : Seg A b0 k l) : A.Fresh k := by
  obtain ⟨i, n, e, -⟩ := h; rw [Mixed.Fresh, e]; intro h; cases h

theorem Seg.text {k : Nat} {l : List Byte} (h : Seg A b0 k l) (h0 : A.σ 0 = some (.buf b0)) : A.text K k = l := by
  obtain ⟨i, n, e, -, e'⟩ := h
  simp only [Mixed.text, e, AView.bytes, Ref.text, AState.data, h0]; exact e'

theorem Seg.valid {k : Nat} {l : List Byte} (h : Seg A b0 k l) : A.view k ≠ .null := by
  obtain ⟨i, n, e, -⟩ := h; rw [e]; intro h; cases h

theorem Seg.src {k : Nat} {l : List Byte} (h : Seg A b0 k l) (h0 : A.σ 0 = some (.buf b0)) : ((A.view k).src).Legal K A.σ ∧ ((A.view k).src).bytes K A.σ = l := by
  obtain ⟨i, n, e, e1, e2⟩ := h
  rw [e]
  simp only [AView.src, Src.Legal, Ref.There, Src.bytes, Ref.text, AState.data, h0]
  exact ⟨⟨⟨b0, rfl⟩, e1⟩, e2⟩

/-- Another view is obtained. -/
theorem Grepping.push (g : Grepping K inp A w v done pend o b0 b1) (a : AView) : Grepping K inp { A with views := A.views ++ [a] } w (v + 1) done pend o b0 b1 := by
  refine ⟨g.buf0, g.buf1, g.dyn0, g.dyn1, by simp [g.number], ?_, g.lines, g.total, g.out⟩
  rw [view_append, if_neg (by have := g.pos; have := g.number; omega)]
  exact g.needle

theorem Seg.push {k : Nat} {l : List Byte} (h : Seg A b0 k l) (a : AView) (hk : k < A.views.length) : Seg { A with views := A.views ++ [a] } b0 k l := by
  obtain ⟨i, n, e, e1, e2⟩ := h
  exact ⟨i, n, by rw [view_append, if_neg (by omega)]; exact e, e1, e2⟩

/-- An operation on buffer 1. -/
theorem Grepping.op1 (g : Grepping K inp A w v done pend o b0 b1) (x : HOp) :
    Grepping K inp (A.run cfg dflt K (.op 1 x)) w v done pend (w.out ++ (x.edit K A.σ 1 b1).content b1) b0 ((x.edit K A.σ 1 b1).apply cfg b1) := by
  refine ⟨?_, ?_, g.dyn0, g.dyn1, by rw [run_number, g.number], run_view_const g.needle, g.lines, g.total, rfl⟩
  · rw [run_op g.buf1]; exact g.buf0
  · rw [run_op g.buf1]; rfl

theorem Seg.op1 {k : Nat} {l : List Byte} (h : Seg A b0 k l) (x : HOp) : Seg (A.run cfg dflt K (.op 1 x)) b0 k l := by
  obtain ⟨i, n, e, e1, e2⟩ := h
  exact ⟨i, n, run_view_buf e (by simp [Cmd.changes]), e1, e2⟩

/-- An operation on buffer 0. -/
theorem Grepping.op0 (g : Grepping K inp A w v done pend o b0 b1) (x : HOp) :
    Grepping K inp (A.run cfg dflt K (.op 0 x)) w v done pend o ((x.edit K A.σ 0 b0).apply cfg b0) b1 := by
  refine ⟨?_, ?_, g.dyn0, g.dyn1, by rw [run_number, g.number], run_view_const g.needle, g.lines, g.total, g.out⟩
  · rw [run_op g.buf0]; rfl
  · rw [run_op g.buf0]; exact g.buf1

/-- Everything is as short as the input. -/
theorem Grepping.short (g : Grepping K inp A w v done pend (found K done) b0 b1) : b1.data.length + pend.length ≤ inp.length := by
  have h1 := congrArg List.length g.out
  have h2 := congrArg List.length g.total
  have h3 := selected_length (K 1) done
  simp only [List.length_append, found] at h1 h2
  omega

theorem handle0 (g : Grepping K inp A w v done pend o b0 b1) : A.σ.Handle 0 := fun x h => by rw [g.buf0] at h; cases h; exact ⟨_, rfl⟩

theorem handle1 (g : Grepping K inp A w v done pend o b0 b1) : A.σ.Handle 1 := fun x h => by rw [g.buf1] at h; cases h; exact ⟨_, rfl⟩

end

theorem append_content {cfg : Cfg} {b : Buf} (hd : b.Dynamic) {S : List Byte} (hn : (b.data.length + S.length : Int) + cfg.growStep ≤ INT_MAX) (hg : 0 < cfg.growStep) :
    (Edit.insert b.data.length S).Ok cfg b ∧ (Edit.insert b.data.length S).content b = b.data ++ S := by
  have e : (Edit.insert b.data.length S).wanted b = b.data ++ S := by
    have : insertPos b.data.length (b.data.length : Int) = b.data.length := by unfold insertPos; split <;> omega
    simp [Edit.wanted, this]
  refine ⟨⟨?_, ?_, ?_⟩, ?_⟩
  · rw [e]; exact .inr (.inr (.inl (by rw [List.length_append]; push_cast; omega)))
  · simp only [INT_MIN]; omega
  · omega
  · simp only [Edit.content, e]
    rw [if_pos (.inr ⟨hd, by rw [List.length_append]; push_cast; omega⟩)]

end CStr
