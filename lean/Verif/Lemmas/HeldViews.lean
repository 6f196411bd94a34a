import Verif.Spec.HeldViews
import Verif.Lemmas.BufHist
import Verif.Props.ViewHist
/-! Lemmas for Props/HeldViews.lean. -/
namespace CStr

variable {cfg : Cfg} {dflt : Alloc} {K : Nat → List Byte} {ka : Nat → Addr}

/-! ### Views that are kept -/

/-- A view that may be used is the invalid view or shows its text. -/
theorem MRep.held {A : Mixed} {X : MState} (r : MRep K ka A X) {i : Nat} (hf : A.Fresh i) :
    (A.view i = .null ∧ viewAt X.views i = .invalid ∧ A.text K i = []) ∨
    ∃ t a n, A.view i = .part t a n ∧ t.There A.σ ∧ a + n ≤ (t.text K A.σ).length ∧ viewAt X.views i = ⟨t.addr ka X.ρ + a, n⟩ ∧
      ViewOf X.s.mem (viewAt X.views i) (A.text K i) ∧ (A.text K i).length = n := by
  have hv := r.views i
  unfold Mixed.text
  unfold Mixed.Fresh at hf
  cases ha : A.view i with
  | stale => exact absurd ha hf
  | null => rw [ha] at hv; exact .inl ⟨rfl, hv, rfl⟩
  | part t a n =>
    rw [ha] at hv
    obtain ⟨h1, h2, h3⟩ := hv
    have hlen : (((t.text K A.σ).drop a).take n).length = n := by rw [List.length_take, List.length_drop]; omega
    refine .inr ⟨t, a, n, rfl, h1, h2, h3, ?_, hlen⟩
    obtain ⟨v, e1, e2⟩ := Src.facts (x := .part t a n) r.rep ⟨h1, h2⟩
    simp only [Src.eval] at e1
    cases e1
    rw [h3]
    refine ⟨e2.denotes, ?_⟩
    rcases e2.pos with h0 | h0
    · exfalso
      have : 0 < t.addr ka X.ρ := by
        cases t with
        | buf k => obtain ⟨c, hk⟩ := h1; have := (show BufAt X.s (X.ρ k) c from r.rep.obj k _ hk).pos; simp only [Ref.addr]; omega
        | const k => exact (r.rep.const k).1
      simp only at h0; omega
    · exact h0

theorem MRep.any {A : Mixed} {X : MState} (r : MRep K ka A X) {i : Nat} (hf : A.Fresh i) :
    AnyView X.s.mem (viewAt X.views i) ∧ Denotes X.s.mem (viewAt X.views i) (A.text K i) := by
  rcases r.held hf with ⟨-, h, h'⟩ | ⟨_, _, _, -, -, -, -, h, -⟩
  · rw [h, h']; exact ⟨.inl rfl, ⟨rfl, by decide, Holds.nil _ _⟩⟩
  · exact ⟨.inr ⟨_, h⟩, h.toDenotes⟩

/-- `u` is the part `c` of the view `v` of the text `l`. -/
def CutIs (v : View) (l : List Byte) (c : Cut) (u : View) : Prop :=
  (c = none ∧ u = .invalid) ∨ ∃ j n : Nat, c = some (j, n) ∧ j + n ≤ l.length ∧ u = v.part j n

theorem MRep.cut {A : Mixed} {X : MState} (r : MRep K ka A X) {i : Nat} (hf : A.Fresh i) {c : Cut} {u : View}
    (h : CutIs (viewAt X.views i) (A.text K i) c u) : ViewRep K ka A.σ X.ρ ((A.view i).cut c) u := by
  rcases h with ⟨rfl, rfl⟩ | ⟨j, n, rfl, h1, rfl⟩
  · cases A.view i <;> rfl
  · rcases r.held hf with ⟨g1, g2, g3⟩ | ⟨t, a, k, g1, g2, g3, g4, -, g5⟩
    · rw [g1, g2]
      rw [g3, List.length_nil] at h1
      have : j = 0 ∧ n = 0 := by omega
      rw [this.1, this.2]; rfl
    · rw [g1, g4]
      refine ⟨g2, by omega, ?_⟩
      simp only [View.part, View.mk.injEq, and_true]; omega

theorem viewAt_append (vs : List View) (u : View) (i : Nat) : viewAt (vs ++ [u]) i = if i = vs.length then u else viewAt vs i := by
  simp only [viewAt, List.getD_eq_getElem?_getD]
  by_cases h : i < vs.length
  · rw [if_neg (by omega), List.getElem?_append_left h]
  · rw [List.getElem?_append_right (by omega)]
    split
    · next e => simp [e]
    · rw [List.getElem?_eq_none (by simp; omega), List.getElem?_eq_none (l := vs) (by omega)]

theorem viewAt_set (vs : List View) (u : View) (i j : Nat) : viewAt (vs.set i u) j = if i = j ∧ i < vs.length then u else viewAt vs j := by
  simp only [viewAt, List.getD_eq_getElem?_getD, List.getElem?_set]
  by_cases h : i = j
  · subst h
    by_cases h' : i < vs.length
    · simp [h']
    · simp [h']
  · simp [h]

theorem view_append {A : Mixed} (a : AView) (i : Nat) : Mixed.view { A with views := A.views ++ [a] } i = if i = A.views.length then a else A.view i := by
  simp only [Mixed.view, List.getD_eq_getElem?_getD]
  by_cases h : i < A.views.length
  · rw [if_neg (by omega), List.getElem?_append_left h]
  · rw [List.getElem?_append_right (by omega)]
    split
    · next e => simp [e]
    · rw [List.getElem?_eq_none (by simp; omega), List.getElem?_eq_none (l := A.views) (by omega)]

theorem view_set {A : Mixed} (a : AView) (i j : Nat) :
    Mixed.view { A with views := A.views.set i a } j = if i = j ∧ i < A.views.length then a else A.view j := by
  simp only [Mixed.view, List.getD_eq_getElem?_getD, List.getElem?_set]
  by_cases h : i = j
  · subst h
    by_cases h' : i < A.views.length
    · simp [h']
    · simp [h']
  · simp [h]

/-- A further view is kept. -/
theorem MRep.push {A : Mixed} {X : MState} (r : MRep K ka A X) {a : AView} {u : View} (h : ViewRep K ka A.σ X.ρ a u) :
    MRep K ka { A with views := A.views ++ [a] } { X with views := X.views ++ [u] } := by
  refine ⟨r.rep, by simp [r.number], ?_, r.eol, r.eolOk⟩
  intro i
  rw [view_append, viewAt_append, r.number]
  split
  · exact h
  · exact r.views i

/-- A view is changed. -/
theorem MRep.put {A : Mixed} {X : MState} (r : MRep K ka A X) (i : Nat) {a : AView} {u : View} (h : ViewRep K ka A.σ X.ρ a u) :
    MRep K ka { A with views := A.views.set i a } { X with views := X.views.set i u } := by
  refine ⟨r.rep, by simp [r.number], ?_, r.eol, r.eolOk⟩
  intro j
  rw [view_set, viewAt_set, r.number]
  split
  · exact h
  · exact r.views j

theorem MRep.setEol {A : Mixed} {X : MState} (r : MRep K ka A X) {e : Byte} (h : e = 0 ∨ IsEol e) :
    MRep K ka { A with eol := e } { X with eol := e } := ⟨r.rep, r.number, r.views, rfl, h⟩

/-- The machine executes a view call that returns a view. -/
theorem MRep.keep {A : Mixed} {X : MState} (r : MRep K ka A X) {i : Nat} (hf : A.Fresh i) {c : Cut} {u : View} {res : Res View} (hr : res = .ok u)
    (h : CutIs (viewAt X.views i) (A.text K i) c u) :
    ∃ vs eol, CStr.keep X.views X.eol res = .ok (vs, eol) ∧ MRep K ka (A.keep i c) { X with views := vs, eol := eol } := by
  refine ⟨_, _, by rw [hr]; rfl, ?_⟩
  exact r.push (r.cut hf h)

theorem MRep.keepSplit {A : Mixed} {X : MState} (r : MRep K ka A X) {i : Nat} (hf : A.Fresh i) {c d : Cut} {u w : View} {res : Res (View × Option View)}
    (hr : res = .ok (u, some w)) (h : CutIs (viewAt X.views i) (A.text K i) c u) (h' : CutIs (viewAt X.views i) (A.text K i) d w) :
    ∃ vs eol, CStr.keepSplit X.views X.eol i res = .ok (vs, eol) ∧ MRep K ka (A.keepSplit i c d) { X with views := vs, eol := eol } := by
  refine ⟨_, _, by rw [hr]; rfl, ?_⟩
  exact (r.put i (r.cut hf h')).push (r.cut hf h)

theorem CutIs.none {v : View} {l : List Byte} : CutIs v l none .invalid := .inl ⟨rfl, rfl⟩
theorem CutIs.part {v : View} {l : List Byte} {j n : Nat} (h : j + n ≤ l.length) : CutIs v l (some (j, n)) (v.part j n) := .inr ⟨j, n, rfl, h, rfl⟩

theorem CutIs.whole {m : Mem} {v : View} {l : List Byte} (h : Denotes m v l) : CutIs v l (some (0, l.length)) v := by
  refine .inr ⟨0, l.length, rfl, by omega, ?_⟩
  rw [View.part, ← h.size]; simp

/-! ### Calls of view functions -/

theorem occursAt_le {fold : Byte → Byte} {n l : List Byte} {i : Nat} (h : OccursAt fold n l i) : i + n.length ≤ l.length := by
  obtain ⟨pre, mid, post, rfl, rfl, h⟩ := h
  have := congrArg List.length h
  simp only [List.length_map] at this
  simp only [List.length_append]; omega

theorem SplitsFwd.len {x : Bool} {ds l pre : List Byte} {d : Byte} {post : List Byte} (h : SplitsFwd x ds l pre d post) :
    pre.length ≤ l.length ∧ behindAt pre post + post.length ≤ l.length := by
  have := congrArg List.length h.1
  simp only [List.length_append, List.length_cons] at this
  unfold behindAt
  split
  · next e => rw [e] at *; simp only [List.length_nil] at *; omega
  · omega

theorem SplitsBwd.len {x : Bool} {ds l pre : List Byte} {d : Byte} {post : List Byte} (h : SplitsBwd x ds l pre d post) :
    pre.length ≤ l.length ∧ behindAt pre post + post.length ≤ l.length := by
  have := congrArg List.length h.1
  simp only [List.length_append, List.length_cons] at this
  unfold behindAt
  split
  · next e => rw [e] at *; simp only [List.length_nil] at *; omega
  · omega

theorem part_of_data {m : Mem} {v r : View} {pre post : List Byte} (h2 : ViewOf m r post)
    (h3 : r.data = (if post = [] then v.data + pre.length else v.data + pre.length + 1)) : r = v.part (behindAt pre post) post.length := by
  obtain ⟨d, n⟩ := r
  have := h2.size
  simp only at this h3
  subst this
  simp only [View.part, behindAt, View.mk.injEq, and_true, h3]
  split <;> omega

/-- What `strview_trim` does if nothing remains. -/
theorem trim_to {m : Mem} {v c : View} {l cs : List Byte} (h : Denotes m v l) (hc : Denotes m c cs) :
    ∃ k, TrimTo cs l k ∧ ∃ u, strview_trim_strview m v c = .ok u ∧ CutIs v l k u := by
  obtain ⟨pre, rest, rfl, h1, h2, h3, h4⟩ := C06_trim_start h hc
  obtain ⟨rest', suf, rfl, g1, g2, g3, -⟩ := C06_trim_end h4 hc
  refine ⟨some (pre.length, rest'.length), ⟨pre, rest', suf, by simp, h1, g1, ?_, g2, ?_, rfl⟩,
    (v.part pre.length (rest' ++ suf).length).part 0 rest'.length, ?_, ?_⟩
  · intro x hx
    refine h2 x ?_
    cases rest' with
    | nil => cases hx
    | cons a t => exact hx
  · rintro rfl
    cases suf with
    | nil => rfl
    | cons a t => exact absurd (g1 a (by simp)) (h2 a (by simp))
  · simp only [strview_trim_strview, h3, Res.bind_ok]; exact g3
  · refine .inr ⟨pre.length, rest'.length, rfl, by simp only [List.length_append]; omega, ?_⟩
    simp [View.part]

/-- Different texts do not touch each other (of two constants this is not known). -/
theorem Rep.textsApart {σ : AState} {ρ : Vars} {s : St} (r : Rep K ka σ ρ s) {t t' : Ref} (h : t.There σ) (h' : t'.There σ) (hne : t ≠ t')
    (hc : ∀ k k', t = .const k → t' = .const k' → k = k') :
    t.addr ka ρ + (t.text K σ).length < t'.addr ka ρ ∨ t'.addr ka ρ + (t'.text K σ).length < t.addr ka ρ := by
  cases t with
  | buf k =>
    obtain ⟨b, hb⟩ := h
    have hl := (show BufAt s (ρ k) b from r.obj k _ hb).len
    have hd : σ.data k = b.data := by simp only [AState.data, hb]
    cases t' with
    | buf k' =>
      obtain ⟨b', hb'⟩ := h'
      have hl' := (show BufAt s (ρ k') b' from r.obj k' _ hb').len
      have hd' : σ.data k' = b'.data := by simp only [AState.data, hb']
      have := r.apart k k' _ _ hb hb' (by rintro rfl; exact hne rfl)
      simp only [Apart, Obj.size, storage] at this
      simp only [Ref.addr, Ref.text, hd, hd']; omega
    | const k' =>
      have := r.constApart k' k _ hb
      simp only [Apart, Obj.size, storage] at this
      simp only [Ref.addr, Ref.text, hd]; omega
  | const k =>
    cases t' with
    | buf k' =>
      obtain ⟨b', hb'⟩ := h'
      have hl' := (show BufAt s (ρ k') b' from r.obj k' _ hb').len
      have hd' : σ.data k' = b'.data := by simp only [AState.data, hb']
      have := r.constApart k k' _ hb'
      simp only [Apart, Obj.size, storage] at this
      simp only [Ref.addr, Ref.text, hd']; omega
    | const k' => exact absurd (by rw [hc k k' rfl rfl]) hne

/-- Where a place `x` of a text is relative to a view that is kept. -/
theorem MRep.offset {A : Mixed} {X : MState} (r : MRep K ka A X) {i : Nat} {t t' : Ref} {a n x : Nat} (h1 : A.view i = .part t a n) (h2 : t.There A.σ)
    (h3 : a + n ≤ (t.text K A.σ).length) (h4 : viewAt X.views i = ⟨t.addr ka X.ρ + a, n⟩) (h5 : t'.There A.σ) (h6 : x ≤ (t'.text K A.σ).length)
    (hc : ∀ k k', t = .const k → t' = .const k' → k = k') :
    (∃ o, (A.view i).offset t' x = some o ∧ o ≤ n ∧ t'.addr ka X.ρ + x = (viewAt X.views i).data + o) ∨
    ((A.view i).offset t' x = none ∧
      (t'.addr ka X.ρ + x < (viewAt X.views i).data ∨ (viewAt X.views i).data + (viewAt X.views i).size < t'.addr ka X.ρ + x)) := by
  rw [h1, h4]
  simp only [AView.offset]
  by_cases hin : t = t' ∧ a ≤ x ∧ x ≤ a + n
  · left
    rw [if_pos hin]
    refine ⟨_, rfl, by omega, ?_⟩
    rw [hin.1]; omega
  · right
    rw [if_neg hin]
    refine ⟨rfl, ?_⟩
    by_cases he : t = t'
    · subst he
      have : ¬ (a ≤ x ∧ x ≤ a + n) := fun h => hin ⟨rfl, h⟩
      omega
    · have := r.rep.textsApart h2 h5 he hc
      omega

theorem comparable_const {t t' : Ref} {a n a' n' : Nat} (h : (AView.part t a n).Comparable (.part t' a' n')) :
    ∀ k k', t = .const k → t' = .const k' → k = k' := by
  rintro k k' rfl rfl
  exact h

theorem cut_at {l : List Byte} {o n : Nat} (hl : l.length = n) (ho : o ≤ n) : ∃ a b, l = a ++ b ∧ a.length = o ∧ b.length = n - o :=
  ⟨l.take o, l.drop o, by simp, by simp; omega, by simp; omega⟩

/-- The call completes, and does what it means. -/
def Done (K : Nat → List Byte) (ka : Nat → Addr) (A : Mixed) (X : MState) (c : VCall) : Prop :=
  ∃ A', c.Step K A A' ∧ ∃ vs eol, (c.op ka).run X.s.mem X.views X.eol = .ok (vs, eol) ∧ MRep K ka A' { X with views := vs, eol := eol }

theorem done_find {A : Mixed} {X : MState} (r : MRep K ka A X) {i j : Nat} (hi : A.Fresh i) (hj : A.Fresh j) {f : Mem → View → View → Res View}
    {F : List Byte → List Byte → Cut → Prop}
    (hz : ∀ v : View, 0 ≤ v.size → v.size ≤ INT_MAX → f X.s.mem v .invalid = .ok .invalid ∧ f X.s.mem .invalid v = .ok .invalid)
    (hf : ∀ v w l n, ViewOf X.s.mem v l → ViewOf X.s.mem w n → viewAt X.views i = v → viewAt X.views j = w → A.text K i = l → A.text K j = n →
      ∃ c u, f X.s.mem v w = .ok u ∧ F n l c ∧ CutIs v l c u) (hF : ∀ n, ∃ c, F n [] c) :
    ∃ c, (A.view j = .null ∧ c = none ∨ A.view j ≠ .null ∧ F (A.text K j) (A.text K i) c) ∧
      ∃ vs eol, CStr.keep X.views X.eol (f X.s.mem (viewAt X.views i) (viewAt X.views j)) = .ok (vs, eol) ∧
        MRep K ka (A.keep i c) { X with views := vs, eol := eol } := by
  have di := (r.any hi).2
  have dj := (r.any hj).2
  rcases r.held hj with ⟨j1, j2, j3⟩ | ⟨t', a', n', j1, j2, j3, j4, j5, j6⟩
  · refine ⟨none, .inl ⟨j1, rfl⟩, r.keep hi ?_ .none⟩
    rw [j2]; exact (hz _ (by rw [di.size]; omega) (by rw [di.size]; exact di.max)).1
  · rcases r.held hi with ⟨i1, i2, i3⟩ | ⟨t, a, n, i1, i2, i3, i4, i5, i6⟩
    · obtain ⟨c, hc⟩ := hF (A.text K j)
      refine ⟨c, .inr ⟨by rw [j1]; simp, by rw [i3]; exact hc⟩, ?_⟩
      have e : A.keep i c = A.keep i none := by
        simp only [Mixed.keep, i1, AView.cut]
      rw [e]
      refine r.keep hi ?_ .none
      rw [i2]; exact (hz _ (by rw [dj.size]; omega) (by rw [dj.size]; exact dj.max)).2
    · obtain ⟨c, u, h1, h2, h3⟩ := hf _ _ _ _ i5 j5 rfl rfl rfl rfl
      exact ⟨c, .inr ⟨by rw [j1]; simp, h2⟩, r.keep hi h1 h3⟩

theorem findFirst_nil (fold : Byte → Byte) (n : List Byte) : ∃ c, FindFirstTo fold n [] c := by
  by_cases h : n = []
  · subst h
    exact ⟨some (0, 0), .inl ⟨0, ⟨[], [], [], rfl, rfl, rfl⟩, fun _ _ => Nat.zero_le _, rfl⟩⟩
  · refine ⟨none, .inr ⟨?_, rfl⟩⟩
    intro i hi
    have := occursAt_le hi
    simp only [List.length_nil] at this
    exact h (List.length_eq_zero_iff.1 (by omega))

theorem findLast_nil (fold : Byte → Byte) (n : List Byte) : ∃ c, FindLastTo fold n [] c := by
  by_cases h : n = []
  · subst h
    refine ⟨some (0, 0), .inl ⟨0, ⟨[], [], [], rfl, rfl, rfl⟩, ?_, rfl⟩⟩
    intro j hj
    have := occursAt_le hj
    simp only [List.length_nil] at this; omega
  · refine ⟨none, .inr ⟨?_, rfl⟩⟩
    intro i hi
    have := occursAt_le hi
    simp only [List.length_nil] at this
    exact h (List.length_eq_zero_iff.1 (by omega))

theorem delims_cstr {σ : AState} {ρ : Vars} {s : St} (r : Rep K ka σ ρ s) {d : Option Nat} (h : ∀ k, d = some k → (0 : Byte) ∉ K k) :
    ((d.map ka).getD 0 = 0 ∧ delimsOf K d = []) ∨ CString s.mem ((d.map ka).getD 0) (delimsOf K d) := by
  cases d with
  | none => exact .inl ⟨rfl, rfl⟩
  | some k =>
    obtain ⟨c1, c2, c3⟩ := r.const k
    exact .inr ⟨c1, c2, h k rfl, c3⟩

/-- Calls of view functions. -/
theorem call_ok {A : Mixed} {X : MState} (r : MRep K ka A X) {c : VCall} (hl : c.Legal K A) : Done K ka A X c := by
  obtain ⟨hu, hl⟩ := hl
  cases c with
  | sub i b e =>
    have hi : A.Fresh i := hu i (by simp [VCall.uses])
    refine ⟨_, rfl, ?_⟩
    rcases r.held hi with ⟨i1, i2, i3⟩ | ⟨t, a, n, i1, i2, i3, i4, i5, i6⟩
    · refine r.keep hi (u := .invalid) ?_ ?_
      · rw [i2]; exact C05_sub_empty (m := X.s.mem) ⟨rfl, by decide, Holds.nil _ _⟩ b e
      · rw [i2, i3, subRange, if_pos rfl]
        exact .part (v := .invalid) (Nat.le_refl _)
    · obtain ⟨w, h1, -, h3⟩ := sub_facts i5 hl.1.1 hl.1.2 hl.2.1 hl.2.2
      refine r.keep hi h1 ?_
      rcases h3 with ⟨B, E, g1, g2, g3, -, rfl⟩ | ⟨g1, rfl⟩
      · rw [g1]
        refine .inr ⟨B, E - B, rfl, by omega, ?_⟩
        simp only [View.part, View.mk.injEq, true_and]; omega
      · rw [g1]; exact .none
  | trim i j =>
    have hi : A.Fresh i := hu i (by simp [VCall.uses])
    have hj : A.Fresh j := hu j (by simp [VCall.uses])
    obtain ⟨k, h1, u, h2, h3⟩ := trim_to (r.any hi).2 (r.any hj).2
    exact ⟨_, ⟨k, h1, rfl⟩, r.keep hi h2 h3⟩
  | trimStart i j =>
    have hi : A.Fresh i := hu i (by simp [VCall.uses])
    have hj : A.Fresh j := hu j (by simp [VCall.uses])
    obtain ⟨pre, rest, h1, h2, h3, h4, -⟩ := C06_trim_start (r.any hi).2 (r.any hj).2
    exact ⟨_, ⟨_, ⟨pre, rest, h1, h2, h3, rfl⟩, rfl⟩, r.keep hi h4 (.part (by rw [h1, List.length_append]; omega))⟩
  | trimEnd i j =>
    have hi : A.Fresh i := hu i (by simp [VCall.uses])
    have hj : A.Fresh j := hu j (by simp [VCall.uses])
    obtain ⟨rest, suf, h1, h2, h3, h4, -⟩ := C06_trim_end (r.any hi).2 (r.any hj).2
    exact ⟨_, ⟨_, ⟨rest, suf, h1, h2, h3, rfl⟩, rfl⟩, r.keep hi h4 (.part (by rw [h1, List.length_append]; omega))⟩
  | findFirst i j =>
    have hi : A.Fresh i := hu i (by simp [VCall.uses])
    have hj : A.Fresh j := hu j (by simp [VCall.uses])
    obtain ⟨c, h1, h2⟩ := done_find r hi hj (f := strview_find_first_strview) (F := FindFirstTo id)
      (fun v _ _ => ⟨(C07_find_first_invalid X.s.mem v).1, (C07_find_first_invalid X.s.mem v).2.1⟩)
      (by
        intro v w l n hv hw _ _ _ _
        rcases C07_find_first hv hw with ⟨x, ⟨g1, g2⟩, g3, g4⟩ | ⟨g1, g2⟩
        · exact ⟨_, _, g4, .inl ⟨x, g1, g2, rfl⟩, .part g3⟩
        · exact ⟨_, _, g2, .inr ⟨g1, rfl⟩, .none⟩)
      (findFirst_nil id)
    exact ⟨_, ⟨c, h1, rfl⟩, h2⟩
  | findFirstNocase i j =>
    have hi : A.Fresh i := hu i (by simp [VCall.uses])
    have hj : A.Fresh j := hu j (by simp [VCall.uses])
    obtain ⟨c, h1, h2⟩ := done_find r hi hj (f := strview_find_first_nocase_strview) (F := FindFirstTo toUpper)
      (fun v _ _ => ⟨(C07_find_first_invalid X.s.mem v).2.2.1, (C07_find_first_invalid X.s.mem v).2.2.2⟩)
      (by
        intro v w l n hv hw _ _ _ _
        rcases C07_find_first_nocase hv hw with ⟨x, ⟨g1, g2⟩, g3, g4⟩ | ⟨g1, g2⟩
        · exact ⟨_, _, g4, .inl ⟨x, g1, g2, rfl⟩, .part g3⟩
        · exact ⟨_, _, g2, .inr ⟨g1, rfl⟩, .none⟩)
      (findFirst_nil toUpper)
    exact ⟨_, ⟨c, h1, rfl⟩, h2⟩
  | findLast i j =>
    have hi : A.Fresh i := hu i (by simp [VCall.uses])
    have hj : A.Fresh j := hu j (by simp [VCall.uses])
    obtain ⟨c, h1, h2⟩ := done_find r hi hj (f := strview_find_last_strview) (F := FindLastTo id)
      (fun v g g' => ⟨(C08_find_last_invalid X.s.mem v g g').1, (C08_find_last_invalid X.s.mem v g g').2.1⟩)
      (by
        rintro v w l n hv hw _ _ rfl rfl
        have hp := hv.pos
        simp only at hl
        rcases C08_find_last_partial hv hw (by omega) with ⟨x, ⟨g1, g2⟩, g3, g4⟩ | ⟨g1, g2⟩
        · exact ⟨_, _, g4, .inl ⟨x, g1, g2, rfl⟩, .part g3⟩
        · exact ⟨_, _, g2, .inr ⟨g1, rfl⟩, .none⟩)
      (findLast_nil id)
    exact ⟨_, ⟨c, h1, rfl⟩, h2⟩
  | findLastNocase i j =>
    have hi : A.Fresh i := hu i (by simp [VCall.uses])
    have hj : A.Fresh j := hu j (by simp [VCall.uses])
    obtain ⟨c, h1, h2⟩ := done_find r hi hj (f := strview_find_last_nocase_strview) (F := FindLastTo toUpper)
      (fun v g g' => ⟨(C08_find_last_invalid X.s.mem v g g').2.2.1, (C08_find_last_invalid X.s.mem v g g').2.2.2⟩)
      (by
        rintro v w l n hv hw _ _ rfl rfl
        have hp := hv.pos
        simp only at hl
        rcases C08_find_last_nocase_partial hv hw (by omega) with ⟨x, ⟨g1, g2⟩, g3, g4⟩ | ⟨g1, g2⟩
        · exact ⟨_, _, g4, .inl ⟨x, g1, g2, rfl⟩, .part g3⟩
        · exact ⟨_, _, g2, .inr ⟨g1, rfl⟩, .none⟩)
      (findLast_nil toUpper)
    exact ⟨_, ⟨c, h1, rfl⟩, h2⟩
  | splitFirst i d x =>
    have hi : A.Fresh i := hu i (by simp [VCall.uses])
    have hd := delims_cstr r.rep hl
    rcases r.held hi with ⟨i1, i2, i3⟩ | ⟨t, a, n, i1, i2, i3, i4, i5, i6⟩
    · refine ⟨_, ⟨some (0, 0), none, .inr ⟨?_, by rw [i3]; rfl, rfl⟩, rfl⟩, ?_⟩
      · rintro pre d post ⟨h, -⟩; rw [i3] at h; cases pre <;> cases h
      · refine r.keepSplit hi (u := .invalid) (w := .invalid) ?_ ?_ .none
        · rw [i2]
          rcases hd with h | h
          · rw [h.1]; exact (C10_split_first_null X.s.mem 0 x .invalid).2
          · simp [strview_split_first_delim, split_first_nn, cstr_eq h, split_first_delim, View.invalid]
        · rw [i2, i3]; exact .part (v := .invalid) (Nat.le_refl _)
    · rcases hd with ⟨h0, h0'⟩ | hd
      · refine ⟨_, ⟨whole (A.text K i), none, .inr ⟨?_, rfl, rfl⟩, rfl⟩, ?_⟩
        · rintro pre d post ⟨-, h, -⟩; rw [h0'] at h; cases h
        · refine r.keepSplit hi (u := viewAt X.views i) (w := .invalid) ?_ (.whole i5.toDenotes) .none
          rw [h0]; exact (C10_split_first_null X.s.mem 0 x _).2
      · rcases C11_split_first_delim i5 hd x with ⟨pre, b, post, w, g1, g2, g3, g4, g5, g6⟩ | ⟨g1, g2⟩
        · refine ⟨_, ⟨_, _, .inl ⟨pre, b, post, g1, g2, rfl, rfl⟩, rfl⟩, r.keepSplit hi g3 (.part ?_) ?_⟩
          · have := g1.len.1; omega
          · rw [part_of_data g5 g6]; exact .part g1.len.2
        · exact ⟨_, ⟨_, _, .inr ⟨g1, rfl, rfl⟩, rfl⟩, r.keepSplit hi g2 (.whole i5.toDenotes) .none⟩
  | splitLast i d x =>
    have hi : A.Fresh i := hu i (by simp [VCall.uses])
    have hd := delims_cstr r.rep hl
    rcases r.held hi with ⟨i1, i2, i3⟩ | ⟨t, a, n, i1, i2, i3, i4, i5, i6⟩
    · refine ⟨_, ⟨some (0, 0), none, .inr ⟨?_, by rw [i3]; rfl, rfl⟩, rfl⟩, ?_⟩
      · rintro pre d post ⟨h, -⟩; rw [i3] at h; cases pre <;> cases h
      · refine r.keepSplit hi (u := .invalid) (w := .invalid) ?_ ?_ .none
        · rw [i2]
          rcases hd with h | h
          · rw [h.1]; exact (C12_split_last_null X.s.mem 0 x .invalid).2
          · simp [strview_split_last_delim, cstr_eq h, split_last_delim, View.invalid]
        · rw [i2, i3]; exact .part (v := .invalid) (Nat.le_refl _)
    · rcases hd with ⟨h0, h0'⟩ | hd
      · refine ⟨_, ⟨whole (A.text K i), none, .inr ⟨?_, rfl, rfl⟩, rfl⟩, ?_⟩
        · rintro pre d post ⟨-, h, -⟩; rw [h0'] at h; cases h
        · refine r.keepSplit hi (u := viewAt X.views i) (w := .invalid) ?_ (.whole i5.toDenotes) .none
          rw [h0]; exact (C12_split_last_null X.s.mem 0 x _).2
      · rcases C11_split_last_delim i5 hd x with ⟨pre, b, post, w, g1, g2, g3, g4, g5, g6⟩ | ⟨g1, g2⟩
        · refine ⟨_, ⟨_, _, .inl ⟨pre, b, post, g1, g2, rfl, rfl⟩, rfl⟩, r.keepSplit hi g3 ?_ (.part ?_)⟩
          · rw [part_of_data g5 g6]; exact .part g1.len.2
          · have := g1.len.1; omega
        · exact ⟨_, ⟨_, _, .inr ⟨g1, rfl, rfl⟩, rfl⟩, r.keepSplit hi g2 (.whole i5.toDenotes) .none⟩
  | splitIndex i n =>
    have hi : A.Fresh i := hu i (by simp [VCall.uses])
    rcases r.held hi with ⟨i1, i2, i3⟩ | ⟨t, a, k, i1, i2, i3, i4, i5, i6⟩
    · refine ⟨_, ⟨some (0, 0), some (0, 0), ⟨[], [], i3, ?_⟩, rfl⟩, ?_⟩
      · rw [i3, List.length_nil]
        by_cases hn : 0 ≤ n
        · exact .inl ⟨hn, by show (0 : Int) = _; omega, rfl, rfl⟩
        · exact .inr ⟨by omega, by show (0 : Int) = _; omega, rfl, rfl⟩
      · refine r.keepSplit hi (u := .invalid) (w := .invalid) ?_ ?_ ?_
        · rw [i2]; exact (C14_split_index_invalid n hl.1 hl.2).1
        · rw [i2, i3]; exact .part (v := .invalid) (Nat.le_refl _)
        · rw [i2, i3]; exact .part (v := .invalid) (Nat.le_refl _)
    · obtain ⟨a, b, h1, -, -, h2⟩ := C14_split_index i5 n hl.1 hl.2
      have hlen := congrArg List.length h1
      simp only [List.length_append] at hlen
      rcases h2 with ⟨g1, g2, g3⟩ | ⟨g1, g2, g3⟩
      · exact ⟨_, ⟨_, _, ⟨a, b, h1, .inl ⟨g1, g2, rfl, rfl⟩⟩, rfl⟩, r.keepSplit hi g3 (.part (by omega)) (.part (by omega))⟩
      · exact ⟨_, ⟨_, _, ⟨a, b, h1, .inr ⟨g1, g2, rfl, rfl⟩⟩, rfl⟩, r.keepSplit hi g3 (.part (by omega)) (.part (by omega))⟩
  | splitLeft i j =>
    have hi : A.Fresh i := hu i (by simp [VCall.uses])
    have hj : A.Fresh j := hu j (by simp [VCall.uses])
    have hw : CutIs (viewAt X.views i) (A.text K i) (whole (A.text K i)) (viewAt X.views i) := .whole (r.any hi).2
    have no : (A.view i).startIn (A.view j) = none → strview_split_left (some (viewAt X.views i)) (viewAt X.views j) = .ok (.invalid, some (viewAt X.views i)) →
        Done K ka A X (.splitLeft i j) := by
      intro h1 h2
      exact ⟨_, by simp only [VCall.Step, h1], r.keepSplit hi h2 .none hw⟩
    rcases r.held hi with ⟨i1, i2, i3⟩ | ⟨t, a, n, i1, i2, i3, i4, i5, i6⟩
    · refine no (by rw [i1]; cases A.view j <;> rfl) ?_
      rw [i2]; exact (C15_split_invalid .invalid _).2.2.1
    rcases r.held hj with ⟨j1, j2, j3⟩ | ⟨t', a', n', j1, j2, j3, j4, j5, j6⟩
    · refine no (by rw [j1]; rfl) ?_
      rw [j2]; exact (C15_split_invalid _ .invalid).1
    simp only [i1, j1] at hl
    rcases r.offset i1 i2 i3 i4 j2 (x := a') (by omega) (comparable_const hl) with ⟨o, g1, g2, g3⟩ | ⟨g1, g2⟩
    · have hs : (A.view i).startIn (A.view j) = some o := by rw [j1]; exact g1
      obtain ⟨x, y, e1, e2, e3⟩ := cut_at i6 g2
      rw [e1] at i5
      have := (C15_split_left i5 (pos := viewAt X.views j) (by rw [j4, e2]; exact g3)).1
      refine ⟨A.keepSplit i (some (0, o)) (some (o, (A.text K i).length - o)), by simp only [VCall.Step, hs], r.keepSplit hi this ?_ ?_⟩
      · rw [e2]; exact .part (by omega)
      · rw [e2, e3, i6]; exact .part (by omega)
    · refine no (by rw [j1]; exact g1) ?_
      rw [j4]; exact (C15_split_outside _ _).1 g2
  | splitRight i j =>
    have hi : A.Fresh i := hu i (by simp [VCall.uses])
    have hj : A.Fresh j := hu j (by simp [VCall.uses])
    have hw : CutIs (viewAt X.views i) (A.text K i) (whole (A.text K i)) (viewAt X.views i) := .whole (r.any hi).2
    have no : (A.view i).endIn (A.view j) = none → strview_split_right (some (viewAt X.views i)) (viewAt X.views j) = .ok (.invalid, some (viewAt X.views i)) →
        Done K ka A X (.splitRight i j) := by
      intro h1 h2
      exact ⟨_, by simp only [VCall.Step, h1], r.keepSplit hi h2 .none hw⟩
    rcases r.held hi with ⟨i1, i2, i3⟩ | ⟨t, a, n, i1, i2, i3, i4, i5, i6⟩
    · refine no (by rw [i1]; cases A.view j <;> rfl) ?_
      rw [i2]; exact (C15_split_invalid .invalid _).2.2.2.1
    rcases r.held hj with ⟨j1, j2, j3⟩ | ⟨t', a', n', j1, j2, j3, j4, j5, j6⟩
    · refine no (by rw [j1]; rfl) ?_
      rw [j2]; exact (C15_split_invalid _ .invalid).2.1
    simp only [i1, j1] at hl
    rcases r.offset i1 i2 i3 i4 j2 (x := a' + n') (by omega) (comparable_const hl) with ⟨o, g1, g2, g3⟩ | ⟨g1, g2⟩
    · have hs : (A.view i).endIn (A.view j) = some o := by rw [j1]; exact g1
      obtain ⟨x, y, e1, e2, e3⟩ := cut_at i6 g2
      rw [e1] at i5
      have := (C15_split_right i5 (pos := viewAt X.views j) j5.ne_zero (by rw [j4, e2]; simp only; omega)).1
      refine ⟨A.keepSplit i (some (o, (A.text K i).length - o)) (some (0, o)), by simp only [VCall.Step, hs], r.keepSplit hi this ?_ ?_⟩
      · rw [e2, e3, i6]; exact .part (by omega)
      · rw [e2]; exact .part (by omega)
    · refine no (by rw [j1]; exact g1) ?_
      rw [j4]; exact (C15_split_outside _ _).2 (by simp only; omega)
  | pop i =>
    have hi : A.Fresh i := hu i (by simp [VCall.uses])
    refine ⟨_, rfl, ?_⟩
    rcases r.held hi with ⟨i1, i2, i3⟩ | ⟨t, a, n, i1, i2, i3, i4, i5, i6⟩
    · have := (C16_pop_empty (m := X.s.mem) (v := .invalid) ⟨rfl, by decide, Holds.nil _ _⟩).1
      refine ⟨X.views.set i .invalid, X.eol, by simp only [VCall.op, VOp.run, i2, this, Res.bind_ok], ?_⟩
      rw [if_pos i3]
      refine r.put i (r.cut hi ?_)
      rw [i2, i3]; exact .part (v := .invalid) (Nat.le_refl _)
    · cases hl : A.text K i with
      | nil =>
        rw [hl] at i5
        have := (C16_pop_empty i5.toDenotes).1
        refine ⟨X.views.set i (viewAt X.views i), X.eol, by simp only [VCall.op, VOp.run, this, Res.bind_ok], ?_⟩
        rw [if_pos rfl]
        refine r.put i (r.cut hi ?_)
        rw [hl]; exact .whole i5.toDenotes
      | cons q l =>
        rw [hl] at i5
        have := (C16_pop_cons i5).1
        refine ⟨X.views.set i ((viewAt X.views i).part 1 l.length), X.eol, by simp only [VCall.op, VOp.run, this, Res.bind_ok], ?_⟩
        rw [if_neg (by simp)]
        refine r.put i (r.cut hi ?_)
        rw [hl]; exact .part (by simp; omega)
  | splitLine i =>
    have hi : A.Fresh i := hu i (by simp [VCall.uses])
    rcases r.held hi with ⟨i1, i2, i3⟩ | ⟨t, a, n, i1, i2, i3, i4, i5, i6⟩
    · refine ⟨_, ⟨none, some (0, 0), A.eol, .inr ⟨?_, rfl, ?_, rfl⟩, rfl⟩, X.views.set i .invalid ++ [.invalid], A.eol, ?_, ?_⟩
      · rw [i3]; intro x hx; cases hx
      · rw [i3]; rfl
      · simp only [VCall.op, VOp.run, i2, r.eol]
        simp [strview_split_line, View.invalid]
      · refine MRep.setEol ((r.put i (r.cut hi ?_)).push (r.cut hi .none)) r.eolOk
        rw [i2, i3]; exact .part (v := .invalid) (Nat.le_refl _)
    · rcases split_line_eol i5 A.eol r.eolOk with ⟨line, term, rest, u, w, h1, h2, h3, rfl, rfl, h⟩ | ⟨h1, w, h2, rfl, h⟩
      · have g1 := h1.restAt_le
        have g2 := skipPending_length A.eol (A.text K i)
        have g3 := congrArg List.length h1.text
        simp only [List.length_append] at g3
        refine ⟨_, ⟨_, _, _, .inl ⟨line, term, rest, h1, rfl, rfl, rfl⟩, rfl⟩,
          X.views.set i ((viewAt X.views i).part ((A.text K i).length - (skipPending A.eol (A.text K i)).length + restAt line term rest) rest.length) ++
            [(viewAt X.views i).part ((A.text K i).length - (skipPending A.eol (A.text K i)).length) line.length], pendingAfter term, ?_, ?_⟩
        · simp only [VCall.op, VOp.run, r.eol, h, Res.bind_ok]
        · exact MRep.setEol ((r.put i (r.cut hi (.part (by omega)))).push (r.cut hi (.part (by omega)))) (pendingAfter_ok h1).1
      · have g2 := skipPending_length A.eol (A.text K i)
        refine ⟨_, ⟨_, _, _, .inr ⟨h1, rfl, rfl, rfl⟩, rfl⟩,
          X.views.set i ((viewAt X.views i).part ((A.text K i).length - (skipPending A.eol (A.text K i)).length) (skipPending A.eol (A.text K i)).length) ++ [.invalid], A.eol, ?_, ?_⟩
        · simp only [VCall.op, VOp.run, r.eol, h, Res.bind_ok]
        · exact MRep.setEol ((r.put i (r.cut hi (.part (by omega)))).push (r.cut hi .none)) r.eolOk
  | splitLineNull i =>
    have hi : A.Fresh i := hu i (by simp [VCall.uses])
    have hsk : ∀ l : List Byte, skipPending 0 l = l := by intro l; cases l <;> simp [skipPending]
    rcases r.held hi with ⟨i1, i2, i3⟩ | ⟨t, a, n, i1, i2, i3, i4, i5, i6⟩
    · refine ⟨_, ⟨none, some (0, 0), 0, .inr ⟨?_, rfl, ?_, rfl⟩, rfl⟩, X.views.set i .invalid ++ [.invalid], X.eol, ?_, ?_⟩
      · rw [i3]; intro x hx; cases hx
      · rw [i3]; rfl
      · simp only [VCall.op, VOp.run, i2]
        simp [strview_split_line, View.invalid]
      · refine (r.put i (r.cut hi ?_)).push (r.cut hi .none)
        rw [i2, i3]; exact .part (v := .invalid) (Nat.le_refl _)
    · rcases C17_split_line i5 with ⟨line, term, rest, h1, h2, h3, h⟩ | ⟨h1, h⟩
      · have g1 := h1.restAt_le
        have g3 := congrArg List.length h1.text
        simp only [List.length_append] at g3
        refine ⟨_, ⟨some (0, line.length), some (restAt line term rest, rest.length), _, .inl ⟨line, term, rest, ?_, ?_, ?_, rfl⟩, rfl⟩,
          X.views.set i ((viewAt X.views i).part (restAt line term rest) rest.length) ++ [(viewAt X.views i).part 0 line.length], X.eol, ?_, ?_⟩
        · rw [hsk]; exact h1
        · rw [hsk]; simp
        · rw [hsk]; simp
        · simp only [VCall.op, VOp.run, h, Res.bind_ok]
        · exact (r.put i (r.cut hi (.part (by omega)))).push (r.cut hi (.part (by omega)))
      · refine ⟨_, ⟨none, whole (A.text K i), _, .inr ⟨?_, rfl, ?_, rfl⟩, rfl⟩, X.views.set i (viewAt X.views i) ++ [.invalid], X.eol, ?_, ?_⟩
        · rw [hsk]; exact h1
        · rw [hsk]; simp [whole]
        · simp only [VCall.op, VOp.run, h, Res.bind_ok]
        · exact (r.put i (r.cut hi (.whole i5.toDenotes))).push (r.cut hi .none)
  | dequote i =>
    have hi : A.Fresh i := hu i (by simp [VCall.uses])
    rcases r.held hi with ⟨i1, i2, i3⟩ | ⟨t, a, n, i1, i2, i3, i4, i5, i6⟩
    · refine ⟨_, ⟨some (0, 0), .inl ⟨i3, rfl⟩, rfl⟩, r.keep hi (u := .invalid) ?_ ?_⟩
      · rw [i2]; exact C19_dequote_empty (m := X.s.mem) ⟨rfl, by decide, Holds.nil _ _⟩
      · rw [i2, i3]; exact .part (v := .invalid) (Nat.le_refl _)
    · cases hl : A.text K i with
      | nil =>
        rw [hl] at i5
        refine ⟨_, ⟨some (0, 0), .inl ⟨hl, rfl⟩, rfl⟩, r.keep hi (C19_dequote_empty i5.toDenotes) ?_⟩
        rw [hl]; exact .whole i5.toDenotes
      | cons q l =>
        rw [hl] at i5
        obtain ⟨n, mid, h1, h2, -, h3⟩ := C19_dequote_layers i5
        refine ⟨_, ⟨_, .inr ⟨q, l, n, mid, hl, by rw [hl]; exact h1, h3, rfl⟩, rfl⟩, r.keep hi h2 (.part ?_)⟩
        rw [hl]; exact h1.bound

/-! ### Buffer commands -/

theorem AState.set_other {σ : AState} {h k : Nat} {o : Option Obj} (hne : k ≠ h) : σ.set h o k = σ k := if_neg hne
theorem Vars.set_other {ρ : Vars} {h k : Nat} {p : Addr} (hne : k ≠ h) : ρ.set h p k = ρ k := if_neg hne
theorem Vars.setPtr_other {ρ : Vars} {h k : Nat} {p : Option Addr} (hne : k ≠ h) : ρ.setPtr h p k = ρ k := by
  cases p with
  | none => rfl
  | some p => exact Vars.set_other hne

/-- What a command does not change stays. -/
theorem Cmd.step_frame {σ : AState} {c : Cmd} {k : Nat} (hk : k ∉ c.changes) : c.step cfg dflt K σ k = σ k := by
  cases c with
  | createEmpty h n o => exact AState.set_other (by simpa [Cmd.changes] using hk)
  | createInit h x o => exact AState.set_other (by simpa [Cmd.changes] using hk)
  | createFixed h j n =>
    simp only [Cmd.changes, List.mem_cons, List.not_mem_nil, or_false, not_or] at hk
    simp only [Cmd.step]
    rw [AState.set_other hk.1, AState.set_other hk.2]
  | destroy h => exact AState.set_other (by simpa [Cmd.changes] using hk)
  | toCstr h j =>
    simp only [Cmd.changes, List.mem_cons, List.not_mem_nil, or_false, not_or] at hk
    simp only [Cmd.step]
    rcases hh : σ h with - | (b | ⟨d, al⟩ | n)
    · rfl
    · simp only []
      rw [AState.set_other hk.2, AState.set_other hk.1]
    · rfl
    · rfl
  | freeStr j al => exact AState.set_other (by simpa [Cmd.changes] using hk)
  | op h o =>
    simp only [Cmd.step]
    rcases hh : σ h with - | (b | ⟨d, al⟩ | n)
    · rfl
    · exact AState.set_other (by simpa [Cmd.changes] using hk)
    · rfl
    · rfl

theorem Res.ok_of_bind {α β : Type} {x : Res α} {f : α → Res β} {y : β} (h : x.bind f = .ok y) : ∃ a, x = .ok a ∧ f a = .ok y := by
  cases x with
  | ok a => exact ⟨a, rfl, h⟩
  | ub w => cases h
  | fuel => cases h
  | env w => cases h

theorem Cmd.exec_frame {ρ ρ' : Vars} {s s' : St} {c : Cmd} {k : Nat} (hk : k ∉ c.changes) (h : c.exec cfg dflt K ka ρ s = .ok (ρ', s')) : ρ' k = ρ k := by
  cases c with
  | createEmpty h n o =>
    obtain ⟨⟨p, s1⟩, -, h⟩ := Res.ok_of_bind h
    cases h
    exact Vars.set_other (by simpa [Cmd.changes] using hk)
  | createInit h x o =>
    obtain ⟨v, -, h⟩ := Res.ok_of_bind h
    obtain ⟨⟨p, s1⟩, -, h⟩ := Res.ok_of_bind h
    cases h
    exact Vars.set_other (by simpa [Cmd.changes] using hk)
  | createFixed h j n =>
    obtain ⟨⟨p, s1⟩, -, h⟩ := Res.ok_of_bind h
    cases h
    simp only [Cmd.changes, List.mem_cons, List.not_mem_nil, or_false, not_or] at hk
    rw [Vars.set_other hk.1, Vars.set_other hk.2]
  | destroy h =>
    obtain ⟨⟨p, s1⟩, -, h⟩ := Res.ok_of_bind h
    cases h
    exact Vars.setPtr_other (by simpa [Cmd.changes] using hk)
  | toCstr h j =>
    obtain ⟨⟨q, p, s1⟩, -, h⟩ := Res.ok_of_bind h
    cases h
    simp only [Cmd.changes, List.mem_cons, List.not_mem_nil, or_false, not_or] at hk
    rw [Vars.set_other hk.2, Vars.setPtr_other hk.1]
  | freeStr j al =>
    obtain ⟨⟨q, s1⟩, -, h⟩ := Res.ok_of_bind h
    cases h
    exact Vars.set_other (by simpa [Cmd.changes] using hk)
  | op h o =>
    obtain ⟨call, -, h⟩ := Res.ok_of_bind h
    obtain ⟨⟨q, p, s1⟩, -, h⟩ := Res.ok_of_bind h
    cases h
    exact Vars.setPtr_other (by simpa [Cmd.changes] using hk)

/-- An operation that leaves the buffer where it is does not change the variable. -/
theorem exec_inPlace (hcfg : cfg.Ok) {σ : AState} {ρ ρ' : Vars} {s s' : St} (r : Rep K ka σ ρ s) {h : Nat} {o : HOp} (hl : (Cmd.op h o).Legal cfg dflt K σ)
    {b : Buf} (hh : σ h = some (.buf b)) (hin : (o.edit K σ h b).InPlace cfg b) (hx : (Cmd.op h o).exec cfg dflt K ka ρ s = .ok (ρ', s')) : ρ' h = ρ h := by
  obtain ⟨h1, h2, h3⟩ := hl
  obtain ⟨call, e1, e2, e3⟩ := HOp.facts r h2
  have hb : BufAt s (ρ h) b := r.obj h _ hh
  rcases run_does_at hcfg r.sane hb (e3 b hh) (h3 b hh) with ⟨_, hn, _⟩ | ⟨p', s1, e, hal, hch, hp⟩
  · rename_i he
    simp only [Cmd.exec, e1, he, Res.bind_ok, Res.bind_env] at hx
    cases hx
  · simp only [Cmd.exec, e1, e, Res.bind_ok] at hx
    cases hx
    simp only [Vars.setPtr, Vars.set, if_pos]
    exact hp.1 hin

/-- A view that is not stale stays what it is. -/
theorem ViewRep.after (hcfg : cfg.Ok) {σ : AState} {ρ ρ' : Vars} {s s' : St} (r : Rep K ka σ ρ s) {c : Cmd} (hl : c.Legal cfg dflt K σ)
    (hx : c.exec cfg dflt K ka ρ s = .ok (ρ', s')) {a : AView} {v : View}
    (h : ViewRep K ka σ ρ a v) : ViewRep K ka (c.step cfg dflt K σ) ρ' (a.after cfg K σ c) v := by
  cases a with
  | null => exact h
  | stale => exact h
  | part t i n =>
    cases t with
    | const k => exact h
    | buf k =>
      simp only [AView.after]
      obtain ⟨g1, g2, g3⟩ := h
      split
      · next hk =>
        by_cases hc : k ∈ c.changes
        · have hn : decide (k ∉ c.changes) = false := decide_eq_false (fun h => h hc)
          simp only [Cmd.leaves, hn, Bool.false_or] at hk
          cases c with
          | op j o =>
            have hj : k = j := by simpa [Cmd.changes] using hc
            subst hj
            obtain ⟨b, hb⟩ := g1
            simp only [hb] at hk
            have hk := of_decide_eq_true hk
            have e : (Cmd.op k o).step cfg dflt K σ k = some (.buf ((o.edit K σ k b).apply cfg b)) := by
              simp only [Cmd.step, hb]; exact AState.set_same _ _ _
            refine ⟨⟨_, e⟩, ?_, ?_⟩
            · simp only [Ref.text, AState.data, e]; exact hk.2
            · rw [g3]; simp only [Ref.addr, exec_inPlace hcfg r hl hb hk.1 hx]
          | _ => cases hk
        · have h1 := Cmd.step_frame (cfg := cfg) (dflt := dflt) (K := K) (σ := σ) hc
          have h2 := Cmd.exec_frame hc hx
          have hd : (c.step cfg dflt K σ).data k = σ.data k := by simp only [AState.data, h1]
          refine ⟨?_, ?_, ?_⟩
          · simpa only [Ref.There, h1] using g1
          · simpa only [Ref.text, hd] using g2
          · simpa only [Ref.addr, h2] using g3
      · trivial

theorem run_view (A : Mixed) (c : Cmd) (i : Nat) : (A.run cfg dflt K c).view i = (A.view i).after cfg K A.σ c := by
  simp only [Mixed.view, Mixed.run, List.getD_eq_getElem?_getD, List.getElem?_map]
  cases A.views[i]? <;> rfl

/-- Buffer commands. -/
theorem cmd_ok (hcfg : cfg.Ok) {A : Mixed} {X : MState} (r : MRep K ka A X) {c : Cmd} (hl : c.Legal cfg dflt K A.σ) :
    c.exec cfg dflt K ka X.ρ X.s = .env .alloc ∨
      ∃ ρ s, c.exec cfg dflt K ka X.ρ X.s = .ok (ρ, s) ∧ MRep K ka (A.run cfg dflt K c) { X with ρ := ρ, s := s } := by
  have h := run_ok hcfg [c] r.rep (dflt := dflt) ⟨hl, trivial⟩
  simp only [runExec] at h
  cases hx : c.exec cfg dflt K ka X.ρ X.s with
  | ok p =>
    obtain ⟨ρ, s⟩ := p
    rw [hx] at h
    rcases h with h | ⟨ρ', s', h, h'⟩
    · cases h
    · cases h
      refine .inr ⟨ρ, s, rfl, h', by simp only [Mixed.run, List.length_map]; exact r.number, ?_, r.eol, r.eolOk⟩
      intro i
      rw [run_view]
      exact (r.views i).after hcfg r.rep hl hx
  | ub w => rw [hx] at h; rcases h with h | ⟨_, _, h, _⟩ <;> cases h
  | fuel => rw [hx] at h; rcases h with h | ⟨_, _, h, _⟩ <;> cases h
  | env w => rw [hx] at h; rcases h with h | ⟨_, _, h, _⟩ <;> cases h; exact .inl rfl

/-- A view that was kept, as an argument. -/
theorem MRep.src {A : Mixed} {X : MState} (r : MRep K ka A X) {i : Nat} (hf : A.Fresh i) :
    (A.view i).src.eval K ka X.ρ X.s = .ok (viewAt X.views i) := by
  rcases r.held hf with ⟨i1, i2, i3⟩ | ⟨t, a, n, i1, i2, i3, i4, i5, i6⟩
  · rw [i1, i2]; rfl
  · rw [i1, i4]; rfl

theorem MRep.srcs {A : Mixed} {X : MState} (r : MRep K ka A X) {is : List Nat} (hf : ∀ i ∈ is, A.Fresh i) :
    evalSrcs K ka X.ρ X.s (is.map fun i => (A.view i).src) = .ok (is.map (viewAt X.views)) := by
  induction is with
  | nil => rfl
  | cons i is ih =>
    simp only [List.map_cons, evalSrcs, r.src (hf i (by simp)), ih (fun j hj => hf j (by simp [hj])), Res.bind_ok]

theorem MRep.pieces {A : Mixed} {X : MState} (r : MRep K ka A X) {ps : List (List Byte ⊕ Nat)} (hf : ∀ i ∈ ps.filterMap (fun p => p.getRight?), A.Fresh i) :
    evalPieces K ka X.ρ X.s (ps.map A.piece) = .ok (ps.map (Sum.map id (viewAt X.views))) := by
  induction ps with
  | nil => rfl
  | cons p ps ih =>
    have ih := ih (fun j hj => hf j (by
      rw [List.filterMap_cons]; split
      · exact hj
      · exact List.mem_cons_of_mem _ hj))
    cases p with
    | inl l => simp only [List.map_cons, Mixed.piece, evalPieces, ih, Res.bind_ok]; rfl
    | inr i => simp only [List.map_cons, Mixed.piece, evalPieces, r.src (hf i (by simp)), ih, Res.bind_ok]; rfl

/-- Evaluating the arguments of an operation on the spot gives the views that were kept. -/
theorem MRep.evalOp {A : Mixed} {X : MState} (r : MRep K ka A X) {o : WOp} (hf : ∀ i ∈ o.uses, A.Fresh i) :
    (o.hop A).eval K ka X.ρ X.s = .ok (o.call X.views) := by
  cases o with
  | append i | prepend i | insertAtIndex x i | assign i | strip i =>
    simp only [WOp.hop, WOp.call, HOp.eval, r.src (hf i (by simp [WOp.uses])), Res.bind_ok]
  | insertBefore d i | insertAfter d i =>
    simp only [WOp.hop, WOp.call, HOp.eval, r.src (hf i (by simp [WOp.uses])), r.src (hf d (by simp [WOp.uses])), Res.bind_ok]
  | cat is =>
    have := r.srcs (is := is) hf
    simp only [WOp.hop, WOp.call, HOp.eval, this, Res.bind_ok]
  | printf ps | appendPrintf ps => simp only [WOp.hop, WOp.call, HOp.eval, r.pieces hf, Res.bind_ok]

/-- One command. -/
theorem mcmd_ok (hcfg : cfg.Ok) {A : Mixed} {X : MState} (r : MRep K ka A X) {c : MCmd} (hl : c.Legal cfg dflt K A) :
    c.exec cfg dflt K ka X = .env .alloc ∨
      ∃ A' X', c.Step cfg dflt K A A' ∧ c.exec cfg dflt K ka X = .ok X' ∧ MRep K ka A' X' := by
  have fin : ∀ {d : Cmd}, d.Legal cfg dflt K A.σ → c.Step cfg dflt K A (A.run cfg dflt K d) →
      (c.exec cfg dflt K ka X = (d.exec cfg dflt K ka X.ρ X.s).bind fun p => .ok { X with ρ := p.1, s := p.2 }) →
      c.exec cfg dflt K ka X = .env .alloc ∨
        ∃ A' X', c.Step cfg dflt K A A' ∧ c.exec cfg dflt K ka X = .ok X' ∧ MRep K ka A' X' := by
    intro d h1 h2 h3
    rcases cmd_ok hcfg r h1 with h | ⟨ρ, s, h, h'⟩
    · rw [h3, h]; exact .inl rfl
    · exact .inr ⟨_, _, h2, by rw [h3, h]; rfl, h'⟩
  cases c with
  | cmd c => exact fin hl rfl rfl
  | op h o =>
    refine fin hl.2 rfl ?_
    simp only [MCmd.exec, Cmd.exec, r.evalOp hl.1, Res.bind_ok]
    cases (o.call X.views).run cfg X.s (some (X.ρ h)) <;> rfl
  | create h i o =>
    refine fin hl.2 rfl ?_
    simp only [MCmd.exec, Cmd.exec, r.src hl.1, Res.bind_ok]
    cases strbuf_create_init cfg dflt X.s (viewAt X.views i) o <;> rfl
  | view h =>
    right
    cases hk : A.σ h with
    | none =>
      refine ⟨_, { X with views := X.views ++ [.invalid] }, rfl, ?_, ?_⟩
      · simp only [MCmd.exec, r.rep.null h hk]; rfl
      · simp only [AState.whole, hk]
        exact r.push rfl
    | some o =>
      obtain ⟨c, rfl⟩ := hl o hk
      have hc : BufAt X.s (X.ρ h) c := r.rep.obj h _ hk
      have hd : A.σ.data h = c.data := by simp only [AState.data, hk]
      refine ⟨_, { X with views := X.views ++ [⟨X.ρ h + 24, c.data.length⟩] }, rfl, ?_, ?_⟩
      · simp only [MCmd.exec, strbuf_view, deref_some hc.pos, hc.view, Res.bind_ok]
      · simp only [AState.whole, hk]
        refine r.push ⟨⟨c, hk⟩, by simp only [Ref.text, hd]; omega, ?_⟩
        simp [Ref.addr]
  | const k =>
    right
    refine ⟨_, _, rfl, rfl, r.push ⟨trivial, by simp only [Ref.text]; omega, ?_⟩⟩
    simp [Ref.addr]
  | call c =>
    right
    obtain ⟨A', h1, vs, eol, h2, h3⟩ := call_ok r hl
    exact ⟨A', _, h1, by simp only [MCmd.exec, h2, Res.bind_ok], h3⟩

end CStr
