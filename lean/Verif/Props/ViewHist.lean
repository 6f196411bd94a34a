import Verif.Spec.ViewHist
import Verif.Props.Misc
import Verif.Props.Uri
/-
  C21: what the view functions return lies in the view they are given. C79: any sequence of calls of view functions.
-/
namespace CStr

/-- The call completes, and the view it returns is invalid or a part of `a`. -/
def Gives (a : View) (r : Res View) : Prop := ∃ u, r = .ok u ∧ u.Inside a

/-- The call completes, and the view it returns and the source as it leaves it are invalid or parts of `a`. -/
def GivesSplit (a : View) (r : Res (View × Option View)) : Prop := ∃ u s, r = .ok (u, some s) ∧ u.Inside a ∧ s.Inside a

theorem ViewOf.inside {m : Mem} {u a : View} {l : List Byte} (h : ViewOf m u l) (h1 : a.data ≤ u.data) (h2 : u.data + u.size ≤ a.data + a.size) :
    u.Inside a := .inr ⟨h.pos, by rw [h.size]; omega, h1, h2⟩

theorem Denotes.part_inside {m : Mem} {a : View} (ha : AnyView m a) {l : List Byte} (h : Denotes m a l) {i n : Nat} (hin : i + n ≤ l.length) :
    (a.part i n).Inside a := by
  have hs := h.size
  rcases ha with rfl | ⟨l', ha⟩
  · simp only [View.invalid] at hs
    have : i = 0 ∧ n = 0 := by omega
    rw [this.1, this.2]; exact .inl rfl
  · have := ha.pos
    exact .inr ⟨by simp only [View.part]; omega, by simp only [View.part]; omega, by simp only [View.part]; omega, by simp only [View.part]; omega⟩

theorem AnyView.inside {m : Mem} {a : View} (ha : AnyView m a) : a.Inside a := by
  rcases ha with rfl | ⟨l, ha⟩
  · exact .inl rfl
  · exact ha.inside (by omega) (by omega)

theorem Layers.bound {q : Byte} {mid l : List Byte} {n : Nat} (h : Layers q mid n l) : n + mid.length ≤ l.length := by
  induction h with
  | _ => simp_all <;> omega

/-- C21. The functions that return a part of a view, given any views. -/
theorem C21_results_inside {m : Mem} {a b : View} (ha : AnyView m a) (hb : AnyView m b) :
    Gives a (strview_trim_strview m a b) ∧ Gives a (strview_trim_start_strview m a b) ∧ Gives a (strview_trim_end_strview m a b) ∧
    Gives a (strview_find_first_strview m a b) ∧ Gives a (strview_find_first_nocase_strview m a b) ∧ Gives a (strview_dequote m a) ∧
    GivesSplit a (strview_split_left (some a) b) ∧ GivesSplit a (strview_split_right (some a) b) ∧
    (∃ c s, strview_pop_first_char m (some a) = .ok (c, some s) ∧ s.Inside a) := by
  obtain ⟨la, da⟩ := ha.denotes
  obtain ⟨lb, db⟩ := hb.denotes
  refine ⟨?_, ?_, ?_, ?_, ?_, ?_, ?_, ?_, ?_⟩
  · obtain ⟨x, y, z, e, -, -, -, -, h, -⟩ := C06_trim da db
    have := congrArg List.length e
    simp only [List.length_append] at this
    exact ⟨_, h, da.part_inside ha (by omega)⟩
  · obtain ⟨x, y, e, -, -, h, -⟩ := C06_trim_start da db
    have := congrArg List.length e
    simp only [List.length_append] at this
    exact ⟨_, h, da.part_inside ha (by omega)⟩
  · obtain ⟨x, y, e, -, -, h, -⟩ := C06_trim_end da db
    have := congrArg List.length e
    simp only [List.length_append] at this
    exact ⟨_, h, da.part_inside ha (by omega)⟩
  · rcases ha with rfl | ⟨l, ha⟩
    · exact ⟨_, (C07_find_first_invalid m b).2.1, .inl rfl⟩
    rcases hb with rfl | ⟨l', hb⟩
    · exact ⟨_, (C07_find_first_invalid m a).1, .inl rfl⟩
    rcases C07_find_first ha hb with ⟨i, -, h1, h⟩ | ⟨-, h⟩
    · exact ⟨_, h, ha.toDenotes.part_inside (.inr ⟨l, ha⟩) h1⟩
    · exact ⟨_, h, .inl rfl⟩
  · rcases ha with rfl | ⟨l, ha⟩
    · exact ⟨_, (C07_find_first_invalid m b).2.2.2, .inl rfl⟩
    rcases hb with rfl | ⟨l', hb⟩
    · exact ⟨_, (C07_find_first_invalid m a).2.2.1, .inl rfl⟩
    rcases C07_find_first_nocase ha hb with ⟨i, -, h1, h⟩ | ⟨-, h⟩
    · exact ⟨_, h, ha.toDenotes.part_inside (.inr ⟨l, ha⟩) h1⟩
    · exact ⟨_, h, .inl rfl⟩
  · rcases ha with rfl | ⟨l, ha⟩
    · exact ⟨_, C19_dequote_empty (Denotes.invalid m), .inl rfl⟩
    cases l with
    | nil => exact ⟨_, C19_dequote_empty ha.toDenotes, AnyView.inside (.inr ⟨_, ha⟩)⟩
    | cons q l =>
      obtain ⟨n, mid, hl, h, -⟩ := C19_dequote_layers ha
      exact ⟨_, h, ha.toDenotes.part_inside (.inr ⟨_, ha⟩) hl.bound⟩
  · rcases ha with rfl | ⟨l, ha⟩
    · exact ⟨_, _, (C15_split_invalid b b).2.2.1, .inl rfl, .inl rfl⟩
    have hi := AnyView.inside (m := m) (.inr ⟨_, ha⟩)
    rcases hb with rfl | ⟨l', hb⟩
    · exact ⟨_, _, (C15_split_invalid a a).1, .inl rfl, hi⟩
    by_cases hin : a.data ≤ b.data ∧ b.data ≤ a.data + a.size
    · obtain ⟨x, y, rfl, e⟩ := C15_located ha b.data hin.1 hin.2
      exact ⟨_, _, (C15_split_left ha e).1, ha.toDenotes.part_inside (.inr ⟨_, ha⟩) (by simp), ha.toDenotes.part_inside (.inr ⟨_, ha⟩) (by simp)⟩
    · exact ⟨_, _, (C15_split_outside a b).1 (by omega), .inl rfl, hi⟩
  · rcases ha with rfl | ⟨l, ha⟩
    · exact ⟨_, _, (C15_split_invalid b b).2.2.2.1, .inl rfl, .inl rfl⟩
    have hi := AnyView.inside (m := m) (.inr ⟨_, ha⟩)
    rcases hb with rfl | ⟨l', hb⟩
    · exact ⟨_, _, (C15_split_invalid a a).2.1, .inl rfl, hi⟩
    by_cases hin : a.data ≤ b.data + b.size ∧ b.data + b.size ≤ a.data + a.size
    · obtain ⟨x, y, rfl, e⟩ := C15_located ha (b.data + b.size) hin.1 hin.2
      exact ⟨_, _, (C15_split_right ha hb.ne_zero e).1, ha.toDenotes.part_inside (.inr ⟨_, ha⟩) (by simp), ha.toDenotes.part_inside (.inr ⟨_, ha⟩) (by simp)⟩
    · exact ⟨_, _, (C15_split_outside a b).2 (by omega), .inl rfl, hi⟩
  · rcases ha with rfl | ⟨l, ha⟩
    · exact ⟨_, _, (C16_pop_empty (Denotes.invalid m)).1, .inl rfl⟩
    cases l with
    | nil => exact ⟨_, _, (C16_pop_empty ha.toDenotes).1, AnyView.inside (.inr ⟨_, ha⟩)⟩
    | cons q l => exact ⟨_, _, (C16_pop_cons ha).1, ha.toDenotes.part_inside (.inr ⟨_, ha⟩) (by simp; omega)⟩

/-- C21. The same for `strview_find_last`, if the haystack does not end in the first `needle.size` bytes of the address space. -/
theorem C21_find_last_inside_partial {m : Mem} {a b : View} (ha : AnyView m a) (hb : AnyView m b) (hlow : a = .invalid ∨ b.size ≤ a.data + a.size) :
    Gives a (strview_find_last_strview m a b) ∧ Gives a (strview_find_last_nocase_strview m a b) := by
  rcases hb with rfl | ⟨l', hb⟩
  · obtain ⟨l, da⟩ := ha.denotes
    have := C08_find_last_invalid m a (by rw [da.size]; omega) (by rw [da.size]; exact da.max)
    exact ⟨⟨_, this.1, .inl rfl⟩, ⟨_, this.2.2.1, .inl rfl⟩⟩
  rcases ha with rfl | ⟨l, ha⟩
  · have := C08_find_last_invalid m b (by rw [hb.size]; omega) (by rw [hb.size]; exact hb.max)
    exact ⟨⟨_, this.2.1, .inl rfl⟩, ⟨_, this.2.2.2, .inl rfl⟩⟩
  have hlow : b.size ≤ a.data + a.size := by
    rcases hlow with rfl | h
    · exact absurd ha.pos (by simp [View.invalid])
    · exact h
  rw [ha.size, hb.size] at hlow
  constructor
  · rcases C08_find_last_partial ha hb hlow with ⟨i, -, h1, h⟩ | ⟨-, h⟩
    · exact ⟨_, h, ha.toDenotes.part_inside (.inr ⟨_, ha⟩) h1⟩
    · exact ⟨_, h, .inl rfl⟩
  · rcases C08_find_last_nocase_partial ha hb hlow with ⟨i, -, h1, h⟩ | ⟨-, h⟩
    · exact ⟨_, h, ha.toDenotes.part_inside (.inr ⟨_, ha⟩) h1⟩
    · exact ⟨_, h, .inl rfl⟩

/-- C21. The same for the functions that take an index. -/
theorem C21_index_results_inside {m : Mem} {a : View} (ha : AnyView m a) (i j : Int) (hi : INT_MIN ≤ i ∧ i ≤ INT_MAX) (hj : INT_MIN ≤ j ∧ j ≤ INT_MAX) :
    Gives a (strview_sub a i j) ∧ GivesSplit a (strview_split_index (some a) i) := by
  rcases ha with rfl | ⟨l, ha⟩
  · exact ⟨⟨_, C05_sub_empty (Denotes.invalid m) i j, .inl rfl⟩, ⟨_, _, (C14_split_index_invalid i hi.1 hi.2).1, .inl rfl, .inl rfl⟩⟩
  · have hin := AnyView.inside (m := m) (.inr ⟨_, ha⟩)
    constructor
    · by_cases hl : l = []
      · subst hl; exact ⟨_, C05_sub_empty ha.toDenotes i j, hin⟩
      · by_cases hr : fromEnd l.length i ≤ fromEnd l.length j ∧ fromEnd l.length i < l.length ∧ 0 ≤ fromEnd l.length j
        · obtain ⟨B, E, -, -, h1, h2, h, -⟩ := C05_sub_in_range ha hl i j hi.1 hj.1 hi.2 hj.2 hr
          exact ⟨_, h, ha.toDenotes.part_inside (.inr ⟨_, ha⟩) (by omega)⟩
        · exact ⟨_, C05_sub_out_of_range ha hl i j hi.1 hj.1 hi.2 hj.2 (by omega), .inl rfl⟩
    · obtain ⟨x, y, rfl, -, -, ⟨-, -, h⟩ | ⟨-, -, h⟩⟩ := C14_split_index ha i hi.1 hi.2
      · exact ⟨_, _, h, ha.toDenotes.part_inside (.inr ⟨_, ha⟩) (by simp), ha.toDenotes.part_inside (.inr ⟨_, ha⟩) (by simp)⟩
      · exact ⟨_, _, h, ha.toDenotes.part_inside (.inr ⟨_, ha⟩) (by simp), ha.toDenotes.part_inside (.inr ⟨_, ha⟩) (by simp)⟩

/-- C21. The same for the functions that take delimiters (possibly NULL), and `strview_split_line` with every `eol` state it can produce. -/
theorem C21_delim_results_inside {m : Mem} {a : View} (ha : AnyView m a) {p : Addr} (hp : p = 0 ∨ ∃ s, CString m p s) (excl : Bool) (e : Byte)
    (he : e = 0 ∨ IsEol e) :
    GivesSplit a (strview_split_first_delim m (some a) p excl) ∧ GivesSplit a (strview_split_last_delim m (some a) p excl) ∧
    (∃ u s, strview_split_line m (some a) none = .ok (u, some s, none) ∧ u.Inside a ∧ s.Inside a) ∧
    (∃ u s e', strview_split_line m (some a) (some e) = .ok (u, some s, some e') ∧ u.Inside a ∧ s.Inside a ∧ (e' = 0 ∨ IsEol e')) := by
  refine ⟨?_, ?_, ?_, ?_⟩
  · rcases hp with rfl | ⟨s, hp⟩
    · exact ⟨_, _, (C10_split_first_null m 0 excl a).2, ha.inside, .inl rfl⟩
    rcases ha with rfl | ⟨l, ha⟩
    · refine ⟨.invalid, .invalid, ?_, .inl rfl, .inl rfl⟩
      simp [strview_split_first_delim, split_first_nn, cstr_eq hp, split_first_delim, View.invalid]
    rcases C11_split_first_delim ha hp excl with ⟨pre, d, post, r, h1, -, h, -, h2, h3⟩ | ⟨-, h⟩
    · have hl := h1.1
      subst hl
      have hs := ha.size
      have hr := h2.size
      refine ⟨_, _, h, ha.toDenotes.part_inside (.inr ⟨_, ha⟩) (by simp), h2.inside (by rw [h3]; split <;> omega) ?_⟩
      rw [h3, hr, hs]
      simp only [List.length_append, List.length_cons]
      split <;> omega
    · exact ⟨_, _, h, AnyView.inside (.inr ⟨_, ha⟩), .inl rfl⟩
  · rcases hp with rfl | ⟨s, hp⟩
    · exact ⟨_, _, (C12_split_last_null m 0 excl a).2, ha.inside, .inl rfl⟩
    rcases ha with rfl | ⟨l, ha⟩
    · refine ⟨.invalid, .invalid, ?_, .inl rfl, .inl rfl⟩
      simp [strview_split_last_delim, cstr_eq hp, split_last_delim, View.invalid]
    rcases C11_split_last_delim ha hp excl with ⟨pre, d, post, r, h1, -, h, -, h2, h3⟩ | ⟨-, h⟩
    · have hl := h1.1
      subst hl
      have hs := ha.size
      have hr := h2.size
      refine ⟨_, _, h, h2.inside (by rw [h3]; split <;> omega) ?_, ha.toDenotes.part_inside (.inr ⟨_, ha⟩) (by simp)⟩
      rw [h3, hr, hs]
      simp only [List.length_append, List.length_cons]
      split <;> omega
    · exact ⟨_, _, h, AnyView.inside (.inr ⟨_, ha⟩), .inl rfl⟩
  · rcases ha with rfl | ⟨l, ha⟩
    · exact ⟨.invalid, .invalid, by simp [strview_split_line, View.invalid], .inl rfl, .inl rfl⟩
    rcases C17_split_line ha with ⟨line, term, rest, h1, -, h3, h⟩ | ⟨-, h⟩
    · have := congrArg List.length h1.text
      simp only [List.length_append] at this
      exact ⟨_, _, h, ha.toDenotes.part_inside (.inr ⟨_, ha⟩) (by omega), ha.toDenotes.part_inside (.inr ⟨_, ha⟩) h1.restAt_le⟩
    · exact ⟨_, _, h, .inl rfl, AnyView.inside (.inr ⟨_, ha⟩)⟩
  · rcases ha with rfl | ⟨l, ha⟩
    · exact ⟨.invalid, .invalid, e, by simp [strview_split_line, View.invalid], .inl rfl, .inl rfl, he⟩
    rcases split_line_eol ha e he with ⟨line, term, rest, r, s, h1, h2, h3, rfl, rfl, h⟩ | ⟨-, s, h2, rfl, h⟩
    · have g1 := h1.restAt_le
      have g2 := skipPending_length e l
      have g3 := congrArg List.length h1.text
      simp only [List.length_append] at g3
      refine ⟨_, _, _, h, ha.toDenotes.part_inside (.inr ⟨_, ha⟩) (by omega), ha.toDenotes.part_inside (.inr ⟨_, ha⟩) (by omega), ?_⟩
      generalize skipPending e l = tt at h1
      cases h1 with
      | two => exact .inl rfl
      | one _ a _ _ ha => exact .inr ha
    · have g2 := skipPending_length e l
      exact ⟨_, _, _, h, .inl rfl, ha.toDenotes.part_inside (.inr ⟨_, ha⟩) (by omega), he⟩

/-! ### C79 -/

theorem View.Inside.partOf {texts : List (View × List Byte)} {a u : View} (h : PartOf texts a) (hu : u.Inside a) : PartOf texts u := by
  rcases hu with rfl | ⟨h1, h2, h3, h4⟩
  · exact .inl rfl
  rcases h with rfl | ⟨t, ht, i, n, hin, rfl⟩
  · simp only [View.invalid] at h3 h4; omega
  · simp only at h3 h4
    refine .inr ⟨t, ht, (u.data - t.1.data).toNat, u.size.toNat, by omega, ?_⟩
    rw [Int.toNat_of_nonneg (by omega), Int.toNat_of_nonneg h2]
    cases u; simp only [View.mk.injEq, and_true]; omega

theorem PartOf.anyView {m : Mem} {texts : List (View × List Byte)} (ht : ∀ t ∈ texts, ViewOf m t.1 t.2) {a : View} (h : PartOf texts a) : AnyView m a := by
  rcases h with rfl | ⟨t, hm, i, n, hin, rfl⟩
  · exact .inl rfl
  · exact .inr ⟨_, (ht t hm).part i n hin⟩

theorem viewAt_partOf {texts : List (View × List Byte)} {vs : List View} (h : ∀ v ∈ vs, PartOf texts v) (i : Nat) : PartOf texts (viewAt vs i) := by
  unfold viewAt
  by_cases hi : i < vs.length
  · rw [List.getD_eq_getElem?_getD, List.getElem?_eq_getElem hi]; exact h _ (List.getElem_mem hi)
  · rw [List.getD_eq_getElem?_getD, List.getElem?_eq_none (by omega)]; exact .inl rfl

/-- The program is in order: every view held is a part of one of the texts, and the `eol` variable is one the library leaves. -/
def Held (texts : List (View × List Byte)) (r : Res (List View × Byte)) : Prop :=
  ∃ vs eol, r = .ok (vs, eol) ∧ (∀ v ∈ vs, PartOf texts v) ∧ (eol = 0 ∨ IsEol eol)

theorem keep_held {texts : List (View × List Byte)} {vs : List View} (h : ∀ v ∈ vs, PartOf texts v) {eol : Byte} (he : eol = 0 ∨ IsEol eol) {i : Nat}
    {r : Res View} (hr : Gives (viewAt vs i) r) : Held texts (keep vs eol r) := by
  obtain ⟨u, rfl, hu⟩ := hr
  refine ⟨vs ++ [u], eol, rfl, ?_, he⟩
  intro v hv
  rcases List.mem_append.1 hv with hv | hv
  · exact h v hv
  · rw [List.mem_singleton.1 hv]; exact hu.partOf (viewAt_partOf h i)

theorem set_held {texts : List (View × List Byte)} {vs : List View} (h : ∀ v ∈ vs, PartOf texts v) {i : Nat} {s u : View}
    (hs : s.Inside (viewAt vs i)) (hu : u.Inside (viewAt vs i)) : ∀ v ∈ vs.set i s ++ [u], PartOf texts v := by
  intro v hv
  rcases List.mem_append.1 hv with hv | hv
  · rcases List.mem_or_eq_of_mem_set hv with hv | rfl
    · exact h v hv
    · exact hs.partOf (viewAt_partOf h i)
  · rw [List.mem_singleton.1 hv]; exact hu.partOf (viewAt_partOf h i)

theorem keepSplit_held {texts : List (View × List Byte)} {vs : List View} (h : ∀ v ∈ vs, PartOf texts v) {eol : Byte} (he : eol = 0 ∨ IsEol eol) {i : Nat}
    {r : Res (View × Option View)} (hr : GivesSplit (viewAt vs i) r) : Held texts (keepSplit vs eol i r) := by
  obtain ⟨u, s, rfl, hu, hs⟩ := hr
  exact ⟨vs.set i s ++ [u], eol, rfl, set_held h hs hu, he⟩

theorem op_held {m : Mem} {texts : List (View × List Byte)} (ht : ∀ t ∈ texts, ViewOf m t.1 t.2)
    (hlow : ∀ t ∈ texts, ∀ t' ∈ texts, (t'.2.length : Int) ≤ t.1.data) {vs : List View} (h : ∀ v ∈ vs, PartOf texts v) {eol : Byte}
    (he : eol = 0 ∨ IsEol eol) {op : VOp} (hop : op.Ok m) : Held texts (op.run m vs eol) := by
  have hp := fun i => viewAt_partOf h i
  have ha := fun i => (hp i).anyView ht
  have hl : ∀ i j, viewAt vs i = .invalid ∨ (viewAt vs j).size ≤ (viewAt vs i).data + (viewAt vs i).size := by
    intro i j
    rcases hp i with hi | ⟨t, hm, x, n, hin, hi⟩
    · exact .inl hi
    · refine .inr ?_
      rcases hp j with hj | ⟨t', hm', x', n', hin', hj⟩
      · have := (ht t hm).pos
        rw [hi, hj]; simp only [View.invalid]; omega
      · have := hlow t hm t' hm'
        rw [hi, hj]; simp only; omega
  cases op with
  | sub i b e => exact keep_held h he (C21_index_results_inside (ha i) b e hop.1 hop.2).1
  | trim i j => exact keep_held h he (C21_results_inside (ha i) (ha j)).1
  | trimStart i j => exact keep_held h he (C21_results_inside (ha i) (ha j)).2.1
  | trimEnd i j => exact keep_held h he (C21_results_inside (ha i) (ha j)).2.2.1
  | findFirst i j => exact keep_held h he (C21_results_inside (ha i) (ha j)).2.2.2.1
  | findFirstNocase i j => exact keep_held h he (C21_results_inside (ha i) (ha j)).2.2.2.2.1
  | findLast i j => exact keep_held h he (C21_find_last_inside_partial (ha i) (ha j) (hl i j)).1
  | findLastNocase i j => exact keep_held h he (C21_find_last_inside_partial (ha i) (ha j) (hl i j)).2
  | splitFirst i d x => exact keepSplit_held h he (C21_delim_results_inside (ha i) hop x 0 (.inl rfl)).1
  | splitLast i d x => exact keepSplit_held h he (C21_delim_results_inside (ha i) hop x 0 (.inl rfl)).2.1
  | splitIndex i n => exact keepSplit_held h he (C21_index_results_inside (ha i) n 0 hop (by decide)).2
  | splitLeft i j => exact keepSplit_held h he (C21_results_inside (ha i) (ha j)).2.2.2.2.2.2.1
  | splitRight i j => exact keepSplit_held h he (C21_results_inside (ha i) (ha j)).2.2.2.2.2.2.2.1
  | pop i =>
    obtain ⟨c, s, h1, h2⟩ := (C21_results_inside (ha i) (ha i)).2.2.2.2.2.2.2.2
    refine ⟨vs.set i s, eol, by simp only [VOp.run, h1, Res.bind_ok], ?_, he⟩
    exact fun v hv => set_held h h2 h2 v (by simp [hv])
  | splitLine i =>
    obtain ⟨u, s, e', h1, h2, h3, h4⟩ := (C21_delim_results_inside (ha i) (p := 0) (.inl rfl) false eol he).2.2.2
    exact ⟨vs.set i s ++ [u], e', by simp only [VOp.run, h1, Res.bind_ok], set_held h h3 h2, h4⟩
  | splitLineNull i =>
    obtain ⟨u, s, h1, h2, h3⟩ := (C21_delim_results_inside (ha i) (p := 0) (.inl rfl) false eol he).2.2.1
    exact ⟨vs.set i s ++ [u], eol, by simp only [VOp.run, h1, Res.bind_ok], set_held h h3 h2, he⟩
  | dequote i => exact keep_held h he (C21_results_inside (ha i) (ha i)).2.2.2.2.2.1

/-- C79. Whatever sequence of view functions a program calls on views of some texts, and on the views it gets from them, every call completes,
and every view it ever holds is invalid or a part of one of the texts. (The texts are not in the lowest part of the address space,
which `strview_find_last` needs, see `C08_deviation_low_address`.) -/
theorem C79_any_calls {m : Mem} {texts : List (View × List Byte)} (ht : ∀ t ∈ texts, ViewOf m t.1 t.2)
    (hlow : ∀ t ∈ texts, ∀ t' ∈ texts, (t'.2.length : Int) ≤ t.1.data) (ops : List VOp) (hops : ∀ op ∈ ops, op.Ok m) :
    ∃ vs eol, runViews m ops (texts.map Prod.fst) 0 = .ok (vs, eol) ∧ ∀ v ∈ vs, PartOf texts v := by
  have key : ∀ (ops : List VOp) (vs : List View) (eol : Byte), (∀ op ∈ ops, op.Ok m) → (∀ v ∈ vs, PartOf texts v) → (eol = 0 ∨ IsEol eol) →
      Held texts (runViews m ops vs eol) := by
    intro ops
    induction ops with
    | nil => exact fun vs eol _ h he => ⟨vs, eol, rfl, h, he⟩
    | cons op ops ih =>
      intro vs eol ho h he
      obtain ⟨vs', eol', h1, h2, h3⟩ := op_held ht hlow h he (ho op (by simp))
      simp only [runViews, h1, Res.bind_ok]
      exact ih vs' eol' (fun o hm => ho o (by simp [hm])) h2 h3
  obtain ⟨vs, eol, h1, h2, -⟩ := key ops (texts.map Prod.fst) 0 hops (by
    intro v hv
    obtain ⟨t, hm, rfl⟩ := List.mem_map.1 hv
    refine .inr ⟨t, hm, 0, t.2.length, by omega, ?_⟩
    have := (ht t hm).size
    rw [← this]; simp) (.inl rfl)
  exact ⟨vs, eol, h1, h2⟩

/-- C79. What a view that is held shows is a substring of the text it is a part of, at the place it points to. -/
theorem C79_substring {m : Mem} {texts : List (View × List Byte)} (ht : ∀ t ∈ texts, ViewOf m t.1 t.2) {v : View} (h : PartOf texts v) (hv : v ≠ .invalid) :
    ∃ t ∈ texts, ∃ pre l post, t.2 = pre ++ l ++ post ∧ v.data = t.1.data + pre.length ∧ ViewOf m v l := by
  rcases h with h | ⟨t, hm, i, n, hin, rfl⟩
  · exact absurd h hv
  · refine ⟨t, hm, t.2.take i, (t.2.drop i).take n, (t.2.drop i).drop n, ?_, ?_, (ht t hm).part i n hin⟩
    · rw [List.append_assoc, List.take_append_drop, List.take_append_drop]
    · simp only [List.length_take]; congr 2; omega

-- the texts `a=b c ` and ` `: split at `=`, trim what remains, take its first character off
example : runViews (memAt 8000 [97, 61, 98, 32, 99, 32, 61, 0]) [.splitFirst 0 8006 false, .trim 0 1, .pop 3] [⟨8000, 6⟩, ⟨8003, 1⟩] 0 =
    .ok ([⟨8002, 4⟩, ⟨8003, 1⟩, ⟨8000, 1⟩, ⟨8003, 2⟩], 0) := by decide +kernel

example : ∃ vs eol, runViews (memAt 8000 [97, 61, 98, 32, 99, 32, 61, 0]) [.splitFirst 0 8006 false, .trim 0 1, .pop 3] [⟨8000, 6⟩, ⟨8003, 1⟩] 0 =
      .ok (vs, eol) ∧ ∀ v ∈ vs, PartOf [(⟨8000, 6⟩, [97, 61, 98, 32, 99, 32]), (⟨8003, 1⟩, [32])] v := by
  have h : ViewOf (memAt 8000 [97, 61, 98, 32, 99, 32, 61, 0]) ⟨8000, 8⟩ [97, 61, 98, 32, 99, 32, 61, 0] :=
    ⟨⟨rfl, by decide, holds_memAt _ _ (by decide) (by decide)⟩, by decide⟩
  refine C79_any_calls (texts := [(⟨8000, 6⟩, [97, 61, 98, 32, 99, 32]), (⟨8003, 1⟩, [32])]) ?_ (by decide) _ ?_
  · intro t ht
    simp only [List.mem_cons, List.not_mem_nil, or_false] at ht
    rcases ht with rfl | rfl
    · exact h.part 0 6 (by decide)
    · exact h.part 3 1 (by decide)
  · intro op hop
    simp only [List.mem_cons, List.not_mem_nil, or_false] at hop
    rcases hop with rfl | rfl | rfl
    · exact .inr ⟨[61], by decide, by decide, by decide, (h.part 6 2 (by decide)).holds⟩
    · trivial
    · trivial

end CStr
