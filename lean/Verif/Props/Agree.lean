import Verif.Props.Compare
import Verif.Props.Find
import Verif.Props.SubTrim
import Verif.Props.Split
/-
  C82: the functions on views agree with one another, as calls a user may exchange.
-/
namespace CStr

theorem occursAt_zero_iff {f : UInt8 → UInt8} {n h : List Byte} : OccursAt f n h 0 ↔ n.map f <+: h.map f := by
  constructor
  · rintro ⟨pre, mid, post, rfl, hp, hm⟩
    rw [List.length_eq_zero_iff.1 hp]
    simp only [List.nil_append, List.map_append, hm]
    exact List.prefix_append _ _
  · rintro ⟨t, ht⟩
    have hlen : n.length ≤ h.length := by
      have := congrArg List.length ht
      simp only [List.length_append, List.length_map] at this; omega
    refine ⟨[], h.take n.length, h.drop n.length, by simp, rfl, ?_⟩
    rw [List.map_take, ← ht, List.take_left' (by simp)]

theorem OccursAt.take_drop {f : UInt8 → UInt8} {n h : List Byte} {i : Nat} (o : OccursAt f n h i) :
    ((h.drop i).take n.length).map f = n.map f := by
  obtain ⟨pre, mid, post, rfl, rfl, hm⟩ := o
  have : mid.length = n.length := by simpa using congrArg List.length hm
  rw [← this, List.append_assoc, List.drop_left, List.take_left, hm]

/-- C82. Two views match exactly if comparing them gives 0, and exactly if each starts with the other. -/
theorem C82_match_compare_starts {m : Mem} {a b : View} {la lb : List Byte} (ha : ViewOf m a la) (hb : ViewOf m b lb) :
    ∃ r c x y, strview_is_match_strview m a b = .ok r ∧ strview_compare m a b = .ok c ∧
      strview_starts_with_strview m a b = .ok x ∧ strview_starts_with_strview m b a = .ok y ∧
      (r = true ↔ c = 0) ∧ (r = true ↔ x = true ∧ y = true) := by
  obtain ⟨c, h2, -, hc, -⟩ := C04_compare_lexicographic ha.toDenotes hb.toDenotes
  obtain ⟨x, h3, hx⟩ := C03_starts_with ha.toDenotes hb
  obtain ⟨y, h4, hy⟩ := C03_starts_with hb.toDenotes ha
  refine ⟨_, c, x, y, C01_is_match_iff_contents_equal ha.toDenotes hb.toDenotes, h2, h3, h4, ?_, ?_⟩
  · rw [decide_eq_true_iff, hc]
  · rw [decide_eq_true_iff, hx, hy]
    constructor
    · rintro rfl; exact ⟨List.prefix_refl _, List.prefix_refl _⟩
    · rintro ⟨h1, h2⟩; exact h2.eq_of_length (Nat.le_antisymm h2.length_le h1.length_le)

/-- C82. What matches exactly also matches without regard to case, and a view that starts with another also does so
without regard to case; no view matches one of another size either way. -/
theorem C82_exact_implies_nocase {m : Mem} {a b : View} {la lb : List Byte} (ha : ViewOf m a la) (hb : ViewOf m b lb) :
    ∃ r q x y, strview_is_match_strview m a b = .ok r ∧ strview_is_match_nocase_strview m a b = .ok q ∧
      strview_starts_with_strview m a b = .ok x ∧ strview_starts_with_nocase_strview m a b = .ok y ∧
      (r = true → q = true) ∧ (x = true → y = true) ∧ (q = true → a.size = b.size) ∧ (y = true → b.size ≤ a.size) ∧
      (q = true ↔ y = true ∧ a.size = b.size) ∧ (r = true ↔ x = true ∧ a.size = b.size) := by
  obtain ⟨x, h3, hx⟩ := C03_starts_with ha.toDenotes hb
  obtain ⟨y, h4, hy⟩ := C03_starts_with_nocase ha.toDenotes hb
  have hsa := ha.size
  have hsb := hb.size
  refine ⟨_, _, x, y, C01_is_match_iff_contents_equal ha.toDenotes hb.toDenotes,
    C02_is_match_nocase ha.toDenotes hb.toDenotes, h3, h4, ?_, ?_, ?_, ?_, ?_, ?_⟩
  · simp only [decide_eq_true_iff]; rintro rfl; rfl
  · rw [hx, hy]; rintro ⟨t, rfl⟩; rw [List.map_append]; exact List.prefix_append _ _
  · simp only [decide_eq_true_iff]; intro h
    have := congrArg List.length h
    simp only [List.length_map] at this; omega
  · rw [hy]; intro h
    have := h.length_le
    simp only [List.length_map] at this; omega
  · simp only [decide_eq_true_iff]; rw [hy]
    constructor
    · intro h
      have := congrArg List.length h
      simp only [List.length_map] at this
      exact ⟨by rw [h]; exact List.prefix_refl _, by omega⟩
    · rintro ⟨h, h'⟩
      exact (h.eq_of_length (by simp only [List.length_map]; omega)).symm
  · simp only [decide_eq_true_iff]; rw [hx]
    constructor
    · rintro rfl; exact ⟨List.prefix_refl _, by omega⟩
    · rintro ⟨h, h'⟩
      exact (h.eq_of_length (by omega)).symm

/-- C82. A view starts with another exactly if searching finds that one at its very start. -/
theorem C82_starts_iff_found_first {m : Mem} {v w : View} {h n : List Byte} (hv : ViewOf m v h) (hw : ViewOf m w n) :
    (∃ r f, strview_starts_with_strview m v w = .ok r ∧ strview_find_first_strview m v w = .ok f ∧
      (r = true ↔ f = ⟨v.data, w.size⟩)) ∧
    (∃ r f, strview_starts_with_nocase_strview m v w = .ok r ∧ strview_find_first_nocase_strview m v w = .ok f ∧
      (r = true ↔ f = ⟨v.data, w.size⟩)) := by
  have hp := hv.pos
  have hs := hw.size
  have key : ∀ (fold : UInt8 → UInt8) (f : View) (r : Bool), (r = true ↔ OccursAt fold n h 0) →
      ((∃ i, (OccursAt fold n h i ∧ ∀ j, OccursAt fold n h j → i ≤ j) ∧ i + n.length ≤ h.length ∧ f = v.part i n.length) ∨
        ((∀ i, ¬ OccursAt fold n h i) ∧ f = .invalid)) → (r = true ↔ f = ⟨v.data, w.size⟩) := by
    intro fold f r hr hf
    rw [hr]
    rcases hf with ⟨i, ⟨o, mn⟩, -, rfl⟩ | ⟨no, rfl⟩
    · constructor
      · intro h0
        have := mn 0 h0
        have : i = 0 := by omega
        subst this
        simp [View.part, hs]
      · intro e
        have : v.data + (i : Int) = v.data := congrArg View.data e
        have : i = 0 := by omega
        subst this; exact o
    · constructor
      · intro h0; exact absurd h0 (no 0)
      · intro e
        have : (0 : Int) = v.data := congrArg View.data e
        omega
  constructor
  · obtain ⟨r, h1, hr⟩ := C03_starts_with hv.toDenotes hw
    rcases C07_find_first hv hw with ⟨i, o, hi, e⟩ | ⟨no, e⟩
    · exact ⟨r, _, h1, e, key id _ r (by rw [occursAt_zero_iff]; simpa using hr) (.inl ⟨i, o, hi, rfl⟩)⟩
    · exact ⟨r, _, h1, e, key id _ r (by rw [occursAt_zero_iff]; simpa using hr) (.inr ⟨no, rfl⟩)⟩
  · obtain ⟨r, h1, hr⟩ := C03_starts_with_nocase hv.toDenotes hw
    rcases C07_find_first_nocase hv hw with ⟨i, o, hi, e⟩ | ⟨no, e⟩
    · exact ⟨r, _, h1, e, key toUpper _ r (by rw [occursAt_zero_iff]; exact hr) (.inl ⟨i, o, hi, rfl⟩)⟩
    · exact ⟨r, _, h1, e, key toUpper _ r (by rw [occursAt_zero_iff]; exact hr) (.inr ⟨no, rfl⟩)⟩

/-- C82. What a search finds matches what was searched for. -/
theorem C82_found_matches {m : Mem} {v w : View} {h n : List Byte} (hv : ViewOf m v h) (hw : ViewOf m w n) :
    (∃ f, strview_find_first_strview m v w = .ok f ∧
      (strview_is_valid f = true → strview_is_match_strview m f w = .ok true)) ∧
    (∃ f, strview_find_first_nocase_strview m v w = .ok f ∧
      (strview_is_valid f = true → strview_is_match_nocase_strview m f w = .ok true)) ∧
    ((n.length : Int) ≤ v.data + h.length → ∃ f, strview_find_last_strview m v w = .ok f ∧
      (strview_is_valid f = true → strview_is_match_strview m f w = .ok true)) ∧
    ((n.length : Int) ≤ v.data + h.length → ∃ f, strview_find_last_nocase_strview m v w = .ok f ∧
      (strview_is_valid f = true → strview_is_match_nocase_strview m f w = .ok true)) := by
  have k1 : ∀ i, OccursAt id n h i → i + n.length ≤ h.length →
      strview_is_match_strview m (v.part i n.length) w = .ok true := by
    intro i o hi
    rw [C01_is_match_iff_contents_equal (hv.part i n.length hi).toDenotes hw.toDenotes]
    have := o.take_drop
    simp only [List.map_id] at this
    rw [decide_eq_true this]
  have k2 : ∀ i, OccursAt toUpper n h i → i + n.length ≤ h.length →
      strview_is_match_nocase_strview m (v.part i n.length) w = .ok true := by
    intro i o hi
    rw [C02_is_match_nocase (hv.part i n.length hi).toDenotes hw.toDenotes, decide_eq_true o.take_drop]
  have k0 : ¬ strview_is_valid .invalid = true := by decide
  refine ⟨?_, ?_, fun hl => ?_, fun hl => ?_⟩
  · rcases C07_find_first hv hw with ⟨i, o, hi, e⟩ | ⟨no, e⟩
    · exact ⟨_, e, fun _ => k1 i o.1 hi⟩
    · exact ⟨_, e, fun h => absurd h k0⟩
  · rcases C07_find_first_nocase hv hw with ⟨i, o, hi, e⟩ | ⟨no, e⟩
    · exact ⟨_, e, fun _ => k2 i o.1 hi⟩
    · exact ⟨_, e, fun h => absurd h k0⟩
  · rcases C08_find_last_partial hv hw hl with ⟨i, o, hi, e⟩ | ⟨no, e⟩
    · exact ⟨_, e, fun _ => k1 i o.1 hi⟩
    · exact ⟨_, e, fun h => absurd h k0⟩
  · rcases C08_find_last_nocase_partial hv hw hl with ⟨i, o, hi, e⟩ | ⟨no, e⟩
    · exact ⟨_, e, fun _ => k2 i o.1 hi⟩
    · exact ⟨_, e, fun h => absurd h k0⟩

/-- C82. The first place found is not behind the last one; one search finds something exactly if the other does. -/
theorem C82_first_not_behind_last {m : Mem} {v w : View} {h n : List Byte} (hv : ViewOf m v h) (hw : ViewOf m w n)
    (hl : (n.length : Int) ≤ v.data + h.length) :
    ∃ f l, strview_find_first_strview m v w = .ok f ∧ strview_find_last_strview m v w = .ok l ∧
      strview_is_valid f = strview_is_valid l ∧ f.data ≤ l.data ∧ f.size = l.size := by
  have hp := hv.pos
  rcases C07_find_first hv hw with ⟨i, o, hi, e⟩ | ⟨no, e⟩ <;>
    rcases C08_find_last_partial hv hw hl with ⟨i', o', hi', e'⟩ | ⟨no', e'⟩
  · refine ⟨_, _, e, e', ?_, ?_, rfl⟩
    · rw [Bool.eq_iff_iff, is_valid_iff, is_valid_iff]; simp only [View.part]; omega
    · have := o.2 _ o'.1; simp only [View.part]; omega
  · exact absurd o.1 (no' i)
  · exact absurd o'.1 (no i')
  · exact ⟨_, _, e, e', rfl, Int.le_refl _, rfl⟩

/-- C82. What is before the end of the first place found, less one character, does not contain what was searched for. -/
theorem C82_nothing_before_first {m : Mem} {v w : View} {h n : List Byte} (hv : ViewOf m v h) (hw : ViewOf m w n)
    (hn : n ≠ []) :
    ∃ f, strview_find_first_strview m v w = .ok f ∧ (strview_is_valid f = true →
      ∃ before, strview_sub v 0 (f.data - v.data + f.size - 1) = .ok before ∧ strview_contains m before w = .ok false) := by
  have hp := hv.pos
  have hmax := hv.max
  have hsz := hv.size
  have hnl := List.length_pos_iff.2 hn
  rcases C07_find_first hv hw with ⟨i, o, hi, e⟩ | ⟨no, e⟩
  · refine ⟨_, e, fun _ => ?_⟩
    have hb : ViewOf m (v.part 0 (i + n.length - 1)) (h.take (i + n.length - 1)) := by
      simpa using hv.part 0 (i + n.length - 1) (by omega)
    refine ⟨v.part 0 (i + n.length - 1), ?_, ?_⟩
    · rw [strview_sub_eq hv.ne_zero hsz (by omega) hmax 0 _ (by decide) (by simp only [View.part, INT_MIN]; omega)
        (by decide) (by simp only [View.part]; omega)]
      have e0 : fromEnd h.length 0 = 0 := by simp [fromEnd]
      have e1 : fromEnd h.length ((v.part i n.length).data - v.data + (v.part i n.length).size - 1) = (i + n.length - 1 : Nat) := by
        have : (v.part i n.length).data - v.data + (v.part i n.length).size - 1 = (i + n.length - 1 : Nat) := by
          simp only [View.part]; omega
        rw [this, fromEnd, if_neg (by omega)]
      rw [e0, e1, if_pos (by omega)]
      simp only [View.part]
      congr 2 <;> omega
    · obtain ⟨r, hr, hr'⟩ := C09_contains hb hw
      rw [hr]
      congr 1
      rw [Bool.eq_false_iff, Ne, hr']
      rintro ⟨s, t, hst⟩
      have hle : (s.length + n.length) ≤ i + n.length - 1 := by
        have := congrArg List.length hst
        simp only [List.length_append, List.length_take] at this; omega
      have := o.2 s.length ⟨s, n, t ++ h.drop (i + n.length - 1), by
        rw [← List.append_assoc, hst, List.take_append_drop], rfl, rfl⟩
      omega
  · exact ⟨_, e, fun h => absurd h (by decide)⟩

/-- C82. A part of a part is a part: taking `[c, d)` of `[a, b)` is taking `[a + c, a + d)`. -/
theorem C82_sub_of_sub {m : Mem} {v : View} {l : List Byte} (hv : ViewOf m v l) (a b c d : Nat)
    (hab : a < b) (hb : b ≤ l.length) (hcd : c ≤ d) (hc : a + c < b) (hd : a + d ≤ b) :
    ∃ u, strview_sub v a b = .ok u ∧ strview_sub u c d = strview_sub v (a + c) (a + d) := by
  have hp := hv.pos
  have hm := hv.max
  have hne : ∀ (n k : Nat), fromEnd (n : Int) (k : Int) = k := by intro n k; simp only [fromEnd]; split <;> omega
  have hi : INT_MIN ≤ 0 := by decide
  have hu := hv.part a (b - a) (by omega)
  refine ⟨v.part a (b - a), ?_, ?_⟩
  · rw [strview_sub_eq hv.ne_zero hv.size (by omega) hm a b (by omega) (by omega) (by omega) (by omega), hne, hne,
      if_pos (by omega)]
    simp only [View.part]; congr 2 <;> omega
  · rw [strview_sub_eq hu.ne_zero (n := b - a) rfl (by omega) (by omega) c d (by omega) (by omega) (by omega) (by omega), hne, hne,
      if_pos (by omega)]
    have e1 : (a + c : Int) = (a + c : Nat) := by omega
    have e2 : (a + d : Int) = (a + d : Nat) := by omega
    rw [e1, e2, strview_sub_eq hv.ne_zero hv.size (by omega) hm _ _ (by omega) (by omega) (by omega) (by omega), hne, hne,
      if_pos (by omega)]
    simp only [View.part]; congr 2 <;> omega

/-- C82. The part from 0 to any end that is at or behind the end of the view is the view itself. -/
theorem C82_sub_all {m : Mem} {v : View} {l : List Byte} (hv : ViewOf m v l) (e : Int) (he : l.length ≤ e) (hm : e ≤ INT_MAX) :
    strview_sub v 0 e = .ok v := by
  have hsz := hv.size
  by_cases hl : l = []
  · subst hl; exact C05_sub_empty hv.toDenotes 0 e
  · have hl' := List.length_pos_iff.2 hl
    rw [strview_sub_eq hv.ne_zero hv.size hl' hv.max 0 e (by decide) (by simp only [INT_MIN]; omega) (by decide) hm]
    have e0 : fromEnd l.length 0 = 0 := by simp [fromEnd]
    have e1 : fromEnd l.length e = e := by simp only [fromEnd]; split <;> omega
    rw [e0, e1, if_pos (by omega)]
    obtain ⟨d, n⟩ := v
    simp only at hsz ⊢
    congr 2 <;> omega

/-- C82. Splitting at an index gives the parts before and from that index. -/
theorem C82_split_index_is_sub {m : Mem} {v : View} {l : List Byte} (hv : ViewOf m v l) (n : Nat) (hn : n < l.length) :
    ∃ a b, strview_split_index (some v) n = .ok (a, some b) ∧ strview_sub v 0 n = .ok a ∧ strview_sub v n INT_MAX = .ok b := by
  have hm := hv.max
  have hI : INT_MIN ≤ 0 := by decide
  obtain ⟨a, b, rfl, -, -, ⟨-, h2, h3⟩ | ⟨h, -⟩⟩ := C14_split_index hv n (by omega) (by omega)
  · refine ⟨_, _, h3, ?_, ?_⟩
    · rw [strview_sub_eq hv.ne_zero hv.size (by omega) hm _ _ (by omega) (by omega) (by omega) (by omega)]
      have e0 : fromEnd ((a ++ b).length : Nat) 0 = 0 := by simp [fromEnd]
      have e1 : fromEnd ((a ++ b).length : Nat) (n : Int) = n := by simp only [fromEnd]; split <;> omega
      rw [e0, e1, if_pos (by omega)]
      simp only [View.part]; congr 2 <;> omega
    · rw [strview_sub_eq hv.ne_zero hv.size (by omega) hm _ _ (by omega) (by simp [INT_MIN, INT_MAX]) (by omega) (by omega)]
      have e0 : fromEnd ((a ++ b).length : Nat) INT_MAX = INT_MAX := by simp [fromEnd, INT_MAX]
      have e1 : fromEnd ((a ++ b).length : Nat) (n : Int) = n := by simp only [fromEnd]; split <;> omega
      have hlen : (a ++ b).length = a.length + b.length := by simp
      rw [e0, e1, if_pos (by omega)]
      simp only [View.part]; congr 2 <;> omega
  · omega

/-- C82. Taking off the first character is splitting at index 1 and looking at what was split off. -/
theorem C82_pop_is_split {m : Mem} {v : View} {c : Byte} {l : List Byte} (hv : ViewOf m v (c :: l)) :
    ∃ a b, strview_split_index (some v) 1 = .ok (a, some b) ∧ strview_pop_first_char m (some v) = .ok (c, some b) ∧
      ViewOf m a [c] := by
  obtain ⟨a, b, e, va, -, ⟨-, h2, h3⟩ | ⟨h, -⟩⟩ := C14_split_index hv 1 (by decide) (by decide)
  · have ha : a.length = 1 := by simp only [List.length_cons] at h2; omega
    obtain ⟨x, rfl⟩ := List.length_eq_one_iff.1 ha
    simp only [List.cons_append, List.nil_append, List.cons.injEq] at e
    obtain ⟨rfl, rfl⟩ := e
    exact ⟨_, _, h3, (C16_pop_cons hv).1, va⟩
  · omega

/-- Two ways to cut a text at the first character that is not in a set are the same. -/
theorem firstOutside_unique {cs p p' t t' : List Byte} {x x' : Byte} (hp : ∀ z ∈ p, z ∈ cs) (hp' : ∀ z ∈ p', z ∈ cs) (hx : x ∉ cs)
    (hx' : x' ∉ cs) (h : p ++ x :: t = p' ++ x' :: t') : p = p' := by
  induction p generalizing p' with
  | nil =>
    cases p' with
    | nil => rfl
    | cons y q =>
      simp only [List.nil_append, List.cons_append, List.cons.injEq] at h
      exact absurd (hp' x (by simp [h.1])) hx
  | cons y q ih =>
    cases p' with
    | nil =>
      simp only [List.nil_append, List.cons_append, List.cons.injEq] at h
      exact absurd (hp x' (by simp [h.1])) hx'
    | cons y' q' =>
      simp only [List.cons_append, List.cons.injEq] at h
      rw [h.1, ih (fun z hz => hp z (by simp [hz])) (fun z hz => hp' z (by simp [hz])) h.2]

/-- C82. Trimming both ends, or one end and then the other in either order, leaves the same characters; the same view,
unless nothing is left. -/
theorem C82_trim_order {m : Mem} {v c : View} {l cs : List Byte} (hv : Denotes m v l) (hc : Denotes m c cs) :
    ∃ a b t x y, strview_trim_start_strview m v c = .ok a ∧ strview_trim_end_strview m a c = .ok x ∧
      strview_trim_end_strview m v c = .ok b ∧ strview_trim_start_strview m b c = .ok y ∧
      strview_trim_strview m v c = .ok t ∧ t = x ∧ (y = t ∨ y.size = 0 ∧ t.size = 0) := by
  obtain ⟨pre, r1, e1, p1, q1, o1, d1⟩ := C06_trim_start hv hc
  obtain ⟨rest, suf, e2, p2, q2, o2, d2⟩ := C06_trim_end d1 hc
  obtain ⟨r3, suf', e3, p3, q3, o3, d3⟩ := C06_trim_end hv hc
  obtain ⟨pre', rest', e4, p4, q4, o4, d4⟩ := C06_trim_start d3 hc
  refine ⟨_, _, _, _, _, o1, o2, o3, o4, ?_, rfl, ?_⟩
  · simp only [strview_trim_strview, o1, Res.bind_ok, o2]
  · simp only [View.part]
    -- both are the text between the first and the last character that is not in the set
    have hall : ∀ (p r s : List Byte), l = p ++ r ++ s → (∀ x ∈ p, x ∈ cs) → (∀ x ∈ s, x ∈ cs) →
        ((∃ x ∈ r, x ∉ cs) ↔ ∃ x ∈ l, x ∉ cs) := by
      rintro p r s rfl hp hs
      constructor
      · rintro ⟨x, hx, hx'⟩; exact ⟨x, by simp [hx], hx'⟩
      · rintro ⟨x, hx, hx'⟩
        simp only [List.mem_append] at hx
        rcases hx with (hx | hx) | hx
        · exact absurd (hp x hx) hx'
        · exact ⟨x, hx, hx'⟩
        · exact absurd (hs x hx) hx'
    have h1 : l = pre ++ rest ++ suf := by rw [e1, e2, List.append_assoc]
    have h2 : l = pre' ++ rest' ++ suf' := by rw [e3, e4]
    by_cases hr : rest = []
    · right
      have : ¬ ∃ x ∈ l, x ∉ cs := by rw [← hall pre rest suf h1 p1 p2, hr]; simp
      have hr' : rest' = [] := by
        cases rest' with
        | nil => rfl
        | cons x t => exact absurd ⟨x, by rw [h2]; simp, q4 x rfl⟩ this
      simp [hr, hr']
    · left
      obtain ⟨x, hx, hx'⟩ : ∃ x ∈ l, x ∉ cs := by
        cases rest with
        | nil => exact absurd rfl hr
        | cons x t => exact ⟨x, by rw [h1]; simp, q1 x (by rw [e2]; rfl)⟩
      have hr' : rest' ≠ [] := by
        rintro rfl
        obtain ⟨y, hy, -⟩ := (hall pre' [] suf' h2 p4 p3).2 ⟨x, hx, hx'⟩
        cases hy
      have hpre : pre = pre' := by
        obtain ⟨x, t, rfl⟩ := List.exists_cons_of_ne_nil hr
        obtain ⟨y, u, rfl⟩ := List.exists_cons_of_ne_nil hr'
        refine firstOutside_unique (x := x) (x' := y) (t := t ++ suf) (t' := u ++ suf') p1 p4 (q1 x (by rw [e2]; rfl)) (q4 y rfl) ?_
        simpa using h1.symm.trans h2
      have hsuf : suf.reverse = suf'.reverse := by
        have hg : rest.getLast? = some (rest.getLast hr) := List.getLast?_eq_some_getLast hr
        have hrl : rest'.getLast hr' = (pre' ++ rest').getLast (by simp [hr']) := by
          rw [List.getLast_append_of_ne_nil _ hr']
        have hg' : r3.getLast? = some (rest'.getLast hr') := by
          rw [e4, hrl]; exact List.getLast?_eq_some_getLast _
        refine firstOutside_unique (x := rest.getLast hr) (x' := rest'.getLast hr') (t := (pre ++ rest.dropLast).reverse)
          (t' := (pre' ++ rest'.dropLast).reverse) (fun z hz => p2 z (by simpa using hz)) (fun z hz => p3 z (by simpa using hz))
          (q2 _ hg) (q3 _ hg') ?_
        have k : ∀ (p r s : List Byte) (h : r ≠ []), s.reverse ++ r.getLast h :: (p ++ r.dropLast).reverse = (p ++ r ++ s).reverse := by
          intro p r s h
          conv => rhs; rw [← List.dropLast_concat_getLast h]
          simp
        rw [k, k, ← h1, ← h2]
      have hs' : suf = suf' := by simpa using hsuf
      subst hpre hs'
      have : rest = rest' := by
        have := h1.symm.trans h2
        simpa using this
      subst this
      simp

/-! Concrete cases: the text "  abcab " with the views "ab", "AB", " ". -/

def agreeMem : Mem := memAt 1000 [32, 32, 97, 98, 99, 97, 98, 32, 97, 98, 65, 66, 32]

example : ViewOf agreeMem ⟨1000, 8⟩ [32, 32, 97, 98, 99, 97, 98, 32] ∧ ViewOf agreeMem ⟨1008, 2⟩ [97, 98] ∧ ViewOf agreeMem ⟨1010, 2⟩ [65, 66] ∧
    Denotes agreeMem ⟨1012, 1⟩ [32] ∧
    -- found first and last; the first place starts the rest of the text
    strview_find_first_strview agreeMem ⟨1000, 8⟩ ⟨1008, 2⟩ = .ok ⟨1002, 2⟩ ∧ strview_find_last_strview agreeMem ⟨1000, 8⟩ ⟨1008, 2⟩ = .ok ⟨1005, 2⟩ ∧
    strview_find_first_nocase_strview agreeMem ⟨1000, 8⟩ ⟨1010, 2⟩ = .ok ⟨1002, 2⟩ ∧
    strview_is_match_strview agreeMem ⟨1002, 2⟩ ⟨1008, 2⟩ = .ok true ∧ strview_compare agreeMem ⟨1002, 2⟩ ⟨1008, 2⟩ = .ok 0 ∧
    strview_starts_with_strview agreeMem ⟨1002, 6⟩ ⟨1008, 2⟩ = .ok true ∧ strview_is_match_nocase_strview agreeMem ⟨1002, 2⟩ ⟨1010, 2⟩ = .ok true ∧
    strview_sub ⟨1000, 8⟩ 0 3 = .ok ⟨1000, 3⟩ ∧ strview_contains agreeMem ⟨1000, 3⟩ ⟨1008, 2⟩ = .ok false ∧
    -- parts and trimming
    strview_sub ⟨1000, 8⟩ 2 7 = .ok ⟨1002, 5⟩ ∧ strview_sub ⟨1002, 5⟩ 1 3 = .ok ⟨1003, 2⟩ ∧ strview_sub ⟨1000, 8⟩ 3 5 = .ok ⟨1003, 2⟩ ∧
    strview_trim_strview agreeMem ⟨1000, 8⟩ ⟨1012, 1⟩ = .ok ⟨1002, 5⟩ ∧
    strview_split_index (some ⟨1000, 8⟩) 3 = .ok (⟨1000, 3⟩, some ⟨1003, 5⟩) ∧ strview_pop_first_char agreeMem (some ⟨1002, 5⟩) = .ok (97, some ⟨1003, 4⟩) :=
  ⟨viewOf_memAt_part 1000 _ 0 8 _ (by decide) (by decide) (by decide) (by decide) rfl,
   viewOf_memAt_part 1000 _ 8 2 _ (by decide) (by decide) (by decide) (by decide) rfl,
   viewOf_memAt_part 1000 _ 10 2 _ (by decide) (by decide) (by decide) (by decide) rfl,
   (viewOf_memAt_part 1000 _ 12 1 _ (by decide) (by decide) (by decide) (by decide) rfl).toDenotes,
   by decide +kernel, by decide +kernel, by decide +kernel, by decide +kernel, by decide +kernel, by decide +kernel, by decide +kernel, by decide +kernel, by decide +kernel,
   by decide +kernel, by decide +kernel, by decide +kernel, by decide +kernel, by decide +kernel, by decide +kernel⟩

end CStr
