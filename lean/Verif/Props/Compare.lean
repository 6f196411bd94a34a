import Verif.Lemmas.Strview
import Verif.Lemmas.Examples
/-! Properties C01-C04: matching and ordering of views. -/
namespace CStr

/-- C01. `strview_is_match` is equality of contents, for every placement of the two views. -/
theorem C01_is_match_iff_contents_equal {m : Mem} {a b : View} {la lb : List Byte}
    (ha : Denotes m a la) (hb : Denotes m b lb) :
    strview_is_match_strview m a b = .ok (decide (la = lb)) := by
  simp only [strview_is_match_strview, ha.size, hb.size]
  by_cases hs : (la.length : Int) = lb.length
  · have hs' : la.length = lb.length := by omega
    rw [if_pos hs]
    by_cases hd : a.data = b.data
    · have h2 := hb.holds
      rw [← hd] at h2
      have := ha.holds.unique h2 hs'
      simp [hd, this]
    · rw [if_neg hd, sizeT_nat, memcmp_eq ha.holds hb.holds hs']
      simp [lexDiff_eq_zero hs']
  · rw [if_neg hs]
    have : la ≠ lb := by rintro rfl; exact hs rfl
    simp [this]

example : Denotes (memAt 1000 [72, 105, 72, 105, 33]) ⟨1000, 2⟩ [72, 105] ∧
    Denotes (memAt 1000 [72, 105, 72, 105, 33]) ⟨1002, 2⟩ [72, 105] :=
  ⟨(viewOf_memAt_part 1000 _ 0 2 _ (by decide) (by decide) (by decide) (by decide) rfl).toDenotes,
   (viewOf_memAt_part 1000 _ 2 2 _ (by decide) (by decide) (by decide) (by decide) rfl).toDenotes⟩

/-- C01, C string form: `strview_is_match(v, "...")`. -/
theorem C01_is_match_cstr {m : Mem} {a : View} {la s : List Byte} {p : Addr}
    (ha : Denotes m a la) (hp : CString m p s) :
    strview_is_match_cstr m a p = .ok (decide (la = s)) := by
  simp only [strview_is_match_cstr, cstr_eq hp, Res.bind_ok]
  exact C01_is_match_iff_contents_equal ha hp.viewOf.toDenotes

example : CString (memAt 1000 [72, 105, 0]) (1000 + (0 : Nat)) [72, 105] :=
  cstring_memAt 1000 _ 0 _ (by decide) (by decide) (by decide) (by decide) (by decide) (by decide)

/-- C01. An invalid view matches exactly the invalid and the empty views. -/
theorem C01_invalid_matches_only_empty {m : Mem} {a : View} {la : List Byte} (ha : Denotes m a la) :
    strview_is_match_strview m a .invalid = .ok (decide (la = [])) :=
  C01_is_match_iff_contents_equal ha (Denotes.invalid m)

/-- C01, documented behaviour that the code does not have: docs/strview-api.md says `strview_is_match` is
false if only one of the views is invalid; a valid empty view matches an invalid one. -/
theorem C01_deviation_empty_matches_invalid :
    ∃ (m : Mem) (v : View), ViewOf m v [] ∧ strview_is_match_strview m v .invalid = .ok true := by
  have h : ViewOf (memAt 1000 []) ⟨1000, 0⟩ [] :=
    viewOf_memAt 1000 [] (by decide) (by decide) (by decide)
  exact ⟨_, _, h, by rw [C01_invalid_matches_only_empty h.toDenotes]; rfl⟩

/-- C02. `strview_is_match_nocase` is equality of contents after upper-casing `a..z`. -/
theorem C02_is_match_nocase {m : Mem} {a b : View} {la lb : List Byte}
    (ha : Denotes m a la) (hb : Denotes m b lb) :
    strview_is_match_nocase_strview m a b = .ok (decide (la.map toUpper = lb.map toUpper)) := by
  simp only [strview_is_match_nocase_strview, ha.size, hb.size]
  by_cases hs : (la.length : Int) = lb.length
  · have hs' : la.length = lb.length := by omega
    rw [if_pos hs]
    by_cases hd : a.data = b.data
    · have h2 := hb.holds
      rw [← hd] at h2
      have := ha.holds.unique h2 hs'
      simp [hd, this]
    · rw [if_neg hd, sizeT_nat]
      obtain ⟨d, he, hz⟩ := memcmp_nocase_zero ha.holds hb.holds hs'
      rw [he]
      simp [hz]
  · rw [if_neg hs]
    have : la.map toUpper ≠ lb.map toUpper := by
      intro h
      have := congrArg List.length h
      simp only [List.length_map] at this
      omega
    simp [this]

/-- C02. What `toupper` does: it moves `a..z` to `A..Z` and nothing else. -/
theorem C02_toUpper (b : Byte) :
    (toUpper b).toNat = if 97 ≤ b.toNat ∧ b.toNat ≤ 122 then b.toNat - 32 else b.toNat := by
  obtain ⟨x⟩ := b
  revert x
  decide

/-- C02. Case-insensitive matching is an equivalence relation on views and is implied by matching. -/
theorem C02_nocase_equivalence {m : Mem} {a b c : View} {la lb lc : List Byte}
    (ha : Denotes m a la) (hb : Denotes m b lb) (hc : Denotes m c lc) :
    strview_is_match_nocase_strview m a a = .ok true ∧
    strview_is_match_nocase_strview m a b = strview_is_match_nocase_strview m b a ∧
    (strview_is_match_nocase_strview m a b = .ok true → strview_is_match_nocase_strview m b c = .ok true →
      strview_is_match_nocase_strview m a c = .ok true) ∧
    (strview_is_match_strview m a b = .ok true → strview_is_match_nocase_strview m a b = .ok true) := by
  rw [C02_is_match_nocase ha ha, C02_is_match_nocase ha hb, C02_is_match_nocase hb ha,
    C02_is_match_nocase hb hc, C02_is_match_nocase ha hc, C01_is_match_iff_contents_equal ha hb]
  refine ⟨by simp, ?_, ?_, ?_⟩
  · simp [eq_comm]
  · simp only [Res.ok.injEq, decide_eq_true_eq]; intro h1 h2; rw [h1, h2]
  · simp only [Res.ok.injEq, decide_eq_true_eq]; intro h1; rw [h1]

theorem C02_is_match_nocase_cstr {m : Mem} {a : View} {la s : List Byte} {p : Addr}
    (ha : Denotes m a la) (hp : CString m p s) :
    strview_is_match_nocase_cstr m a p = .ok (decide (la.map toUpper = s.map toUpper)) := by
  simp only [strview_is_match_nocase_cstr, cstr_eq hp, Res.bind_ok]
  exact C02_is_match_nocase ha hp.viewOf.toDenotes

example : strview_is_match_nocase_strview (memAt 1000 [72, 105, 104, 73]) ⟨1000, 2⟩ ⟨1002, 2⟩ = .ok true := by
  decide +kernel

theorem take_eq_of_prefix {l r : List Byte} (h : r <+: l) : l.take r.length = r := by
  obtain ⟨t, rfl⟩ := h
  simp

theorem prefix_iff_take {l r : List Byte} : r <+: l ↔ l.take r.length = r := by
  constructor
  · exact take_eq_of_prefix
  · intro h; rw [← h]; exact List.take_prefix _ _

/-- C03. On valid views `strview_starts_with` decides the prefix relation. -/
theorem C03_starts_with {m : Mem} {a b : View} {la lb : List Byte}
    (ha : Denotes m a la) (hb : ViewOf m b lb) :
    ∃ r, strview_starts_with_strview m a b = .ok r ∧ (r = true ↔ lb <+: la) := by
  have hv : strview_is_valid b = true := by simp [strview_is_valid, hb.ne_zero]
  simp only [strview_starts_with_strview, hv, Bool.not_true, Bool.false_eq_true, if_false, ha.size, hb.size]
  by_cases hs : (la.length : Int) ≥ lb.length
  · rw [if_pos hs]
    have h1 : Holds m a.data (la.take lb.length) := ha.holds.take _
    have e : (la.take lb.length).length = lb.length := by rw [List.length_take]; omega
    by_cases hd : a.data = b.data
    · rw [if_pos hd]
      refine ⟨true, rfl, ?_⟩
      rw [hd] at h1
      simp [prefix_iff_take, h1.unique hb.holds e]
    · rw [if_neg hd, sizeT_nat]
      have := memcmp_eq h1 hb.holds e
      rw [e] at this
      rw [this]
      refine ⟨_, rfl, ?_⟩
      simp [lexDiff_eq_zero e, prefix_iff_take]
  · rw [if_neg hs]
    refine ⟨false, rfl, ?_⟩
    simp only [Bool.false_eq_true, false_iff]
    intro h
    have := h.length_le
    omega

/-- C03, case-insensitive. -/
theorem C03_starts_with_nocase {m : Mem} {a b : View} {la lb : List Byte}
    (ha : Denotes m a la) (hb : ViewOf m b lb) :
    ∃ r, strview_starts_with_nocase_strview m a b = .ok r ∧
      (r = true ↔ lb.map toUpper <+: la.map toUpper) := by
  have hv : strview_is_valid b = true := by simp [strview_is_valid, hb.ne_zero]
  simp only [strview_starts_with_nocase_strview, hv, Bool.not_true, Bool.false_eq_true, if_false, ha.size,
    hb.size]
  by_cases hs : (la.length : Int) ≥ lb.length
  · rw [if_pos hs]
    have h1 : Holds m a.data (la.take lb.length) := ha.holds.take _
    have e : (la.take lb.length).length = lb.length := by rw [List.length_take]; omega
    by_cases hd : a.data = b.data
    · rw [if_pos hd]
      refine ⟨true, rfl, ?_⟩
      rw [hd] at h1
      have := h1.unique hb.holds e
      rw [prefix_iff_take, List.length_map, ← List.map_take, this]
      simp
    · rw [if_neg hd, sizeT_nat]
      obtain ⟨d, he, hz⟩ := memcmp_nocase_zero h1 hb.holds e
      rw [e] at he
      rw [he]
      refine ⟨_, rfl, ?_⟩
      rw [prefix_iff_take, List.length_map, ← List.map_take]
      simp [hz]
  · rw [if_neg hs]
    refine ⟨false, rfl, ?_⟩
    simp only [Bool.false_eq_true, false_iff]
    intro h
    have := h.length_le
    simp only [List.length_map] at this
    omega

/-- C03. An invalid second view is matched exactly by an invalid first view. -/
theorem C03_starts_with_invalid (m : Mem) (a : View) :
    strview_starts_with_strview m a .invalid = .ok (decide (a.data = 0)) ∧
    strview_starts_with_nocase_strview m a .invalid = .ok (decide (a.data = 0)) := by
  simp [strview_starts_with_strview, strview_starts_with_nocase_strview, strview_is_valid, View.invalid]

theorem C03_starts_with_cstr {m : Mem} {a : View} {la s : List Byte} {p : Addr}
    (ha : Denotes m a la) (hp : CString m p s) :
    (∃ r, strview_starts_with_cstr m a p = .ok r ∧ (r = true ↔ s <+: la)) ∧
    (∃ r, strview_starts_with_nocase_cstr m a p = .ok r ∧ (r = true ↔ s.map toUpper <+: la.map toUpper)) := by
  simp only [strview_starts_with_cstr, strview_starts_with_nocase_cstr, cstr_eq hp, Res.bind_ok]
  exact ⟨C03_starts_with ha hp.viewOf, C03_starts_with_nocase ha hp.viewOf⟩

example : strview_starts_with_strview (memAt 1000 [72, 105, 33, 72, 105]) ⟨1000, 3⟩ ⟨1003, 2⟩ = .ok true ∧
    strview_starts_with_strview (memAt 1000 [72, 105, 33, 72, 105]) ⟨1003, 2⟩ ⟨1000, 3⟩ = .ok false := by
  decide +kernel

/-- C04. `strview_compare` is the lexicographic comparison of the contents (unsigned bytes). -/
theorem C04_compare_lexicographic {m : Mem} {a b : View} {la lb : List Byte}
    (ha : Denotes m a la) (hb : Denotes m b lb) :
    ∃ c, strview_compare m a b = .ok c ∧ (c < 0 ↔ la < lb) ∧ (c = 0 ↔ la = lb) ∧ (0 < c ↔ lb < la) := by
  -- it is enough to establish one direction of each case
  suffices H : ∃ c, strview_compare m a b = .ok c ∧ (c < 0 → la < lb) ∧ (c = 0 → la = lb) ∧
      (0 < c → lb < la) by
    obtain ⟨c, hc, h1, h2, h3⟩ := H
    have irr : ∀ l : List Byte, ¬ l < l := fun l => List.lt_irrefl l
    have asym : ∀ {l r : List Byte}, l < r → ¬ r < l := fun h h' => irr _ (List.lt_trans h h')
    refine ⟨c, hc, ⟨h1, ?_⟩, ⟨h2, ?_⟩, ⟨h3, ?_⟩⟩
    · intro h
      rcases Int.lt_trichotomy c 0 with hh | hh | hh
      · exact hh
      · rw [h2 hh] at h; exact absurd h (irr _)
      · exact absurd (h3 hh) (asym h)
    · rintro rfl
      rcases Int.lt_trichotomy c 0 with hh | hh | hh
      · exact absurd (h1 hh) (irr _)
      · exact hh
      · exact absurd (h3 hh) (irr _)
    · intro h
      rcases Int.lt_trichotomy c 0 with hh | hh | hh
      · exact absurd (h1 hh) (asym h)
      · rw [h2 hh] at h; exact absurd h (irr _)
      · exact hh
  -- the common length
  let n := min la.length lb.length
  have hna : n ≤ la.length := Nat.min_le_left _ _
  have hnb : n ≤ lb.length := Nat.min_le_right _ _
  have hcs : (if a.size < b.size then a.size else b.size) = (n : Int) := by
    rw [ha.size, hb.size]; split <;> omega
  have hm : (if (n : Int) ≠ 0 then memcmp m a.data b.data (sizeT n) else .ok 0)
      = .ok (lexDiff (la.take n) (lb.take n)) := by
    by_cases h0 : n = 0
    · simp [h0, lexDiff]
    · have : (n : Int) ≠ 0 := by omega
      rw [if_pos this, sizeT_nat]
      have e1 : (la.take n).length = n := by rw [List.length_take]; omega
      have e2 : (lb.take n).length = n := by rw [List.length_take]; omega
      have := memcmp_eq (ha.holds.take n) (hb.holds.take n) (by rw [e1, e2])
      rwa [e1] at this
  simp only [strview_compare]
  rw [hcs, ← Res.ite_bind, hm]
  simp only [Res.bind_ok]
  generalize hd : lexDiff (la.take n) (lb.take n) = d
  have hlen : (la.take n).length = (lb.take n).length := by simp only [List.length_take]; omega
  by_cases hd0 : d = 0
  · have heq : la.take n = lb.take n := (lexDiff_eq_zero hlen).1 (by rw [hd, hd0])
    by_cases hs : a.size ≠ b.size
    · rw [if_pos ⟨hd0, hs⟩]
      rw [ha.size, hb.size] at *
      by_cases hgt : (la.length : Int) > lb.length
      · rw [if_pos hgt]
        refine ⟨1, rfl, by omega, by omega, fun _ => ?_⟩
        apply prefix_lt (by omega)
        have hn : n = lb.length := by omega
        rw [hn] at heq
        rw [heq]; simp
      · rw [if_neg hgt]
        refine ⟨-1, rfl, fun _ => ?_, by omega, by omega⟩
        apply prefix_lt (by omega)
        have hn : n = la.length := by omega
        rw [hn] at heq
        rw [← heq]; simp
    · rw [if_neg (fun h => hs h.2)]
      refine ⟨d, rfl, by omega, fun _ => ?_, by omega⟩
      rw [ha.size, hb.size] at hs
      have h1 : n = la.length := by omega
      have h2 : n = lb.length := by omega
      have e1 : la.take n = la := List.take_of_length_le (by omega)
      have e2 : lb.take n = lb := List.take_of_length_le (by omega)
      rw [e1, e2] at heq
      exact heq
  · rw [if_neg (fun h => hd0 h.1)]
    refine ⟨d, rfl, fun h => lexDiff_lt n hna hnb (by omega), fun h => absurd h hd0,
      fun h => lexDiff_gt n hna hnb (by omega)⟩

/-- C04. Consequently `strview_compare` is antisymmetric and transitive, so it is a valid sort comparison. -/
theorem C04_compare_is_total_order {m : Mem} {a b c : View} {la lb lc : List Byte}
    (ha : Denotes m a la) (hb : Denotes m b lb) (hc : Denotes m c lc) :
    ∃ ab ba bc ac, strview_compare m a b = .ok ab ∧ strview_compare m b a = .ok ba ∧
      strview_compare m b c = .ok bc ∧ strview_compare m a c = .ok ac ∧
      (ab < 0 ↔ 0 < ba) ∧ (ab = 0 ↔ ba = 0) ∧
      (ab < 0 → bc < 0 → ac < 0) ∧ (ab ≤ 0 → bc ≤ 0 → ac ≤ 0) := by
  obtain ⟨ab, e1, p1, p2, p3⟩ := C04_compare_lexicographic ha hb
  obtain ⟨ba, e2, q1, q2, q3⟩ := C04_compare_lexicographic hb ha
  obtain ⟨bc, e3, r1, r2, r3⟩ := C04_compare_lexicographic hb hc
  obtain ⟨ac, e4, s1, s2, s3⟩ := C04_compare_lexicographic ha hc
  have tr : ab < 0 → bc < 0 → ac < 0 := fun h1 h2 => s1.2 (List.lt_trans (p1.1 h1) (r1.1 h2))
  refine ⟨ab, ba, bc, ac, e1, e2, e3, e4, by rw [p1, q3], by rw [p2, q2, eq_comm], tr, ?_⟩
  intro h1 h2
  by_cases h1' : ab = 0
  · have := p2.1 h1'; subst this
    have : ¬ 0 < bc := by omega
    rw [r3] at this
    by_cases hac : 0 < ac
    · exact absurd (s3.1 hac) this
    · omega
  · by_cases h2' : bc = 0
    · have := r2.1 h2'; subst this
      have : ¬ 0 < ab := by omega
      rw [p3] at this
      by_cases hac : 0 < ac
      · exact absurd (s3.1 hac) this
      · omega
    · have := tr (by omega) (by omega); omega

example : strview_compare (memAt 1000 [97, 98, 99, 97, 98, 200]) ⟨1000, 3⟩ ⟨1003, 3⟩ = .ok (-101) ∧
    strview_compare (memAt 1000 [97, 98, 99, 97, 98, 200]) ⟨1003, 2⟩ ⟨1000, 3⟩ = .ok (-1) := by
  decide +kernel

end CStr
