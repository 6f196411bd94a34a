import Verif.Lemmas.Strview
import Verif.Lemmas.Examples
import Verif.Spec.Text
/-! Properties C07-C09: searching. -/
namespace CStr

theorem matchAt_iff (f : Byte → Byte) (n h : List Byte) (i : Nat) : MatchAt f n h i ↔ OccursAt f n h i := by
  constructor
  · rintro ⟨h1, h2⟩
    refine ⟨h.take i, (h.drop i).take n.length, (h.drop i).drop n.length, ?_, ?_, h2⟩
    · rw [List.append_assoc, List.take_append_drop, List.take_append_drop]
    · simp; omega
  · rintro ⟨pre, mid, post, rfl, rfl, h2⟩
    have hl : mid.length = n.length := by simpa using congrArg List.length h2
    refine ⟨by simp; omega, ?_⟩
    rw [List.append_assoc, List.drop_left, ← hl, List.take_left]
    exact h2

/-- What a search result says: leftmost occurrence (with `left`) or rightmost (without). -/
def FoundAt (fold : Byte → Byte) (left : Bool) (n h : List Byte) (i : Nat) : Prop :=
  OccursAt fold n h i ∧ ∀ j, OccursAt fold n h j → if left then i ≤ j else j ≤ i

theorem find_first_props {comp : CompFunc} {f : Byte → Byte} (hc : CompOK comp f) {m : Mem}
    {v w : View} {h n : List Byte} (hv : ViewOf m v h) (hw : ViewOf m w n) :
    (∃ i, FoundAt f true n h i ∧ find_first m comp v w = .ok (v.part i n.length) ∧
      i + n.length ≤ h.length) ∨
    ((∀ i, ¬ OccursAt f n h i) ∧ find_first m comp v w = .ok .invalid) := by
  rcases find_first_spec hc hv hw with ⟨j, e, hm, hno⟩ | ⟨e, hno⟩
  · left
    refine ⟨j, ⟨(matchAt_iff ..).1 hm, fun t ht => ?_⟩, e, hm.1⟩
    have := mt (hno t) (by rw [Classical.not_not]; exact (matchAt_iff ..).2 ht)
    simp only [if_true]; omega
  · right
    exact ⟨fun i hi => hno i ((matchAt_iff ..).2 hi), e⟩

/-- C07. `strview_find_first` returns the leftmost occurrence, or an invalid view if there is none. -/
theorem C07_find_first {m : Mem} {v w : View} {h n : List Byte} (hv : ViewOf m v h) (hw : ViewOf m w n) :
    (∃ i, (OccursAt id n h i ∧ ∀ j, OccursAt id n h j → i ≤ j) ∧ i + n.length ≤ h.length ∧
      strview_find_first_strview m v w = .ok (v.part i n.length)) ∨
    ((∀ i, ¬ OccursAt id n h i) ∧ strview_find_first_strview m v w = .ok .invalid) := by
  rcases find_first_props compOK_memcmp hv hw with ⟨i, h1, h2, h3⟩ | h
  · exact .inl ⟨i, by simpa [FoundAt] using h1, h3, h2⟩
  · exact .inr h

/-- C07, case-insensitive. -/
theorem C07_find_first_nocase {m : Mem} {v w : View} {h n : List Byte} (hv : ViewOf m v h)
    (hw : ViewOf m w n) :
    (∃ i, (OccursAt toUpper n h i ∧ ∀ j, OccursAt toUpper n h j → i ≤ j) ∧ i + n.length ≤ h.length ∧
      strview_find_first_nocase_strview m v w = .ok (v.part i n.length)) ∨
    ((∀ i, ¬ OccursAt toUpper n h i) ∧ strview_find_first_nocase_strview m v w = .ok .invalid) := by
  rcases find_first_props compOK_nocase hv hw with ⟨i, h1, h2, h3⟩ | h
  · exact .inl ⟨i, by simpa [FoundAt] using h1, h3, h2⟩
  · exact .inr h

/-- C07. With an invalid argument the result is invalid. -/
theorem C07_find_first_invalid (m : Mem) (v : View) :
    strview_find_first_strview m v .invalid = .ok .invalid ∧
    strview_find_first_strview m .invalid v = .ok .invalid ∧
    strview_find_first_nocase_strview m v .invalid = .ok .invalid ∧
    strview_find_first_nocase_strview m .invalid v = .ok .invalid := by
  simp [strview_find_first_strview, strview_find_first_nocase_strview, find_first, View.invalid]

theorem occursAt_nil (f : Byte → Byte) (h : List Byte) (i : Nat) (hi : i ≤ h.length) : OccursAt f [] h i :=
  ⟨h.take i, [], h.drop i, by simp, by simp; omega, rfl⟩

/-- C07. An empty needle is found at the start. -/
theorem C07_find_first_empty_needle {m : Mem} {v w : View} {h : List Byte} (hv : ViewOf m v h)
    (hw : ViewOf m w []) : strview_find_first_strview m v w = .ok (v.part 0 0) := by
  rcases C07_find_first hv hw with ⟨i, ⟨h1, h2⟩, -, e⟩ | ⟨hno, -⟩
  · have := h2 0 (occursAt_nil id h 0 (by omega))
    have : i = 0 := by omega
    subst this; exact e
  · exact absurd (occursAt_nil id h 0 (by omega)) (hno 0)

/-- C07, C string forms. -/
theorem C07_find_first_cstr {m : Mem} {v : View} {p : Addr} {n : List Byte} (hp : CString m p n) :
    strview_find_first_cstr m v p = strview_find_first_strview m v ⟨p, n.length⟩ ∧
    strview_find_first_nocase_cstr m v p = strview_find_first_nocase_strview m v ⟨p, n.length⟩ ∧
    ViewOf m ⟨p, n.length⟩ n := by
  simp [strview_find_first_cstr, strview_find_first_nocase_cstr, strview_find_first_nocase_strview,
    cstr_eq hp, hp.viewOf]

example : ViewOf (memAt 1000 [97, 98, 97, 98, 97]) ⟨1000, 5⟩ [97, 98, 97, 98, 97] ∧
    ViewOf (memAt 1000 [97, 98, 97, 98, 97]) ⟨1001, 2⟩ [98, 97] ∧ OccursAt id [98, 97] [97, 98, 97, 98, 97] 3 ∧
    strview_find_first_strview (memAt 1000 [97, 98, 97, 98, 97]) ⟨1000, 5⟩ ⟨1001, 2⟩ = .ok ⟨1001, 2⟩ ∧
    strview_find_last_strview (memAt 1000 [97, 98, 97, 98, 97]) ⟨1000, 5⟩ ⟨1001, 2⟩ = .ok ⟨1003, 2⟩ :=
  ⟨viewOf_memAt _ _ (by decide) (by decide) (by decide),
   viewOf_memAt_part 1000 _ 1 2 _ (by decide) (by decide) (by decide) (by decide) rfl,
   ⟨[97, 98, 97], [98, 97], [], rfl, rfl, rfl⟩, by decide +kernel, by decide +kernel⟩

theorem find_last_props {comp : CompFunc} {f : Byte → Byte} (hc : CompOK comp f) {m : Mem}
    {v w : View} {h n : List Byte} (hv : ViewOf m v h) (hw : ViewOf m w n)
    (hlow : (n.length : Int) ≤ v.data + h.length) :
    (∃ i, FoundAt f false n h i ∧ find_last m comp v w = .ok (v.part i n.length) ∧
      i + n.length ≤ h.length) ∨
    ((∀ i, ¬ OccursAt f n h i) ∧ find_last m comp v w = .ok .invalid) := by
  rcases find_last_spec hc hv hw hlow with ⟨j, e, hm, hno⟩ | ⟨e, hno⟩
  · left
    refine ⟨j, ⟨(matchAt_iff ..).1 hm, fun t ht => ?_⟩, e, hm.1⟩
    have := mt (hno t) (by rw [Classical.not_not]; exact (matchAt_iff ..).2 ht)
    simp only [Bool.false_eq_true, if_false]; omega
  · right
    exact ⟨fun i hi => hno i ((matchAt_iff ..).2 hi), e⟩

/-- C08. `strview_find_last` returns the rightmost occurrence, or an invalid view if there is none, provided the
end address of the haystack is not smaller than the size of the needle. What is missing from the full property
is only the case of a haystack placed in the first `needle.size` bytes of the address space, where the property
is false: see `C08_deviation_low_address`. -/
theorem C08_find_last_partial {m : Mem} {v w : View} {h n : List Byte} (hv : ViewOf m v h)
    (hw : ViewOf m w n) (hlow : (n.length : Int) ≤ v.data + h.length) :
    (∃ i, (OccursAt id n h i ∧ ∀ j, OccursAt id n h j → j ≤ i) ∧ i + n.length ≤ h.length ∧
      strview_find_last_strview m v w = .ok (v.part i n.length)) ∨
    ((∀ i, ¬ OccursAt id n h i) ∧ strview_find_last_strview m v w = .ok .invalid) := by
  rcases find_last_props compOK_memcmp hv hw hlow with ⟨i, h1, h2, h3⟩ | h
  · exact .inl ⟨i, by simpa [FoundAt] using h1, h3, h2⟩
  · exact .inr h

/-- C08, case-insensitive. -/
theorem C08_find_last_nocase_partial {m : Mem} {v w : View} {h n : List Byte} (hv : ViewOf m v h)
    (hw : ViewOf m w n) (hlow : (n.length : Int) ≤ v.data + h.length) :
    (∃ i, (OccursAt toUpper n h i ∧ ∀ j, OccursAt toUpper n h j → j ≤ i) ∧ i + n.length ≤ h.length ∧
      strview_find_last_nocase_strview m v w = .ok (v.part i n.length)) ∨
    ((∀ i, ¬ OccursAt toUpper n h i) ∧ strview_find_last_nocase_strview m v w = .ok .invalid) := by
  rcases find_last_props compOK_nocase hv hw hlow with ⟨i, h1, h2, h3⟩ | h
  · exact .inl ⟨i, by simpa [FoundAt] using h1, h3, h2⟩
  · exact .inr h

/-- C08. The placement hypothesis is always met when the needle is not longer than the haystack, or when nothing
is placed in the first 2 GiB of the address space. -/
theorem C08_placement {m : Mem} {v w : View} {h n : List Byte} (hv : ViewOf m v h) (hw : ViewOf m w n)
    (hp : n.length ≤ h.length ∨ INT_MAX ≤ v.data) : (n.length : Int) ≤ v.data + h.length := by
  have h1 := hv.pos
  have h2 := hw.max
  rcases hp with hp | hp <;> omega

theorem C08_find_last_invalid (m : Mem) (v : View) (hs : 0 ≤ v.size) (hm : v.size ≤ INT_MAX) :
    strview_find_last_strview m v .invalid = .ok .invalid ∧
    strview_find_last_strview m .invalid v = .ok .invalid ∧
    strview_find_last_nocase_strview m v .invalid = .ok .invalid ∧
    strview_find_last_nocase_strview m .invalid v = .ok .invalid := by
  simp only [INT_MAX] at hm
  have c1 : chk v.size = .ok v.size :=
    chk_ok (by simp only [INT_MIN]; omega) (by simp only [INT_MAX]; omega)
  have c2 : chk (-v.size) = .ok (-v.size) :=
    chk_ok (by simp only [INT_MIN]; omega) (by simp only [INT_MAX]; omega)
  simp [strview_find_last_strview, strview_find_last_nocase_strview, find_last, View.invalid, c1, c2]

/-- C08. An empty needle is found at the end. -/
theorem C08_find_last_empty_needle {m : Mem} {v w : View} {h : List Byte} (hv : ViewOf m v h)
    (hw : ViewOf m w []) : strview_find_last_strview m v w = .ok (v.part h.length 0) := by
  rcases C08_find_last_partial hv hw (by have := hv.pos; simp only [List.length_nil]; omega)
    with ⟨i, ⟨h1, h2⟩, h3, e⟩ | ⟨hno, -⟩
  · have := h2 h.length (occursAt_nil id h _ (by omega))
    have : i = h.length := by omega
    subst this; exact e
  · exact absurd (occursAt_nil id h 0 (by omega)) (hno 0)

theorem C08_find_last_cstr {m : Mem} {v : View} {p : Addr} {n : List Byte} (hp : CString m p n) :
    strview_find_last_cstr m v p = strview_find_last_strview m v ⟨p, n.length⟩ ∧
    strview_find_last_nocase_cstr m v p = strview_find_last_nocase_strview m v ⟨p, n.length⟩ ∧
    ViewOf m ⟨p, n.length⟩ n := by
  simp [strview_find_last_cstr, strview_find_last_nocase_cstr, strview_find_last_nocase_strview,
    cstr_eq hp, hp.viewOf]

/-- C08, the missing case is false: a one-byte haystack at address 1 and a three-byte needle. The start pointer
underflows, the loop guard `remaining_hay >= haystack.data` holds, and unmapped memory is read. -/
theorem C08_deviation_low_address :
    ∃ (m : Mem) (v w : View) (h n : List Byte), ViewOf m v h ∧ ViewOf m w n ∧
      strview_find_last_strview m v w = .ub .badRead := by
  refine ⟨memAt 1 [97, 98, 99, 100], ⟨1, 1⟩, ⟨2, 3⟩, [97], [98, 99, 100],
    viewOf_memAt_part 1 _ 0 1 _ (by decide) (by decide) (by decide) (by decide) rfl,
    viewOf_memAt_part 1 _ 1 3 _ (by decide) (by decide) (by decide) (by decide) rfl, ?_⟩
  decide +kernel

theorem find_last_low {comp : CompFunc} {m : Mem} {v w : View} {h n : List Byte} (hv : ViewOf m v h) (hw : ViewOf m w n)
    (hlow : v.data + h.length < n.length) (hc : comp m (v.data + h.length - n.length + 18446744073709551616) w.data n.length = .ub .badRead) :
    find_last m comp v w = .ub .badRead := by
  have h1 := hv.pos
  have h2 := hw.pos
  have h3 := hv.max
  have h4 := hw.max
  have hd : chk ((h.length : Int) - n.length) = .ok ((h.length : Int) - n.length) := chk_ok (by simp only [INT_MIN, INT_MAX] at *; omega) (by simp only [INT_MAX] at *; omega)
  have hs : sizeT (n.length : Int) = n.length := by rw [sizeT_nat]
  have hr : wrapPtr (v.data + ((h.length : Int) - n.length)) = v.data + h.length - n.length + 18446744073709551616 := by
    rw [wrapPtr, if_pos (by omega)]; omega
  simp only [find_last, hv.size, hw.size, hd, Res.bind_ok, hr]
  rw [if_pos ⟨by omega, by omega⟩]
  obtain ⟨k, hk⟩ : ∃ k, (v.data + h.length - n.length + 18446744073709551616 - v.data).toNat + 3 = k + 1 := ⟨_, rfl⟩
  rw [hk, find_last_loop, if_pos ⟨by simp only [INT_MAX] at *; omega, rfl⟩, hw.size, hs, hc]
  rfl

/-- C08, the missing case is false for every haystack so close to address 0, with every needle: unless the memory that many bytes below the end of the address
space can be read, the search is undefined. -/
theorem C08_every_low_address_deviation {m : Mem} {v w : View} {h n : List Byte} (hv : ViewOf m v h) (hw : ViewOf m w n)
    (hlow : v.data + h.length < n.length) (hfree : load m (v.data + h.length - n.length + 18446744073709551616) = .ub .badRead) :
    strview_find_last_strview m v w = .ub .badRead ∧ strview_find_last_nocase_strview m v w = .ub .badRead := by
  obtain ⟨x, t, rfl⟩ : ∃ x t, n = x :: t := by
    cases n with
    | nil => have := hv.pos; simp only [List.length_nil] at hlow; omega
    | cons x t => exact ⟨x, t, rfl⟩
  refine ⟨find_last_low hv hw hlow ?_, find_last_low hv hw hlow ?_⟩
  · simp only [memcmp, List.length_cons, readBytes] at hfree ⊢
    rw [hfree]; rfl
  · simp only [memcmp_nocase, List.length_cons] at hfree ⊢
    rw [hfree]; rfl

example : strview_find_last_strview (memAt 1 [97, 98, 99, 100]) ⟨1, 1⟩ ⟨2, 3⟩ = .ub .badRead :=
  (C08_every_low_address_deviation (h := [97]) (n := [98, 99, 100]) (viewOf_memAt_part 1 _ 0 1 _ (by decide) (by decide) (by decide) (by decide) rfl)
    (viewOf_memAt_part 1 _ 1 3 _ (by decide) (by decide) (by decide) (by decide) rfl) (by decide) (by decide +kernel)).1

theorem contains_props {comp : CompFunc} {f : Byte → Byte} (hc : CompOK comp f) {m : Mem}
    {v w : View} {h n : List Byte} (hv : ViewOf m v h) (hw : ViewOf m w n) :
    ∃ r, find_first m comp v w = .ok r ∧ (strview_is_valid r = true ↔ ∃ i, OccursAt f n h i) := by
  have := hv.pos
  rcases find_first_props hc hv hw with ⟨i, h1, h2, -⟩ | ⟨h1, h2⟩
  · refine ⟨_, h2, ?_⟩
    rw [is_valid_iff]
    simp only [View.part]
    exact ⟨fun _ => ⟨i, h1.1⟩, fun _ => by omega⟩
  · refine ⟨_, h2, ?_⟩
    rw [is_valid_iff]
    simp only [View.invalid, ne_eq, not_true, false_iff, not_exists]
    exact h1

theorem exists_occursAt_id {n h : List Byte} : (∃ i, OccursAt id n h i) ↔ n <:+: h := by
  constructor
  · rintro ⟨i, pre, mid, post, rfl, -, hm⟩
    simp only [List.map_id] at hm
    subst hm
    exact ⟨pre, post, rfl⟩
  · rintro ⟨pre, post, rfl⟩
    exact ⟨pre.length, pre, n, post, rfl, rfl, rfl⟩

/-- C09. `strview_contains` decides "occurs contiguously". -/
theorem C09_contains {m : Mem} {v w : View} {h n : List Byte} (hv : ViewOf m v h) (hw : ViewOf m w n) :
    ∃ r, strview_contains m v w = .ok r ∧ (r = true ↔ n <:+: h) := by
  obtain ⟨r, h1, h2⟩ := contains_props compOK_memcmp hv hw
  refine ⟨strview_is_valid r, ?_, by rw [h2, exists_occursAt_id]⟩
  simp only [strview_contains, strview_find_first_strview, h1, Res.bind_ok]

/-- C09, case-insensitive. -/
theorem C09_contains_nocase {m : Mem} {v w : View} {h n : List Byte} (hv : ViewOf m v h)
    (hw : ViewOf m w n) :
    ∃ r, strview_contains_nocase m v w = .ok r ∧ (r = true ↔ ∃ i, OccursAt toUpper n h i) := by
  obtain ⟨r, h1, h2⟩ := contains_props compOK_nocase hv hw
  refine ⟨strview_is_valid r, ?_, h2⟩
  simp only [strview_contains_nocase, strview_find_first_nocase_strview, h1, Res.bind_ok]

/-- C09. `strview_contains` agrees with the validity of `strview_find_first` and `strview_find_last`. -/
theorem C09_agrees_with_find {m : Mem} {v w : View} {h n : List Byte} (hv : ViewOf m v h)
    (hw : ViewOf m w n) (hlow : (n.length : Int) ≤ v.data + h.length) :
    ∃ r f l, strview_contains m v w = .ok r ∧ strview_find_first_strview m v w = .ok f ∧
      strview_find_last_strview m v w = .ok l ∧ r = strview_is_valid f ∧ r = strview_is_valid l := by
  obtain ⟨f, h1, h2⟩ := contains_props compOK_memcmp hv hw
  have hpos := hv.pos
  rcases C08_find_last_partial hv hw hlow with ⟨i, ⟨ho, -⟩, -, e⟩ | ⟨ho, e⟩
  · refine ⟨strview_is_valid f, f, _, by simp [strview_contains, strview_find_first_strview, h1], h1, e, rfl, ?_⟩
    rw [h2.2 ⟨i, ho⟩, eq_comm, is_valid_iff]
    simp only [View.part]; omega
  · refine ⟨strview_is_valid f, f, _, by simp [strview_contains, strview_find_first_strview, h1], h1, e, rfl, ?_⟩
    have : ¬ strview_is_valid f = true := by rw [h2]; rintro ⟨i, hi⟩; exact ho i hi
    simp only [Bool.not_eq_true] at this
    rw [this]; rfl

example : strview_contains (memAt 1000 [97, 98, 99, 98, 66]) ⟨1000, 3⟩ ⟨1003, 1⟩ = .ok true ∧
    strview_contains (memAt 1000 [97, 98, 99, 98, 66]) ⟨1000, 3⟩ ⟨1004, 1⟩ = .ok false ∧
    strview_contains_nocase (memAt 1000 [97, 98, 99, 98, 66]) ⟨1000, 3⟩ ⟨1004, 1⟩ = .ok true := by
  decide +kernel

end CStr
