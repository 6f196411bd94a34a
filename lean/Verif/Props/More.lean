import Verif.Props.BufSize
import Verif.Props.SplitQuotes
import Verif.Props.Misc
import Verif.Props.BufInsert

/-! Further cases of C06, C09, C21, C39: the one-sided trims, the case-insensitive searches, the C string forms, and the
positional insertions. -/

namespace CStr

/-! C06 -/

/-- C06. The one-sided trims keep a valid view valid, even if everything is trimmed. -/
theorem C06_one_sided_valid {m : Mem} {v c : View} {l cs : List Byte} (h : ViewOf m v l) (hc : Denotes m c cs) :
    (∃ r, strview_trim_start_strview m v c = .ok r ∧ strview_is_valid r = true) ∧
    (∃ r, strview_trim_end_strview m v c = .ok r ∧ strview_is_valid r = true) := by
  have := h.pos
  constructor
  · obtain ⟨pre, rest, -, -, -, o, -⟩ := C06_trim_start h.toDenotes hc
    refine ⟨_, o, ?_⟩
    rw [is_valid_iff]; simp only [View.part]; omega
  · obtain ⟨rest, suf, -, -, -, o, -⟩ := C06_trim_end h.toDenotes hc
    refine ⟨_, o, ?_⟩
    rw [is_valid_iff]; simp only [View.part]; omega

example : (∃ r, strview_trim_start_strview (memAt 1000 [32, 9, 32, 9]) ⟨1000, 2⟩ ⟨1002, 2⟩ = .ok r ∧ strview_is_valid r = true) ∧
    strview_trim_start_strview (memAt 1000 [32, 9, 32, 9]) ⟨1000, 2⟩ ⟨1002, 2⟩ = .ok ⟨1002, 0⟩ ∧
    strview_trim_end_strview (memAt 1000 [32, 9, 32, 9]) ⟨1000, 2⟩ ⟨1002, 2⟩ = .ok ⟨1000, 0⟩ :=
  ⟨(C06_one_sided_valid (l := [32, 9]) (cs := [32, 9])
      (viewOf_memAt_part 1000 _ 0 2 _ (by decide) (by decide) (by decide) (by decide) rfl)
      (viewOf_memAt_part 1000 _ 2 2 _ (by decide) (by decide) (by decide) (by decide) rfl).toDenotes).1,
   by decide +kernel, by decide +kernel⟩

/-- C06. The one-sided trims are idempotent. -/
theorem C06_one_sided_idempotent {m : Mem} {v c : View} {l cs : List Byte} (h : Denotes m v l) (hc : Denotes m c cs) :
    (∃ r, strview_trim_start_strview m v c = .ok r ∧ strview_trim_start_strview m r c = .ok r) ∧
    (∃ r, strview_trim_end_strview m v c = .ok r ∧ strview_trim_end_strview m r c = .ok r) := by
  constructor
  · obtain ⟨pre, rest, -, -, q, o, d⟩ := C06_trim_start h hc
    exact ⟨_, o, trim_start_noop d hc q⟩
  · obtain ⟨rest, suf, -, -, q, o, d⟩ := C06_trim_end h hc
    exact ⟨_, o, trim_end_noop d hc q⟩

example : (∃ r, strview_trim_end_strview (memAt 1000 [97, 32, 9, 32, 9]) ⟨1000, 3⟩ ⟨1003, 2⟩ = .ok r ∧
      strview_trim_end_strview (memAt 1000 [97, 32, 9, 32, 9]) r ⟨1003, 2⟩ = .ok r) ∧
    strview_trim_end_strview (memAt 1000 [97, 32, 9, 32, 9]) ⟨1000, 3⟩ ⟨1003, 2⟩ = .ok ⟨1000, 1⟩ :=
  ⟨(C06_one_sided_idempotent (l := [97, 32, 9]) (cs := [32, 9])
      (viewOf_memAt_part 1000 _ 0 3 _ (by decide) (by decide) (by decide) (by decide) rfl).toDenotes
      (viewOf_memAt_part 1000 _ 3 2 _ (by decide) (by decide) (by decide) (by decide) rfl).toDenotes).2,
   by decide +kernel⟩

/-! C09 -/

/-- C09. `strview_contains_nocase` agrees with the case-insensitive searches from both ends (from the end, away from the low addresses of
`C08_every_low_address_deviation`). -/
theorem C09_agrees_with_find_nocase {m : Mem} {v w : View} {h n : List Byte} (hv : ViewOf m v h)
    (hw : ViewOf m w n) (hlow : (n.length : Int) ≤ v.data + h.length) :
    ∃ r f l, strview_contains_nocase m v w = .ok r ∧ strview_find_first_nocase_strview m v w = .ok f ∧
      strview_find_last_nocase_strview m v w = .ok l ∧ r = strview_is_valid f ∧ r = strview_is_valid l := by
  obtain ⟨f, h1, h2⟩ := contains_props compOK_nocase hv hw
  have hpos := hv.pos
  have h1' : strview_contains_nocase m v w = .ok (strview_is_valid f) := by
    simp [strview_contains_nocase, strview_find_first_nocase_strview, h1]
  rcases C08_find_last_nocase_partial hv hw hlow with ⟨i, ⟨ho, -⟩, -, e⟩ | ⟨ho, e⟩
  · refine ⟨strview_is_valid f, f, _, h1', h1, e, rfl, ?_⟩
    rw [h2.2 ⟨i, ho⟩, eq_comm, is_valid_iff]
    simp only [View.part]; omega
  · refine ⟨strview_is_valid f, f, _, h1', h1, e, rfl, ?_⟩
    have : ¬ strview_is_valid f = true := by rw [h2]; rintro ⟨i, hi⟩; exact ho i hi
    simp only [Bool.not_eq_true] at this
    rw [this]; rfl

example : (∃ r f l, strview_contains_nocase (memAt 1000 [97, 98, 99, 66]) ⟨1000, 3⟩ ⟨1003, 1⟩ = .ok r ∧
      strview_find_first_nocase_strview (memAt 1000 [97, 98, 99, 66]) ⟨1000, 3⟩ ⟨1003, 1⟩ = .ok f ∧
      strview_find_last_nocase_strview (memAt 1000 [97, 98, 99, 66]) ⟨1000, 3⟩ ⟨1003, 1⟩ = .ok l ∧
      r = strview_is_valid f ∧ r = strview_is_valid l) ∧
    strview_contains_nocase (memAt 1000 [97, 98, 99, 66]) ⟨1000, 3⟩ ⟨1003, 1⟩ = .ok true :=
  ⟨C09_agrees_with_find_nocase (h := [97, 98, 99]) (n := [66])
      (viewOf_memAt_part 1000 _ 0 3 _ (by decide) (by decide) (by decide) (by decide) rfl)
      (viewOf_memAt_part 1000 _ 3 1 _ (by decide) (by decide) (by decide) (by decide) rfl) (by decide), by decide +kernel⟩

/-! C21 -/

theorem cstr_any {m : Mem} {p : Addr} (hp : p = 0 ∨ ∃ s, CString m p s) : ∃ w, cstr m p = .ok w ∧ AnyView m w := by
  rcases hp with rfl | ⟨s, hp⟩
  · exact ⟨_, cstr_null m, .inl rfl⟩
  · exact ⟨_, cstr_eq hp, .inr ⟨s, hp.viewOf⟩⟩

/-- C21 for the remaining functions that take a C string (possibly NULL). -/
theorem C21_cstr_functions_safe {m : Mem} {a : View} (ha : AnyView m a) {p : Addr} (hp : p = 0 ∨ ∃ s, CString m p s) :
    Defined (strview_is_match_nocase_cstr m a p) ∧ Defined (strview_starts_with_nocase_cstr m a p) ∧
    Defined (strview_find_first_nocase_cstr m a p) ∧
    Defined (strview_trim_start_cstr m a p) ∧ Defined (strview_trim_end_cstr m a p) := by
  obtain ⟨w, hw, hwv⟩ := cstr_any hp
  obtain ⟨-, s2, -, s4, -, -, -, -, s9, s10, s11, -⟩ := C21_view_functions_safe ha hwv
  refine ⟨?_, ?_, ?_, ?_, ?_⟩
  · simpa [strview_is_match_nocase_cstr, hw] using s2
  · simpa [strview_starts_with_nocase_cstr, hw] using s4
  · simp only [strview_find_first_nocase_cstr, hw, Res.bind_ok]; exact s9
  · simpa [strview_trim_start_cstr, hw] using s10
  · simpa [strview_trim_end_cstr, hw] using s11

example : Defined (strview_trim_end_cstr (memAt 1000 [97, 98, 0]) ⟨1000, 2⟩ 1001) ∧
    Defined (strview_find_first_nocase_cstr (memAt 1000 [97, 98, 0]) .invalid 0) :=
  ⟨(C21_cstr_functions_safe (.inr ⟨[97, 98], viewOf_memAt_part 1000 _ 0 2 _ (by decide) (by decide) (by decide) (by decide) rfl⟩)
      (.inr ⟨[98], cstring_memAt 1000 _ 1 _ (by decide) (by decide) (by decide) (by decide) (by decide) (by decide)⟩)).2.2.2.2,
   (C21_cstr_functions_safe (.inl rfl) (.inl rfl)).2.2.1⟩

/-- C21 for the C string forms of `strview_find_last`, partial: as `C21_find_last_safe_partial`. -/
theorem C21_find_last_cstr_safe_partial {m : Mem} {a : View} (ha : AnyView m a) {p : Addr}
    (hp : p = 0 ∨ ∃ s, CString m p s ∧ (s.length : Int) ≤ a.data + a.size) :
    Defined (strview_find_last_cstr m a p) ∧ Defined (strview_find_last_nocase_cstr m a p) := by
  have hw : ∃ w, cstr m p = .ok w ∧ AnyView m w ∧ w.size ≤ a.data + a.size := by
    rcases hp with rfl | ⟨s, hp, hl⟩
    · refine ⟨_, cstr_null m, .inl rfl, ?_⟩
      rcases ha with rfl | ⟨l, ha⟩
      · simp [View.invalid]
      · have := ha.pos; rw [ha.size]; simp only [View.invalid]; omega
    · exact ⟨_, cstr_eq hp, .inr ⟨s, hp.viewOf⟩, hl⟩
  obtain ⟨w, hw, hwv, hl⟩ := hw
  simp only [strview_find_last_cstr, strview_find_last_nocase_cstr, hw, Res.bind_ok]
  exact C21_find_last_safe_partial ha hwv hl

example : Defined (strview_find_last_cstr (memAt 1000 [97, 98, 0]) ⟨1000, 2⟩ 1001) ∧
    strview_find_last_cstr (memAt 1000 [97, 98, 0]) ⟨1000, 2⟩ 1001 = .ok ⟨1001, 1⟩ :=
  ⟨(C21_find_last_cstr_safe_partial
      (.inr ⟨[97, 98], viewOf_memAt_part 1000 _ 0 2 _ (by decide) (by decide) (by decide) (by decide) rfl⟩)
      (.inr ⟨[98], cstring_memAt 1000 _ 1 _ (by decide) (by decide) (by decide) (by decide) (by decide) (by decide), by decide⟩)).1,
   by decide +kernel⟩

/-- C13, C21. Without delimiters (NULL) the whole valid source is the only token. -/
theorem C13_split_all_null {m : Mem} {v : View} {l : List Byte} (h : ViewOf m v l) (excl : Bool) (dst : List View) (dst_size : Int)
    (hdst : dst_size ≤ dst.length) :
    strview_split_all m dst_size dst v 0 excl =
      if 0 < dst_size then .ok (1, v :: dst.drop 1) else .ok (0, dst) := by
  have hval : strview_is_valid v = true := is_valid_iff.2 h.ne_zero
  have hinv : strview_is_valid View.invalid = false := rfl
  have hsplit : split_first_nn m v 0 excl = .ok (v, .invalid) := by
    simp [split_first_nn, cstr_null, split_first_delim, View.invalid]
  rw [strview_split_all]
  by_cases hd : 0 < dst_size
  · cases dst with
    | nil => simp only [List.length_nil] at hdst; omega
    | cons d dst => simp [split_all_loop, hval, hinv, hd, hsplit, setAt]
  · simp [split_all_loop, hd]

example : strview_split_all (memAt 1000 [97, 44, 98]) 2 [.invalid, .invalid] ⟨1000, 3⟩ 0 false = .ok (1, [⟨1000, 3⟩, .invalid]) := by
  simpa using C13_split_all_null (viewOf_memAt 1000 [97, 44, 98] (by decide) (by decide) (by decide)) false [.invalid, .invalid] 2 (by decide)

/-- C21 for `strview_split_all`: any view, delimiters possibly NULL, quoted or not, any destination array of at least `dst_size` elements. -/
theorem C21_split_all_safe {m : Mem} {a : View} (ha : AnyView m a) {p : Addr} (hp : p = 0 ∨ ∃ s, CString m p s) (excl : Bool)
    (dst : List View) (dst_size : Int) (hdst : dst_size ≤ dst.length) :
    Defined (strview_split_all m dst_size dst a p excl) := by
  rcases ha with rfl | ⟨l, ha⟩
  · exact ⟨_, C13_split_all_invalid m p excl dst dst_size⟩
  rcases hp with rfl | ⟨s, hp⟩
  · have h := C13_split_all_null ha excl dst dst_size hdst
    split at h <;> exact ⟨_, h⟩
  cases excl with
  | false =>
    obtain ⟨toks, ht, -⟩ := C13_tokens_exist_unique s l
    obtain ⟨vs, -, -, h⟩ := C13_split_all ha hp ht dst dst_size hdst
    exact ⟨_, h⟩
  | true =>
    obtain ⟨toks, ht, -⟩ := C77_tokens_exist_unique s l
    obtain ⟨vs, -, -, h⟩ := C77_split_all ha hp ht dst dst_size hdst
    exact ⟨_, h⟩

example : Defined (strview_split_all (memAt 1000 [97, 44, 34, 44, 0]) 2 [.invalid, .invalid, .invalid] ⟨1000, 3⟩ 1003 true) :=
  C21_split_all_safe (.inr ⟨[97, 44, 34], viewOf_memAt_part 1000 _ 0 3 _ (by decide) (by decide) (by decide) (by decide) rfl⟩)
    (.inr ⟨[44], cstring_memAt 1000 _ 3 _ (by decide) (by decide) (by decide) (by decide) (by decide) (by decide)⟩) true _ 2 (by decide)

/-- C21 for a NULL pointer to the source view: nothing is read, an invalid view (or NUL) is returned. -/
theorem C21_null_source_safe (m : Mem) (b : View) (p : Addr) (excl : Bool) (i : Int) (eol : Option Byte) :
    strview_split_first_delim m none p excl = .ok (.invalid, none) ∧
    strview_split_last_delim m none p excl = .ok (.invalid, none) ∧
    strview_split_index none i = .ok (.invalid, none) ∧
    strview_split_left none b = .ok (.invalid, none) ∧ strview_split_right none b = .ok (.invalid, none) ∧
    strview_split_line m none eol = .ok (.invalid, none, eol) ∧
    strview_pop_first_char m none = .ok (0, none) := by
  refine ⟨rfl, rfl, rfl, rfl, rfl, ?_, rfl⟩
  first | rfl | (cases eol <;> rfl)

example : strview_split_line (memAt 1000 []) none (some 13) = .ok (.invalid, none, some 13) :=
  (C21_null_source_safe (memAt 1000 []) .invalid 0 false 0 (some 13)).2.2.2.2.2.1

/-! C39 -/

/-- C39. A dynamic buffer, wrapping arithmetic: insertion relative to a place in the buffer. -/
theorem C39_dynamic_located {cfg : Cfg} (hcfg : cfg.Ok) (hw : cfg.wrapv = true) {s : St} (hs : s.Sane) {p : Addr} {b : Buf} (hb : BufAt s p b)
    (hd : b.Dynamic) {v : View} {S : List Byte} (hv : Source s p b v S) {dst : View} {k : Nat} (hk : k ≤ b.data.length) (hval : dst.data ≠ 0) :
    (((b.data.length + S.length : Nat) : Int) ≤ INT_MAX →
      (dst.data = p + 24 + k → Yields s p b (strbuf_insert_before_strview cfg s (some p) dst v) (b.data.take k ++ S ++ b.data.drop k)
        (b.capFor cfg (b.data.length + S.length))) ∧
      (dst.data + dst.size = p + 24 + k → Yields s p b (strbuf_insert_after_strview cfg s (some p) dst v) (b.data.take k ++ S ++ b.data.drop k)
        (b.capFor cfg (b.data.length + S.length)))) ∧
    (INT_MAX < ((b.data.length + S.length : Nat) : Int) →
      (dst.data = p + 24 + k → Yields s p b (strbuf_insert_before_strview cfg s (some p) dst v) [] b.cap) ∧
      (dst.data + dst.size = p + 24 + k → Yields s p b (strbuf_insert_after_strview cfg s (some p) dst v) [] b.cap)) := by
  refine ⟨fun h => ⟨fun e => C35_insert_before hcfg hs hb hv hk e (.inr ⟨hd, h⟩) (.inl hw),
    fun e => C35_insert_after hcfg hs hb hv hk hval e (.inr ⟨hd, h⟩) (.inl hw)⟩, fun h => ?_⟩
  obtain ⟨-, -, -, h4, h5⟩ := insert_emptied hcfg hs hb hv (i := 0) (by decide) (Buf.over_fits hb.cap h) (capFor_over cfg h) (.inl hw)
  exact ⟨fun e => h4 dst (by omega) (by omega), fun e => h5 dst hval (by omega) (by omega)⟩

example : Yields (exSt exB (List.replicate 2147483647 65)) exP exB
    (strbuf_insert_before_strview exCfg (exSt exB (List.replicate 2147483647 65)) (some exP) ⟨exP + 24, 2⟩
      ⟨exQ, (List.replicate 2147483647 (65 : Byte)).length⟩) [] 8 :=
  ((C39_dynamic_located exCfg_ok rfl (exSt_sane exB_valid _) (exSt_buf exB_valid _) (by decide)
    (exSt_source exB_valid (by rw [List.length_replicate]; decide)) (k := 0) (by decide) (by decide)).2
    (by rw [List.length_replicate]; decide)).1 (by simp)

theorem insert_iso {cfg : Cfg} (hw : cfg.wrapv = false) {s : St} {p : Addr} {b : Buf} (hb : BufAt s p b)
    {v : View} {S : List Byte} (hv : Source s p b v S) (hbig : INT_MAX < ((b.data.length + S.length : Nat) : Int)) {i : Int} (hi : INT_MIN ≤ i) :
    insert_and_view cfg s p i v = .ub .signedOverflow := by
  simp only [insert_and_view, insert_strview_into_buf, contains_eq hb, Res.bind_ok, hb.getSize]
  rw [insert_index_eq cfg hb.sizeMax hi, Res.bind_ok, hv.size, add_ovf_iso hw (by omega)]
  rfl

/-- C39. Deviation, for every operation that inserts content, on fixed and dynamic buffers alike: under ISO C arithmetic a total size above
`INT_MAX` is undefined behaviour, not an emptied buffer. -/
theorem C39_iso_every_insertion {cfg : Cfg} (hw : cfg.wrapv = false) {s : St} {p : Addr} {b : Buf} (hb : BufAt s p b)
    {v : View} {S : List Byte} (hv : Source s p b v S) (hbig : INT_MAX < ((b.data.length + S.length : Nat) : Int)) {i : Int} (hi : INT_MIN ≤ i) :
    strbuf_append_strview cfg s (some p) v = .ub .signedOverflow ∧
    strbuf_prepend_strview cfg s (some p) v = .ub .signedOverflow ∧
    strbuf_insert_at_index_strview cfg s (some p) i v = .ub .signedOverflow ∧
    (∀ dst : View, p + 24 ≤ dst.data → dst.data ≤ p + 24 + b.data.length →
      strbuf_insert_before_strview cfg s (some p) dst v = .ub .signedOverflow) ∧
    (∀ dst : View, dst.data ≠ 0 → p + 24 ≤ dst.data + dst.size → dst.data + dst.size ≤ p + 24 + b.data.length →
      strbuf_insert_after_strview cfg s (some p) dst v = .ub .signedOverflow) := by
  have h : ∀ i, INT_MIN ≤ i → insert_and_view cfg s p i v = .ub .signedOverflow := fun i hi => insert_iso hw hb hv hbig hi
  refine ⟨C39_iso_deviation hw hb hv hbig, ?_, ?_, ?_, ?_⟩
  · simp only [strbuf_prepend_strview, deref_some hb.pos]; exact h _ (by decide)
  · simp only [strbuf_insert_at_index_strview, deref_some hb.pos]; exact h _ hi
  · intro dst h1 h2
    simp only [strbuf_insert_before_strview, deref_some hb.pos, hb.getSize, Res.bind_ok]
    rw [if_pos (by simp only [cstrOf, hdrLen]; omega)]
    exact h _ (by simp only [INT_MIN, cstrOf, hdrLen]; omega)
  · intro dst h0 h1 h2
    have hv' : strview_is_valid dst = true := by simp only [strview_is_valid]; exact decide_eq_true h0
    simp only [strbuf_insert_after_strview, deref_some hb.pos, hv', if_true, hb.getSize, Res.bind_ok]
    rw [if_pos (by simp only [cstrOf, hdrLen]; omega)]
    exact h _ (by simp only [INT_MIN, cstrOf, hdrLen]; omega)

example : strbuf_insert_before_strview isoCfg (exSt exB (List.replicate 2147483647 65)) (some exP) ⟨exP + 24, 2⟩
      ⟨exQ, (List.replicate 2147483647 (65 : Byte)).length⟩ = .ub .signedOverflow :=
  (C39_iso_every_insertion rfl (exSt_buf exB_valid _) (exSt_source exB_valid (by rw [List.length_replicate]; decide))
    (by rw [List.length_replicate]; decide) (i := 0) (by decide)).2.2.2.1 _ (by simp) (by simp; omega)

theorem scan_iso {cfg : Cfg} (hw : cfg.wrapv = false) {s : St} {p : Addr} {b : Buf} (hb : BufAt s p b) (args : List (View × List Byte))
    (ha : ∀ a ∈ args, Denotes s.mem a.1 a.2) :
    ∀ (n : Nat) (t : Bool), (n : Int) ≤ INT_MAX → INT_MAX < ((n + (args.map (·.2)).flatten.length : Nat) : Int) →
      vcat_scan cfg s.mem p (args.map (·.1)) n false t = .ub .signedOverflow := by
  induction args with
  | nil => intro n t h1 h2; simp only [List.map_nil, List.flatten_nil, List.length_nil] at h2; omega
  | cons a args ih =>
    intro n t h1 h2
    have hd := ha a (List.mem_cons_self ..)
    simp only [List.map_cons, List.flatten_cons, List.length_append] at h2
    simp only [List.map_cons, vcat_scan, hd.size, contains_eq hb]
    by_cases hle : ((n + a.2.length : Nat) : Int) ≤ INT_MAX
    · rw [add_ovf cfg (a := n) (b := a.2.length) h1 hd.max (.inr (by omega)), Res.bind_ok, addInt_ok cfg (by simp only [INT_MIN]; omega) (by omega), Res.bind_ok, Res.bind_ok]
      have hf : (decide (INT_MAX < (n : Int) + a.2.length)) = false := decide_eq_false (by omega)
      rw [hf, Bool.or_false]
      have := ih (fun a h => ha a (List.mem_cons_of_mem _ h)) (n + a.2.length) (t || decide (a.1.Into p b)) hle (by omega)
      rw [← Int.natCast_add]
      exact this
    · rw [add_ovf_iso hw (by omega)]; rfl

/-- C39. Deviation for concatenation: the same, whatever the arguments are. -/
theorem C39_iso_cat_deviation {cfg : Cfg} (hw : cfg.wrapv = false) {s : St} {p : Addr} {b : Buf} (hb : BufAt s p b)
    {args : List (View × List Byte)} (ha : ∀ a ∈ args, Source s p b a.1 a.2) (hbig : INT_MAX < ((args.map (·.2)).flatten.length : Int)) :
    strbuf_cat cfg s (some p) (args.map (·.1)) = .ub .signedOverflow := by
  have h := scan_iso hw hb args (fun a h => (ha a h).toDenotes) 0 false (by decide) (by omega)
  simp only [strbuf_cat, deref_some hb.pos, buffer_vcat]
  rw [show ((0 : Nat) : Int) = 0 from rfl] at h
  rw [h]; rfl

-- a view of more than INT_MAX / 2 bytes (such as `List.replicate 2147483647 65`), twice
example {S : List Byte} (h1 : (S.length : Int) ≤ INT_MAX) (h2 : INT_MAX < ((S.length + S.length : Nat) : Int)) :
    strbuf_cat isoCfg (exSt exB S) (some exP) [⟨exQ, S.length⟩, ⟨exQ, S.length⟩] = .ub .signedOverflow :=
  C39_iso_cat_deviation (args := [(⟨exQ, S.length⟩, S), (⟨exQ, S.length⟩, S)]) rfl (exSt_buf exB_valid _) (by
      intro a ha
      simp only [List.mem_cons, List.not_mem_nil, or_false, or_self] at ha
      subst ha
      exact exSt_source exB_valid h1)
    (by simpa using h2)

end CStr
