import Verif.Spec.Macros
import Verif.Lemmas.Mem
import Verif.Props.Compare
import Verif.Props.BufInsert
import Verif.Props.BufCat
import Verif.Props.BufLife
/-! Property C74: the macros. -/
namespace CStr

theorem CArg.Str.denotes {m : Mem} {x : CArg} {v : View} {l : List Byte} (h : x.Str m v l) : Denotes m v l := by
  cases x with
  | charPtr a => obtain ⟨h, rfl⟩ := h; exact h.viewOf.toDenotes
  | constCharPtr a => obtain ⟨h, rfl⟩ := h; exact h.viewOf.toDenotes
  | view w => obtain ⟨h, rfl⟩ := h; exact h
  | _ => exact h.elim

theorem generic_str {α : Type} {m : Mem} {x : CArg} {v : View} {l : List Byte} (h : x.Str m v l) {f : Addr → Res α} {g : View → Res α}
    (hf : ∀ a, f a = cstr m a >>= g) : generic (strAssoc f g) x = some (g v) := by
  cases x with
  | charPtr a => obtain ⟨h, rfl⟩ := h; show some (f a) = _; rw [hf, cstr_eq h]; rfl
  | constCharPtr a => obtain ⟨h, rfl⟩ := h; show some (f a) = _; rw [hf, cstr_eq h]; rfl
  | view w => obtain ⟨h, rfl⟩ := h; rfl
  | _ => exact h.elim

/-- C74. The macros of strview.h accept a `char*`, a `const char*` or a `strview_t`, and do for each the same as for a view of the characters. -/
theorem C74_view {m : Mem} {x : CArg} {v : View} {l : List Byte} (h : x.Str m v l) (s : View) :
    strview_is_match m s x = some (strview_is_match_strview m s v) ∧
    strview_is_match_nocase m s x = some (strview_is_match_nocase_strview m s v) ∧
    strview_starts_with m s x = some (strview_starts_with_strview m s v) ∧
    strview_starts_with_nocase m s x = some (strview_starts_with_nocase_strview m s v) ∧
    strview_trim m s x = some (strview_trim_strview m s v) ∧
    strview_trim_start m s x = some (strview_trim_start_strview m s v) ∧
    strview_trim_end m s x = some (strview_trim_end_strview m s v) ∧
    strview_find_first m s x = some (strview_find_first_strview m s v) ∧
    strview_find_first_nocase m s x = some (strview_find_first_nocase_strview m s v) ∧
    strview_find_last m s x = some (strview_find_last_strview m s v) ∧
    strview_find_last_nocase m s x = some (strview_find_last_nocase_strview m s v) :=
  ⟨generic_str h fun _ => rfl, generic_str h fun _ => rfl, generic_str h fun _ => rfl, generic_str h fun _ => rfl, generic_str h fun _ => rfl,
   generic_str h fun _ => rfl, generic_str h fun _ => rfl, generic_str h fun _ => rfl, generic_str h fun _ => rfl, generic_str h fun _ => rfl,
   generic_str h fun _ => rfl⟩

/-- C74. So do those of strbuf.h. -/
theorem C74_buf {s : St} {x : CArg} {v : View} {l : List Byte} (h : x.Str s.mem v l) (cfg : Cfg) (bp : Option Addr) (i : Int) (d : View) :
    strbuf_append cfg s bp x = some (strbuf_append_strview cfg s bp v) ∧
    strbuf_prepend cfg s bp x = some (strbuf_prepend_strview cfg s bp v) ∧
    strbuf_insert_at_index cfg s bp i x = some (strbuf_insert_at_index_strview cfg s bp i v) ∧
    strbuf_insert_before cfg s bp d x = some (strbuf_insert_before_strview cfg s bp d v) ∧
    strbuf_insert_after cfg s bp d x = some (strbuf_insert_after_strview cfg s bp d v) ∧
    strbuf_strip cfg s bp x = some (strbuf_strip_strview cfg s bp v) :=
  ⟨generic_str h fun _ => rfl, generic_str h fun _ => rfl, generic_str h fun _ => rfl, generic_str h fun _ => rfl, generic_str h fun _ => rfl,
   generic_str h fun _ => rfl⟩

/-- C74. For example, comparison with a string literal decides whether the view has the characters of the literal. -/
theorem C74_is_match {m : Mem} {v w : View} {x : CArg} {l r : List Byte} (hv : Denotes m v l) (hx : x.Str m w r) :
    strview_is_match m v x = some (.ok (decide (l = r))) := by
  rw [(C74_view hx v).1, C01_is_match_iff_contents_equal hv hx.denotes]

/-- C74. The NULL pointer is accepted like the invalid view. -/
theorem C74_null {m : Mem} (s : View) (cfg : Cfg) (st : St) (bp : Option Addr) :
    strview_is_match m s (.constCharPtr 0) = some (strview_is_match_strview m s .invalid) ∧
    strview_find_first m s (.constCharPtr 0) = some (strview_find_first_strview m s .invalid) ∧
    strbuf_append cfg st bp (.constCharPtr 0) = some (strbuf_append_strview cfg st bp .invalid) := ⟨rfl, rfl, rfl⟩

/-- C74. `strbuf_create` with a number, a `size_t` or an `int` that is not negative, creates an empty buffer with at least that capacity. -/
theorem C74_create_size (cfg : Cfg) (dflt : Alloc) (s : St) (n : Nat) (hn : (n : Int) ≤ INT_MAX) (al : Option Alloc) :
    strbuf_create cfg dflt s (.sizeT n) al = some (strbuf_create_empty dflt s n al) ∧
    strbuf_create cfg dflt s (.int n) al = some (strbuf_create_empty dflt s n al) := by
  refine ⟨rfl, ?_⟩
  show some (strbuf_create_empty dflt s (sizeT n) al) = _
  rw [show sizeT (n : Int) = n by simp [sizeT]; omega]

/-- C74. With a negative number it returns NULL and does nothing. -/
theorem C74_create_negative (cfg : Cfg) (dflt : Alloc) (s : St) (i : Int) (h0 : i < 0) (h1 : INT_MIN ≤ i) (al : Option Alloc) :
    strbuf_create cfg dflt s (.int i) al = some (.ok (0, s)) := by
  show some (strbuf_create_empty dflt s (sizeT i) al) = _
  have : ¬ ((sizeT i : Nat) : Int) ≤ INT_MAX := by
    simp only [sizeT, if_pos h0, INT_MIN, INT_MAX] at *; omega
  simp [strbuf_create_empty, this]

/-- C74. With a view it creates a buffer with that content. -/
theorem C74_create_view (cfg : Cfg) (dflt : Alloc) (s : St) (v : View) (al : Option Alloc) :
    strbuf_create cfg dflt s (.view v) al = some (strbuf_create_init cfg dflt s v al) := rfl

/-- C74. `cstr_SL` of a literal views all its characters, also those behind a NUL. -/
theorem C74_cstr_SL {m : Mem} {a : Addr} {l : List Byte} (hp : 0 < a) (hl : (l.length : Int) ≤ INT_MAX) (h : Holds m a (l ++ [0])) :
    ViewOf m (cstr_SL a l) l := by
  refine { size := ?_, max := hl, holds := (Holds.append_iff.1 h).1, pos := hp }
  simp only [cstr_SL, castS, INT_MAX] at *
  rw [Int.bmod_def]; omega

/-- C74. Without a NUL among them it is the same as `cstr`. -/
theorem C74_cstr_SL_eq {m : Mem} {a : Addr} {l : List Byte} (h : CString m a l) : cstr m a = .ok (cstr_SL a l) := by
  rw [cstr_eq h]
  have := (C74_cstr_SL h.pos h.max h.holds).size
  congr 1
  simp only [cstr_SL] at *
  rw [this]

/-- C74. The macro `strbuf_cat` passes on all its arguments, if there are 1 to 127 of them. -/
theorem C74_cat_partial (cfg : Cfg) (s : St) (bp : Option Addr) (args : List View) (h1 : 1 ≤ args.length) (h2 : args.length ≤ 127) :
    strbuf_cat_macro cfg s bp args = some (strbuf_cat cfg s bp args) := by
  have hseq : ∀ i : Fin 128, PP_RSEQ_N[i.val]? = some (127 - (i.val : Int)) := by decide
  have hn : PP_NARG args = some (.num args.length) := by
    rw [PP_NARG, PP_128TH_ARG, List.getElem?_append_right (by simpa using h2)]
    have := hseq ⟨127 - args.length, by omega⟩
    simp only [List.length_map, List.getElem?_map]
    rw [this]
    simp only [Option.map_some, Option.some.injEq, Tok.num.injEq]; omega
  rw [strbuf_cat_macro, hn]
  simp only [strbuf_cat_n, strbuf_cat]
  cases deref bp with
  | none => rfl
  | some p => simp

/-- C74, without the macro: `_strbuf_cat` and `strbuf_vcat` are told the number of arguments. Told a number no larger than what is passed they
concatenate that many, and ignore the others; told another number they are undefined. Without a buffer, nothing is fetched. -/
theorem C74_cat_count (cfg : Cfg) (s : St) (bp : Option Addr) (args : List View) (n : Int) :
    (0 ≤ n → n ≤ args.length → strbuf_cat_n cfg s bp n args = strbuf_cat cfg s bp (args.take n.toNat)) ∧
    (n < 0 ∨ args.length < n → deref bp ≠ none → strbuf_cat_n cfg s bp n args = .ub .badArg) ∧
    (deref bp = none → strbuf_cat_n cfg s bp n args = .ok (.invalid, bp, s)) := by
  refine ⟨fun h1 h2 => ?_, fun h hd => ?_, fun h => ?_⟩
  · simp only [strbuf_cat_n, strbuf_cat]
    cases deref bp with
    | none => rfl
    | some p => simp only; rw [if_pos ⟨h1, h2⟩]
  · simp only [strbuf_cat_n]
    cases hb : deref bp with
    | none => exact absurd hb hd
    | some p => simp only; rw [if_neg (by omega)]
  · simp only [strbuf_cat_n, h]

-- one view too many: undefined; one too few: the second is ignored
example : strbuf_cat_n isoCfg (exSt exF []) (some exP) 3 [⟨exP + 24, 2⟩, ⟨exP + 24, 1⟩] = .ub .badArg :=
  (C74_cat_count _ _ _ _ _).2.1 (.inr (by decide)) (by decide)
example : strbuf_cat_n isoCfg (exSt exF []) (some exP) 1 [⟨exP + 24, 2⟩, ⟨exP + 24, 1⟩] = strbuf_cat isoCfg (exSt exF []) (some exP) [⟨exP + 24, 2⟩] :=
  (C74_cat_count _ _ _ _ _).1 (by decide) (by decide)

/-- C74. With more than 127 arguments the macro does not work: the 128th argument is taken for their number, which does not compile. -/
theorem C74_cat_deviation (cfg : Cfg) (s : St) (bp : Option Addr) (args : List View) (h : 128 ≤ args.length) :
    strbuf_cat_macro cfg s bp args = none := by
  have hn : PP_NARG args = some (.arg args[127]) := by
    rw [PP_NARG, PP_128TH_ARG, List.getElem?_append_left (by simp; omega)]
    simp
  rw [strbuf_cat_macro, hn]

-- a literal is found, whatever the type of the argument
example : strview_is_match (memAt 100 [97, 98, 0, 97, 98, 99]) ⟨103, 2⟩ (.constCharPtr 100) = some (.ok true) :=
  C74_is_match (l := [97, 98]) (r := [97, 98]) (w := ⟨100, 2⟩)
    { size := rfl, max := by decide, holds := ((holds_memAt 100 [97, 98, 0, 97, 98, 99] (by decide) (by decide)).drop 3 (by decide)).take 2 }
    ⟨⟨by decide, by decide, by decide, (holds_memAt 100 [97, 98, 0, 97, 98, 99] (by decide) (by decide)).take 3⟩, rfl⟩
-- a type no macro lists is not accepted
example (m : Mem) (v : View) (a : Addr) : strview_is_match m v (.ucharPtr a) = none := rfl
example (cfg : Cfg) (al : Alloc) (s : St) : strbuf_create cfg al s (.uint 5) none = none := rfl
example (cfg : Cfg) (s : St) (p : Addr) (v w : View) : strbuf_cat_macro cfg s (some p) [v, w, v] = some (strbuf_cat cfg s (some p) [v, w, v]) :=
  C74_cat_partial cfg s (some p) [v, w, v] (by simp) (by simp)
-- "a\0b"
example : cstr_SL 100 [97, 0, 98] = ⟨100, 3⟩ := by decide

end CStr
