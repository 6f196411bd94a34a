import Verif.Props.Prnf
import Verif.Lemmas.PrnfForm
/-! Property C67: every format string. -/
namespace CStr

/-- C67. Every text and every argument list: the text is a format string of well-formed items and the arguments start with those of the
items, or this is so up to the place of the first mistake, which is a placeholder without a type letter at the end of the text, a number that does not fit
into an `int`, or a placeholder for which the next arguments are not suitable. So the other theorems about the formatter cover everything else. -/
theorem C67_every_format (m : Mem) (t : List Byte) (h0 : (0 : Byte) ∉ t) (va : List VArg) :
    (∃ is more, t = formatText is ∧ va = formatArgs is ++ more ∧ ItemsOk m is) ∨
    ∃ is more u, t = formatText is ++ u ∧ va = formatArgs is ++ more ∧ ItemsBefore m (u ++ [0]) is ∧ (Malformed u ∨ BadArgs m more u) :=
  exists_items m t.length t (Nat.le_refl _) h0 va

/-- C67. The same for a call: it prints the output of the items, or there is a mistake in the format string or in the arguments. Missing for the
full property: `C67_overlong_deviation`, `C67_unfinished_deviation`. -/
theorem C67_call_partial {m : Mem} {fmt : Addr} {t : List Byte} (ht : Holds m fmt (t ++ [0])) (hsz : t.length < 2 ^ 64) (h0 : (0 : Byte) ∉ t)
    (va : List VArg) :
    (∃ is, t = formatText is ∧ (((formatOutput is).length : Int) ≤ INT_MAX →
      printed m fmt va = .ok (((formatOutput is).length : Int), formatOutput is))) ∨
    ∃ is more u, t = formatText is ++ u ∧ va = formatArgs is ++ more ∧ ItemsBefore m (u ++ [0]) is ∧ (Malformed u ∨ BadArgs m more u) := by
  rcases C67_every_format m t h0 va with ⟨is, more, rfl, rfl, hi⟩ | h
  · exact .inl ⟨is, rfl, fun hlen => C59_printed more ⟨ht, hsz, hi⟩ hlen⟩
  · exact .inr h

theorem printed_before {m : Mem} {fmt : Addr} {is : List FmtItem} {u : List Byte} (more : List VArg)
    (ht : Holds m fmt (formatText is ++ u ++ [0])) (hsz : (formatText is ++ u).length < 2 ^ 64) (hi : ItemsBefore m (u ++ [0]) is)
    (hlen : ((formatOutput is).length : Int) ≤ INT_MAX) :
    ∃ o : OutInfo (List Byte), ∃ k : Nat, printed m fmt (formatArgs is ++ more) =
      (core_loop (collect m) (k + 2) o (fmt + (formatText is).length) more >>= fun o => out_terminate (collect m) o >>= fun o => .ok (o.char_cnt, o.w)) := by
  have hI : Stable (collect m) INT_MAX (fun o : OutInfo (List Byte) => o.buf = 0) := by
    rintro o x o' hb hx -
    obtain ⟨o1, o2, h1, h2, rfl⟩ := out_char_inv hx
    obtain ⟨c1, c2, c3, c4, -⟩ := out_col_keep h2
    simp only [out_dest, hb, ne_eq, not_true, if_false, collect, Res.bind_ok, Res.ok.injEq] at h1
    subst h1
    simp only [c3]
  have hn := length_items is
  rw [List.length_append] at hsz
  obtain ⟨k, hk⟩ : ∃ k, strBound = is.length + (k + 2) := ⟨strBound - is.length - 2, by simp only [strBound]; omega⟩
  rw [formatOutput_eq] at hlen
  obtain ⟨o, ho⟩ : ∃ o, out_list (collect m) { w := [] } (formatRest [] is) = .ok o := by
    rw [out_list_handler rfl _ { w := [] } rfl (Int.le_refl 0) (Int.le_refl 0) (by simpa using hlen), foldlM_collect, Res.bind_ok]
    exact ⟨_, rfl⟩
  refine ⟨o, k, ?_⟩
  rw [printed, vfptrprnf, core_prnf, hk, core_loop_before hI more (u := u ++ [0]) (by simp) is (k + 2) fmt [] { w := [] } rfl
    (fun o _ => ⟨by rw [← List.append_assoc]; exact ht, hi⟩) (by simp only [strBound]; omega) rfl hlen (by simpa using hlen), ho, Res.bind_ok]

/-- C67. Deviation: a width, a precision or a column that does not fit into an `int` overflows, whatever stands before it and whatever
the arguments are. -/
theorem C67_overlong_deviation {m : Mem} {fmt : Addr} {is : List FmtItem} {u : List Byte} (more : List VArg)
    (ht : Holds m fmt (formatText is ++ u ++ [0])) (hsz : (formatText is ++ u).length < 2 ^ 64) (hi : ItemsBefore m (u ++ [0]) is)
    (hlen : ((formatOutput is).length : Int) ≤ INT_MAX) (hu : Overlong u) :
    printed m fmt (formatArgs is ++ more) = .ub .signedOverflow := by
  obtain ⟨o, k, e⟩ := printed_before more ht hsz hi hlen
  rw [List.append_assoc] at ht
  rw [List.length_append] at hsz
  rw [e, core_loop_overlong hu (k + 1) o _ more (Holds.append_iff.1 ht).2 (by simp only [strBound]; omega)]
  rfl

/-- C67. Deviation: if the format string ends before the type letter of a placeholder, the terminator is taken for the type letter and the code
reads what follows, here memory that is not readable. (`c` is the placeholder, with the terminator as its letter.) -/
theorem C67_unfinished_deviation {m : Mem} {fmt : Addr} {is : List FmtItem} {c : Conv} (more : List VArg)
    (ht : Holds m fmt (formatText is ++ c.stem ++ [0])) (hsz : (formatText is ++ c.stem).length < 2 ^ 64)
    (hi : ItemsBefore m (c.stem ++ [0]) is) (hlen : ((formatOutput is).length : Int) ≤ INT_MAX)
    (hl : c.letter = 0) (hc : c.Ok m) (hend : load m (fmt + ((formatText is ++ c.stem).length + 1 : Nat)) = .ub .badRead) :
    printed m fmt (formatArgs is ++ (c.args ++ more)) = .ub .badRead := by
  have hv : c.value = .other := by
    apply Classical.byContradiction
    intro h
    have := hc.letter.mem h
    rw [hl] at this
    exact absurd this (by decide)
  obtain ⟨o, k, e⟩ := printed_before (c.args ++ more) ht hsz hi hlen
  rw [List.append_assoc] at ht
  rw [List.length_append] at hsz hend
  rw [e, core_loop_unfinished (K := collect m) hv hl (k + 1) o _ more hc (Holds.append_iff.1 ht).2 (by simp only [strBound]; omega), core_loop]
  have : load m (fmt + ((formatText is).length : Int) + (c.stem.length + 1 : Nat)) = .ub .badRead := by
    rw [show fmt + ((formatText is).length : Int) + (c.stem.length + 1 : Nat) = fmt + ((formatText is).length + c.stem.length + 1 : Nat) by omega]
    exact hend
  simp only [collect]
  rw [this]
  rfl

-- `x%9999999999d` overflows, and so do `%5.9999999999f` and `\v9999999999`
example : printed (memAt 8000 [120, 37, 57, 57, 57, 57, 57, 57, 57, 57, 57, 57, 100, 0]) 8000 [.int 7] = .ub .signedOverflow :=
  C67_overlong_deviation (is := [.lit 120]) (u := [37, 57, 57, 57, 57, 57, 57, 57, 57, 57, 57, 100]) [.int 7]
    (holds_memAt _ _ (by decide) (by decide)) (by decide) ⟨⟨by decide, by decide, by decide⟩, trivial⟩ (by decide)
    (.width [] [57, 57, 57, 57, 57, 57, 57, 57, 57, 57] [100] ⟨by decide, by decide⟩ (by decide))
example : Overlong [37, 53, 46, 57, 57, 57, 57, 57, 57, 57, 57, 57, 57, 102] :=
  .prec ⟨[], some (.digits [53]), none, .none, 0, .other⟩ ⟨by rintro w ⟨⟩; exact ⟨⟨by decide, by decide⟩, by rintro ds ⟨⟩; decide⟩, by simp⟩ rfl rfl
    [57, 57, 57, 57, 57, 57, 57, 57, 57, 57] [102] ⟨by decide, by decide⟩
example : Overlong [11, 57, 57, 57, 57, 57, 57, 57, 57, 57, 57] := .column [57, 57, 57, 57, 57, 57, 57, 57, 57, 57] [] ⟨by decide, by decide⟩

-- `x%-5l` is read beyond its terminator
example : printed (memAt 8000 [120, 37, 45, 53, 108, 0]) 8000 [] = .ub .badRead :=
  C67_unfinished_deviation (is := [.lit 120]) (c := ⟨[.minus], some (.digits [53]), none, .l, 0, .other⟩) []
    (holds_memAt _ _ (by decide) (by decide)) (by decide) ⟨⟨by decide, by decide, by decide⟩, trivial⟩ (by decide) rfl
    ⟨by simp [Value.HasLetter, typeLetters], by rintro w ⟨⟩; exact ⟨⟨by decide, by decide⟩, by decide, by rintro ds ⟨⟩; decide⟩, by simp,
      by constructor <;> simp⟩ (by decide)

-- `%5-` and `%h5` are placeholders with letters that are not supported, `%5%` is one, too; `%%` is not
example : Conv.Ends ⟨[], some (.digits [53]), none, .none, 45, .other⟩ := by constructor <;> simp; decide
example : Conv.Ends ⟨[], none, none, .h, 53, .other⟩ := by constructor <;> simp
example : Conv.Ends ⟨[], some (.digits [53]), none, .none, 37, .other⟩ := by constructor <;> simp; decide
example : ¬ Conv.Ends ⟨[], none, none, .none, 37, .other⟩ := fun h => h.percent rfl rfl rfl rfl rfl

end CStr
