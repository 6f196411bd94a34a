import Verif.Props.PrnfForm
import Verif.Lemmas.PrnfEdge
/-! Properties C60, C61, C62, C63 and C66: arguments and precisions at the edges of what the formatter can print. -/
namespace CStr

theorem printed_undefined {m : Mem} {fmt : Addr} {is : List FmtItem} {c : Conv} {rest : List Byte} (more : List VArg)
    (ht : Holds m fmt (formatText is ++ (c.text ++ rest) ++ [0])) (hsz : (formatText is ++ (c.text ++ rest)).length < 2 ^ 64)
    (hi : ItemsBefore m (c.text ++ rest ++ [0]) is) (hlen : ((formatOutput is).length : Int) ≤ INT_MAX) (hc : c.Typed)
    {P : Res (Int × List Byte) → Prop} (hP : ∀ (o : OutInfo (List Byte)) (f : OutInfo (List Byte) → Res (Int × List Byte)),
      P (print_placeholder (collect m) o c.value.varg c.ph >>= f)) :
    P (printed m fmt (formatArgs is ++ (c.args ++ more))) := by
  obtain ⟨o, k, e⟩ := printed_before (c.args ++ more) ht hsz hi hlen
  rw [List.append_assoc] at ht
  simp only [List.length_append] at hsz
  have h2 := (Holds.append_iff.1 ht).2
  rw [List.append_assoc] at h2
  rw [e, core_loop_typed (K := collect m) (k + 1) o _ more hc h2 (by simp only [strBound]; omega), Res.bind_assoc']
  exact hP o _

/-- C67. Deviation: with one of these arguments the call is undefined, with every flag, width and precision, and wherever the placeholder stands in
the format string. -/
theorem C67_undefined_deviation {m : Mem} {fmt : Addr} {is : List FmtItem} {c : Conv} {rest : List Byte} (more : List VArg)
    (ht : Holds m fmt (formatText is ++ (c.text ++ rest) ++ [0])) (hsz : (formatText is ++ (c.text ++ rest)).length < 2 ^ 64)
    (hi : ItemsBefore m (c.text ++ rest ++ [0]) is) (hlen : ((formatOutput is).length : Int) ≤ INT_MAX) (hc : c.Typed) (hu : c.Undefined m) :
    ∃ w, printed m fmt (formatArgs is ++ (c.args ++ more)) = .ub w :=
  printed_undefined more ht hsz hi hlen hc (P := fun r => ∃ w, r = .ub w) fun o f => IsUb.bind (print_undefined hc hu o) f

/-- C60. Deviation: printing the most negative `long long` always overflows. -/
theorem C60_every_llong_min_deviation {m : Mem} {fmt : Addr} {is : List FmtItem} {c : Conv} {rest : List Byte} (more : List VArg)
    (ht : Holds m fmt (formatText is ++ (c.text ++ rest) ++ [0])) (hsz : (formatText is ++ (c.text ++ rest)).length < 2 ^ 64)
    (hi : ItemsBefore m (c.text ++ rest ++ [0]) is) (hlen : ((formatOutput is).length : Int) ≤ INT_MAX) (hc : c.Typed) (hv : c.value = .dec (-(2 ^ 63))) :
    printed m fmt (formatArgs is ++ (c.args ++ more)) = .ub .signedOverflow := by
  refine printed_undefined more ht hsz hi hlen hc (P := fun r => r = .ub .signedOverflow) fun o f => ?_
  have : print_placeholder (collect m) o c.value.varg c.ph = .ub .signedOverflow := by
    have hty : c.ph.type = c.value.ty := rfl
    unfold print_placeholder
    simp only [hty, hv, Value.ty, Value.varg]
    simp [print_dec, hty, hv, Value.ty, is_type_unsigned, toInt64]
  rw [this]
  rfl

/-- A format string that is one placeholder whose output is known. -/
theorem printed_single {m : Mem} {fmt : Addr} {c : Conv} {t : List Byte} (more : List VArg) (hf : Holds m fmt (c.text ++ [0]))
    (hsz : c.text.length < 2 ^ 64) (hc : c.Typed) (hlen : (t.length : Int) ≤ INT_MAX)
    (hp : ∀ o, print_placeholder (collect m) o c.value.varg c.ph = out_list (collect m) o t) :
    printed m fmt (c.args ++ more) = .ok ((t.length : Int), t) := by
  obtain ⟨k, hk⟩ : ∃ k, strBound = k + 2 := ⟨strBound - 2, by simp only [strBound]⟩
  rw [printed, vfptrprnf, core_prnf, hk, core_loop_typed (K := collect m) (k + 1) _ _ more hc hf (by simp only [strBound]; omega), hp,
    out_list_handler rfl _ { w := [] } rfl (Int.le_refl 0) (Int.le_refl 0) (by simpa using hlen), foldlM_collect, Res.bind_ok, Res.bind_ok, core_loop]
  have : load m (fmt + (c.text.length : Int)) = .ok 0 := (Holds.append_iff.1 hf).2.load_head
  simp [collect, this, out_terminate]

/-- C61. What `%x` does with every digit count, width and flag: it prints if the digit count is one of `HexCount` and is undefined otherwise. -/
theorem C61_hex_every_count {m : Mem} {fmt : Addr} {c : Conv} {v : Nat} (hv : c.value = .hex v) (more : List VArg) (hf : Holds m fmt (c.text ++ [0]))
    (hsz : c.text.length < 2 ^ 64) (hc : c.Typed) :
    (c.HexCount → ((c.hexOutput v).length : Int) ≤ INT_MAX → printed m fmt (c.args ++ more) = .ok (((c.hexOutput v).length : Int), c.hexOutput v)) ∧
    (¬ c.HexCount → ∃ w, printed m fmt (c.args ++ more) = .ub w) := by
  refine ⟨fun hn hlen => printed_single more hf hsz hc hlen fun o => print_hex_count hc hv hn o, fun hn => ?_⟩
  exact C67_undefined_deviation (is := []) (rest := []) more (by simpa [formatText] using hf) (by simpa [formatText] using hsz) trivial (by decide) hc
    (.hexCount hv hn)

/-- C61. What `%o` does with every digit count, width and flag: it prints that many binary digits if they are between 1 and 64 and is undefined otherwise. -/
theorem C61_bin_every_count {m : Mem} {fmt : Addr} {c : Conv} {v : Nat} (hv : c.value = .bin v) (more : List VArg) (hf : Holds m fmt (c.text ++ [0]))
    (hsz : c.text.length < 2 ^ 64) (hc : c.Typed) :
    (1 ≤ c.digitCount 8 ∧ c.digitCount 8 ≤ 64 → printed m fmt (c.args ++ more) = .ok (((c.field c.intPad (Conv.binDigits (c.digitCount 8).toNat v)).length : Int),
      c.field c.intPad (Conv.binDigits (c.digitCount 8).toNat v))) ∧
    (¬ (1 ≤ c.digitCount 8 ∧ c.digitCount 8 ≤ 64) → ∃ w, printed m fmt (c.args ++ more) = .ub w) := by
  refine ⟨fun hn => ?_, fun hn => ?_⟩
  · have hval := hc.value
    rw [hv] at hval
    have hw := minWidth_lt hc
    have hF : Format m fmt [.conv c] := ⟨by simpa [formatText, FmtItem.text] using hf, by simpa [formatText, FmtItem.text] using hsz,
      ⟨⟨hc.letter, hc.width, hc.prec, by rw [hv]; exact ⟨hval, hn⟩⟩, trivial⟩⟩
    have ho : c.output = c.field c.intPad (Conv.binDigits (c.digitCount 8).toNat v) := by simp only [Conv.output, hv]
    have := printed_conv more hF (by
      rw [ho, field_length]
      have e : (Conv.binDigits (c.digitCount 8).toNat v).length = (c.digitCount 8).toNat := by simp [Conv.binDigits]
      have hw' : c.ph.width = (c.minWidth : Int) := rfl
      rw [hw'] at hw
      simp only [INT_MAX] at hw ⊢
      omega)
    rwa [ho] at this
  · exact C67_undefined_deviation (is := []) (rest := []) more (by simpa [formatText] using hf) (by simpa [formatText] using hsz) trivial (by decide) hc
      (.binCount hv hn)

/-- C62. Deviation: a negative precision for a string is not "as if omitted": the call is always undefined. -/
theorem C62_every_negative_precision_deviation {m : Mem} {fmt : Addr} {is : List FmtItem} {c : Conv} {rest : List Byte} (more : List VArg)
    (ht : Holds m fmt (formatText is ++ (c.text ++ rest) ++ [0])) (hsz : (formatText is ++ (c.text ++ rest)).length < 2 ^ 64)
    (hi : ItemsBefore m (c.text ++ rest ++ [0]) is) (hlen : ((formatOutput is).length : Int) ≤ INT_MAX) (hc : c.Typed)
    {a : Addr} {l : List Byte} {p : Count} (hv : c.value = .str a l) (hp : c.prec = some p) (hn : p.val < 0) :
    ∃ w, printed m fmt (formatArgs is ++ (c.args ++ more)) = .ub w :=
  C67_undefined_deviation more ht hsz hi hlen hc (.negPrec hv hp hn)

/-- C62. Deviation: characters that no terminator follows are read to the end of the memory and beyond, whatever the precision is. -/
theorem C62_every_over_read_deviation {m : Mem} {fmt : Addr} {is : List FmtItem} {c : Conv} {rest : List Byte} (more : List VArg)
    (ht : Holds m fmt (formatText is ++ (c.text ++ rest) ++ [0])) (hsz : (formatText is ++ (c.text ++ rest)).length < 2 ^ 64)
    (hi : ItemsBefore m (c.text ++ rest ++ [0]) is) (hlen : ((formatOutput is).length : Int) ≤ INT_MAX) (hc : c.Typed)
    {a : Addr} {l t : List Byte} (hv : c.value = .str a l) (ha : a ≠ 0) (hs : Holds m a t) (h0 : (0 : Byte) ∉ t)
    (hend : load m (a + t.length) = .ub .badRead) :
    ∃ w, printed m fmt (formatArgs is ++ (c.args ++ more)) = .ub w :=
  C67_undefined_deviation more ht hsz hi hlen hc (.noEnd hv ha hs h0 hend)

/-- C63. Deviation: `%c` prints its character and nothing else, whatever the width, the precision and the flags are. -/
theorem C63_every_char_deviation {m : Mem} {fmt : Addr} {c : Conv} {v : Int} (hv : c.value = .chr v) (more : List VArg) (hf : Holds m fmt (c.text ++ [0]))
    (hsz : c.text.length < 2 ^ 64) (hc : c.Typed) : printed m fmt (c.args ++ more) = .ok (1, [UInt8.ofNat (v % 256).toNat]) := by
  refine printed_single more hf hsz hc (t := [UInt8.ofNat (v % 256).toNat]) (by simp only [List.length_singleton, INT_MAX]; omega) fun o => ?_
  have hty : c.ph.type = c.value.ty := rfl
  unfold print_placeholder
  simp only [hty, hv, Value.ty, Value.varg, out_list_single]

/-- C66. Deviation: the precision of a floating point number counts modulo 256, so that precision 256 prints no digits after the point, and -1 prints 19. -/
theorem C66_every_precision_deviation {m : Mem} {fmt : Addr} {c : Conv} {x : Flt} {p : Count}
    (hv : c.value = .flt x ∨ ∃ j, c.value = .eng x j ∧ EngExp x.toFloat j) (hp : c.prec = some p) (more : List VArg)
    (hf : Holds m fmt (c.text ++ [0])) (hsz : c.text.length < 2 ^ 64) (hc : c.Typed)
    (hlen : ((({ c with prec := some (.star (p.val % 256)) } : Conv).output).length : Int) ≤ INT_MAX) :
    printed m fmt (c.args ++ more) =
      .ok (((({ c with prec := some (.star (p.val % 256)) } : Conv).output).length : Int), ({ c with prec := some (.star (p.val % 256)) } : Conv).output) := by
  refine printed_single more hf hsz hc hlen fun o => ?_
  rcases hv with hv | ⟨j, hv, hj⟩
  · exact print_float_wrap hc hv hp o
  · exact print_eng_wrap hc hv hj hp o

/-- C64. Deviation: a pad character that is not printable ASCII, such as one of 128 or more, is not used for padding. It is printed once, and the column
number has no effect. -/
theorem C64_every_pad_deviation {m : Mem} {fmt : Addr} {is js : List FmtItem} {ds : List Byte} {x : Byte} (more : List VArg)
    (hF : Format m fmt (is ++ .alignNone ds :: .lit x :: js)) (hlen : ((formatOutput (is ++ .lit x :: js)).length : Int) ≤ INT_MAX) :
    printed m fmt (formatArgs (is ++ .alignNone ds :: .lit x :: js) ++ more) =
      .ok (((formatOutput (is ++ .lit x :: js)).length : Int), formatOutput (is ++ .lit x :: js)) := by
  have e : ∀ (is : List FmtItem) (d : List Byte), formatOutputFrom d (is ++ .alignNone ds :: .lit x :: js) = formatOutputFrom d (is ++ .lit x :: js) := by
    intro is
    induction is with
    | nil => intro d; simp [formatOutputFrom, FmtItem.output]
    | cons i is ih => intro d; exact ih _
  have e' : formatOutput (is ++ .alignNone ds :: .lit x :: js) = formatOutput (is ++ .lit x :: js) := e is []
  rw [← e'] at hlen ⊢
  exact C59_printed more hF hlen

/-- C65. Deviation: if no terminator follows the characters in the buffer, `snappf` reads to the end of the memory and beyond, whatever the size it was
told and whatever is to be printed. -/
theorem C65_every_unterminated_deviation {m : Mem} {dst : Addr} {n : Nat} {t : List Byte} (fmt : Addr) (va : List VArg) (hn : 1 ≤ n) (hd : dst ≠ 0)
    (ht : Holds m dst t) (h0 : (0 : Byte) ∉ t) (hend : load m (dst + t.length) = .ub .badRead) :
    ∃ w, snappf m dst n fmt va = .ub w := by
  have h : (prnf_strlen m dst).IsUb := by
    rw [prnf_strlen, if_pos hd]
    exact prnf_strlen_loop_end t _ _ _ ht h0 hend (by decide) (by decide)
  obtain ⟨w, h⟩ := h
  refine ⟨w, ?_⟩
  simp only [snappf, if_pos (show n ≠ 0 by omega), h]
  rfl

-- `ab\v9·c` with a pad character of 183
example : printed (memAt 8000 [97, 98, 11, 57, 0xB7, 99, 0]) 8000 [] = .ok (4, [97, 98, 0xB7, 99]) :=
  C64_every_pad_deviation (is := [.lit 97, .lit 98]) (js := [.lit 99]) (ds := [57]) (x := 0xB7) []
    ⟨holds_memAt _ _ (by decide) (by decide), by decide, by simp [FmtItem.Ok], by simp [FmtItem.Ok], ⟨⟨by decide, by decide, by decide⟩, by decide⟩,
      by simp [FmtItem.Ok], by simp [FmtItem.Ok], trivial⟩ (by decide +kernel)

-- three characters in a buffer of two bytes
example : ∃ w, snappf (memAt 9000 [98, 98, 98]) 9000 2 8000 [] = .ub w :=
  C65_every_unterminated_deviation (t := [98, 98, 98]) 8000 [] (by decide) (by decide) (holds_memAt _ _ (by decide) (by decide)) (by decide) (by decide +kernel)

-- `x%+-9.3lld|`
example : printed (memAt 8000 [120, 37, 43, 45, 57, 46, 51, 108, 108, 100, 124, 0]) 8000 [.llong (-(2 ^ 63)), .int 5] = .ub .signedOverflow :=
  C60_every_llong_min_deviation (is := [.lit 120]) (c := ⟨[.plus, .minus], some (.digits [57]), some (.digits [51]), .ll, 100, .dec (-(2 ^ 63))⟩) (rest := [124])
    [.int 5] (holds_memAt _ _ (by decide) (by decide)) (by decide) ⟨⟨by decide, by decide, by decide⟩, trivial⟩ (by decide)
    ⟨by simp [Value.HasLetter], by rintro w ⟨⟩; exact ⟨⟨by decide, by decide⟩, by decide, by rintro ds ⟨⟩; decide⟩, by rintro w ⟨⟩; exact ⟨by decide, by decide⟩, by decide⟩ rfl

/-- `%-90.80x` -/
def exHex : Conv := ⟨[.minus], some (.digits [57, 48]), some (.digits [56, 48]), .none, 120, .hex 0xBEEF⟩

theorem exHex_typed : exHex.Typed :=
  ⟨by simp [exHex, Value.HasLetter], by rintro w ⟨⟩; exact ⟨⟨by decide, by decide⟩, by decide, by rintro ds ⟨⟩; decide⟩, by rintro w ⟨⟩; exact ⟨by decide, by decide⟩,
    by simp [exHex, LenMod.bytes]⟩

-- it prints 16 digits and the padding of 80
example : printed (memAt 8000 [37, 45, 57, 48, 46, 56, 48, 120, 0]) 8000 [.int 0xBEEF] =
    .ok (26, [48, 48, 48, 48, 48, 48, 48, 48, 48, 48, 48, 48, 66, 69, 69, 70] ++ List.replicate 10 32) :=
  (C61_hex_every_count (c := exHex) rfl [] (holds_memAt _ _ (by decide) (by decide)) (by decide) exHex_typed).1
    ⟨by decide, by decide, by decide, by decide⟩ (by decide)

-- `%.17x` is undefined, and so are `%.0x` and a precision of -2
example : ¬ Conv.HexCount ⟨[], none, some (.digits [49, 55]), .none, 120, .hex 1⟩ := fun h => absurd h.high (by decide)
example : ¬ Conv.HexCount ⟨[], none, some (.digits [48]), .none, 120, .hex 1⟩ := fun h => absurd h.low (by decide)
example : ¬ Conv.HexCount ⟨[], none, some (.star (-2)), .none, 120, .hex 1⟩ := fun h => absurd h.high (by decide)
example : ∃ w, printed (memAt 8000 [37, 46, 49, 55, 120, 0]) 8000 [.int 1] = .ub w :=
  (C61_hex_every_count (c := ⟨[], none, some (.digits [49, 55]), .none, 120, .hex 1⟩) rfl [] (holds_memAt _ _ (by decide) (by decide)) (by decide)
    ⟨by simp [Value.HasLetter], by simp, by rintro w ⟨⟩; exact ⟨by decide, by decide⟩, by decide⟩).2 fun h => absurd h.high (by decide)

-- `%.65o` is undefined, `%.3o` of 6 is 110
example : ∃ w, printed (memAt 8000 [37, 46, 54, 53, 111, 0]) 8000 [.int 1] = .ub w :=
  (C61_bin_every_count (c := ⟨[], none, some (.digits [54, 53]), .none, 111, .bin 1⟩) rfl [] (holds_memAt _ _ (by decide) (by decide)) (by decide)
    ⟨by simp [Value.HasLetter], by simp, by rintro w ⟨⟩; exact ⟨by decide, by decide⟩, by decide⟩).2 (by decide)
example : printed (memAt 8000 [37, 46, 51, 111, 0]) 8000 [.int 6] = .ok (3, [49, 49, 48]) :=
  (C61_bin_every_count (c := ⟨[], none, some (.digits [51]), .none, 111, .bin 6⟩) rfl [] (holds_memAt _ _ (by decide) (by decide)) (by decide)
    ⟨by simp [Value.HasLetter], by simp, by rintro w ⟨⟩; exact ⟨by decide, by decide⟩, by decide⟩).1 (by decide)

/-- A format string at 8000 and characters at 9000. -/
def exEdgeMem (fmt l : List Byte) : Mem := fun a => if a < 8500 then memAt 8000 fmt a else memAt 9000 l a

theorem exEdge_fmt {fmt l : List Byte} (h : fmt.length ≤ 500) : Holds (exEdgeMem fmt l) 8000 fmt := by
  refine (holds_memAt 8000 fmt (by decide) (by simp only [litBase]; omega)).congr fun i hi => ?_
  simp only [exEdgeMem]
  rw [if_pos (by omega)]

theorem exEdge_str {fmt l : List Byte} (h : l.length ≤ 500) : Holds (exEdgeMem fmt l) 9000 l := by
  refine (holds_memAt 9000 l (by decide) (by simp only [litBase]; omega)).congr fun i hi => ?_
  simp only [exEdgeMem]
  rw [if_neg (by omega)]

-- `[%5.*s]` with -3
example : ∃ w, printed (exEdgeMem [91, 37, 53, 46, 42, 115, 93, 0] [97, 98, 0]) 8000 [.int (-3), .ptr 9000] = .ub w :=
  C62_every_negative_precision_deviation (is := [.lit 91]) (c := ⟨[], some (.digits [53]), some (.star (-3)), .none, 115, .str 9000 [97, 98]⟩) (rest := [93]) []
    (exEdge_fmt (by decide)) (by decide) ⟨⟨by decide, by decide, by decide⟩, trivial⟩ (by decide)
    ⟨by simp [Value.HasLetter], by rintro w ⟨⟩; exact ⟨⟨by decide, by decide⟩, by decide, by rintro ds ⟨⟩; decide⟩, by rintro w ⟨⟩; exact ⟨by decide, by decide⟩, trivial⟩ rfl rfl (by decide)

-- `[%.*s]` with 2 of the characters `abc` at the end of the memory
example : ∃ w, printed (exEdgeMem [91, 37, 46, 42, 115, 93, 0] [97, 98, 99]) 8000 [.int 2, .ptr 9000] = .ub w :=
  C62_every_over_read_deviation (is := [.lit 91]) (c := ⟨[], none, some (.star 2), .none, 115, .str 9000 [97, 98]⟩) (rest := [93]) []
    (exEdge_fmt (by decide)) (by decide) ⟨⟨by decide, by decide, by decide⟩, trivial⟩ (by decide)
    ⟨by simp [Value.HasLetter], by simp, by rintro w ⟨⟩; exact ⟨by decide, by decide⟩, trivial⟩ (t := [97, 98, 99]) rfl (by decide) (exEdge_str (by decide)) (by decide) (by decide +kernel)

-- `%-5.2c` of `A`
example : printed (memAt 8000 [37, 45, 53, 46, 50, 99, 0]) 8000 [.int 65] = .ok (1, [65]) :=
  C63_every_char_deviation (c := ⟨[.minus], some (.digits [53]), some (.digits [50]), .none, 99, .chr 65⟩) rfl [] (holds_memAt _ _ (by decide) (by decide)) (by decide)
    ⟨by simp [Value.HasLetter], by rintro w ⟨⟩; exact ⟨⟨by decide, by decide⟩, by decide, by rintro ds ⟨⟩; decide⟩, by rintro w ⟨⟩; exact ⟨by decide, by decide⟩, trivial⟩

-- `%.257f` of 2.25 has one digit after the point
example : printed (memAt 8000 [37, 46, 50, 53, 55, 102, 0]) 8000 [.dbl (.fin (9 / 4))] = .ok (3, [50, 46, 51]) := by
  have := C66_every_precision_deviation (m := memAt 8000 [37, 46, 50, 53, 55, 102, 0]) (c := ⟨[], none, some (.digits [50, 53, 55]), .none, 102, .flt (.fin (9 / 4))⟩)
    (.inl rfl) rfl [] (holds_memAt _ _ (by decide) (by decide)) (by decide)
    ⟨by simp [Value.HasLetter], by simp, by rintro w ⟨⟩; exact ⟨by decide, by decide⟩, trivial⟩ (by decide +kernel)
  rw [List.append_nil] at this
  exact this.trans (by decide +kernel)

end CStr
