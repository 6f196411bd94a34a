import Verif.Lemmas.PrnfDigits
import Verif.Props.BufText
import Verif.Props.Int
import Verif.Lemmas.BufHist
/-! Properties C59 to C65, C67 and C68: the text formatter. -/
namespace CStr

/-- A handler that collects the characters in a list, while the memory stays `m`. -/
def collect (m : Mem) : Sink (List Byte) := ⟨fun _ => m, fun w _ => w, some fun w c => .ok (w ++ [c])⟩

/-- The value returned by the formatter and the characters it prints. -/
def printed (m : Mem) (fmt : Addr) (va : List VArg) : Res (Int × List Byte) := vfptrprnf (collect m) [] fmt va

theorem foldlM_collect (l acc : List Byte) : l.foldlM (fun (w : List Byte) c => (Res.ok (w ++ [c]) : Res (List Byte))) acc = .ok (acc ++ l) := by
  induction l generalizing acc with
  | nil => simp
  | cons x l ih => rw [List.foldlM_cons, Res.bind_ok, ih]; simp

/-! ### C59: the destinations -/

/-- C59. With a character handler (`prnf`, `fptrprnf`) the handler is called once for each character of the output, in order, and the
number of characters is returned. `P` says what the handler leaves alone: the format string and the string arguments. -/
theorem C59_handler {σ : Type} {K : Sink σ} {f : σ → Byte → Res σ} (hf : K.call = some f) {is : List FmtItem} {fmt : Addr} (more : List VArg)
    {P : σ → Prop} (step : ∀ w x w', P w → f w x = .ok w' → P w') (hF : ∀ w, P w → Format (K.mem w) fmt is)
    (hlen : ((formatOutput is).length : Int) ≤ INT_MAX) {w : σ} (hw : P w) :
    vfptrprnf K w fmt (formatArgs is ++ more) =
      ((formatOutput is).foldlM f w >>= fun w' => .ok (((formatOutput is).length : Int), w')) := by
  have hI : Stable K INT_MAX (fun o : OutInfo σ => P o.w ∧ o.buf = 0) := by
    rintro o x o' ⟨ho, hb⟩ hx -
    obtain ⟨o1, o2, h1, h2, rfl⟩ := out_char_inv hx
    obtain ⟨c1, c2, c3, c4, -⟩ := out_col_keep h2
    simp only [out_dest, hb, ne_eq, not_true, if_false, hf] at h1
    cases hx : f o.w x with
    | ok w' =>
      rw [hx, Res.bind_ok] at h1
      simp only [Res.ok.injEq] at h1
      subst h1
      exact ⟨by simp only [c4]; exact step _ _ _ ho hx, by simp only [c3]⟩
    | ub y => rw [hx] at h1; cases h1
    | fuel => rw [hx] at h1; cases h1
    | env y => rw [hx] at h1; cases h1
  exact vfptrprnf_stable hf hI more w ⟨hw, rfl⟩ (fun o ho => hF _ ho.1) hlen hlen

/-- C59. Without a destination (`prnf_out_fptr` is NULL, or `snprnf` to NULL or with size 0) the characters are only counted. -/
theorem C59_count_only {m : Mem} {is : List FmtItem} {fmt : Addr} (more : List VArg) (hF : Format m fmt is)
    (hlen : ((formatOutput is).length : Int) ≤ INT_MAX) :
    vfptrprnf memSink m fmt (formatArgs is ++ more) = .ok (((formatOutput is).length : Int), m) ∧
    (∀ n, vsnprnf m 0 n fmt (formatArgs is ++ more) = .ok (((formatOutput is).length : Int), m)) ∧
    (∀ dst, vsnprnf m dst 0 fmt (formatArgs is ++ more) = .ok (((formatOutput is).length : Int), m)) :=
  ⟨core_prnf_count more (.inl rfl) hF hlen, fun _ => core_prnf_count more (.inl rfl) hF hlen,
    fun _ => core_prnf_count more (.inr rfl) hF hlen⟩

/-- C59, for sizes up to `INT_MAX`. `snprnf` to a buffer of `n` bytes stores as much of the output as fits together with a terminator,
nothing else, and returns the length of the whole output. Only the bytes that are stored have to be writable. Missing for the full property:
greater sizes, for which the code does something else (`C59_large_size_deviation`). -/
theorem C59_snprnf_partial {m : Mem} {dst : Addr} {n : Nat} {is : List FmtItem} {fmt : Addr} (more : List VArg) (hn : 1 ≤ n)
    (hmax : (n : Int) ≤ INT_MAX) (hw : Writable m dst (min n ((formatOutput is).length + 1)))
    (hF : FormatApart m dst (min n ((formatOutput is).length + 1)) fmt is)
    (hlen : ((formatOutput is).length : Int) ≤ INT_MAX) :
    vsnprnf m dst n fmt (formatArgs is ++ more) =
      .ok (((formatOutput is).length : Int), put m dst ((formatOutput is).take (n - 1) ++ [0])) := by
  rw [vsnprnf, toInt32_small hmax]
  exact vsnprnf_buf more hn hmax hw hF hlen

/-- C59. `sprnf` stores the output and a terminator. -/
theorem C59_sprnf {m : Mem} {dst : Addr} {is : List FmtItem} {fmt : Addr} (more : List VArg)
    (hlen : ((formatOutput is).length : Int) < INT_MAX) (hw : Writable m dst ((formatOutput is).length + 1))
    (hF : FormatApart m dst ((formatOutput is).length + 1) fmt is) :
    vsprnf m dst fmt (formatArgs is ++ more) = .ok (((formatOutput is).length : Int), put m dst (formatOutput is ++ [0])) := by
  have hm : min INT_MAX.toNat ((formatOutput is).length + 1) = (formatOutput is).length + 1 := by
    simp only [INT_MAX] at hlen ⊢; omega
  have := vsnprnf_buf (n := INT_MAX.toNat) more (by decide) (by decide) (by rw [hm]; exact hw) (by rw [hm]; exact hF) (by omega)
  rw [List.take_of_length_le (by simp only [INT_MAX] at hlen ⊢; omega)] at this
  exact this

/-- C59. Deviation: `snprnf` keeps the size in an `int` (prnf.c line 321). With a size of at least 2^31 and less than 2^32 it stores
nothing but the terminator, and with a size of 2^32 not even that, although there is enough space. -/
theorem C59_large_size_deviation {m : Mem} {dst : Addr} {is : List FmtItem} {fmt : Addr} (more : List VArg) (hF : Format m fmt is)
    (hlen : ((formatOutput is).length : Int) ≤ INT_MAX) (hw : Writable m dst 1) :
    (∀ n : Nat, 2 ^ 31 ≤ n → n < 2 ^ 32 →
      vsnprnf m dst n fmt (formatArgs is ++ more) = .ok (((formatOutput is).length : Int), put m dst [0])) ∧
    vsnprnf m dst (2 ^ 32) fmt (formatArgs is ++ more) = .ok (((formatOutput is).length : Int), m) := by
  refine ⟨fun n h1 h2 => ?_, ?_⟩
  · rw [vsnprnf, Nat.mod_eq_of_lt h2]
    exact core_prnf_neg more (by rw [toInt32, if_neg (by omega)]; omega) hF hlen hw
  · rw [vsnprnf]
    exact core_prnf_count more (.inr (by decide)) hF hlen

/-- C59. The text that a call prints, for a handler that does not touch the memory. -/
theorem C59_printed {m : Mem} {is : List FmtItem} {fmt : Addr} (more : List VArg) (hF : Format m fmt is)
    (hlen : ((formatOutput is).length : Int) ≤ INT_MAX) :
    printed m fmt (formatArgs is ++ more) = .ok (((formatOutput is).length : Int), formatOutput is) := by
  rw [printed, C59_handler (K := collect m) rfl more (P := fun _ => True) (fun _ _ _ _ _ => trivial) (fun _ _ => hF) hlen trivial,
    foldlM_collect]
  simp

/-- `x=%+5d, %s%%\v14.|` -/
def exFormat : List FmtItem :=
  [.lit 120, .lit 61, .conv ⟨[.plus], some (.digits [53]), none, .none, 100, .dec 42⟩, .lit 44, .lit 32,
    .conv ⟨[], none, none, .none, 115, .str 9000 [97, 98, 99]⟩, .percent, .align [49, 52] 46, .lit 124]

/-- The format string at 8000, a string at 9000 and 40 bytes of free space at 100. -/
def exMem : Mem := fun a =>
  if a < 1000 then memAt 100 (List.replicate 40 0xCC) a
  else if a < 9000 then memAt 8000 (formatText exFormat ++ [0]) a else memAt 9000 [97, 98, 99, 0] a

theorem exMem_holds {m : Mem} (h : ∀ a, 1000 ≤ a → (exMem a).isSome → m a = exMem a) :
    Holds m 8000 (formatText exFormat ++ [0]) ∧ Holds m 9000 [97, 98, 99, 0] := by
  constructor
  · apply (holds_memAt 8000 (formatText exFormat ++ [0]) (by decide) (by decide)).congr
    intro i hi
    have hl : (formatText exFormat ++ [0]).length = 18 := by decide
    have e : exMem (8000 + i) = memAt 8000 (formatText exFormat ++ [0]) (8000 + i) := by
      rw [exMem, if_neg (by omega), if_pos (by omega)]
    rw [h _ (by omega) (by rw [e]; exact memAt_isSome hi), e]
  · apply (holds_memAt 9000 [97, 98, 99, 0] (by decide) (by decide)).congr
    intro i hi
    have e : exMem (9000 + i) = memAt 9000 [97, 98, 99, 0] (9000 + i) := by
      rw [exMem, if_neg (by omega), if_neg (by omega)]
    rw [h _ (by omega) (by rw [e]; exact memAt_isSome hi), e]

theorem exMem_format {m : Mem} (h : ∀ a, 1000 ≤ a → (exMem a).isSome → m a = exMem a) : Format m 8000 exFormat := by
  refine ⟨(exMem_holds h).1, by decide, ?_⟩
  refine ⟨by simp [FmtItem.Ok], by simp [FmtItem.Ok], ⟨by simp [Value.HasLetter], ?_, by simp, by simp [LenMod.bytes]⟩, by simp [FmtItem.Ok],
    by simp [FmtItem.Ok], ⟨by simp [Value.HasLetter], by simp, by simp, ?_⟩, trivial, ⟨⟨by decide, by decide, by decide⟩, by decide, by decide⟩,
    by simp [FmtItem.Ok], trivial⟩
  · intro w hw
    simp only [Option.some.injEq] at hw
    subst hw
    refine ⟨⟨by decide, by decide⟩, by decide, ?_⟩
    intro ds e
    simp only [Count.digits.injEq] at e
    subst e; decide
  · exact ⟨.inr ⟨by decide, by decide, by decide, (exMem_holds h).2⟩, by simp⟩

theorem exMem_writable {n : Nat} (h : n ≤ 40) : Writable exMem 100 n := by
  intro i hi
  refine ⟨by omega, by simp only [litBase]; omega, ?_⟩
  rw [exMem, if_pos (by omega)]
  exact memAt_isSome (by rw [List.length_replicate]; omega)

-- `x=  +42, abc%.|`: the output ends at column 15
example : formatOutput exFormat = [120, 61, 32, 32, 43, 52, 50, 44, 32, 97, 98, 99, 37, 46, 124] := by decide

-- all of it with 16 bytes; nine characters of it with 10 bytes
example : vsnprnf exMem 100 16 8000 (formatArgs exFormat) = .ok (15, put exMem 100 (formatOutput exFormat ++ [0])) ∧
    vsnprnf exMem 100 10 8000 (formatArgs exFormat) = .ok (15, put exMem 100 [120, 61, 32, 32, 43, 52, 50, 44, 32, 0]) := by
  have hF : ∀ n, n ≤ 40 → FormatApart exMem 100 n 8000 exFormat := fun n hn m' h => exMem_format (fun a ha hs =>
    h a (by simp only [InRange]; omega) hs)
  have h1 := C59_snprnf_partial (n := 16) [] (by decide) (by decide) (exMem_writable (by decide)) (hF _ (by decide)) (by decide)
  have h2 := C59_snprnf_partial (n := 10) [] (by decide) (by decide) (exMem_writable (by decide)) (hF _ (by decide)) (by decide)
  rw [List.append_nil] at h1 h2
  exact ⟨h1, h2⟩

/-! ### C60: decimal integers -/

/-- A single placeholder. -/
theorem printed_conv {m : Mem} {c : Conv} {fmt : Addr} (more : List VArg) (hF : Format m fmt [.conv c]) (hlen : (c.output.length : Int) ≤ INT_MAX) :
    printed m fmt (c.args ++ more) = .ok ((c.output.length : Int), c.output) := by
  have := C59_printed more hF hlen
  have e : formatOutput [.conv c] = c.output := rfl
  have e' : formatArgs [.conv c] = c.args := by simp [formatArgs, FmtItem.args]
  rw [e, e'] at this
  exact this

theorem printed_is {m : Mem} {c : Conv} {fmt : Addr} {va : List VArg} {t : List Byte} {n : Int} (hF : Format m fmt [.conv c]) (ha : c.args = va)
    (ho : c.output = t) (hn : (t.length : Int) = n) (hlen : n ≤ INT_MAX) : printed m fmt va = .ok (n, t) := by
  have := printed_conv [] hF (by rw [ho, hn]; exact hlen)
  rw [List.append_nil, ha, ho, hn] at this
  exact this

theorem decDigits_isDecimal (c : Conv) (n : Nat) : IsDecimal c n (c.decDigits n) := by
  obtain ⟨h1, h2, h3, h4⟩ := printBytes_facts n
  have hz : (printBytes 10 n).head? = some 48 → printBytes 10 n = [48] := by
    intro h
    by_cases h0 : n = 0
    · subst h0; rfl
    · exact absurd h (h4 h0)
  cases hp : c.prec with
  | none =>
    have e : c.decDigits n = printBytes 10 n := by simp [Conv.decDigits, hp]
    rw [e]
    exact ⟨h1, h2, h3, by simp [hp], fun h => .inl (hz h)⟩
  | some p =>
    have e : c.decDigits n = List.replicate (p.val.toNat - (printBytes 10 n).length) 48 ++ printBytes 10 n := by simp [Conv.decDigits, hp]
    rw [e]
    refine ⟨?_, by rw [decVal_zeros, h2], by simp [h3], ?_, ?_⟩
    · intro b hb
      rw [List.mem_append, List.mem_replicate] at hb
      rcases hb with ⟨-, rfl⟩ | hb
      · decide
      · exact h1 b hb
    · intro q hq
      rw [hp, Option.some.injEq] at hq
      subst hq
      rw [List.length_append, List.length_replicate]; omega
    · intro hh
      by_cases hk : p.val.toNat - (printBytes 10 n).length = 0
      · rw [hk, List.replicate_zero, List.nil_append] at hh ⊢
        exact .inl (hz hh)
      · refine .inr ⟨p, hp, ?_⟩
        rw [List.length_append, List.length_replicate]; omega

/-- C60. `%d` and `%i` print the sign and the decimal digits of the argument, in a field of the given width: the characters in front of
it are spaces, or zeros with the flag `0` and no precision. This holds for all combinations of flags, width, precision and length modifier,
and all arguments but the most negative `long long`, for which the code negates with overflow (`C60_llong_min_deviation`). -/
theorem C60_signed_partial {m : Mem} {fmt : Addr} {c : Conv} {v : Int} (hv : c.value = .dec v) (more : List VArg) (hF : Format m fmt [.conv c])
    (hlen : (c.output.length : Int) ≤ INT_MAX) :
    ∃ ds, IsDecimal c v.natAbs ds ∧
      printed m fmt (c.args ++ more) = .ok ((c.output.length : Int), c.field c.intPad ((if v < 0 then [45] else c.plusSign) ++ ds)) := by
  refine ⟨c.decDigits v.natAbs, decDigits_isDecimal c _, ?_⟩
  rw [printed_conv more hF hlen]
  simp [Conv.output, hv]

/-- C60. The same for `%u`, which prints no sign. -/
theorem C60_unsigned {m : Mem} {fmt : Addr} {c : Conv} {v : Nat} (hv : c.value = .udec v) (more : List VArg) (hF : Format m fmt [.conv c])
    (hlen : (c.output.length : Int) ≤ INT_MAX) :
    ∃ ds, IsDecimal c v ds ∧ printed m fmt (c.args ++ more) = .ok ((c.output.length : Int), c.field c.intPad ds) := by
  refine ⟨c.decDigits v, decDigits_isDecimal c _, ?_⟩
  rw [printed_conv more hF hlen]
  simp [Conv.output, hv]

theorem output_plain {c : Conv} {x : Int} (hv : c.value = .dec x) (hf : c.flags = []) (hw : c.width = none) (hp : c.prec = none) {m : Mem}
    (hok : c.Ok m) : c.output = printSigned x ∧ c.output.length ≤ 20 := by
  have hout : c.output = printSigned x := by
    simp only [Conv.output, hv, Conv.field, Conv.minWidth, hw, Conv.plusSign, hf, Conv.decDigits, hp, printSigned, Conv.left]
    by_cases hx : x < 0 <;> simp [hx]
  have hrange : -(2 ^ 63) < x ∧ x < 2 ^ 63 := by
    have h := hok.value
    simp only [hv] at h
    split at h <;> omega
  refine ⟨hout, ?_⟩
  have : (printBytes 10 x.natAbs).length ≤ 19 := printBytes_len (k := 18) (by omega)
  rw [hout, printSigned]
  split
  · simp only [List.length_cons]; omega
  · omega

/-- C60. What `%d`, `%ld`, ... without flags, width and precision print is the text that `strnum_value` reads back: formatting and then
parsing restores the number. -/
theorem C60_read_back {m : Mem} {fmt : Addr} {c : Conv} {x : Int} (hv : c.value = .dec x) (hf : c.flags = []) (hw : c.width = none)
    (hp : c.prec = none) (more : List VArg) (hF : Format m fmt [.conv c]) :
    ∃ t, printed m fmt (c.args ++ more) = .ok ((t.length : Int), t) ∧
      ∀ (ty : STy) (m' : Mem) (v : View) (x0 : Int), ty.InRange x → ViewOf m' v t →
        strnum_value_s ty m' (some x0) (some v) 0 = .ok (0, some x, some (v.part t.length 0)) := by
  obtain ⟨hout, hl⟩ := output_plain hv hf hw hp hF.items.1
  have hlen : (c.output.length : Int) ≤ INT_MAX := by simp only [INT_MAX]; omega
  refine ⟨printSigned x, ?_, ?_⟩
  · rw [printed_conv more hF hlen, hout]
  · intro ty m' v x0 hr hvw
    have := C28_signed_decimal (rest := []) (o := 0) ty x0 hr (by decide) (by decide) (by decide)
      (by refine ⟨by simp, ?_⟩; simp) (by simpa using hvw)
    simpa using this

/-- C60. Deviation: the most negative `long long` is negated as a signed number, which overflows. -/
theorem C60_llong_min_deviation : printed (memAt 8000 [37, 108, 100, 0]) 8000 [.llong (-(2 ^ 63))] = .ub .signedOverflow := by decide +kernel

-- `%+06.3li` of -7 is `  -007`
example : printed (memAt 8000 [37, 43, 48, 54, 46, 51, 108, 105, 0]) 8000 [.llong (-7)] = .ok (6, [32, 32, 45, 48, 48, 55]) := by
  have hF : Format (memAt 8000 [37, 43, 48, 54, 46, 51, 108, 105, 0]) 8000
      [.conv ⟨[.plus, .zero], some (.digits [54]), some (.digits [51]), .l, 105, .dec (-7)⟩] := by
    refine ⟨holds_memAt _ _ (by decide) (by decide), by decide, ⟨by simp [Value.HasLetter], ?_, ?_, by simp [LenMod.bytes]⟩, trivial⟩
    · simp only [Option.some.injEq, forall_eq']
      exact ⟨⟨by decide, by decide⟩, by decide, by simp⟩
    · simp only [Option.some.injEq, forall_eq']
      exact ⟨by decide, by decide⟩
  exact printed_is hF rfl (by decide +kernel) rfl (by decide)

/-! ### C61: hexadecimal and binary integers -/

/-- C61. `%x` and `%X` print exactly as many digits `0`-`9`, `A`-`F` as the precision says, or two for each byte of the argument. They denote the
argument, or as much of it as they can represent. Missing for the full property: digit counts of 0 and of more than 16, for which
the code shifts by too much (`C61_shift_deviation`). -/
theorem C61_hex_partial {m : Mem} {fmt : Addr} {c : Conv} {v : Nat} (hv : c.value = .hex v) (more : List VArg) (hF : Format m fmt [.conv c])
    (hlen : (c.output.length : Int) ≤ INT_MAX) :
    ∃ ds : List Byte, (ds.length : Int) = c.digitCount 2 ∧ (∀ b ∈ ds, 48 ≤ b ∧ b ≤ 57 ∨ 65 ≤ b ∧ b ≤ 70) ∧ baseVal 16 ds = v % 16 ^ ds.length ∧
      printed m fmt (c.args ++ more) = .ok ((c.output.length : Int), c.field c.intPad ds) := by
  have hok := hF.items.1.value
  simp only [hv] at hok
  have hl : (Conv.hexDigits (c.digitCount 2).toNat v).length = (c.digitCount 2).toNat := by simp [Conv.hexDigits]
  refine ⟨Conv.hexDigits (c.digitCount 2).toNat v, by rw [hl]; omega, hexDigits_mem _ _, by rw [hl, hexDigits_val], ?_⟩
  rw [printed_conv more hF hlen]
  simp [Conv.output, hv]

/-- C61. `%o` prints the argument in binary, with exactly as many digits as the precision says, or eight for each byte of the argument. -/
theorem C61_bin_partial {m : Mem} {fmt : Addr} {c : Conv} {v : Nat} (hv : c.value = .bin v) (more : List VArg) (hF : Format m fmt [.conv c])
    (hlen : (c.output.length : Int) ≤ INT_MAX) :
    ∃ ds : List Byte, (ds.length : Int) = c.digitCount 8 ∧ (∀ b ∈ ds, b = 48 ∨ b = 49) ∧ baseVal 2 ds = v % 2 ^ ds.length ∧
      printed m fmt (c.args ++ more) = .ok ((c.output.length : Int), c.field c.intPad ds) := by
  have hok := hF.items.1.value
  simp only [hv] at hok
  have hl : (Conv.binDigits (c.digitCount 8).toNat v).length = (c.digitCount 8).toNat := by simp [Conv.binDigits]
  refine ⟨Conv.binDigits (c.digitCount 8).toNat v, by rw [hl]; omega, binDigits_mem _ _, by rw [hl, binDigits_val], ?_⟩
  rw [printed_conv more hF hlen]
  simp [Conv.output, hv]

/-- C61. Deviation: `%.0x` shifts by a negative number, `%.17x` by more than the number of bits; and `%.65x`, whose count is reduced
modulo 64, prints one digit. -/
theorem C61_shift_deviation :
    printed (memAt 8000 [37, 46, 48, 120, 0]) 8000 [.int 5] = .ub .badShift ∧
    printed (memAt 8000 [37, 46, 49, 55, 120, 0]) 8000 [.int 5] = .ub .badShift ∧
    printed (memAt 8000 [37, 46, 48, 111, 0]) 8000 [.int 5] = .ub .badShift ∧
    printed (memAt 8000 [37, 46, 54, 53, 120, 0]) 8000 [.int 5] = .ok (1, [53]) := by decide +kernel

-- `%hx` of 0x12AF is `12AF`, `%hhx` of it `AF`, `%.3o` of 5 is `101`
example : printed (memAt 8000 [37, 104, 120, 0]) 8000 [.int 0x12AF] = .ok (4, [49, 50, 65, 70]) := by
  have hF : Format (memAt 8000 [37, 104, 120, 0]) 8000 [.conv ⟨[], none, none, .h, 120, .hex 0x12AF⟩] := by
    refine ⟨holds_memAt _ _ (by decide) (by decide), by decide, ⟨by simp [Value.HasLetter], by simp, by simp, ?_⟩, trivial⟩
    simp [LenMod.bytes, Conv.digitCount]
  exact printed_is hF rfl (by decide +kernel) rfl (by decide)

example : printed (memAt 8000 [37, 104, 104, 120, 0]) 8000 [.int 0x12AF] = .ok (2, [65, 70]) ∧
    printed (memAt 8000 [37, 46, 51, 111, 0]) 8000 [.int 5] = .ok (3, [49, 48, 49]) := by decide +kernel

/-! ### C62: strings -/

/-- C62. `%s` prints the characters of a terminated string, at most as many as the precision says, in a field of the given width. NULL counts as
the empty string. Missing for the full property: character arrays without a terminator whose length is given by the precision
(`C62_over_read_deviation`), and negative precisions (`C62_negative_precision_deviation`). -/
theorem C62_string_partial {m : Mem} {fmt : Addr} {c : Conv} {a : Addr} {l : List Byte} (hv : c.value = .str a l) (hc : ¬ c.centred) (more : List VArg)
    (hF : Format m fmt [.conv c]) (hlen : (c.output.length : Int) ≤ INT_MAX) :
    printed m fmt (c.args ++ more) = .ok ((c.output.length : Int), c.field 32 (c.cut l)) := by
  rw [printed_conv more hF hlen]
  simp [Conv.output, hv, hc]

/-- C62. With a width and a precision that is written as 0 the whole string is centred: spaces on both sides, the numbers of which differ by at
most one, up to the width. -/
theorem C62_centred {m : Mem} {fmt : Addr} {c : Conv} {a : Addr} {l : List Byte} (hv : c.value = .str a l) (hc : c.centred) (more : List VArg)
    (hF : Format m fmt [.conv c]) (hlen : (c.output.length : Int) ≤ INT_MAX) :
    ∃ i j, i ≤ j ∧ j ≤ i + 1 ∧ i + j = c.minWidth - l.length ∧
      printed m fmt (c.args ++ more) = .ok ((c.output.length : Int), List.replicate i 32 ++ l ++ List.replicate j 32) := by
  refine ⟨(c.minWidth - l.length) / 2, (c.minWidth - l.length) - (c.minWidth - l.length) / 2, by omega, by omega, by omega, ?_⟩
  rw [printed_conv more hF hlen]
  simp [Conv.output, hv, hc, Conv.centre]

/-- C62. `%.*s` with the size and the data of a view (`PRIstr` and `PRIstrarg`) prints exactly the view, if a terminator follows somewhere
behind it and there is none in it. -/
theorem C62_view_partial {m : Mem} {fmt a : Addr} {l rest : List Byte} (hs : CString m a (l ++ rest)) (hf : Holds m fmt [37, 46, 42, 115, 0])
    (more : List VArg) : printed m fmt (.int l.length :: .ptr a :: more) = .ok ((l.length : Int), l) := by
  have hmax := hs.max
  rw [List.length_append] at hmax
  have hF : Format m fmt [.conv ⟨[], none, some (.star l.length), .none, 115, .str a (l ++ rest)⟩] := by
    refine ⟨hf, by simp [formatText, FmtItem.text, Conv.text, Count.text, LenMod.text], ⟨by simp [Value.HasLetter], by simp, ?_, ?_⟩, trivial⟩
    · simp only [Option.some.injEq, forall_eq', Count.Ok, INT_MIN]; omega
    · simp [hs, Count.val]
  have ho : Conv.output ⟨[], none, some (.star l.length), .none, 115, .str a (l ++ rest)⟩ = l := by
    simp [Conv.output, Conv.field, Conv.minWidth, Conv.centred, Conv.left, Conv.cut, Count.val]
  have := printed_conv more hF (by rw [ho]; omega)
  rw [ho] at this
  exact this

/-- C62. Deviation: prnf.h line 62 calls the precision "the maximum number of characters to read from the source", but the code first
determines the length of the whole string (prnf.c line 732). The view `abc` of memory that ends there makes it read past the end. -/
theorem C62_over_read_deviation :
    ∃ m : Mem, Holds m 8000 [37, 46, 42, 115, 0] ∧ ViewOf m ⟨9000, 3⟩ [97, 98, 99] ∧ printed m 8000 [.int 3, .ptr 9000] = .ub .badRead := by
  refine ⟨fun a => if a < 8500 then memAt 8000 [37, 46, 42, 115, 0] a else memAt 9000 [97, 98, 99] a, ?_, ?_, by decide +kernel⟩
  · apply (holds_memAt 8000 [37, 46, 42, 115, 0] (by decide) (by decide)).congr
    intro i hi
    simp only [List.length_cons, List.length_nil] at hi
    rw [if_pos (by omega)]
  · refine ⟨⟨rfl, by decide, ?_⟩, by decide⟩
    apply (holds_memAt 9000 [97, 98, 99] (by decide) (by decide)).congr
    intro i hi
    rw [if_neg (by omega)]

/-- C62. Deviation: a negative precision argument, which in C means no precision, makes the loop that prints the string run past its end. -/
theorem C62_negative_precision_deviation :
    printed (memAt 8000 [37, 46, 42, 115, 0, 97, 98, 0]) 8000 [.int (-1), .ptr 8005] = .ub .badRead := by decide +kernel

-- `%7.0s` of `abcd` is ` abcd  `
example : printed (memAt 8000 [37, 55, 46, 48, 115, 0, 97, 98, 99, 100, 0]) 8000 [.ptr 8006] = .ok (7, [32, 97, 98, 99, 100, 32, 32]) := by
  have hh := holds_memAt 8000 [37, 55, 46, 48, 115, 0, 97, 98, 99, 100, 0] (by decide) (by decide)
  rw [show [37, 55, 46, 48, 115, 0, 97, 98, 99, 100, 0] = ([37, 55, 46, 48, 115, 0] : List Byte) ++ [97, 98, 99, 100, 0] from rfl, Holds.append_iff] at hh
  have hF : Format (memAt 8000 ([37, 55, 46, 48, 115, 0] ++ [97, 98, 99, 100, 0])) 8000
      [.conv ⟨[], some (.digits [55]), some (.digits [48]), .none, 115, .str 8006 [97, 98, 99, 100]⟩] := by
    refine ⟨hh.1, by decide, ⟨by simp [Value.HasLetter], ?_, ?_, .inr ⟨by decide, by decide, by decide, hh.2⟩, by simp [Count.val]⟩, trivial⟩
    · simp only [Option.some.injEq, forall_eq']
      exact ⟨⟨by decide, by decide⟩, by decide, by simp⟩
    · simp only [Option.some.injEq, forall_eq']
      exact ⟨by decide, by decide⟩
  exact printed_is hF rfl (by decide +kernel) rfl (by decide)

-- the view `ab` of `abcd`
example : printed (memAt 8000 [37, 46, 42, 115, 0, 97, 98, 99, 100, 0]) 8000 [.int 2, .ptr 8005] = .ok (2, [97, 98]) := by
  have hh := holds_memAt 8000 [37, 46, 42, 115, 0, 97, 98, 99, 100, 0] (by decide) (by decide)
  rw [show [37, 46, 42, 115, 0, 97, 98, 99, 100, 0] = ([37, 46, 42, 115, 0] : List Byte) ++ [97, 98, 99, 100, 0] from rfl, Holds.append_iff] at hh
  exact C62_view_partial (l := [97, 98]) (rest := [99, 100]) ⟨by decide, by decide, by decide, hh.2⟩ hh.1 []

/-! ### C63: the width -/

theorem field_length (c : Conv) (pad : Byte) (t : List Byte) : (c.field pad t).length = max c.minWidth t.length := by
  unfold Conv.field
  split <;> simp only [List.length_append, List.length_replicate] <;> omega

theorem fltText_length (c : Conv) (p : Nat) (suffix : List Byte) (y : Flt) :
    (c.fltText p suffix y).length = max c.minWidth (({ c with width := none } : Conv).fltText p suffix y).length := by
  have hw : ({ c with width := none } : Conv).minWidth = 0 := rfl
  have hs : ∀ b, ({ c with width := none } : Conv).sign b = c.sign b := fun _ => rfl
  cases y with
  | nan => simp only [Conv.fltText, field_length, hw, Nat.zero_max]
  | inf n => simp only [Conv.fltText, field_length, hw, hs, Nat.zero_max]
  | fin q =>
    simp only [Conv.fltText]
    cases hsc : scaled q p with
    | nan => simp only [field_length, hw, hs, Nat.zero_max]
    | inf n => simp only [field_length, hw, hs, Nat.zero_max]
    | fin s => simp only; split <;> simp only [field_length, hw, hs, Nat.zero_max]

/-- C63, for numbers and strings. The width is the minimum number of characters: the output is as long as the width, or as long as the output
without a width if that is longer. (A centred string is never cut, so it is at least as long as the string.) Missing for the full property:
characters (`C63_char_deviation`). -/
theorem C63_width_partial {m : Mem} {fmt : Addr} {c : Conv} (hv : ∀ v, c.value ≠ .chr v) (ho : c.value ≠ .other) (more : List VArg)
    (hF : Format m fmt [.conv c]) (hlen : (c.output.length : Int) ≤ INT_MAX) :
    ∃ t : List Byte, printed m fmt (c.args ++ more) = .ok ((t.length : Int), t) ∧ c.minWidth ≤ t.length ∧
      (¬ c.centred → t.length = max c.minWidth ({ c with width := none } : Conv).output.length) ∧
      (∀ a l, c.value = .str a l → c.centred → t.length = max c.minWidth l.length) := by
  refine ⟨c.output, printed_conv more hF hlen, ?_⟩
  have hw : ({ c with width := none } : Conv).minWidth = 0 := rfl
  have hc : ¬ ({ c with width := none } : Conv).centred := fun h => h.1 rfl
  cases hval : c.value with
  | dec v =>
    simp only [Conv.output, hval, field_length, hw]
    exact ⟨Nat.le_max_left _ _, fun _ => (congrArg (max c.minWidth) (Nat.zero_max _)).symm, fun a l h => by cases h⟩
  | udec v =>
    simp only [Conv.output, hval, field_length, hw]
    exact ⟨Nat.le_max_left _ _, fun _ => (congrArg (max c.minWidth) (Nat.zero_max _)).symm, fun a l h => by cases h⟩
  | hex v =>
    simp only [Conv.output, hval, field_length, hw]
    exact ⟨Nat.le_max_left _ _, fun _ => (congrArg (max c.minWidth) (Nat.zero_max _)).symm, fun a l h => by cases h⟩
  | bin v =>
    simp only [Conv.output, hval, field_length, hw]
    exact ⟨Nat.le_max_left _ _, fun _ => (congrArg (max c.minWidth) (Nat.zero_max _)).symm, fun a l h => by cases h⟩
  | chr v => exact absurd hval (hv v)
  | str a l =>
    simp only [Conv.output, hval, if_neg hc, field_length, hw]
    by_cases h : c.centred
    · rw [if_pos h]
      have : (c.centre l).length = max c.minWidth l.length := by
        simp only [Conv.centre, List.length_append, List.length_replicate]; omega
      rw [this]
      refine ⟨Nat.le_max_left _ _, fun h' => absurd h h', ?_⟩
      intro a' l' e _
      simp only [Value.str.injEq] at e
      rw [e.2]
    · rw [if_neg h, field_length]
      refine ⟨Nat.le_max_left _ _, fun _ => ?_, fun _ _ _ h' => absurd h' h⟩
      rw [if_neg (fun h' : Conv.centred _ => h'.1 rfl), field_length]
      exact (congrArg (max c.minWidth) (Nat.zero_max _)).symm
  | flt x =>
    simp only [Conv.output, hval]
    refine ⟨by rw [fltText_length]; exact Nat.le_max_left _ _, fun _ => fltText_length _ _ _ _, fun a l h => by cases h⟩
  | eng x j =>
    simp only [Conv.output, hval]
    refine ⟨by rw [fltText_length]; exact Nat.le_max_left _ _, fun _ => fltText_length _ _ _ _, fun a l h => by cases h⟩
  | other => exact absurd hval ho

/-- C63. Deviation: `%c` ignores the width. -/
theorem C63_char_deviation : printed (memAt 8000 [37, 53, 99, 0]) 8000 [.int 65] = .ok (1, [65]) := by decide +kernel

-- `%*d` with -5 and 7 is `7    `
example : printed (memAt 8000 [37, 42, 100, 0]) 8000 [.int (-5), .int 7] = .ok (5, [55, 32, 32, 32, 32]) := by
  have hF : Format (memAt 8000 [37, 42, 100, 0]) 8000 [.conv ⟨[], some (.star (-5)), none, .none, 100, .dec 7⟩] := by
    refine ⟨holds_memAt _ _ (by decide) (by decide), by decide, ⟨by simp [Value.HasLetter], ?_, by simp, by simp [LenMod.bytes]⟩, trivial⟩
    simp only [Option.some.injEq, forall_eq']
    exact ⟨⟨by decide, by decide⟩, by decide, by simp⟩
  exact printed_is hF rfl (by decide +kernel) rfl (by decide)

/-! ### C64: columns -/

theorem formatOutputFrom_prefix (d : List Byte) (is : List FmtItem) : ∃ r, formatOutputFrom d is = d ++ r := by
  induction is generalizing d with
  | nil => exact ⟨[], by simp [formatOutputFrom]⟩
  | cons i is ih =>
    obtain ⟨r, hr⟩ := ih (d ++ i.output (column d))
    exact ⟨i.output (column d) ++ r, by rw [formatOutputFrom, hr, List.append_assoc]⟩

theorem column_replicate (d : List Byte) {pad : Byte} (h : FmtItem.Printable pad) (k : Nat) :
    column (d ++ List.replicate k pad) = column d + k := by
  induction k with
  | zero => simp
  | succ k ih =>
    rw [List.replicate_succ', ← List.append_assoc, column_snoc, ih]
    have h1 : pad ≠ 13 ∧ pad ≠ 10 := by
      constructor <;> (rintro rfl; exact absurd h (by decide))
    simp [h1, h]
    omega

/-- C64, for pad characters below 128. `\v<col><pad>` continues at the given column: the output before it is extended by pad characters so
that the next character stands in that column, or directly after it if the column has been reached already. The column is counted from the
start of the output or the last line ending. Missing for the full property: other pad characters (`C64_pad_deviation`). -/
theorem C64_align_partial {m : Mem} {fmt : Addr} {is js : List FmtItem} {ds : List Byte} {pad : Byte} (more : List VArg)
    (hF : Format m fmt (is ++ .align ds pad :: js)) (hlen : ((formatOutput (is ++ .align ds pad :: js)).length : Int) ≤ INT_MAX) :
    ∃ k rest, printed m fmt (formatArgs (is ++ .align ds pad :: js) ++ more) =
        .ok (((formatOutput (is ++ .align ds pad :: js)).length : Int), formatOutput is ++ List.replicate k pad ++ rest) ∧
      column (formatOutput is ++ List.replicate k pad) = max (column (formatOutput is)) (decVal ds) := by
  have hpad : FmtItem.Printable pad := by
    have h := hF.items
    clear hF hlen
    induction is with
    | nil => exact h.1.2.1
    | cons i is ih => exact ih h.2
  obtain ⟨r, hr⟩ := formatOutputFrom_prefix (formatOutput is ++ List.replicate (decVal ds - column (formatOutput is)) pad) js
  refine ⟨decVal ds - column (formatOutput is), r, ?_, ?_⟩
  · rw [C59_printed more hF hlen]
    have : formatOutput (is ++ .align ds pad :: js) =
        formatOutput is ++ List.replicate (decVal ds - column (formatOutput is)) pad ++ r := by
      rw [← hr, formatOutput, formatOutputFrom_append]
      rfl
    rw [this]
  · rw [column_replicate _ hpad]; omega

/-- C64. `\v` without a column number is printed. -/
theorem C64_plain {m : Mem} {fmt : Addr} (more : List VArg) (h : Holds m fmt [11, 0]) : printed m fmt more = .ok (1, [11]) :=
  C59_printed (is := [.vtab]) more ⟨h, by decide, rfl, trivial⟩ (by decide)

/-- C64. Deviation: prnf.h line 252 says that the pad character is the first character after the number that is not a digit. Where `char` is signed,
a character of 128 or more is not accepted: `\v3` and the byte 0xB7 print that byte once instead of three times. -/
theorem C64_pad_deviation : printed (memAt 8000 [11, 51, 0xB7, 124, 0]) 8000 [] = .ok (2, [0xB7, 124]) := by decide +kernel

-- `ab\ncd\v5.|`
example : ∃ k rest, printed (memAt 8000 [97, 98, 10, 99, 100, 11, 53, 46, 124, 0]) 8000 [] =
      .ok (9, [97, 98, 10, 99, 100] ++ List.replicate k 46 ++ rest) ∧ column ([97, 98, 10, 99, 100] ++ List.replicate k 46) = 5 := by
  have hF : Format (memAt 8000 [97, 98, 10, 99, 100, 11, 53, 46, 124, 0]) 8000
      ([.lit 97, .lit 98, .lit 10, .lit 99, .lit 100] ++ .align [53] 46 :: [.lit 124]) := by
    refine ⟨holds_memAt _ _ (by decide) (by decide), by decide, ?_⟩
    exact ⟨by simp [FmtItem.Ok], by simp [FmtItem.Ok], by simp [FmtItem.Ok], by simp [FmtItem.Ok], by simp [FmtItem.Ok],
      ⟨⟨by decide, by decide, by decide⟩, by decide, by decide⟩, by simp [FmtItem.Ok], trivial⟩
  obtain ⟨k, rest, h1, h2⟩ := C64_align_partial [] hF (by decide +kernel)
  rw [show formatOutput [.lit 97, .lit 98, .lit 10, .lit 99, .lit 100] = [97, 98, 10, 99, 100] by decide +kernel] at h1 h2
  rw [show ((formatOutput ([.lit 97, .lit 98, .lit 10, .lit 99, .lit 100] ++ .align [53] 46 :: [.lit 124])).length : Int) = 9 by decide +kernel] at h1
  exact ⟨k, rest, h1, by rw [h2]; decide +kernel⟩

/-! ### C65: appending to a string -/

/-- C65. `snappf` appends the output to the string in a buffer of `n` bytes, as much of it as fits together with a terminator, and returns the length of
the whole output. A string that is already too long for the buffer is cut. Missing for the full property: sizes above `INT_MAX` (as C59), and
buffers without a terminator (`C65_unterminated_deviation`). -/
theorem C65_append_partial {m : Mem} {dst : Addr} {n : Nat} {l : List Byte} (hs : CString m dst l) {is : List FmtItem} {fmt : Addr} (more : List VArg)
    (hn : 1 ≤ n) (hmax : (n : Int) ≤ INT_MAX)
    (hw : Writable m (dst + (min l.length (n - 1) : Nat)) (min (n - min l.length (n - 1)) ((formatOutput is).length + 1)))
    (hF : FormatApart m (dst + (min l.length (n - 1) : Nat)) (min (n - min l.length (n - 1)) ((formatOutput is).length + 1)) fmt is)
    (hlen : ((formatOutput is).length : Int) ≤ INT_MAX) :
    ∃ m', snappf m dst n fmt (formatArgs is ++ more) = .ok (((formatOutput is).length : Int), m') ∧
      Holds m' dst ((l ++ formatOutput is).take (n - 1) ++ [0]) ∧
      ∀ a, ¬ InRange (dst + (min l.length (n - 1) : Nat)) (min (n - min l.length (n - 1)) ((formatOutput is).length + 1)) a → m' a = m a := by
  obtain ⟨k, hk⟩ : ∃ k, k = min l.length (n - 1) := ⟨_, rfl⟩
  rw [← hk] at hw hF ⊢
  have hpos := hs.pos
  have e : snappf m dst n fmt (formatArgs is ++ more) = vsnprnf m (dst + (k : Nat)) (n - k) fmt (formatArgs is ++ more) := by
    have hl := prnf_strlen_eq (.inr hs)
    simp only [snappf, if_pos (show n ≠ 0 by omega), hl, Res.bind_ok]
    rw [show ((l.length : Int)).toNat = l.length from rfl]
    have : (if l.length > n - 1 then n - 1 else l.length) = k := by split <;> omega
    rw [this]
  rw [e, C59_snprnf_partial more (by omega) (by omega) hw hF hlen]
  refine ⟨_, rfl, ?_, ?_⟩
  · have hlen' : ((formatOutput is).take (n - k - 1) ++ [0]).length = min (n - k) ((formatOutput is).length + 1) := by
      simp only [List.length_append, List.length_take, List.length_cons, List.length_nil]; omega
    have h1 : (l ++ formatOutput is).take (n - 1) ++ [0] = l.take k ++ ((formatOutput is).take (n - k - 1) ++ [0]) := by
      rw [List.take_append, ← List.append_assoc]
      congr 2
      · by_cases h : l.length ≤ n - 1
        · rw [List.take_of_length_le h, List.take_of_length_le (by omega)]
        · rw [show k = n - 1 by omega]
      · congr 1
        omega
    rw [h1]
    have htk : (l.take k).length = k := by rw [List.length_take]; omega
    rw [Holds.append_iff, htk]
    refine ⟨holds_put_outside ?_ (.inl (Int.le_of_eq (by rw [htk]))), holds_put (by rw [hlen']; exact hw)⟩
    have := (Holds.append_iff.1 hs.holds).1.take k
    exact this
  · intro a ha
    apply put_outside
    simp only [List.length_append, List.length_take, List.length_cons, List.length_nil]
    simp only [InRange] at ha
    omega

/-- C65. With size 0 nothing is read or written. -/
theorem C65_zero {m : Mem} {dst : Addr} {is : List FmtItem} {fmt : Addr} (more : List VArg) (hF : Format m fmt is)
    (hlen : ((formatOutput is).length : Int) ≤ INT_MAX) :
    snappf m dst 0 fmt (formatArgs is ++ more) = .ok (((formatOutput is).length : Int), m) := by
  simp only [snappf, ne_eq, not_true, if_false, Res.bind_ok]
  exact core_prnf_count more (.inr rfl) hF hlen

/-- The kind of undefined behaviour of an outcome. -/
def ubOf {α : Type} : Res α → Option UB
  | .ub w => some w
  | _ => none

/-- C65. Deviation: prnf.h line 222 says "safely append to a string in a buffer of known size", but the code looks for the terminator beyond the buffer
(prnf.c line 286). A buffer of two bytes without a terminator makes it read past the end of it. -/
theorem C65_unterminated_deviation :
    ubOf (snappf (fun a => if a < 8500 then memAt 8000 [97, 0] a else memAt 9000 [98, 98] a) 9000 2 8000 []) = some .badRead := by
  decide +kernel

-- `x=  +42, abc%.|` is appended to `-->` in a buffer of 12 bytes
example : ∃ m', snappf (put exMem 100 [45, 45, 62, 0]) 100 12 8000 (formatArgs exFormat) = .ok (15, m') ∧
    Holds m' 100 [45, 45, 62, 120, 61, 32, 32, 43, 52, 50, 44, 0] := by
  have hw0 : Writable exMem 100 4 := exMem_writable (by decide)
  have hs : CString (put exMem 100 [45, 45, 62, 0]) 100 [45, 45, 62] := ⟨by decide, by decide, by decide, holds_put hw0⟩
  have hk : (100 : Int) + (min [45, 45, (62 : Byte)].length (12 - 1) : Nat) = 103 := by decide
  have hF : FormatApart (put exMem 100 [45, 45, 62, 0]) 103 9 8000 exFormat := fun m' h => exMem_format (fun a ha hsome => by
    have e : put exMem 100 [45, 45, 62, 0] a = exMem a := put_outside (.inr (by simp only [List.length_cons, List.length_nil]; omega))
    rw [h a (by simp only [InRange]; omega) (by rw [e]; exact hsome), e])
  obtain ⟨m', h1, h2, -⟩ := C65_append_partial (n := 12) (is := exFormat) (fmt := 8000) hs [] (by decide) (by decide)
    (by rw [hk, writable_put hw0]; exact (exMem_writable (n := 12) (by decide)).sub 3 9 (by decide)) (by rw [hk]; exact hF) (by decide)
  rw [List.append_nil] at h1
  exact ⟨m', h1, h2⟩

/-! ### C67: other letters, malformed formats -/

/-- C67. A placeholder with a letter that is not supported prints nothing and takes no argument (apart from a dynamic width or precision). Missing for
the full property, that no format string leads to undefined behaviour: `C67_percent_at_end_deviation`, `C67_number_deviation`. -/
theorem C67_unsupported_partial {m : Mem} {fmt : Addr} {c : Conv} (hv : c.value = .other) (more : List VArg) (hF : Format m fmt [.conv c]) :
    printed m fmt (c.args ++ more) = .ok (0, []) := by
  have ho : c.output = [] := by simp [Conv.output, hv]
  have := printed_conv more hF (by rw [ho]; decide)
  rw [ho] at this
  exact this

/-- C67. Deviation: in a format that ends with `%` the terminator is taken for the type letter, and the code reads on behind it. -/
theorem C67_percent_at_end_deviation : printed (memAt 8000 [97, 37, 0]) 8000 [] = .ub .badRead := by decide +kernel

/-- C67. Deviation: a width that does not fit into an `int` overflows. -/
theorem C67_number_deviation : printed (memAt 8000 [37, 57, 57, 57, 57, 57, 57, 57, 57, 57, 57, 100, 0]) 8000 [.int 1] = .ub .signedOverflow := by
  decide +kernel

-- `%5p`
example : printed (memAt 8000 [37, 53, 112, 0]) 8000 [] = .ok (0, []) := by
  refine C67_unsupported_partial (c := ⟨[], some (.digits [53]), none, .none, 112, .other⟩) rfl [] ?_
  refine ⟨holds_memAt _ _ (by decide) (by decide), by decide, ⟨by simp [Value.HasLetter, typeLetters], ?_, by simp,
    TypeLetter.ends (by unfold TypeLetter NonFlag; decide)⟩, trivial⟩
  simp only [Option.some.injEq, forall_eq']
  exact ⟨⟨by decide, by decide⟩, by decide, by simp⟩

/-! ### C68: formatted output into a strbuf -/

/-- C68. `strbuf_prnf` with the formatter of test/prnf.c: the content becomes the formatted text, or empty if it does not fit into a fixed
buffer. The format string and the string arguments are outside the buffer. -/
theorem C68_prnf {cfg : Cfg} (hcfg : cfg.Ok) {s : St} (hs : s.Sane) {p : Addr} {b : Buf} (hb : BufAt s p b) {is : List FmtItem} {fmt : Addr}
    (more : List VArg) (hF : FormatApart s.mem p (storage b.cap) fmt is) (hlen : ((formatOutput is).length : Int) ≤ INT_MAX)
    (hh : cfg.Handles b (formatOutput is).length) :
    ∃ cap, (b.Fits (formatOutput is).length → cap = b.capFor cfg (formatOutput is).length) ∧
      YieldsVia s p b (strbuf_vprnf cfg s (some p) fmt (formatArgs is ++ more))
        (if b.Fits (formatOutput is).length then formatOutput is else []) cap := by
  rw [strbuf_vprnf_eq hcfg hs hb more hF hlen hh]
  exact C47_prnf hcfg hs hb hlen hh

/-- C68. The same for `strbuf_append_prnf`, which appends the text. -/
theorem C68_append_prnf {cfg : Cfg} (hcfg : cfg.Ok) {s : St} (hs : s.Sane) {p : Addr} {b : Buf} (hb : BufAt s p b) {is : List FmtItem} {fmt : Addr}
    (more : List VArg) (hF : FormatApart s.mem p (storage b.cap) fmt is) (hlen : ((formatOutput is).length : Int) ≤ INT_MAX)
    (hh : cfg.Handles b (b.data.length + (formatOutput is).length)) :
    ∃ cap, (b.Fits (b.data.length + (formatOutput is).length) → cap = b.capFor cfg (b.data.length + (formatOutput is).length)) ∧
      YieldsVia s p b (strbuf_append_vprnf cfg s (some p) fmt (formatArgs is ++ more))
        (if b.Fits (b.data.length + (formatOutput is).length) then b.data ++ formatOutput is else []) cap := by
  rw [strbuf_append_vprnf_eq hcfg hs hb more hF hlen hh]
  exact C47_append_prnf hcfg hs hb hlen hh

/-- C68. An integer that is printed into a buffer with `%d` (or `%ld`, ...) can be read back from the view that is returned. -/
theorem C68_read_back {cfg : Cfg} (hcfg : cfg.Ok) {s : St} (hs : s.Sane) {p : Addr} {b : Buf} (hb : BufAt s p b) {c : Conv} {x : Int}
    (hv : c.value = .dec x) (hf : c.flags = []) (hw : c.width = none) (hp : c.prec = none) {fmt : Addr} (more : List VArg)
    (hF : FormatApart s.mem p (storage b.cap) fmt [.conv c]) (hroom : b.Fits 20) (hh : cfg.Handles b 20) (ty : STy) (hr : ty.InRange x) (x0 : Int) :
    (b.Dynamic ∧ strbuf_vprnf cfg s (some p) fmt (c.args ++ more) = .env .alloc) ∨
    ∃ v p' s', strbuf_vprnf cfg s (some p) fmt (c.args ++ more) = .ok (v, some p', s') ∧
      ∃ w, strnum_value_s ty s'.mem (some x0) (some v) 0 = .ok (0, some x, some w) := by
  have hF0 : Format s.mem fmt [.conv c] := hF _ (fun _ _ _ => rfl)
  obtain ⟨hout, hl⟩ := output_plain hv hf hw hp hF0.items.1
  have ho : formatOutput [.conv c] = printSigned x := hout
  have he : formatArgs [.conv c] = c.args := by simp [formatArgs, FmtItem.args]
  rw [hout] at hl
  have hfit : b.Fits (printSigned x).length := by
    rcases hroom with h | ⟨h, -⟩
    · exact .inl (by omega)
    · exact .inr ⟨h, by simp only [INT_MAX]; omega⟩
  obtain ⟨cap, -, h⟩ := C68_prnf hcfg hs hb more hF (by rw [ho]; simp only [INT_MAX]; omega) (by rw [ho]; exact hh.mono hl (Nat.le_refl _) rfl)
  rw [ho, if_pos hfit, he] at h
  rcases h with h | ⟨p', s', h1, h2⟩
  · exact .inl h
  · exact .inr ⟨_, p', s', h1, _, C28_signed_decimal (rest := []) (o := 0) ty x0 hr (by decide) (by decide) (by decide) (by refine ⟨by simp, ?_⟩; simp)
      (by simpa using h2.buf.viewOf)⟩

-- `%+5d` into a fixed buffer of capacity 8
example : ∃ cap, YieldsVia (exSt exF [37, 43, 53, 100, 0]) exP exF
    (strbuf_vprnf isoCfg (exSt exF [37, 43, 53, 100, 0]) (some exP) exQ [.int 42]) [32, 32, 43, 52, 50] cap := by
  have hF : FormatApart (exSt exF [37, 43, 53, 100, 0]).mem exP (storage exF.cap) exQ
      [.conv ⟨[.plus], some (.digits [53]), none, .none, 100, .dec 42⟩] := by
    intro m' h
    refine ⟨?_, by decide, ⟨by simp [Value.HasLetter], ?_, by simp, by simp [LenMod.bytes]⟩, trivial⟩
    · apply (exSt_other (b := exF) (l := [37, 43, 53, 100, 0]) (by decide)).holds.congr
      intro i hi
      refine h _ ?_ ?_
      · simp only [InRange, exP, exQ, storage, exF]; omega
      · simp only [exSt]
        rw [if_neg (by omega)]
        exact memAt_isSome hi
    · simp only [Option.some.injEq, forall_eq']
      exact ⟨⟨by decide, by decide⟩, by decide, by simp⟩
  obtain ⟨cap, _, h⟩ := C68_prnf isoCfg_ok (exSt_sane exF_valid _) (exSt_buf exF_valid _) [] hF (by decide) (.inr (.inl (by decide)))
  exact ⟨cap, h⟩

end CStr
