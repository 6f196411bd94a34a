import Verif.Lemmas.IntCode
import Verif.Lemmas.Examples
/-!
  Integer conversions: C22 - C28 and the integer part of C31.
  The specification (`UnsignedText`, `SignedText`, `unsignedOutcome`, `signedOutcome`) is in Spec/Num.lean.
-/
namespace CStr

/-! ### C22, C23 -/

/-- C22 for every input, with what the library takes for a digit (`DigitRunActual`: in base 2 also the bytes 0xB0 and
0xB1). -/
theorem C22_unsigned_actual {m : Mem} {v : View} {l l1 l2 ds rest : List Byte} {o : UInt32} {base n : Nat}
    (t : UTy) (dst : Option Nat) (h : ViewOf m v l) (h1 : AfterSpaces o l l1) (h2 : AfterPrefix o l1 base l2)
    (h3 : DigitRunActual base l2 ds n rest) :
    strnum_value_u t m dst (some v) o = unsignedOutcome t dst v l ds n rest := by
  obtain ⟨k1, k2, k3⟩ := value_u_cases t dst h h1 h2 h3
  unfold unsignedOutcome
  split
  · next hd => exact k1 hd
  · next hd =>
    split
    · next hn => exact k2 hd hn
    · next hn => exact k3 hd (by omega)

/-- C22, for inputs in which no byte 0xB0/0xB1 directly follows the digits of a binary literal (the code takes these two
bytes for binary digits, see `C26_deviation_fake_binary_digit`; for decimal and hexadecimal literals there is no
restriction). With `ds` the digits and `n` their value: no digits is EINVAL, a value too large for the type is ERANGE,
otherwise the value is stored (if `dst` is not NULL) and `src` is advanced to `rest`. -/
theorem C22_unsigned_partial {m : Mem} {v : View} {l ds rest : List Byte} {o : UInt32} {base n : Nat}
    (t : UTy) (dst : Option Nat) (h : ViewOf m v l) (ht : UnsignedText o l base ds n rest)
    (hx : NoFakeBit base rest) :
    strnum_value_u t m dst (some v) o = unsignedOutcome t dst v l ds n rest := by
  obtain ⟨l1, l2, h1, h2, h3⟩ := ht.parts
  exact C22_unsigned_actual t dst h h1 h2 (h3.actual hx)

/-- Every text is an `UnsignedText` in exactly one way. -/
theorem C22_text_exists_unique (o : UInt32) (l : List Byte) :
    ∃ base ds n rest, UnsignedText o l base ds n rest ∧
      ∀ base' ds' n' rest', UnsignedText o l base' ds' n' rest' → base' = base ∧ ds' = ds ∧ n' = n ∧ rest' = rest := by
  obtain ⟨l1, h1⟩ := AfterSpaces.exists o l
  obtain ⟨base, l2, h2⟩ := AfterPrefix.exists o l1
  obtain ⟨ds, n, rest, h3⟩ := DigitRun.exists base l2
  refine ⟨base, ds, n, rest, ⟨l1, l2, h1, h2, h3⟩, ?_⟩
  rintro base' ds' n' rest' ⟨l1', l2', h1', h2', h3'⟩
  obtain rfl := h1'.unique h1
  obtain ⟨rfl, rfl⟩ := h2'.unique h2
  obtain ⟨rfl, rfl, rfl⟩ := h3'.unique h2.base h3
  exact ⟨rfl, rfl, rfl, rfl⟩

/-- C23 for every input, with what the library takes for a digit. -/
theorem C23_signed_actual {m : Mem} {v : View} {l l1 l2 l3 ds rest : List Byte} {o : UInt32} {neg : Bool} {base n : Nat}
    (t : STy) (dst : Option Int) (h : ViewOf m v l) (h1 : AfterSpaces o l l1) (hs : AfterSign o l1 neg l2)
    (h2 : AfterPrefix o l2 base l3) (h3 : DigitRunActual base l3 ds n rest) :
    strnum_value_s t m dst (some v) o = signedOutcome t dst v l neg ds n rest := by
  classical
  obtain ⟨k1, k2, k3⟩ := value_s_cases t dst h h1 hs h2 h3
  unfold signedOutcome
  split
  · next hd => exact k1 hd
  · next hd =>
    split
    · next hn => exact k2 hd hn
    · next hn => exact k3 hd (Classical.not_not.mp hn)

/-- C23, with the same restriction as C22. -/
theorem C23_signed_partial {m : Mem} {v : View} {l ds rest : List Byte} {o : UInt32} {neg : Bool} {base n : Nat}
    (t : STy) (dst : Option Int) (h : ViewOf m v l) (ht : SignedText o l neg base ds n rest)
    (hx : NoFakeBit base rest) :
    strnum_value_s t m dst (some v) o = signedOutcome t dst v l neg ds n rest := by
  obtain ⟨l1, l2, l3, h1, hs, h2, h3⟩ := ht.parts
  exact C23_signed_actual t dst h h1 hs h2 (h3.actual hx)

/-- Every text is a `SignedText` in exactly one way. -/
theorem C23_text_exists_unique (o : UInt32) (l : List Byte) :
    ∃ neg base ds n rest, SignedText o l neg base ds n rest ∧
      ∀ neg' base' ds' n' rest', SignedText o l neg' base' ds' n' rest' →
        neg' = neg ∧ base' = base ∧ ds' = ds ∧ n' = n ∧ rest' = rest := by
  obtain ⟨l1, h1⟩ := AfterSpaces.exists o l
  obtain ⟨neg, l2, hs⟩ := AfterSign.exists o l1
  obtain ⟨base, l3, h2⟩ := AfterPrefix.exists o l2
  obtain ⟨ds, n, rest, h3⟩ := DigitRun.exists base l3
  refine ⟨neg, base, ds, n, rest, ⟨l1, l2, l3, h1, hs, h2, h3⟩, ?_⟩
  rintro neg' base' ds' n' rest' ⟨l1', l2', l3', h1', hs', h2', h3'⟩
  obtain rfl := h1'.unique h1
  obtain ⟨rfl, rfl⟩ := hs'.unique hs
  obtain ⟨rfl, rfl⟩ := h2'.unique h2
  obtain ⟨rfl, rfl, rfl⟩ := h3'.unique h2.base h3
  exact ⟨rfl, rfl, rfl, rfl, rfl⟩

/-- The smallest value of every signed type is accepted, and one less is not: consequence of C23 for decimal text. -/
theorem C23_limits {m : Mem} {v : View} {l ds rest : List Byte} {n : Nat} (t : STy) (dst : Option Int)
    (h : ViewOf m v l) (ht : SignedText 0 l true 10 ds n rest) (hd : ds ≠ []) :
    (n = 2 ^ (t.bits - 1) → strnum_value_s t m dst (some v) 0 =
      .ok (0, dst.map (fun _ => -(2 ^ (t.bits - 1))), some (v.part (l.length - rest.length) rest.length))) ∧
    (n = 2 ^ (t.bits - 1) + 1 → strnum_value_s t m dst (some v) 0 = .ok (ERANGE, dst, some v)) := by
  obtain ⟨l1, l2, l3, h1, hs, h2, h3⟩ := ht.parts
  obtain ⟨-, k2, k3⟩ := value_s_cases t dst h h1 hs h2 (h3.actual (fun e => by cases e))
  constructor
  · intro e
    have e2 : signedVal true n = -(2 ^ (t.bits - 1)) := by rw [e]; simp [signedVal]
    rw [k3 hd (by rw [e2]; constructor <;> cases t <;> simp [STy.bits]), e2]
  · intro e
    refine k2 hd ?_
    rintro ⟨h1, -⟩
    have e2 : signedVal true n = -(2 ^ (t.bits - 1)) - 1 := by rw [e]; simp [signedVal]; omega
    rw [e2] at h1
    omega

private theorem ex_spaces {o : UInt32} (h : flag o STRNUM_NOSPACE = false) {l : List Byte} (n : Nat) (hl : l.head? ≠ some 32) :
    AfterSpaces o (List.replicate n 32 ++ l) l := by
  unfold AfterSpaces; rw [if_neg (by simp [h])]; exact ⟨n, rfl, hl⟩

/-- non-vacuity: "  255," read with default options. -/
example : UnsignedText 0 [32, 32, 50, 53, 53, 44] 10 [50, 53, 53] 255 [44] := by
  refine ⟨[50, 53, 53, 44], [50, 53, 53, 44], ex_spaces (by decide) 2 (by decide), ?_, ⟨rfl, ?_, ?_⟩⟩
  · refine AfterPrefix.none (o := 0) (.inr ⟨.inr ?_, .inr ?_⟩)
    · rintro r (h | h) <;> simp at h
    · rintro r (h | h) <;> simp at h
  · have h := ((Numeral.nil (base := 10)).snoc (b := 50) rfl (by decide)).snoc (b := 53) rfl (by decide)
    exact h.snoc (b := 53) rfl (by decide)
  · rintro b t e ⟨d, hd, -⟩
    cases e
    simp [digitVal] at hd
example : strnum_value_u .uchar (memAt 100 [32, 32, 50, 53, 53, 44]) (some 7) (some ⟨100, 6⟩) 0 =
    .ok (0, some 255, some ⟨105, 1⟩) := by decide +kernel
example : strnum_value_u .uchar (memAt 100 [32, 32, 50, 53, 54, 44]) (some 7) (some ⟨100, 6⟩) 0 =
    .ok (ERANGE, some 7, some ⟨100, 6⟩) := by decide +kernel
example : strnum_value_s .char (memAt 100 [45, 49, 50, 56]) (some 7) (some ⟨100, 4⟩) 0 =
    .ok (0, some (-128), some ⟨104, 0⟩) := by decide +kernel
/-- non-vacuity: "-128" -/
example : SignedText 0 [45, 49, 50, 56] true 10 [49, 50, 56] 128 [] := by
  refine ⟨[45, 49, 50, 56], [49, 50, 56], [49, 50, 56], ex_spaces (by decide) 0 (by decide), .minus _ (by decide), ?_,
    ⟨rfl, ?_, by simp⟩⟩
  · refine AfterPrefix.none (o := 0) (.inr ⟨.inr ?_, .inr ?_⟩)
    · rintro r (h | h) <;> simp at h
    · rintro r (h | h) <;> simp at h
  · have h := ((Numeral.nil (base := 10)).snoc (b := 49) rfl (by decide)).snoc (b := 50) rfl (by decide)
    exact h.snoc (b := 56) rfl (by decide)

/-! ### C24 (integers) -/

/-- C24, unsigned types: for every source (NULL, invalid, or any valid view), destination (NULL or not) and options the
conversion returns 0, EINVAL or ERANGE, and if it does not return 0 both `*dst` and `*src` are as before. -/
theorem C24_unsigned_failure_atomic {m : Mem} {src : Option View} (hsrc : ∀ v, src = some v → AnyView m v)
    (t : UTy) (dst : Option Nat) (o : UInt32) :
    ∃ err dst' src', strnum_value_u t m dst src o = .ok (err, dst', src') ∧
      (err = 0 ∨ err = EINVAL ∨ err = ERANGE) ∧ (err ≠ 0 → dst' = dst ∧ src' = src) := by
  have hE : EINVAL ≠ 0 := by decide
  have hR : ERANGE ≠ 0 := by decide
  have hU : ∀ L bits, L < 18446744073709551616 → ∃ err dst' src', consume_u m dst src o L bits = .ok (err, dst', src') ∧
      (err = 0 ∨ err = EINVAL ∨ err = ERANGE) ∧ (err ≠ 0 → dst' = dst ∧ src' = src) := by
    intro L bits hL
    rcases consume_unsigned_cases hsrc o hL with ⟨err, he, e⟩ | ⟨n, w, -, -, e⟩
    · have h0 : err ≠ 0 := by rcases he with rfl | rfl <;> assumption
      refine ⟨err, dst, src, ?_, .inr he, fun _ => ⟨rfl, rfl⟩⟩
      simp only [consume_u, e, Res.bind_ok]
      cases dst <;> simp [h0]
    · refine ⟨0, dst.map (fun _ => castU bits n), some w, ?_, .inl rfl, fun h => absurd rfl h⟩
      simp only [consume_u, e, Res.bind_ok]
      cases dst <;> simp
  cases t with
  | uchar => exact hU _ _ (by decide)
  | ushort => exact hU _ _ (by decide)
  | uint => exact hU _ _ (by decide)
  | ulong => exact hU _ _ (by decide)
  | ullong =>
    rcases consume_unsigned_cases (L := 18446744073709551615) hsrc o (by decide) with ⟨err, he, e⟩ | ⟨n, w, -, -, e⟩
    · refine ⟨err, dst, src, ?_, .inr he, fun _ => ⟨rfl, rfl⟩⟩
      simp only [strnum_value_u, strnum_consume_ullong, e, Res.bind_ok]
    · refine ⟨0, dst.map (fun _ => n), some w, ?_, .inl rfl, fun h => absurd rfl h⟩
      simp only [strnum_value_u, strnum_consume_ullong, e, Res.bind_ok]
      cases dst <;> simp

/-- C24, signed types. -/
theorem C24_signed_failure_atomic {m : Mem} {src : Option View} (hsrc : ∀ v, src = some v → AnyView m v)
    (t : STy) (dst : Option Int) (o : UInt32) :
    ∃ err dst' src', strnum_value_s t m dst src o = .ok (err, dst', src') ∧
      (err = 0 ∨ err = EINVAL ∨ err = ERANGE) ∧ (err ≠ 0 → dst' = dst ∧ src' = src) := by
  have hE : EINVAL ≠ 0 := by decide
  have hR : ERANGE ≠ 0 := by decide
  have hU : ∀ lo hi bits, -9223372036854775808 ≤ lo → hi ≤ 9223372036854775807 →
      ∃ err dst' src', consume_s m dst src o lo hi bits = .ok (err, dst', src') ∧
      (err = 0 ∨ err = EINVAL ∨ err = ERANGE) ∧ (err ≠ 0 → dst' = dst ∧ src' = src) := by
    intro lo hi bits hlo hhi
    rcases consume_signed_cases hsrc o hlo hhi with ⟨err, he, e⟩ | ⟨n, w, -, -, -, e⟩
    · have h0 : err ≠ 0 := by rcases he with rfl | rfl <;> assumption
      refine ⟨err, dst, src, ?_, .inr he, fun _ => ⟨rfl, rfl⟩⟩
      simp only [consume_s, e, Res.bind_ok]
      cases dst <;> simp [h0]
    · refine ⟨0, dst.map (fun _ => castS bits n), some w, ?_, .inl rfl, fun h => absurd rfl h⟩
      simp only [consume_s, e, Res.bind_ok]
      cases dst <;> simp
  cases t with
  | char => exact hU _ _ _ (by decide) (by decide)
  | short => exact hU _ _ _ (by decide) (by decide)
  | int => exact hU _ _ _ (by decide) (by decide)
  | long => exact hU _ _ _ (by decide) (by decide)
  | llong =>
    rcases consume_signed_cases (lo := -9223372036854775808) (hi := 9223372036854775807) hsrc o (by decide) (by decide)
      with ⟨err, he, e⟩ | ⟨n, w, -, -, -, e⟩
    · refine ⟨err, dst, src, ?_, .inr he, fun _ => ⟨rfl, rfl⟩⟩
      simp only [strnum_value_s, strnum_consume_llong, e, Res.bind_ok]
    · refine ⟨0, dst.map (fun _ => n), some w, ?_, .inl rfl, fun h => absurd rfl h⟩
      simp only [strnum_value_s, strnum_consume_llong, e, Res.bind_ok]
      cases dst <;> simp

/-- non-vacuity: a view of "0x" (no digits): EINVAL with everything unchanged. -/
example : strnum_value_u .uint (memAt 100 [48, 120]) (some 7) (some ⟨100, 2⟩) 0 = .ok (EINVAL, some 7, some ⟨100, 2⟩) := by
  decide +kernel
example : AnyView (memAt 100 [48, 120]) ⟨100, 2⟩ := .inr ⟨[48, 120], viewOf_memAt 100 _ (by decide) (by decide) (by decide)⟩

/-! ### C25 -/

/-- The base and the start `r` of the digits for text `l`, following the words of C25. -/
inductive BaseChoice (o : UInt32) (l : List Byte) : (base : Nat) → (r : List Byte) → Prop
  /-- default: `0x` / `0X` selects hexadecimal -/
  | default_hex {r : List Byte} : flag o STRNUM_NOBX = false → flag o STRNUM_BASE_HEX = false →
      flag o STRNUM_BASE_BIN = false → HexPrefix l r → BaseChoice o l 16 r
  /-- default: `0b` / `0B` selects binary -/
  | default_bin {r : List Byte} : flag o STRNUM_NOBX = false → flag o STRNUM_BASE_HEX = false →
      flag o STRNUM_BASE_BIN = false → BinPrefix l r → BaseChoice o l 2 r
  /-- default: decimal otherwise -/
  | default_dec : flag o STRNUM_NOBX = false → flag o STRNUM_BASE_HEX = false → flag o STRNUM_BASE_BIN = false →
      (∀ r, ¬ HexPrefix l r) → (∀ r, ¬ BinPrefix l r) → BaseChoice o l 10 l
  /-- STRNUM_NOBX: no prefix is recognised -/
  | nobx_dec : flag o STRNUM_NOBX = true → flag o STRNUM_BASE_HEX = false → flag o STRNUM_BASE_BIN = false →
      BaseChoice o l 10 l
  | nobx_hex : flag o STRNUM_NOBX = true → flag o STRNUM_BASE_HEX = true → flag o STRNUM_BASE_BIN = false →
      BaseChoice o l 16 l
  | nobx_bin : flag o STRNUM_NOBX = true → flag o STRNUM_BASE_HEX = false → flag o STRNUM_BASE_BIN = true →
      BaseChoice o l 2 l
  /-- STRNUM_BASE_HEX: hexadecimal, the prefix `0x` is optional; a prefix `0b` is not a prefix -/
  | hex_prefixed {r : List Byte} : flag o STRNUM_NOBX = false → flag o STRNUM_BASE_HEX = true →
      flag o STRNUM_BASE_BIN = false → HexPrefix l r → BaseChoice o l 16 r
  | hex_plain : flag o STRNUM_NOBX = false → flag o STRNUM_BASE_HEX = true → flag o STRNUM_BASE_BIN = false →
      (∀ r, ¬ HexPrefix l r) → BaseChoice o l 16 l
  /-- STRNUM_BASE_BIN: binary, the prefix `0b` is optional; a prefix `0x` is not a prefix -/
  | bin_prefixed {r : List Byte} : flag o STRNUM_NOBX = false → flag o STRNUM_BASE_HEX = false →
      flag o STRNUM_BASE_BIN = true → BinPrefix l r → BaseChoice o l 2 r
  | bin_plain : flag o STRNUM_NOBX = false → flag o STRNUM_BASE_HEX = false → flag o STRNUM_BASE_BIN = true →
      (∀ r, ¬ BinPrefix l r) → BaseChoice o l 2 l
  /-- both base options: binary without prefixes -/
  | both : flag o STRNUM_BASE_HEX = true → flag o STRNUM_BASE_BIN = true → BaseChoice o l 2 l

theorem BaseChoice.afterPrefix {o : UInt32} {l r : List Byte} {base : Nat} (h : BaseChoice o l base r) :
    AfterPrefix o l base r := by
  have hb : ∀ b, optionBase o = b → (flag o STRNUM_NOBX = true ∨
        ((flag o STRNUM_BASE_HEX = true ∨ ∀ r, ¬ BinPrefix l r) ∧
         (flag o STRNUM_BASE_BIN = true ∨ ∀ r, ¬ HexPrefix l r))) → AfterPrefix o l b l := by
    intro b hb h; rw [← hb]; exact .none h
  cases h with
  | default_hex h1 h2 h3 h4 => exact .hex h1 h3 h4
  | default_bin h1 h2 h3 h4 => exact .bin h1 h2 h4
  | default_dec h1 h2 h3 h4 h5 => exact hb _ (by simp [optionBase, h2, h3]) (.inr ⟨.inr h5, .inr h4⟩)
  | nobx_dec h1 h2 h3 => exact hb _ (by simp [optionBase, h2, h3]) (.inl h1)
  | nobx_hex h1 h2 h3 => exact hb _ (by simp [optionBase, h2, h3]) (.inl h1)
  | nobx_bin h1 h2 h3 => exact hb _ (by simp [optionBase, h3]) (.inl h1)
  | hex_prefixed h1 h2 h3 h4 => exact .hex h1 h3 h4
  | hex_plain h1 h2 h3 h4 => exact hb _ (by simp [optionBase, h2, h3]) (.inr ⟨.inl h2, .inr h4⟩)
  | bin_prefixed h1 h2 h3 h4 => exact .bin h1 h2 h4
  | bin_plain h1 h2 h3 h4 => exact hb _ (by simp [optionBase, h3]) (.inr ⟨.inr h4, .inl h3⟩)
  | both h2 h3 => exact hb _ (by simp [optionBase, h3]) (.inr ⟨.inl h2, .inl h3⟩)

/-- The cases of `BaseChoice` cover every text and all options. -/
theorem C25_choice_exists (o : UInt32) (l : List Byte) : ∃ base r, BaseChoice o l base r := by
  classical
  cases h1 : flag o STRNUM_NOBX <;> cases h2 : flag o STRNUM_BASE_HEX <;> cases h3 : flag o STRNUM_BASE_BIN
  · by_cases hx : ∃ r, HexPrefix l r
    · obtain ⟨r, hx⟩ := hx; exact ⟨_, _, .default_hex h1 h2 h3 hx⟩
    · by_cases hb : ∃ r, BinPrefix l r
      · obtain ⟨r, hb⟩ := hb; exact ⟨_, _, .default_bin h1 h2 h3 hb⟩
      · exact ⟨_, _, .default_dec h1 h2 h3 (fun r h => hx ⟨r, h⟩) (fun r h => hb ⟨r, h⟩)⟩
  · by_cases hb : ∃ r, BinPrefix l r
    · obtain ⟨r, hb⟩ := hb; exact ⟨_, _, .bin_prefixed h1 h2 h3 hb⟩
    · exact ⟨_, _, .bin_plain h1 h2 h3 (fun r h => hb ⟨r, h⟩)⟩
  · by_cases hx : ∃ r, HexPrefix l r
    · obtain ⟨r, hx⟩ := hx; exact ⟨_, _, .hex_prefixed h1 h2 h3 hx⟩
    · exact ⟨_, _, .hex_plain h1 h2 h3 (fun r h => hx ⟨r, h⟩)⟩
  · exact ⟨_, _, .both h2 h3⟩
  · exact ⟨_, _, .nobx_dec h1 h2 h3⟩
  · exact ⟨_, _, .nobx_bin h1 h2 h3⟩
  · exact ⟨_, _, .nobx_hex h1 h2 h3⟩
  · exact ⟨_, _, .both h2 h3⟩

/-- C25 for unsigned types: the digits that follow the spaces and the prefix are read in the chosen base
(`DigitRunActual` is `DigitRun` except that base 2 has two more digits, the deviation of C26). -/
theorem C25_unsigned_base {m : Mem} {v : View} {l l1 r ds rest : List Byte} {o : UInt32} {base n : Nat}
    (t : UTy) (dst : Option Nat) (h : ViewOf m v l) (h1 : AfterSpaces o l l1) (h2 : BaseChoice o l1 base r)
    (h3 : DigitRunActual base r ds n rest) :
    strnum_value_u t m dst (some v) o = unsignedOutcome t dst v l ds n rest :=
  C22_unsigned_actual t dst h h1 h2.afterPrefix h3

/-- C25 for signed types: the digits that follow the spaces, the sign and the prefix are read in the chosen base. -/
theorem C25_signed_base {m : Mem} {v : View} {l l1 l2 r ds rest : List Byte} {o : UInt32} {neg : Bool} {base n : Nat}
    (t : STy) (dst : Option Int) (h : ViewOf m v l) (h1 : AfterSpaces o l l1) (hs : AfterSign o l1 neg l2)
    (h2 : BaseChoice o l2 base r) (h3 : DigitRunActual base r ds n rest) :
    strnum_value_s t m dst (some v) o = signedOutcome t dst v l neg ds n rest :=
  C23_signed_actual t dst h h1 hs h2.afterPrefix h3

theorem flag_or (a b k : UInt32) : flag (a ||| b) k = (flag a k || flag b k) := by
  have e : (a ||| b) &&& k = (a &&& k) ||| (b &&& k) := by
    apply UInt32.toBitVec_inj.1
    apply BitVec.eq_of_getLsbD_eq
    intro i hi
    simp [Bool.and_or_distrib_right]
  simp only [flag, e]
  generalize a &&& k = x, b &&& k = y
  rw [Bool.eq_iff_iff]
  simp only [bne_iff_ne, Bool.or_eq_true, ne_eq, UInt32.or_eq_zero_iff]
  exact Decidable.not_and_iff_or_not

/-- The options of the conversions. -/
inductive Opt where
  | baseBin | baseHex | nobx | nosign | nospace | noexp
  deriving DecidableEq

/-- Their values. -/
def Opt.bits : Opt → UInt32
  | baseBin => STRNUM_BASE_BIN
  | baseHex => STRNUM_BASE_HEX
  | nobx => STRNUM_NOBX
  | nosign => STRNUM_NOSIGN
  | nospace => STRNUM_NOSPACE
  | noexp => STRNUM_NOEXP

/-- C25. The options are independent: combining any of them with `|` turns on exactly those, in any order and number. -/
theorem C25_options_independent (l : List Opt) (k : Opt) : flag (l.foldl (fun o x => o ||| x.bits) STRNUM_DEFAULT) k.bits = decide (k ∈ l) := by
  have hd : ∀ a b : Opt, flag a.bits b.bits = decide (b = a) := by intro a b; cases a <;> cases b <;> decide
  have h0 : ∀ b : Opt, flag STRNUM_DEFAULT b.bits = false := by intro b; cases b <;> decide
  have key : ∀ (l : List Opt) (o : UInt32), flag (l.foldl (fun o x => o ||| x.bits) o) k.bits = (flag o k.bits || decide (k ∈ l)) := by
    intro l
    induction l with
    | nil => intro o; simp
    | cons a l ih =>
      intro o
      rw [List.foldl_cons, ih, flag_or, hd a k, Bool.or_assoc]
      simp only [List.mem_cons, Bool.decide_or]
  rw [key l, h0 k, Bool.false_or]

example := C25_options_independent [.nosign, .baseHex] .baseBin

theorem isDigit_zero (base : Nat) (hb : 1 < base) : IsDigitOf base 48 := ⟨0, rfl, by omega⟩

/-- C25: with STRNUM_NOBX only the leading 0 of `0x..` or `0b..` is read as a decimal number. -/
theorem C25_nobx_reads_zero {m : Mem} {v : View} {r : List Byte} {c : Byte} {o : UInt32} (t : UTy) (dst : Option Nat)
    (ho : flag o STRNUM_NOBX = true) (ho2 : flag o STRNUM_BASE_HEX = false) (ho3 : flag o STRNUM_BASE_BIN = false)
    (hc : c = 120 ∨ c = 88 ∨ c = 98 ∨ c = 66) (h : ViewOf m v (48 :: c :: r)) :
    strnum_value_u t m dst (some v) o = .ok (0, dst.map (fun _ => 0), some (v.part 1 (r.length + 1))) := by
  have h1 : AfterSpaces o (48 :: c :: r) (48 :: c :: r) := by
    unfold AfterSpaces; split
    · rfl
    · exact ⟨0, rfl, by simp⟩
  have h3 : DigitRun 10 (48 :: c :: r) [48] 0 (c :: r) := by
    refine ⟨rfl, ?_, ?_⟩
    · exact (Numeral.nil (base := 10)).snoc (b := 48) rfl (by decide)
    · rintro b t e ⟨d, hd, hlt⟩
      cases e
      rcases hc with rfl | rfl | rfl | rfl <;> simp [digitVal] at hd <;> omega
  rw [C25_unsigned_base t dst h h1 (.nobx_dec ho ho2 ho3) (h3.actual (fun e => by cases e))]
  have hm : ¬ t.max < 0 := by omega
  have hl : (48 :: c :: r).length - (c :: r).length = 1 := by simp only [List.length_cons]; omega
  simp only [unsignedOutcome, List.cons_ne_nil, if_false, hm, hl]
  rfl

example : strnum_value_u .uint (memAt 100 [48, 120, 70, 102, 103]) (some 7) (some ⟨100, 5⟩) 0 =
    .ok (0, some 255, some ⟨104, 1⟩) := by decide +kernel
example : strnum_value_u .uint (memAt 100 [48, 120, 70, 102, 103]) (some 7) (some ⟨100, 5⟩) STRNUM_NOBX =
    .ok (0, some 0, some ⟨101, 4⟩) := by decide +kernel
example : strnum_value_u .uint (memAt 100 [48, 98, 49, 103]) (some 7) (some ⟨100, 4⟩) STRNUM_BASE_HEX =
    .ok (0, some 0xb1, some ⟨103, 1⟩) := by decide +kernel
example : strnum_value_u .uint (memAt 100 [48, 120, 49]) (some 7) (some ⟨100, 3⟩) STRNUM_BASE_BIN =
    .ok (0, some 0, some ⟨101, 2⟩) := by decide +kernel
example : BaseChoice 0 [48, 120, 70, 102, 103] 16 [70, 102, 103] :=
  .default_hex (by decide) (by decide) (by decide) (.inl rfl)

/-! ### C26 -/

/-- C26, decimal and hexadecimal: a successful conversion leaves `src` directly after the longest run `ds` of digits of the
base, which follows the spaces and the prefix; so all bytes consumed after the prefix are digits of the base. Binary is
covered only if no byte 0xB0/0xB1 follows the digits. -/
theorem C26_unsigned_digits_only_partial {m : Mem} {v w : View} {l l1 r ds rest : List Byte} {o : UInt32} {base n : Nat}
    {t : UTy} {dst dst' : Option Nat} (h : ViewOf m v l) (h1 : AfterSpaces o l l1) (h2 : BaseChoice o l1 base r)
    (h3 : DigitRun base r ds n rest) (hx : NoFakeBit base rest)
    (hok : strnum_value_u t m dst (some v) o = .ok (0, dst', some w)) :
    (∀ b ∈ ds, IsDigitOf base b) ∧ r = ds ++ rest ∧ ViewOf m w rest ∧
      w.data + w.size = v.data + v.size := by
  refine ⟨h3.value.digits, h3.split, ?_⟩
  rw [C25_unsigned_base t dst h h1 h2 (h3.actual hx)] at hok
  unfold unsignedOutcome at hok
  have hE : EINVAL ≠ 0 := by decide
  have hR : ERANGE ≠ 0 := by decide
  split at hok
  · simp [hE] at hok
  · split at hok
    · simp [hR] at hok
    · simp only [Res.ok.injEq, Prod.mk.injEq, Option.some.injEq, true_and] at hok
      obtain ⟨-, rfl⟩ := hok
      obtain ⟨p1, rfl, -⟩ := consume_space_spec h h1
      obtain ⟨p2, -, rfl, -⟩ := consume_base_prefix_spec h.suffix h2.afterPrefix
      obtain rfl := h3.split
      have h' : ViewOf m v ((p1 ++ p2 ++ ds) ++ rest) := by simpa using h
      have e : (p1 ++ (p2 ++ (ds ++ rest))).length - rest.length = (p1 ++ p2 ++ ds).length := by simp; omega
      rw [e]
      refine ⟨h'.suffix, ?_⟩
      have := h'.size
      simp only [View.part, this, List.length_append]
      omega

/-- C26 does not hold for binary literals: the byte 0xB1 (`±` in Latin-1) after `0b` is consumed as the digit 1. -/
theorem C26_deviation_fake_binary_digit :
    strnum_value_u .uint (memAt 100 [48, 98, 0xB1, 0xB0]) (some 7) (some ⟨100, 4⟩) 0 =
      .ok (0, some 2, some ⟨104, 0⟩) ∧ ¬ IsDigitOf 2 0xB1 ∧ ¬ IsDigitOf 2 0xB0 := by
  refine ⟨by decide +kernel, ?_, ?_⟩ <;> rintro ⟨d, hd, -⟩ <;> simp [digitVal] at hd

/-! ### C27 (integers) -/

/-- The value a default-value function has to return, given what the consuming function returns. -/
def orDefault {α : Type} (d : α) : Res (Int × Option α × Option View) → Res α
  | .ok (0, some x, _) => .ok x
  | .ok _ => .ok d
  | .ub e => .ub e
  | .fuel => .fuel
  | .env w => .env w

/-- C27, unsigned: for every view (valid or not), each default-value function returns, without any undefined behaviour,
what the corresponding consuming function stores, or the default if that fails. -/
theorem C27_unsigned_default {m : Mem} {v : View} (h : AnyView m v) (d x : Nat) (o : UInt32) :
    (∃ y, strnum_uchar m v d o = .ok y ∧ orDefault d (strnum_value_u .uchar m (some x) (some v) o) = .ok y) ∧
    (∃ y, strnum_ushort m v d o = .ok y ∧ orDefault d (strnum_value_u .ushort m (some x) (some v) o) = .ok y) ∧
    (∃ y, strnum_uint m v d o = .ok y ∧ orDefault d (strnum_value_u .uint m (some x) (some v) o) = .ok y) ∧
    (∃ y, strnum_ulong m v d o = .ok y ∧ orDefault d (strnum_value_u .ulong m (some x) (some v) o) = .ok y) ∧
    (∃ y, strnum_ullong m v d o = .ok y ∧ orDefault d (strnum_value_u .ullong m (some x) (some v) o) = .ok y) ∧
    (∃ y, strnum_u8 m v d o = .ok y ∧ orDefault d (strnum_value_u .uchar m (some x) (some v) o) = .ok y) ∧
    (∃ y, strnum_u16 m v d o = .ok y ∧ orDefault d (strnum_value_u .ushort m (some x) (some v) o) = .ok y) ∧
    (∃ y, strnum_u32 m v d o = .ok y ∧ orDefault d (strnum_value_u .uint m (some x) (some v) o) = .ok y) ∧
    (∃ y, strnum_u64 m v d o = .ok y ∧ orDefault d (strnum_value_u .ulong m (some x) (some v) o) = .ok y) := by
  have hsrc : ∀ w, some v = some w → AnyView m w := fun w e => by cases e; exact h
  have hU : ∀ L bits, L < 18446744073709551616 → ∃ y, default_u m v d o L bits = .ok y ∧
      orDefault d (consume_u m (some x) (some v) o L bits) = .ok y := by
    intro L bits hL
    rcases consume_unsigned_cases hsrc o hL with ⟨err, he, e⟩ | ⟨n, w, -, -, e⟩
    · have h0 : err ≠ 0 := by rcases he with rfl | rfl <;> decide
      refine ⟨d, by simp [default_u, e, h0], ?_⟩
      rcases he with rfl | rfl <;> simp [consume_u, e] <;> rfl
    · refine ⟨castU bits n, by simp [default_u, e], ?_⟩
      simp [consume_u, e, orDefault]
  have hUL : ∃ y, default_u m v d o 18446744073709551615 64 = .ok y ∧
      orDefault d (strnum_consume_ullong m (some x) (some v) o) = .ok y := by
    rcases consume_unsigned_cases (L := 18446744073709551615) hsrc o (by decide) with ⟨err, he, e⟩ | ⟨n, w, hn, -, e⟩
    · have h0 : err ≠ 0 := by rcases he with rfl | rfl <;> decide
      refine ⟨d, by simp [default_u, e, h0], ?_⟩
      rcases he with rfl | rfl <;> simp [strnum_consume_ullong, e] <;> rfl
    · have : castU 64 n = n := Nat.mod_eq_of_lt (by omega)
      refine ⟨n, by simp [default_u, e, this], ?_⟩
      simp [strnum_consume_ullong, e, orDefault]
  exact ⟨hU _ _ (by decide), hU _ _ (by decide), hU _ _ (by decide), hU _ _ (by decide), hUL,
    hU _ _ (by decide), hU _ _ (by decide), hU _ _ (by decide), hU _ _ (by decide)⟩

/-- C27, signed. -/
theorem C27_signed_default {m : Mem} {v : View} (h : AnyView m v) (d x : Int) (o : UInt32) :
    (∃ y, strnum_char m v d o = .ok y ∧ orDefault d (strnum_value_s .char m (some x) (some v) o) = .ok y) ∧
    (∃ y, strnum_short m v d o = .ok y ∧ orDefault d (strnum_value_s .short m (some x) (some v) o) = .ok y) ∧
    (∃ y, strnum_int m v d o = .ok y ∧ orDefault d (strnum_value_s .int m (some x) (some v) o) = .ok y) ∧
    (∃ y, strnum_long m v d o = .ok y ∧ orDefault d (strnum_value_s .long m (some x) (some v) o) = .ok y) ∧
    (∃ y, strnum_llong m v d o = .ok y ∧ orDefault d (strnum_value_s .llong m (some x) (some v) o) = .ok y) ∧
    (∃ y, strnum_i8 m v d o = .ok y ∧ orDefault d (strnum_value_s .char m (some x) (some v) o) = .ok y) ∧
    (∃ y, strnum_i16 m v d o = .ok y ∧ orDefault d (strnum_value_s .short m (some x) (some v) o) = .ok y) ∧
    (∃ y, strnum_i32 m v d o = .ok y ∧ orDefault d (strnum_value_s .int m (some x) (some v) o) = .ok y) ∧
    (∃ y, strnum_i64 m v d o = .ok y ∧ orDefault d (strnum_value_s .long m (some x) (some v) o) = .ok y) := by
  have hsrc : ∀ w, some v = some w → AnyView m w := fun w e => by cases e; exact h
  have hU : ∀ lo hi bits, -9223372036854775808 ≤ lo → hi ≤ 9223372036854775807 →
      ∃ y, default_s m v d o lo hi bits = .ok y ∧ orDefault d (consume_s m (some x) (some v) o lo hi bits) = .ok y := by
    intro lo hi bits hlo hhi
    rcases consume_signed_cases hsrc o hlo hhi with ⟨err, he, e⟩ | ⟨n, w, -, -, -, e⟩
    · have h0 : err ≠ 0 := by rcases he with rfl | rfl <;> decide
      refine ⟨d, by simp [default_s, e, h0], ?_⟩
      rcases he with rfl | rfl <;> simp [consume_s, e] <;> rfl
    · refine ⟨castS bits n, by simp [default_s, e], ?_⟩
      simp [consume_s, e, orDefault]
  have hUL : ∃ y, default_s m v d o (-9223372036854775808) 9223372036854775807 64 = .ok y ∧
      orDefault d (strnum_consume_llong m (some x) (some v) o) = .ok y := by
    rcases consume_signed_cases (lo := -9223372036854775808) (hi := 9223372036854775807) hsrc o (by decide) (by decide)
      with ⟨err, he, e⟩ | ⟨n, w, hn1, hn2, -, e⟩
    · have h0 : err ≠ 0 := by rcases he with rfl | rfl <;> decide
      refine ⟨d, by simp [default_s, e, h0], ?_⟩
      rcases he with rfl | rfl <;> simp [strnum_consume_llong, e] <;> rfl
    · refine ⟨n, by simp [default_s, e, castS64_eq n n (.inl rfl) hn1 hn2], ?_⟩
      simp [strnum_consume_llong, e, orDefault]
  exact ⟨hU _ _ _ (by decide) (by decide), hU _ _ _ (by decide) (by decide), hU _ _ _ (by decide) (by decide),
    hU _ _ _ (by decide) (by decide), hUL, hU _ _ _ (by decide) (by decide), hU _ _ _ (by decide) (by decide),
    hU _ _ _ (by decide) (by decide), hU _ _ _ (by decide) (by decide)⟩

example : strnum_i8 (memAt 100 [45, 49, 50, 57]) ⟨100, 4⟩ 5 0 = .ok 5 := by decide +kernel
example : strnum_i8 (memAt 100 [45, 49, 50, 56]) ⟨100, 4⟩ 5 0 = .ok (-128) := by decide +kernel
example : strnum_u64 (memAt 100 []) .invalid 5 0 = .ok 5 := by decide +kernel

/-! ### C31 (integers) -/

/-- C31, integer types: a NULL source gives EINVAL, whatever the memory, and nothing is stored. -/
theorem C31_integer_null_source (m : Mem) (o : UInt32) :
    (∀ t dst, strnum_value_u t m dst none o = .ok (EINVAL, dst, none)) ∧
    (∀ t dst, strnum_value_s t m dst none o = .ok (EINVAL, dst, none)) := by
  constructor <;> intro t dst <;> cases t <;> cases dst <;> rfl

/-! ### C28 -/

theorem digitChar_val (base d : Nat) (hb : base ≤ 16) (hd : d < base) :
    digitVal (UInt8.ofNat (Nat.digitChar d).toNat) = some d := by
  have : ∀ k : Fin 16, digitVal (UInt8.ofNat (Nat.digitChar k.val).toNat) = some k.val := by decide
  exact this ⟨d, by omega⟩

theorem printBytes_ne_nil (base n : Nat) : printBytes base n ≠ [] := by
  simp [printBytes, Nat.toDigits_ne_nil]

theorem printBytes_numeral (base : Nat) (h1 : 1 < base) (h2 : base ≤ 16) (n : Nat) :
    Numeral base (printBytes base n) n := by
  induction n using Nat.strongRecOn with
  | _ n ih =>
    by_cases hn : n < base
    · rw [printBytes, Nat.toDigits_of_lt_base hn]
      have := (Numeral.nil (base := base)).snoc (digitChar_val base n h2 hn) hn
      simpa using this
    · have hlt : n / base < n := Nat.div_lt_self (by omega) h1
      rw [printBytes, Nat.toDigits_of_base_le h1 (by omega), List.map_append]
      have := (ih _ hlt).snoc (digitChar_val base (n % base) h2 (Nat.mod_lt _ (by omega))) (Nat.mod_lt _ (by omega))
      rw [Nat.mul_comm, Nat.div_add_mod] at this
      exact this

theorem printBytes_length (n : Nat) : n < 10 ∨ 2 ≤ (printBytes 10 n).length := by
  by_cases hn : n < 10
  · exact .inl hn
  · right
    rw [printBytes, Nat.toDigits_of_base_le (by decide) (by omega), List.map_append, List.length_append]
    have : 0 < (Nat.toDigits 10 (n / 10)).length := Nat.length_toDigits_pos
    simp only [List.length_map, List.length_singleton]
    omega

theorem printBytes_head (base n : Nat) (h1 : 1 < base) (h2 : base ≤ 16) (rest : List Byte) :
    ∃ b t, printBytes base n ++ rest = b :: t ∧ IsDigitOf base b := by
  have hd := (printBytes_numeral base h1 h2 n).digits
  cases hp : printBytes base n with
  | nil => exact absurd hp (printBytes_ne_nil base n)
  | cons b t => exact ⟨b, t ++ rest, rfl, hd b (by simp [hp])⟩

theorem digit_not_special {base : Nat} {b : Byte} (h : IsDigitOf base b) : b ≠ 32 ∧ b ≠ 45 ∧ b ≠ 43 := by
  obtain ⟨d, hd, -⟩ := h
  refine ⟨?_, ?_, ?_⟩ <;> rintro rfl <;> simp [digitVal] at hd

theorem dec_digit_not_letter {b : Byte} (h : IsDigitOf 10 b) : b ≠ 98 ∧ b ≠ 66 ∧ b ≠ 120 ∧ b ≠ 88 := by
  obtain ⟨d, hd, hlt⟩ := h
  refine ⟨?_, ?_, ?_, ?_⟩ <;> rintro rfl <;> simp [digitVal] at hd <;> omega

/-- The text after a decimal number does not change how it is read: it does not start with a digit, and the single digit
`0` is not followed by a letter that makes it a base prefix (unless STRNUM_NOBX is given). -/
def EndsDecimal (o : UInt32) (n : Nat) (rest : List Byte) : Prop :=
  (∀ b t, rest = b :: t → ¬ IsDigitOf 10 b) ∧
  (flag o STRNUM_NOBX = true ∨ n ≠ 0 ∨
    (rest.head? ≠ some 98 ∧ rest.head? ≠ some 66 ∧ rest.head? ≠ some 120 ∧ rest.head? ≠ some 88))

theorem printBytes_second {o : UInt32} {n : Nat} {rest r : List Byte} {c : Byte} (hr : EndsDecimal o n rest)
    (ho : flag o STRNUM_NOBX = false) (hc : c = 98 ∨ c = 66 ∨ c = 120 ∨ c = 88)
    (e : printBytes 10 n ++ rest = 48 :: c :: r) : False := by
  have hd := (printBytes_numeral 10 (by decide) (by decide) n).digits
  rcases printBytes_length n with hn | hn
  · rw [printBytes, Nat.toDigits_of_lt_base hn] at e
    simp only [List.map_cons, List.map_nil, List.cons_append, List.nil_append, List.cons.injEq] at e
    obtain ⟨e1, e2⟩ := e
    have hv := digitChar_val 10 n (by decide) hn
    rw [e1] at hv
    have hn0 : n = 0 := by simpa [digitVal] using hv.symm
    obtain ⟨-, h | h | h⟩ := hr
    · rw [ho] at h; cases h
    · exact h hn0
    · rw [e2] at h
      simp at h
      rcases hc with rfl | rfl | rfl | rfl <;> simp at h
  · cases hp : printBytes 10 n with
    | nil => simp [hp] at hn
    | cons b t =>
      cases t with
      | nil => simp [hp] at hn
      | cons b' t =>
        rw [hp] at e
        simp only [List.cons_append, List.cons.injEq] at e
        have := dec_digit_not_letter (hd b' (by simp [hp]))
        obtain ⟨-, e2, -⟩ := e
        rw [e2] at this
        rcases hc with rfl | rfl | rfl | rfl <;> simp at this

theorem afterSpaces_self {o : UInt32} {b : Byte} {t : List Byte} (h : b ≠ 32) : AfterSpaces o (b :: t) (b :: t) := by
  unfold AfterSpaces; split
  · rfl
  · exact ⟨0, rfl, by simpa using h⟩

theorem afterPrefix_print {o : UInt32} {n : Nat} {rest : List Byte} (hr : EndsDecimal o n rest)
    (hb : flag o STRNUM_BASE_BIN = false) (hh : flag o STRNUM_BASE_HEX = false) :
    AfterPrefix o (printBytes 10 n ++ rest) 10 (printBytes 10 n ++ rest) := by
  have e : optionBase o = 10 := by simp [optionBase, hb, hh]
  have := @AfterPrefix.none o (printBytes 10 n ++ rest) (by
    cases ho : flag o STRNUM_NOBX with
    | true => exact .inl rfl
    | false =>
      refine .inr ⟨.inr ?_, .inr ?_⟩
      · rintro r (h | h)
        · exact printBytes_second hr ho (.inl rfl) h
        · exact printBytes_second hr ho (.inr (.inl rfl)) h
      · rintro r (h | h)
        · exact printBytes_second hr ho (.inr (.inr (.inl rfl))) h
        · exact printBytes_second hr ho (.inr (.inr (.inr rfl))) h)
  rwa [e] at this

/-- C28, unsigned decimal: for every unsigned type and each of its values `n`, parsing the text of `n` followed by `rest`
stores `n` and leaves exactly `rest`. -/
theorem C28_unsigned_decimal {m : Mem} {v : View} {rest : List Byte} {o : UInt32} {n : Nat} (t : UTy) (x : Nat)
    (hn : n ≤ t.max) (hb : flag o STRNUM_BASE_BIN = false) (hh : flag o STRNUM_BASE_HEX = false)
    (hr : EndsDecimal o n rest) (h : ViewOf m v (printBytes 10 n ++ rest)) :
    strnum_value_u t m (some x) (some v) o =
      .ok (0, some n, some (v.part (printBytes 10 n).length rest.length)) := by
  obtain ⟨b, t', e, hd⟩ := printBytes_head 10 n (by decide) (by decide) rest
  have h1 : AfterSpaces o (printBytes 10 n ++ rest) (printBytes 10 n ++ rest) := by
    rw [e]; exact afterSpaces_self (digit_not_special hd).1
  rw [C22_unsigned_partial t (some x) h ⟨_, _, h1, afterPrefix_print hr hb hh,
    ⟨rfl, printBytes_numeral 10 (by decide) (by decide) n, hr.1⟩⟩ (fun e => by cases e)]
  have : ¬ t.max < n := by omega
  simp only [unsignedOutcome, printBytes_ne_nil, if_false, this, List.length_append, Nat.add_sub_cancel]
  rfl

/-- C28, unsigned hexadecimal with prefix. -/
theorem C28_unsigned_hex {m : Mem} {v : View} {rest : List Byte} {o : UInt32} {n : Nat} {c : Byte} (t : UTy) (x : Nat)
    (hn : n ≤ t.max) (hb : flag o STRNUM_BASE_BIN = false) (ho : flag o STRNUM_NOBX = false)
    (hc : c = 120 ∨ c = 88) (hr : ∀ b t, rest = b :: t → ¬ IsDigitOf 16 b)
    (h : ViewOf m v (48 :: c :: (printBytes 16 n ++ rest))) :
    strnum_value_u t m (some x) (some v) o =
      .ok (0, some n, some (v.part (2 + (printBytes 16 n).length) rest.length)) := by
  rw [C22_unsigned_partial t (some x) h ⟨_, _, afterSpaces_self (by decide),
    .hex ho hb (by rcases hc with rfl | rfl; exact .inl rfl; exact .inr rfl),
    ⟨rfl, printBytes_numeral 16 (by decide) (by decide) n, hr⟩⟩ (fun e => by cases e)]
  have h1 : ¬ t.max < n := by omega
  have h2 : (48 :: c :: (printBytes 16 n ++ rest)).length - rest.length = 2 + (printBytes 16 n).length := by
    simp only [List.length_cons, List.length_append]; omega
  simp only [unsignedOutcome, printBytes_ne_nil, if_false, h1, h2]
  rfl

/-- C28, unsigned binary with prefix. -/
theorem C28_unsigned_bin_partial {m : Mem} {v : View} {rest : List Byte} {o : UInt32} {n : Nat} {c : Byte} (t : UTy) (x : Nat)
    (hn : n ≤ t.max) (hh : flag o STRNUM_BASE_HEX = false) (ho : flag o STRNUM_NOBX = false)
    (hc : c = 98 ∨ c = 66) (hr : ∀ b t, rest = b :: t → ¬ IsDigitOf 2 b) (hx : NoFakeBit 2 rest)
    (h : ViewOf m v (48 :: c :: (printBytes 2 n ++ rest))) :
    strnum_value_u t m (some x) (some v) o =
      .ok (0, some n, some (v.part (2 + (printBytes 2 n).length) rest.length)) := by
  rw [C22_unsigned_partial t (some x) h ⟨_, _, afterSpaces_self (by decide),
    .bin ho hh (by rcases hc with rfl | rfl; exact .inl rfl; exact .inr rfl),
    ⟨rfl, printBytes_numeral 2 (by decide) (by decide) n, hr⟩⟩ hx]
  have h1 : ¬ t.max < n := by omega
  have h2 : (48 :: c :: (printBytes 2 n ++ rest)).length - rest.length = 2 + (printBytes 2 n).length := by
    simp only [List.length_cons, List.length_append]; omega
  simp only [unsignedOutcome, printBytes_ne_nil, if_false, h1, h2]
  rfl

/-- The decimal text of a signed number, read as a signed literal. -/
theorem signedText_print {rest : List Byte} {o : UInt32} {n : Int} (hb : flag o STRNUM_BASE_BIN = false) (hh : flag o STRNUM_BASE_HEX = false)
    (hs : flag o STRNUM_NOSIGN = false) (hr : EndsDecimal o n.natAbs rest) :
    ∃ neg, SignedText o (printSigned n ++ rest) neg 10 (printBytes 10 n.natAbs) n.natAbs rest ∧ signedVal neg n.natAbs = n := by
  obtain ⟨b, t', e, hd⟩ := printBytes_head 10 n.natAbs (by decide) (by decide) rest
  have hp := afterPrefix_print hr hb hh
  have hrun : DigitRun 10 (printBytes 10 n.natAbs ++ rest) (printBytes 10 n.natAbs) n.natAbs rest :=
    ⟨rfl, printBytes_numeral 10 (by decide) (by decide) _, hr.1⟩
  by_cases h0 : n < 0
  · refine ⟨true, ⟨45 :: (printBytes 10 n.natAbs ++ rest), _, _, ?_, ?_, hp, hrun⟩, by simp [signedVal]; omega⟩
    · simp only [printSigned, if_pos h0, List.cons_append]
      exact afterSpaces_self (by decide)
    · exact .minus _ hs
  · refine ⟨false, ⟨printBytes 10 n.natAbs ++ rest, _, _, ?_, ?_, hp, hrun⟩, by simp [signedVal]; omega⟩
    · simp only [printSigned, if_neg h0]
      rw [e]; exact afterSpaces_self (digit_not_special hd).1
    · refine .none _ (.inr ?_)
      rw [e]
      have := digit_not_special hd
      simp [this]

/-- C28, signed decimal. -/
theorem C28_signed_decimal {m : Mem} {v : View} {rest : List Byte} {o : UInt32} {n : Int} (t : STy) (x : Int)
    (hn : t.InRange n) (hb : flag o STRNUM_BASE_BIN = false) (hh : flag o STRNUM_BASE_HEX = false)
    (hs : flag o STRNUM_NOSIGN = false) (hr : EndsDecimal o n.natAbs rest)
    (h : ViewOf m v (printSigned n ++ rest)) :
    strnum_value_s t m (some x) (some v) o =
      .ok (0, some n, some (v.part (printSigned n).length rest.length)) := by
  obtain ⟨neg, ht, hv⟩ := signedText_print hb hh hs hr
  obtain ⟨l1, l2, l3, h1, hs, h2, h3⟩ := ht.parts
  obtain ⟨-, -, k3⟩ := value_s_cases t (some x) h h1 hs h2 (h3.actual (fun e => by cases e))
  rw [k3 (printBytes_ne_nil _ _) (by rw [hv]; exact hn), hv]
  simp only [List.length_append, Nat.add_sub_cancel]
  rfl

/-- non-vacuity: -128 followed by a comma, and the text produced by the printer. -/
example : printSigned (-128) = [45, 49, 50, 56] ∧ STy.InRange .char (-128) ∧ EndsDecimal 0 128 [44] := by
  refine ⟨by decide +kernel, by simp [STy.InRange, STy.bits], ?_, .inr (.inl (by decide))⟩
  rintro b t e ⟨d, hd, -⟩
  cases e
  simp [digitVal] at hd
example : printBytes 16 255 = [102, 102] := by decide +kernel

end CStr
