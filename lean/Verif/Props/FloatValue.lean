import Verif.Lemmas.FloatRat
import Verif.Props.Float
/-
  C30: with exact arithmetic (`exactOps`, see Spec/FloatValue.lean) the conversion stores the mathematical value of the
  literal.
-/
namespace CStr

/-- C30, as far as it holds: if the integral digits can be cut into two numbers of 64 bits (which is so if the number they
write is less than 10^38, see `TwoWords.of_lt`), then for any number of fractional digits and any exponent
in the range of `int` the conversion to each of the three types, done with exact arithmetic, stores the exact
value of the literal with its sign and leaves the rest of the text.
Missing for the full property: longer integral parts, for all of which it is false, see `C30_deviation_long`. -/
theorem C30_exact_value_partial (t : FTy) {m : Mem} {v : View} {l i f rest : List Byte} {o : UInt32} {neg : Bool}
    {e : Int} (h : ViewOf m v l) (ht : FloatText o l neg (.num i f e) rest) (he : INT_MIN ≤ e ∧ e ≤ INT_MAX)
    (hi : TwoWords i) (dst : Option ℚ) :
    strnum_value_f exactOps t m dst (some v) o =
      .ok (0, dst.map (fun _ => if neg then - literalValue i f e else literalValue i f e),
        some (v.part (l.length - rest.length) rest.length)) := by
  obtain ⟨l1, l2, h1, h2, hb⟩ := ht.parts
  cases hb with
  | num h3 h4 hne h5 =>
    obtain ⟨val, has, hv⟩ := (value_f_num exactOps t h h1 h2 h3 h4 hne h5).2 (fun hc => hc he)
    have df : ∀ b ∈ f, isDigit b = true := by
      cases h4 with
      | point hr => exact hr.digit
      | none => simp
    rw [twoWords_iff h3.digit] at hi
    obtain ⟨ci, cf, f', z, c1, rfl, c3, rfl, rfl, -, rfl⟩ := has.eq
    have hi' := digitsNumber_eq h3.digit
    have hval : exactOps.mul (fracFold exactOps cf 0 (intFold exactOps ci exactOps.zero)) (exactOps.pow10 e)
        = literalValue ci.flatten (cf.flatten ++ List.replicate z 48) e := by
      have hz : exactOps.zero = (0 : ℚ) := rfl
      rw [hz, intFold_two (c1.two_iff.2 hi), fracFold_exact]
      simp only [literalValue, hi', digitsNumber_eq df, decNum_append, List.length_append, List.length_replicate]
      have hz2 : decNum (List.replicate z 48) = 0 := codeNum_zeros 10 z rfl
      rw [hz2]
      simp only [exactOps, zero_sub, zpow_neg, zpow_natCast]
      push_cast
      rw [pow_add]
      have h10 : (10 : ℚ) ^ z ≠ 0 := by positivity
      have h11 : (10 : ℚ) ^ cf.flatten.length ≠ 0 := by positivity
      field_simp
      ring
    rw [hval] at hv
    rw [hv]
    rfl

/-- C30 is violated by all other integral parts: if the digits cannot be cut into two numbers of 64 bits, the conversion
still succeeds, but the value computed with exact arithmetic is greater in magnitude than the value of the literal. -/
theorem C30_deviation_long (t : FTy) {m : Mem} {v : View} {l i f rest : List Byte} {o : UInt32} {neg : Bool}
    {e : Int} (h : ViewOf m v l) (ht : FloatText o l neg (.num i f e) rest) (he : INT_MIN ≤ e ∧ e ≤ INT_MAX)
    (hi : ¬ TwoWords i) (x : ℚ) :
    ∃ y, strnum_value_f exactOps t m (some x) (some v) o = .ok (0, some (if neg then - y else y),
        some (v.part (l.length - rest.length) rest.length)) ∧
      literalValue i f e < y := by
  obtain ⟨l1, l2, h1, h2, hb⟩ := ht.parts
  cases hb with
  | num h3 h4 hne h5 =>
    obtain ⟨val, has, hv⟩ := (value_f_num exactOps t h h1 h2 h3 h4 hne h5).2 (fun hc => hc he)
    have df : ∀ b ∈ f, isDigit b = true := by
      cases h4 with
      | point hr => exact hr.digit
      | none => simp
    rw [twoWords_iff h3.digit] at hi
    obtain ⟨ci, cf, f', z, c1, rfl, c3, rfl, rfl, -, rfl⟩ := has.eq
    have hi' := digitsNumber_eq h3.digit
    rw [← c1.two_iff] at hi
    have hgt : (decNum ci.flatten : ℚ) < intFold exactOps ci 0 := by
      cases c1 with
      | nil => simp at hi
      | last => simp at hi
      | @more c b d cs k1 k2 k3 k4 =>
        cases k4 with
        | last j1 j2 => simp at hi
        | more j1 j2 j3 j4 =>
          refine intFold_three ?_ (by simp)
          by_contra hc
          have h6 : decNum c = 0 := by omega
          rw [decNum_append, h6, Nat.zero_mul, Nat.zero_add] at k3
          have := decNum_lt [b] (fun x hx => h3.digit x (by simp at hx; simp [hx]))
          simp at this
          omega
    have hval : literalValue ci.flatten (cf.flatten ++ List.replicate z 48) e <
        exactOps.mul (fracFold exactOps cf 0 (intFold exactOps ci exactOps.zero)) (exactOps.pow10 e) := by
      have hz : exactOps.zero = (0 : ℚ) := rfl
      rw [hz, fracFold_exact]
      simp only [literalValue, hi', digitsNumber_eq df, decNum_append, List.length_append, List.length_replicate]
      have hz2 : decNum (List.replicate z 48) = 0 := codeNum_zeros 10 z rfl
      rw [hz2]
      simp only [exactOps, zero_sub, zpow_neg, zpow_natCast]
      have hpe : (0 : ℚ) < (10 : ℚ) ^ e := zpow_pos (by norm_num) e
      refine mul_lt_mul_of_pos_right ?_ hpe
      push_cast
      rw [pow_add]
      have h10 : (10 : ℚ) ^ z ≠ 0 := by positivity
      have h11 : (10 : ℚ) ^ cf.flatten.length ≠ 0 := by positivity
      have hq : ((decNum cf.flatten : ℚ) * 10 ^ z + 0) / (10 ^ cf.flatten.length * 10 ^ z)
          = decNum cf.flatten * (10 ^ cf.flatten.length)⁻¹ := by
        field_simp
        ring
      rw [hq]
      simp only [exactOps] at hgt
      linarith
    exact ⟨_, hv (some x), hval⟩

/-- Digits that write a number less than 10^38 can be cut into two numbers of 64 bits. -/
theorem TwoWords.of_lt {i : List Byte} (hd0 : ∀ b ∈ i, IsDigitOf 10 b) (h : digitsNumber i < 10 ^ 38) : TwoWords i := by
  have hd : ∀ b ∈ i, isDigit b = true := fun b hb => (isDigit10_iff b).1 (hd0 b hb)
  refine ⟨i.take (i.length - 19), i.drop (i.length - 19), (List.take_append_drop _ _).symm, ?_, ?_⟩
  · by_contra hc
    rw [digitsNumber_eq (fun b hb => hd b (List.mem_of_mem_take hb))] at hc
    rw [digitsNumber_eq hd, ← List.take_append_drop (i.length - 19) i, decNum_append] at h
    by_cases hl : i.length ≤ 19
    · have : i.length - 19 = 0 := by omega
      rw [this, List.take_zero] at hc
      exact hc (by decide)
    · have e : (i.drop (i.length - 19)).length = 19 := by rw [List.length_drop]; omega
      rw [e] at h
      norm_num at h hc
      omega
  · rw [digitsNumber_eq (fun b hb => hd b (List.mem_of_mem_drop hb))]
    refine lt_of_lt_of_le (decNum_lt _ (fun b hb => hd b (List.mem_of_mem_drop hb))) ?_
    have e : (i.drop (i.length - 19)).length ≤ 19 := by rw [List.length_drop]; omega
    exact le_trans (Nat.pow_le_pow_right (by norm_num) e) (by norm_num)

/-- " -12.5e1x" is stored as -125. -/
example (m : Mem) (v : View) (h : ViewOf m v [32, 45, 49, 50, 46, 53, 101, 49, 120]) :
    strnum_value_f exactOps .double m (some 0) (some v) 0 = .ok (0, some (-125), some (v.part 8 1)) := by
  rw [C30_exact_value_partial .double h example_text (by decide) ⟨[49, 50], [], rfl, by decide, by decide⟩]
  have : literalValue [49, 50] [53] 1 = 125 := by
    have e1 : digitsNumber [49, 50] = 12 := by decide
    have e2 : digitsNumber [53] = 5 := by decide
    simp only [literalValue, e1, e2]
    norm_num
  simp [this]

/-- A number with 100 integral digits that is converted exactly: 1 and 99 zeros. -/
example : TwoWords (49 :: List.replicate 99 48) := ⟨[49], List.replicate 99 48, rfl, by decide, by decide +kernel⟩

/-- The hypotheses of `C30_deviation_long` are met by 41 digits 1. -/
example : FloatText 0 (List.replicate 41 49) false (.num (List.replicate 41 49) [] 0) [] ∧
    ¬ TwoWords (List.replicate 41 49) := by
  refine ⟨⟨_, _, ⟨0, rfl, by decide⟩, .none _ (by decide), ?_⟩, ?_⟩
  · refine .num (l1 := []) (l2 := []) ⟨by simp, ?_, by simp⟩ (.none (by simp)) (by decide) (.none (.inr ?_))
    · intro b hb; rw [isDigit10_iff]; rw [List.eq_of_mem_replicate hb]; decide
    · intro c r neg r1 e; cases e
  · rintro ⟨a, b, h, ha, hb⟩
    have hl : a.length ≤ 41 := by
      have := congrArg List.length h; simp at this; omega
    have key : ∀ n ≤ 41, ¬ (digitsNumber ((List.replicate 41 49).take n) < 2 ^ 64 ∧ digitsNumber ((List.replicate 41 49).drop n) < 2 ^ 64) := by
      decide +kernel
    apply key a.length hl
    rw [h]
    simpa using ⟨ha, hb⟩

end CStr
