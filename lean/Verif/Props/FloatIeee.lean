import Verif.Lemmas.FloatOver
import Verif.Props.FloatValue
/-
  C69 and C70: the floating point conversions with IEEE 754 arithmetic and rounding.
-/
namespace CStr

/-! ### The assumptions can be met -/

theorem std_binary32 : binary32.Std := by constructor <;> decide
theorem std_binary64 : binary64.Std := by constructor <;> decide
theorem std_extended80 : extended80.Std := by constructor <;> decide
theorem std_binary128 : binary128.Std := by constructor <;> decide

theorem pow10Rat_eq (n : Int) : pow10Rat n = (10 : ℚ) ^ n := by
  simp only [pow10Rat]
  split
  · rename_i h
    obtain ⟨k, rfl⟩ := Int.eq_ofNat_of_zero_le h
    simp
  · rename_i h
    obtain ⟨k, rfl⟩ : ∃ k : ℕ, n = -k := ⟨(-n).toNat, by omega⟩
    simp

theorem exactPow10_eq (F : FFmt) (n : Int) : exactPow10 F n = F.round ((10 : ℚ) ^ n) := by rw [exactPow10, pow10Rat_eq]

/-- The correctly rounded power satisfies the assumptions on `pow`. -/
theorem exactPow10_ok {F : FFmt} (hF : F.Std) (N : Nat) (h1 : 10 ^ N + 2 ^ (F.emax - F.prec).toNat ≤ 2 ^ F.emax.toNat)
    (h2 : 2 ^ F.emax.toNat ≤ 10 ^ (N + 1)) (hpe : F.prec ≤ F.emax) : Pow10 F (exactPow10 F) := by
  have hemin := hF.emin
  have hemax := hF.emax
  have hprec := hF.prec
  have e1 : (2 : ℚ) ^ F.emax = ((2 ^ F.emax.toNat : ℕ) : ℚ) := by
    push_cast; rw [← zpow_natCast, Int.toNat_of_nonneg (by omega)]
  have e2 : (2 : ℚ) ^ (F.emax - F.prec) = ((2 ^ (F.emax - F.prec).toNat : ℕ) : ℚ) := by
    push_cast; rw [← zpow_natCast, Int.toNat_of_nonneg (by omega)]
  have h1 : (10 : ℚ) ^ N ≤ F.max := by
    unfold FFmt.max
    rw [e1, e2, le_sub_iff_add_le]
    exact_mod_cast h1
  have h2 : (2 : ℚ) ^ F.emax ≤ 10 ^ (N + 1) := by rw [e1]; exact_mod_cast h2
  have hN : ∀ n : Int, (10 : ℚ) ^ n < (2 : ℚ) ^ F.emax → (10 : ℚ) ^ n ≤ F.max := by
    intro n hn
    refine le_trans ?_ h1
    rw [← zpow_natCast]
    apply zpow_le_zpow_right₀ (by norm_num)
    by_contra hc
    have : (10 : ℚ) ^ ((N + 1 : ℕ) : ℤ) ≤ (10 : ℚ) ^ n := zpow_le_zpow_right₀ (by norm_num) (by push_cast; omega)
    rw [zpow_natCast] at this
    linarith
  refine ⟨?_, ?_, ?_, ?_⟩ <;> simp only [exactPow10_eq]
  · rw [zpow_zero]
    refine FFmt.round_exact hF.p1 ⟨1, 0, by simp, by rw [abs_one]; exact one_le_pow₀ (by norm_num), by omega⟩ (by norm_num) ?_
    exact one_lt_zpow₀ (by norm_num) (by omega)
  · intro n hn hx
    obtain ⟨x, e1, e2, e3⟩ := FFmt.good_round hF (q := (10 : ℚ) ^ n) (by positivity) (hN n hx) (.inr hn)
    refine ⟨x, e1, e2, ?_⟩
    have p10 : (0 : ℚ) < (10 : ℚ) ^ n := by positivity
    obtain ⟨a, b⟩ := e3
    rw [pow_one] at a b
    have := F.eps_pos
    rw [abs_le]
    constructor <;> nlinarith
  · intro n hn
    exact FFmt.round_over hF.p1 (by omega) hn
  · intro n hn
    have hmin : F.Rep F.minNormal := FFmt.rep_pow2 (by omega)
    obtain ⟨r, e1, e2, e3⟩ := FFmt.round_le hF.p1 (by positivity) hmin hn.le (by
      unfold FFmt.minNormal
      exact zpow_lt_zpow_right₀ (by norm_num) (by omega))
    exact ⟨r, e1, (FFmt.round_fin e1).1, e2, e3⟩

theorem pow10_binary32 : Pow10 binary32 (exactPow10 binary32) := exactPow10_ok std_binary32 38 (by decide +kernel) (by decide +kernel) (by decide)
theorem pow10_binary64 : Pow10 binary64 (exactPow10 binary64) := exactPow10_ok std_binary64 308 (by decide +kernel) (by decide +kernel) (by decide)
theorem pow10_extended80 : Pow10 extended80 (exactPow10 extended80) := exactPow10_ok std_extended80 4932 (by decide +kernel) (by decide +kernel) (by decide)
theorem pow10_binary128 : Pow10 binary128 (exactPow10 binary128) := exactPow10_ok std_binary128 4932 (by decide +kernel) (by decide +kernel) (by decide)

/-! ### C69: accuracy -/

/-- A few roundings are a small relative error. -/
theorem C69_relative_error {F : FFmt} {k : Nat} {x v : ℚ} (hv : 0 ≤ v) (hk : k * F.eps ≤ 1 / 2) (h : F.Near k x v) :
    |x - v| ≤ v * (2 * k * F.eps) := by
  have e0 := F.eps_pos
  by_cases hk0 : k = 0
  · subst hk0
    obtain ⟨a, b⟩ := h
    rw [pow_zero] at a b
    have : x = v := by linarith
    simp [this]
  have e1 : F.eps ≤ 1 / 2 := by
    have : (1 : ℚ) ≤ k := by exact_mod_cast Nat.one_le_iff_ne_zero.2 hk0
    nlinarith
  have h1 : (1 : ℚ) - k * F.eps ≤ (1 - F.eps) ^ k := by
    have := one_add_mul_le_pow (a := -F.eps) (by linarith) k
    rw [mul_neg, ← sub_eq_add_neg, ← sub_eq_add_neg] at this
    exact this
  have h2 : (1 + F.eps) ^ k * (1 - F.eps) ^ k ≤ 1 := by
    rw [← mul_pow]
    apply pow_le_one₀
    · nlinarith
    · nlinarith
  have h4 : 0 < (1 + F.eps) ^ k := by positivity
  obtain ⟨d, hd⟩ : ∃ d, d = k * F.eps := ⟨_, rfl⟩
  have h5 : (1 + F.eps) ^ k ≤ 1 + 2 * (k * F.eps) := by
    rw [← hd] at h1 hk ⊢
    have hd0 : 0 ≤ d := by rw [hd]; positivity
    have h6 : (1 + F.eps) ^ k * (1 - d) ≤ 1 := le_trans (mul_le_mul_of_nonneg_left h1 h4.le) h2
    by_contra hc
    nlinarith
  obtain ⟨a, b⟩ := h
  rw [abs_le]
  constructor
  · have := mul_le_mul_of_nonneg_left h1 hv
    nlinarith [mul_nonneg hv (show (0 : ℚ) ≤ k * F.eps by positivity)]
  · have := mul_le_mul_of_nonneg_left h5 hv
    linarith

/-- Integral parts less than 10^38 are in the range of every type. -/
theorem FFmt.Fits.of_lt {F : FFmt} (hF : F.Std) {i f : List Byte} (di : ∀ b ∈ i, IsDigitOf 10 b) (df : ∀ b ∈ f, IsDigitOf 10 b)
    (h : digitsNumber i < 10 ^ 38) (hf : 2 * F.minNormal ≤ (10 : ℚ) ^ (-(f.length : ℤ))) : F.Fits i f := by
  refine ⟨.of_lt di h, ?_⟩
  have hl := hF.len_le hf
  have h1 : digitsNumber f < 10 ^ f.length := by
    have df' : ∀ b ∈ f, isDigit b = true := fun b hb => (isDigit10_iff b).1 (df b hb)
    rw [digitsNumber_eq df']; exact decNum_lt _ df'
  have h2 : (digitsNumber f : ℚ) / 10 ^ f.length ≤ 1 := by
    rw [div_le_one (by positivity)]; exact_mod_cast h1.le
  have h3 : (digitsNumber i : ℚ) + 1 ≤ 10 ^ 38 := by exact_mod_cast h
  rw [literalValue, zpow_zero, mul_one]
  exact hF.room (by unfold roundings; omega) (by positivity) (by linarith)

theorem Assembled.good {F : FFmt} (hF : F.Std) {pow : Int → Flt} (hp : Pow10 F pow) {i f : List Byte} {e : Int} {val : Flt}
    (h : Assembled (ieeeOps F pow) i f e val) (di : ∀ b ∈ i, isDigit b = true) (df : ∀ b ∈ f, isDigit b = true)
    (hi : F.Fits i f) (hf : 2 * F.minNormal ≤ (10 : ℚ) ^ (-(f.length : ℤ))) :
    ∃ a, F.Good (7 + f.length / 19) a (digitsNumber i + digitsNumber f / 10 ^ f.length) ∧ 7 + f.length / 19 ≤ 2 ^ 17 ∧
      val = F.mul a (pow e) := by
  obtain ⟨ci, cf, f', z, c1, rfl, c3, rfl, rfl, hlast, rfl⟩ := h.eq
  obtain ⟨h2, hmax⟩ := hi
  rw [literalValue, zpow_zero, mul_one] at hmax
  rw [digitsNumber_eq di, digitsNumber_eq df] at hmax ⊢
  have e0 := F.eps_pos
  obtain ⟨g, gk⟩ := mantissa_good hF hp c1 c3 di (fun b hb => df b (List.mem_append_left _ hb))
    (c1.two_iff.2 ((twoWords_iff di).1 h2)) hf
    (le_trans (mul_le_mul_of_nonneg_left (pow_le_pow_right₀ (by linarith) (by unfold roundings; omega)) (by positivity)) hmax)
  exact ⟨_, g, gk, rfl⟩

/-- What the conversion computes: the number before the exponent is applied, times the power of ten. -/
theorem value_ieee (t : FTy) {F : FFmt} (hF : F.Std) {pow : Int → Flt} (hp : Pow10 F pow) {m : Mem} {v : View}
    {l i f rest : List Byte} {o : UInt32} {neg : Bool} {e : Int} (h : ViewOf m v l) (ht : FloatText o l neg (.num i f e) rest)
    (he : INT_MIN ≤ e ∧ e ≤ INT_MAX) (hi : F.Fits i f) (hf : 2 * F.minNormal ≤ (10 : ℚ) ^ (-(f.length : ℤ))) :
    ∃ a, F.Good (7 + f.length / 19) a (digitsNumber i + digitsNumber f / 10 ^ f.length) ∧ 7 + f.length / 19 ≤ 2 ^ 17 ∧
      ∀ dst, strnum_value_f (ieeeOps F pow) t m dst (some v) o =
        if F.mul a (pow e) = .inf false then .ok (ERANGE, dst, some v)
        else .ok (0, dst.map (fun _ => if (F.mul a (pow e)).isNan then .nan else if neg then (F.mul a (pow e)).neg else F.mul a (pow e)),
          some (v.part (l.length - rest.length) rest.length)) := by
  obtain ⟨l1, l2, h1, h2, hb⟩ := ht.parts
  cases hb with
  | num h3 h4 hne h5 =>
    obtain ⟨val, has, hv⟩ := (value_f_num (ieeeOps F pow) t h h1 h2 h3 h4 hne h5).2 (fun hc => hc he)
    have df : ∀ b ∈ f, isDigit b = true := by
      cases h4 with
      | point hr => exact hr.digit
      | none => simp
    obtain ⟨a, g, gk, rfl⟩ := has.good hF hp h3.digit df hi hf
    refine ⟨a, g, gk, fun dst => ?_⟩
    rw [hv]
    by_cases hc : F.mul a (pow e) = .inf false
    · simp [ieeeOps, hc]
    · simp only [ieeeOps, hc, signedOut, decide_false, Bool.false_eq_true, if_false]
      rfl

theorem literalValue_eq (i f : List Byte) (e : Int) :
    literalValue i f e = (digitsNumber i + digitsNumber f / 10 ^ f.length) * (10 : ℚ) ^ e := rfl

theorem one_near {F : FFmt} (hF : F.Std) : F.Good 0 (.fin 1) 1 := by
  have := hF.emin
  refine ⟨1, rfl, ⟨1, 0, by simp, by rw [abs_one]; exact one_le_pow₀ (by norm_num), by have := hF.prec; omega⟩, FFmt.near_refl 1⟩

/-- C69, as far as it holds. The digits in the range of the type (`Fits`: this is so for integral parts below 10^38, see
`FFmt.Fits.of_lt`), all fractional digits and the exponent within the range of full
precision of the type (for `float`: at most 37 fractional digits, exponent from -37 to 38; for `double`: 307, -307 and
308), and the value with its tolerance in the range of full precision: the conversion succeeds and stores a number of
the type that is the value of the literal up to `roundings f` roundings (11 for at most 18 fractional digits).
`pow` is any function with an error of at most one unit in the last place.
Missing for the full property: see C30_deviation_long, C70_exponent_overflow_deviation, C70_underflow_deviation. -/
theorem C69_accuracy_partial (t : FTy) {F : FFmt} (hF : F.Std) {pow : Int → Flt} (hp : Pow10 F pow) {m : Mem} {v : View}
    {l i f rest : List Byte} {o : UInt32} {neg : Bool} {e : Int} (h : ViewOf m v l) (ht : FloatText o l neg (.num i f e) rest)
    (he : INT_MIN ≤ e ∧ e ≤ INT_MAX) (hi : F.Fits i f) (hf : 2 * F.minNormal ≤ (10 : ℚ) ^ (-(f.length : ℤ)))
    (hpe : F.minNormal ≤ (10 : ℚ) ^ e ∧ (10 : ℚ) ^ e < (2 : ℚ) ^ F.emax)
    (hmin : literalValue i f e = 0 ∨ F.minNormal ≤ literalValue i f e * (1 - F.eps) ^ roundings f)
    (hmax : literalValue i f e * (1 + F.eps) ^ roundings f ≤ F.max) :
    ∃ r, F.Number r ∧ F.Near (roundings f) r (literalValue i f e) ∧
      ∀ dst, strnum_value_f (ieeeOps F pow) t m dst (some v) o =
        .ok (0, dst.map (fun _ => .fin (if neg then -r else r)), some (v.part (l.length - rest.length) rest.length)) := by
  obtain ⟨a, g, gk, hv⟩ := value_ieee t hF hp h ht he hi hf
  rw [literalValue_eq] at hmin hmax ⊢
  have hK : roundings f = 7 + f.length / 19 + 3 + 1 := by unfold roundings; omega
  have e0 := F.eps_pos
  have e1 := hF.eps_lt
  have p10 : (0 : ℚ) < (10 : ℚ) ^ e := by positivity
  have v0 : (0 : ℚ) ≤ (digitsNumber i + digitsNumber f / 10 ^ f.length) * (10 : ℚ) ^ e := by positivity
  have gm : F.Good (7 + f.length / 19 + 3 + 1) (F.mul a (pow e)) ((digitsNumber i + digitsNumber f / 10 ^ f.length) * (10 : ℚ) ^ e) := by
    refine g.mul hF (hp.good hF hpe.1 hpe.2) (by positivity) p10.le ?_ ?_
    · rcases hmin with hz | hz
      · exact .inl hz
      · right
        refine hz.trans (mul_le_mul_of_nonneg_left (pow_le_pow_of_le_one (by linarith) (by linarith) (by omega)) v0)
    · refine le_trans (mul_le_mul_of_nonneg_left (pow_le_pow_right₀ (by linarith) (by omega)) v0) hmax
  obtain ⟨r, er, hr, hn⟩ := gm
  rw [hK]
  refine ⟨r, hr, hn, fun dst => ?_⟩
  rw [hv, er]
  cases neg <;> simp [Flt.isNan, Flt.neg]

/-- C69: without an exponent and fractional digits (other than zeros) an integer below 2^64 is rounded once, to the
nearest number of the type; if it has no more bits than the significand, it is stored exactly. Any number of leading
zeros. -/
theorem C69_integer (t : FTy) {F : FFmt} (hF : F.Std) {pow : Int → Flt} (h1 : pow 0 = .fin 1) {m : Mem} {v : View}
    {l i f rest : List Byte} {o : UInt32} {neg : Bool} (h : ViewOf m v l) (ht : FloatText o l neg (.num i f 0) rest)
    (hi : digitsNumber i < 2 ^ 64) (hf : ∀ b ∈ f, b = 48) :
    ∃ r, F.round (digitsNumber i) = .fin r ∧ (digitsNumber i ≤ 2 ^ F.prec → r = digitsNumber i) ∧
      ∀ dst, strnum_value_f (ieeeOps F pow) t m dst (some v) o =
        .ok (0, dst.map (fun _ => .fin (if neg then -r else r)), some (v.part (l.length - rest.length) rest.length)) := by
  obtain ⟨l1, l2, a1, a2, hb⟩ := ht.parts
  cases hb with
  | num h3 h4 hne h5 =>
    obtain ⟨val, has, hv⟩ := (value_f_num (ieeeOps F pow) t h a1 a2 h3 h4 hne h5).2 (fun hc => hc (by decide))
    obtain ⟨ci, cf, f', z, c1, rfl, c3, rfl, rfl, hlast, rfl⟩ := has.eq
    have hi' := digitsNumber_eq h3.digit
    rw [hi'] at hi ⊢
    have hn : decNum ci.flatten < 18446744073709551616 := hi
    obtain ⟨r, er, rr, nr⟩ := ofULL_good hF hn
    -- one piece at most
    have hone : ci = [] ∨ ci = [ci.flatten] := by
      cases c1 with
      | nil => exact .inl rfl
      | last _ _ => right; simp
      | @more c b d cs k1 k2 k3 k4 =>
        exfalso
        have e : ((c :: (b :: d) :: cs).flatten) = (c ++ [b]) ++ (d ++ cs.flatten) := by simp
        rw [e, decNum_append] at hn
        have : decNum (c ++ [b]) * 1 ≤ decNum (c ++ [b]) * 10 ^ (d ++ cs.flatten).length := Nat.mul_le_mul_left _ (Nat.one_le_pow _ _ (by omega))
        omega
    have hcf : cf = [] := by
      have hfl : cf.flatten = [] := by
        cases hg : cf.flatten.getLast? with
        | none => simpa using hg
        | some x =>
          exact absurd (hf x (List.mem_append_left _ (List.mem_of_getLast? hg))) (hlast x hg)
      cases c3 with
      | nil => rfl
      | last k1 k2 => simp at hfl; exact absurd hfl k1
      | more k1 k2 k3 k4 => simp at hfl
    have hval : (ieeeOps F pow).mul (fracFold (ieeeOps F pow) cf 0 (intFold (ieeeOps F pow) ci (ieeeOps F pow).zero)) ((ieeeOps F pow).pow10 0) =
        .fin r := by
      have hb : (decNum ci.flatten : ℚ) * (1 + F.eps) ^ 1 ≤ F.max := hF.room (by omega) (by positivity) (by
        have : decNum ci.flatten ≤ 10 ^ 38 := by omega
        exact_mod_cast this)
      have g := ofULL_good hF hn
      have e10 : F.mul (.fin 0) (.fin 1) = .fin 0 := by
        show F.round (0 * 1) = _
        rw [zero_mul, FFmt.round_zero]
      rw [hcf, ← er]
      rcases hone with hz | ho
      · rw [hz]
        simp only [fracFold, intFold, ieeeOps, h1, e10, List.flatten_nil, decNum, codeNum_nil]
        rw [Nat.cast_zero, FFmt.round_zero]
      · rw [ho]
        simp only [fracFold, intFold, ieeeOps, List.flatten_nil, List.length_nil, List.flatten_cons, List.append_nil]
        rw [show ((0 : ℕ) : ℤ) = 0 from rfl, h1, g.zero_add hF (by positivity) hb, g.mul_one hF (by positivity) hb,
          g.mul_one hF (by positivity) hb]
    rw [hval] at hv
    refine ⟨r, er, fun hle => ?_, fun dst => ?_⟩
    · have hx := FFmt.round_exact hF.p1 (q := (decNum ci.flatten : ℚ)) ⟨decNum ci.flatten, 0, by simp, by
        rw [abs_of_nonneg (by positivity)]; exact_mod_cast hle, by have := hF.emin; have := hF.prec; omega⟩ (by positivity) (by
          have h5 := hF.max_ge
          have h6 := F.max_lt
          have h7 : (decNum ci.flatten : ℚ) ≤ 18446744073709551616 := by exact_mod_cast hn.le
          norm_num at h5
          linarith)
      rw [er] at hx
      injection hx
    · rw [hv]
      cases neg <;> simp [ieeeOps, signedOut, Flt.isNan, Flt.neg]

/-! ### C70: range errors -/

theorem FFmt.Good.zero_iff {F : FFmt} (hF : F.Std) {k : Nat} {a : Flt} {v : ℚ} (h : F.Good k a v) (hv : 0 ≤ v) :
    ∃ x, a = .fin x ∧ 0 ≤ x ∧ (x = 0 ↔ v = 0) := by
  obtain ⟨x, e, -, n⟩ := h
  have e1 := hF.eps_lt
  refine ⟨x, e, n.nonneg hF hv, fun h => ?_, fun h => ?_⟩
  · by_contra hc
    have hp : 0 < v := lt_of_le_of_ne hv (Ne.symm hc)
    have := n.1
    have h2 : 0 < v * (1 - F.eps) ^ k := mul_pos hp (pow_pos (by linarith) _)
    linarith
  · obtain ⟨n1, n2⟩ := n
    rw [h, zero_mul] at n1 n2
    exact le_antisymm n2 n1

/-- C70, as far as it holds: a literal whose value is too great for the type, also after the rounding errors, is
refused with ERANGE; destination and source do not change.
Missing for the full property: exponents below the range of the type, long integral parts and fractions. -/
theorem C70_overflow_partial (t : FTy) {F : FFmt} (hF : F.Std) {pow : Int → Flt} (hp : Pow10 F pow) {m : Mem} {v : View}
    {l i f rest : List Byte} {o : UInt32} {neg : Bool} {e : Int} (h : ViewOf m v l) (ht : FloatText o l neg (.num i f e) rest)
    (he : INT_MIN ≤ e ∧ e ≤ INT_MAX) (hi : F.Fits i f) (hf : 2 * F.minNormal ≤ (10 : ℚ) ^ (-(f.length : ℤ)))
    (hpe : F.minNormal ≤ (10 : ℚ) ^ e) (hbig : (2 : ℚ) ^ F.emax ≤ literalValue i f e * (1 - F.eps) ^ roundings f) (dst : Option Flt) :
    strnum_value_f (ieeeOps F pow) t m dst (some v) o = .ok (ERANGE, dst, some v) := by
  obtain ⟨a, g, gk, hv⟩ := value_ieee t hF hp h ht he hi hf
  rw [hv, if_pos]
  have e0 := F.eps_pos
  have e1 := hF.eps_lt
  have p2 : (0 : ℚ) < (2 : ℚ) ^ F.emax := by positivity
  rw [literalValue_eq] at hbig
  have v0 : (0 : ℚ) ≤ digitsNumber i + digitsNumber f / 10 ^ f.length := by positivity
  obtain ⟨x, rfl, x0, hx⟩ := g.zero_iff hF v0
  have hxne : x ≠ 0 := by
    intro hc
    rw [hx.1 hc, zero_mul, zero_mul] at hbig
    linarith
  by_cases hov : (2 : ℚ) ^ F.emax ≤ (10 : ℚ) ^ e
  · rw [hp.over e hov]
    simp only [FFmt.mul, if_neg hxne, not_lt.2 x0, decide_false, bne_self_eq_false]
  · obtain ⟨y, ey, -, ny⟩ := hp.good hF hpe (not_le.1 hov)
    obtain ⟨x', ex, -, nx⟩ := g
    injection ex with ex
    subst ex
    rw [ey]
    have hn := nx.mul hF ny v0 (by positivity)
    apply FFmt.round_over hF.p1 (by have := hF.emin; have := hF.emax; omega)
    refine hbig.trans (le_trans ?_ hn.1)
    refine mul_le_mul_of_nonneg_left (pow_le_pow_of_le_one (by linarith) (by linarith) ?_) (by positivity)
    unfold roundings; omega

/-- The conversion of a literal with any number of digits: the digits, at least the integral part but for the roundings,
times the power of ten. -/
theorem value_above (t : FTy) {F : FFmt} (hF : F.Std) {pow : Int → Flt} (hp : Pow10 F pow) {m : Mem} {v : View}
    {l i f rest : List Byte} {o : UInt32} {neg : Bool} {e : Int} (h : ViewOf m v l) (ht : FloatText o l neg (.num i f e) rest)
    (he : INT_MIN ≤ e ∧ e ≤ INT_MAX) (hi : 0 < digitsNumber i) :
    ∃ a, F.Above a (digitsNumber i * (1 - F.eps) ^ (6 + 6 * (i.length / 19))) ∧
      ∀ dst, strnum_value_f (ieeeOps F pow) t m dst (some v) o =
        if F.mul a (pow e) = .inf false then .ok (ERANGE, dst, some v)
        else .ok (0, dst.map (fun _ => if (F.mul a (pow e)).isNan then .nan else if neg then (F.mul a (pow e)).neg else F.mul a (pow e)),
          some (v.part (l.length - rest.length) rest.length)) := by
  obtain ⟨l1, l2, h1, h2, hb⟩ := ht.parts
  cases hb with
  | num h3 h4 hne h5 =>
    obtain ⟨val, has, hv⟩ := (value_f_num (ieeeOps F pow) t h h1 h2 h3 h4 hne h5).2 (fun hc => hc he)
    obtain ⟨a, g, rfl⟩ := has.above hF hp h3.digit hi
    refine ⟨a, g, fun dst => ?_⟩
    rw [hv]
    by_cases hc : F.mul a (pow e) = .inf false
    · simp [ieeeOps, hc]
    · simp only [ieeeOps, hc, signedOut, decide_false, Bool.false_eq_true, if_false]
      rfl

/-- C70, as far as it holds, for any number of digits: if the integral part with its exponent is too great for the type,
also after the rounding errors (6 for each 19 digits), the literal is refused with ERANGE; destination and source do not
change. There is no limit for the digits before and after the point.
Missing for the full property: exponents below the range of the type, see `C70_digits_overflow_deviation`. -/
theorem C70_integral_overflow_partial (t : FTy) {F : FFmt} (hF : F.Std) {pow : Int → Flt} (hp : Pow10 F pow) {m : Mem} {v : View}
    {l i f rest : List Byte} {o : UInt32} {neg : Bool} {e : Int} (h : ViewOf m v l) (ht : FloatText o l neg (.num i f e) rest)
    (he : INT_MIN ≤ e ∧ e ≤ INT_MAX) (hpe : F.minNormal ≤ (10 : ℚ) ^ e)
    (hbig : (2 : ℚ) ^ F.emax ≤ digitsNumber i * (10 : ℚ) ^ e * (1 - F.eps) ^ (9 + 6 * (i.length / 19))) (dst : Option Flt) :
    strnum_value_f (ieeeOps F pow) t m dst (some v) o = .ok (ERANGE, dst, some v) := by
  have e0 := F.eps_pos
  have e1 := hF.eps_lt
  have p2 : (0 : ℚ) < (2 : ℚ) ^ F.emax := by positivity
  have p10 : (0 : ℚ) < (10 : ℚ) ^ e := by positivity
  have hi : 0 < digitsNumber i := by
    by_contra hc
    have : digitsNumber i = 0 := by omega
    rw [this] at hbig
    simp at hbig
    linarith
  obtain ⟨a, g, hv⟩ := value_above t hF hp h ht he hi
  rw [hv, if_pos]
  obtain ⟨w, hw⟩ : ∃ w, w = (digitsNumber i : ℚ) * (1 - F.eps) ^ (6 + 6 * (i.length / 19)) := ⟨_, rfl⟩
  have w0 : 0 < w := by
    rw [hw]
    have : (0 : ℚ) < digitsNumber i := by exact_mod_cast hi
    exact mul_pos this (pow_pos (by linarith) _)
  rw [← hw] at g
  have hbig' : (2 : ℚ) ^ F.emax ≤ w * ((10 : ℚ) ^ e * (1 - F.eps) ^ 3) := by
    refine hbig.trans (le_of_eq ?_)
    rw [hw, show 9 + 6 * (i.length / 19) = 6 + 6 * (i.length / 19) + 3 by omega, pow_add]
    ring
  by_cases hov : (2 : ℚ) ^ F.emax ≤ (10 : ℚ) ^ e
  · rw [hp.over e hov]
    rcases g with rfl | ⟨x, rfl, -, lx⟩
    · rfl
    · have h1 : x ≠ 0 := by intro h; rw [h] at lx; linarith
      have h2 : ¬ x < 0 := by linarith
      simp [FFmt.mul, h1, h2]
  · obtain ⟨y, ey, -, ny⟩ := hp.good hF hpe (not_le.1 hov)
    have hy0 : 0 < (10 : ℚ) ^ e * (1 - F.eps) ^ 3 := mul_pos p10 (pow_pos (by linarith) _)
    have hy : 0 < y := lt_of_lt_of_le hy0 ny.1
    rw [ey]
    rcases g with rfl | ⟨x, rfl, -, lx⟩
    · have h1 : y ≠ 0 := hy.ne'
      have h2 : ¬ y < 0 := by linarith
      simp [FFmt.mul, h1, h2]
    · show F.round (x * y) = _
      apply FFmt.round_over hF.p1 (by have := hF.emin; have := hF.emax; omega)
      exact hbig'.trans (mul_le_mul lx ny.1 hy0.le (by linarith))

/-- C70 is violated by long literals with a small exponent: if the integral part alone is too great for the type and the
exponent alone underflows, NaN is stored without an error, whatever the value of the literal is. -/
theorem C70_digits_overflow_deviation (t : FTy) {F : FFmt} (hF : F.Std) {pow : Int → Flt} (hp : Pow10 F pow) {m : Mem} {v : View}
    {l i f rest : List Byte} {o : UInt32} {neg : Bool} {e : Int} (h : ViewOf m v l) (ht : FloatText o l neg (.num i f e) rest)
    (he : INT_MIN ≤ e ∧ e ≤ INT_MAX) (hpe : pow e = .fin 0)
    (hbig : (2 : ℚ) ^ F.emax ≤ digitsNumber i * (1 - F.eps) ^ (6 + 6 * (i.length / 19))) (dst : Option Flt) :
    strnum_value_f (ieeeOps F pow) t m dst (some v) o =
      .ok (0, dst.map (fun _ => .nan), some (v.part (l.length - rest.length) rest.length)) := by
  have e0 := F.eps_pos
  have e1 := hF.eps_lt
  have p2 : (0 : ℚ) < (2 : ℚ) ^ F.emax := by positivity
  have hi : 0 < digitsNumber i := by
    by_contra hc
    have : digitsNumber i = 0 := by omega
    rw [this] at hbig
    simp at hbig
    linarith
  obtain ⟨a, g, hv⟩ := value_above t hF hp h ht he hi
  have ha : a = .inf false := by
    rcases g with h | ⟨x, -, h, lx⟩
    · exact h
    · exact absurd (hbig.trans lx) (not_le.2 h.2)
  have hmul : F.mul a (pow e) = .nan := by rw [ha, hpe]; simp [FFmt.mul]
  rw [hv, hmul]
  simp [Flt.isNan]

/-- C70: if the power of ten of the exponent is in the range of the type, the conversion stores a finite number, or
refuses the literal; it never stores an infinity or NaN. -/
theorem C70_outcome_partial (t : FTy) {F : FFmt} (hF : F.Std) {pow : Int → Flt} (hp : Pow10 F pow) {m : Mem} {v : View}
    {l i f rest : List Byte} {o : UInt32} {neg : Bool} {e : Int} (h : ViewOf m v l) (ht : FloatText o l neg (.num i f e) rest)
    (he : INT_MIN ≤ e ∧ e ≤ INT_MAX) (hi : F.Fits i f) (hf : 2 * F.minNormal ≤ (10 : ℚ) ^ (-(f.length : ℤ)))
    (hpe : (10 : ℚ) ^ e < (2 : ℚ) ^ F.emax) :
    (∀ dst, strnum_value_f (ieeeOps F pow) t m dst (some v) o = .ok (ERANGE, dst, some v)) ∨
    ∃ r, F.Number r ∧ 0 ≤ r ∧ ∀ dst, strnum_value_f (ieeeOps F pow) t m dst (some v) o =
        .ok (0, dst.map (fun _ => .fin (if neg then -r else r)), some (v.part (l.length - rest.length) rest.length)) := by
  obtain ⟨a, g, gk, hv⟩ := value_ieee t hF hp h ht he hi hf
  obtain ⟨x, rfl, x0, -⟩ := g.zero_iff hF (by positivity)
  have hy : ∃ y, pow e = .fin y ∧ 0 ≤ y := by
    by_cases hm : F.minNormal ≤ (10 : ℚ) ^ e
    · obtain ⟨y, ey, -, ny⟩ := hp.good hF hm hpe
      exact ⟨y, ey, ny.nonneg hF (by positivity)⟩
    · obtain ⟨y, ey, -, ny, -⟩ := hp.small e (not_le.1 hm)
      exact ⟨y, ey, ny⟩
  obtain ⟨y, ey, y0⟩ := hy
  rw [ey] at hv
  have hxy : 0 ≤ x * y := mul_nonneg x0 y0
  have hmul : F.mul (.fin x) (.fin y) = F.round (x * y) := rfl
  rw [hmul] at hv
  cases hr : F.round (x * y) with
  | nan => exact absurd hr (FFmt.round_not_nan _)
  | inf n =>
    left
    intro dst
    have hn : n = false := by
      by_cases h0 : x * y = 0
      · rw [h0, FFmt.round_zero] at hr; cases hr
      · rw [FFmt.round_eq h0] at hr
        split at hr
        · injection hr with hr
          rw [← hr]; simp [hxy]
        · cases hr
    rw [hv, hr, hn, if_pos rfl]
  | fin r =>
    right
    have hr0 : 0 ≤ r := by
      by_cases h0 : x * y = 0
      · rw [h0, FFmt.round_zero] at hr; injection hr with hr; rw [← hr]
      · rw [FFmt.round_eq h0] at hr
        split at hr
        · cases hr
        · injection hr with hr
          rw [← hr]
          refine mul_nonneg ?_ (FFmt.ulp_pos _).le
          have : (0 : ℤ) ≤ roundEven (x * y / F.ulp (x * y)) := roundEven_ge (by
            have := F.ulp_pos (x * y)
            push_cast; positivity)
          exact_mod_cast this
    refine ⟨r, (FFmt.round_fin hr).1, hr0, fun dst => ?_⟩
    rw [hv, hr]
    cases neg <;> simp [Flt.isNan, Flt.neg]

/-- C70 is violated by great exponents: the literal is refused even if its value is in range, and zero is converted
to NaN, without an error. -/
theorem C70_exponent_overflow_deviation (t : FTy) {F : FFmt} (hF : F.Std) {pow : Int → Flt} (hp : Pow10 F pow) {m : Mem} {v : View}
    {l i f rest : List Byte} {o : UInt32} {neg : Bool} {e : Int} (h : ViewOf m v l) (ht : FloatText o l neg (.num i f e) rest)
    (he : INT_MIN ≤ e ∧ e ≤ INT_MAX) (hi : F.Fits i f) (hf : 2 * F.minNormal ≤ (10 : ℚ) ^ (-(f.length : ℤ)))
    (hpe : (2 : ℚ) ^ F.emax ≤ (10 : ℚ) ^ e) (dst : Option Flt) :
    (literalValue i f e ≠ 0 → strnum_value_f (ieeeOps F pow) t m dst (some v) o = .ok (ERANGE, dst, some v)) ∧
    (literalValue i f e = 0 → strnum_value_f (ieeeOps F pow) t m dst (some v) o =
        .ok (0, dst.map (fun _ => .nan), some (v.part (l.length - rest.length) rest.length))) := by
  obtain ⟨a, g, gk, hv⟩ := value_ieee t hF hp h ht he hi hf
  have v0 : (0 : ℚ) ≤ digitsNumber i + digitsNumber f / 10 ^ f.length := by positivity
  obtain ⟨x, rfl, x0, hx⟩ := g.zero_iff hF v0
  have p10 : (10 : ℚ) ^ e ≠ 0 := by positivity
  rw [literalValue_eq, hp.over e hpe] at *
  constructor
  · intro hne
    have hxne : x ≠ 0 := fun hc => hne (by rw [hx.1 hc, zero_mul])
    have : F.mul (.fin x) (.inf false) = .inf false := by
      simp only [FFmt.mul, if_neg hxne, not_lt.2 x0, decide_false, bne_self_eq_false]
    rw [hv, this, if_pos rfl]
  · intro h0
    have hx0 : x = 0 := hx.2 ((mul_eq_zero.1 h0).resolve_right p10)
    have : F.mul (.fin x) (.inf false) = .nan := by simp only [FFmt.mul, if_pos hx0]
    rw [hv, this]
    simp [Flt.isNan]

/-- Powers below half of the least positive number are rounded to 0. -/
theorem exactPow10_zero {F : FFmt} {e : Int} (hpe : (10 : ℚ) ^ e < (2 : ℚ) ^ (F.emin - 1)) : exactPow10 F e = .fin 0 := by
  have p10 : (0 : ℚ) < (10 : ℚ) ^ e := by positivity
  rw [exactPow10_eq, FFmt.round_eq p10.ne']
  have hu : (2 : ℚ) ^ F.emin ≤ F.ulp ((10 : ℚ) ^ e) := zpow_le_zpow_right₀ (by norm_num) (le_max_right _ _)
  have hup := F.ulp_pos ((10 : ℚ) ^ e)
  have hq : (10 : ℚ) ^ e / F.ulp ((10 : ℚ) ^ e) < 1 / 2 := by
    rw [div_lt_iff₀ hup]
    have : (2 : ℚ) ^ (F.emin - 1) = 1 / 2 * (2 : ℚ) ^ F.emin := by
      rw [zpow_sub₀ (by norm_num)]; norm_num; ring
    linarith
  have hr : roundEven ((10 : ℚ) ^ e / F.ulp ((10 : ℚ) ^ e)) = 0 := by
    have h1 := abs_le.1 (roundEven_near ((10 : ℚ) ^ e / F.ulp ((10 : ℚ) ^ e)))
    have h2 : (0 : ℤ) ≤ roundEven ((10 : ℚ) ^ e / F.ulp ((10 : ℚ) ^ e)) := roundEven_ge (by push_cast; positivity)
    have h3 : (roundEven ((10 : ℚ) ^ e / F.ulp ((10 : ℚ) ^ e)) : ℚ) < (1 : ℤ) := by push_cast; linarith [h1.2]
    have h4 : roundEven ((10 : ℚ) ^ e / F.ulp ((10 : ℚ) ^ e)) < 1 := by exact_mod_cast h3
    omega
  rw [hr, Int.cast_zero, zero_mul, abs_zero, if_neg]
  rw [not_le]; positivity

/-- C70 is violated by small exponents: a literal whose exponent alone underflows is converted to 0, without an error,
whatever its value is. -/
theorem C70_underflow_deviation (t : FTy) {F : FFmt} (hF : F.Std) {m : Mem} {v : View} (hp : Pow10 F (exactPow10 F))
    {l i f rest : List Byte} {o : UInt32} {neg : Bool} {e : Int} (h : ViewOf m v l) (ht : FloatText o l neg (.num i f e) rest)
    (he : INT_MIN ≤ e ∧ e ≤ INT_MAX) (hi : F.Fits i f) (hf : 2 * F.minNormal ≤ (10 : ℚ) ^ (-(f.length : ℤ)))
    (hpe : (10 : ℚ) ^ e < (2 : ℚ) ^ (F.emin - 1)) (dst : Option Flt) :
    strnum_value_f (ieeeOps F (exactPow10 F)) t m dst (some v) o =
      .ok (0, dst.map (fun _ => .fin 0), some (v.part (l.length - rest.length) rest.length)) := by
  obtain ⟨a, g, gk, hv⟩ := value_ieee t hF hp h ht he hi hf
  obtain ⟨x, rfl, x0, -⟩ := g.zero_iff hF (by positivity)
  have hpow := exactPow10_zero hpe
  have hmul : F.mul (.fin x) (.fin 0) = .fin 0 := by
    show F.round (x * 0) = _
    rw [mul_zero, FFmt.round_zero]
  rw [hv, hpow, hmul]
  cases neg <;> simp [Flt.isNan, Flt.neg]

/-! ### Concrete cases -/

/-- The result of the conversion of a text at address 8000 to `float`, `double` with correctly rounded powers. -/
def readFloat (l : List Byte) : Res (Int × Option Flt × Option View) :=
  strnum_value_f (ieeeOps binary32 (exactPow10 binary32)) .float (memAt 8000 l) (some (.fin 7)) (some ⟨8000, l.length⟩) 0
def readDouble (l : List Byte) : Res (Int × Option Flt × Option View) :=
  strnum_value_f (ieeeOps binary64 (exactPow10 binary64)) .double (memAt 8000 l) (some (.fin 7)) (some ⟨8000, l.length⟩) 0

/-- "0.3" is not converted to the nearest `double`, but to its neighbour (docs/strnum-api.md says that this may happen). -/
theorem C69_nearest_deviation : readDouble [48, 46, 51] = .ok (0, some (.fin (5404319552844596 / 2 ^ 54)), some ⟨8003, 0⟩) ∧
    binary64.round (3 / 10) = .fin (5404319552844595 / 2 ^ 54) := by decide +kernel

/-- "0e39" is converted to NaN, "0.1e39" is refused though it is in the range of `float`, "12345678901234567890e-50"
(about 1.2e-31) is converted to 0. -/
theorem C70_float_deviation :
    readFloat [48, 101, 51, 57] = .ok (0, some .nan, some ⟨8004, 0⟩) ∧
    readFloat [48, 46, 49, 101, 51, 57] = .ok (ERANGE, some (.fin 7), some ⟨8000, 6⟩) ∧
    binary32.round (10 ^ 38) ≠ .inf false ∧
    readFloat [49, 50, 51, 52, 53, 54, 55, 56, 57, 48, 49, 50, 51, 52, 53, 54, 55, 56, 57, 48, 101, 45, 53, 48] =
      .ok (0, some (.fin 0), some ⟨8024, 0⟩) ∧
    binary32.round (1234567890123456789 / 10 ^ 49) ≠ .fin 0 := by decide +kernel

/-- The digit 1, 310 zeros and "e-330" (the value is 10^-20) is converted to `double` as NaN, without an error. -/
theorem C70_long_deviation :
    readDouble (49 :: List.replicate 310 48 ++ [101, 45, 51, 51, 48]) = .ok (0, some .nan, some ⟨8316, 0⟩) ∧
    binary64.round (1 / 10 ^ 20) ≠ .fin 0 := by decide +kernel

/-- Digits and an exponent without sign are a literal. -/
theorem floatText_exp {i ds : List Byte} {n : Nat} (hi : i ≠ []) (di : ∀ b ∈ i, IsDigitOf 10 b) (hd : Numeral 10 ds n)
    (hne : ds ≠ []) (hs : ds.head? ≠ some 45 ∧ ds.head? ≠ some 43) (hh : i.head? ≠ some 32 ∧ i.head? ≠ some 45 ∧ i.head? ≠ some 43) :
    FloatText 0 (i ++ 101 :: ds) false (.num i [] n) [] := by
  have hhead : (i ++ 101 :: ds).head? = i.head? := by cases i with | nil => exact absurd rfl hi | cons b t => rfl
  refine ⟨i ++ 101 :: ds, i ++ 101 :: ds, ⟨0, rfl, by rw [hhead]; exact hh.1⟩, .none _ (.inr (by rw [hhead]; exact hh.2)), ?_⟩
  refine .num (l1 := 101 :: ds) (l2 := 101 :: ds) ⟨rfl, di, ?_⟩ (.none (by simp)) (.inl hi)
    (.exp (neg := false) (by decide) (.inl rfl) (.none _ (.inr hs)) (ds := ds) ⟨by simp, hd, by simp⟩ hne)
  intro b t e
  injection e with e1 e2
  subst e1
  rw [isDigit10_iff]; decide

/-- Non-vacuity of `C69_accuracy_partial`: " -12.5e1x" in `float`. -/
example (m : Mem) (v : View) (h : ViewOf m v [32, 45, 49, 50, 46, 53, 101, 49, 120]) :
    ∃ r, binary32.Near 11 r 125 ∧ strnum_value_f (ieeeOps binary32 (exactPow10 binary32)) .float m (some (.fin 0)) (some v) 0 =
      .ok (0, some (.fin (-r)), some (v.part 8 1)) := by
  have hval : literalValue [49, 50] [53] 1 = 125 := by
    have e1 : digitsNumber [49, 50] = 12 := by decide
    have e2 : digitsNumber [53] = 5 := by decide
    simp only [literalValue, e1, e2]
    norm_num
  obtain ⟨r, -, h2, h3⟩ := C69_accuracy_partial .float std_binary32 pow10_binary32 h example_text (by decide)
    (.of_lt std_binary32 (by intro b hb; rw [isDigit10_iff]; revert b; decide) (by intro b hb; rw [isDigit10_iff]; revert b; decide)
      (by decide +kernel) (by norm_num [FFmt.minNormal, binary32]))
    (by norm_num [FFmt.minNormal, binary32]) (by norm_num [FFmt.minNormal, binary32])
    (by rw [hval]; right; norm_num [FFmt.minNormal, FFmt.eps, binary32, roundings])
    (by rw [hval]; norm_num [FFmt.max, FFmt.eps, binary32, roundings])
  rw [hval] at h2
  exact ⟨r, h2, h3 (some (.fin 0))⟩

theorem numeral38 : Numeral 10 [51, 56] 38 :=
  .snoc (ds := [51]) (n := 3) (.snoc (ds := []) (n := 0) .nil (by decide : digitVal 51 = some 3) (by decide)) (by decide : digitVal 56 = some 8) (by decide)
theorem numeral39 : Numeral 10 [51, 57] 39 :=
  .snoc (ds := [51]) (n := 3) (.snoc (ds := []) (n := 0) .nil (by decide : digitVal 51 = some 3) (by decide)) (by decide : digitVal 57 = some 9) (by decide)

theorem text9e38 : FloatText 0 [57, 101, 51, 56] false (.num [57] [] (38 : Nat)) [] :=
  floatText_exp (i := [57]) (by decide) (by intro b hb; rw [isDigit10_iff]; revert b; decide) numeral38 (by decide) (by decide) (by decide)
theorem text0e39 : FloatText 0 [48, 101, 51, 57] false (.num [48] [] (39 : Nat)) [] :=
  floatText_exp (i := [48]) (by decide) (by intro b hb; rw [isDigit10_iff]; revert b; decide) numeral39 (by decide) (by decide) (by decide)

/-- Non-vacuity of `C70_overflow_partial`: "9e38" is too great for `float`. -/
example (m : Mem) (v : View) (h : ViewOf m v [57, 101, 51, 56]) (dst : Option Flt) :
    strnum_value_f (ieeeOps binary32 (exactPow10 binary32)) .float m dst (some v) 0 = .ok (ERANGE, dst, some v) := by
  have hval : literalValue [57] [] (38 : Nat) = 9 * 10 ^ 38 := by
    have e1 : digitsNumber [57] = 9 := by decide
    have e2 : digitsNumber [] = 0 := by decide
    simp only [literalValue, e1, e2]
    norm_num
  exact C70_overflow_partial .float std_binary32 pow10_binary32 h text9e38 (by decide)
    (.of_lt std_binary32 (by intro b hb; rw [isDigit10_iff]; revert b; decide) (by simp)
      (by decide +kernel) (by norm_num [FFmt.minNormal, binary32]))
    (by norm_num [FFmt.minNormal, binary32]) (by norm_num [FFmt.minNormal, binary32])
    (by rw [hval]; norm_num [FFmt.eps, binary32, roundings]) dst

/-- Non-vacuity of `C70_integral_overflow_partial`: the digit 1 and 59 zeros, in `float`. -/
example (m : Mem) (v : View) (h : ViewOf m v (49 :: List.replicate 59 48)) (dst : Option Flt) :
    strnum_value_f (ieeeOps binary32 (exactPow10 binary32)) .float m dst (some v) 0 = .ok (ERANGE, dst, some v) := by
  have hdig : ∀ b ∈ (49 :: List.replicate 59 48 : List Byte), IsDigitOf 10 b := by
    intro b hb
    rw [isDigit10_iff]
    simp only [List.mem_cons, List.mem_replicate] at hb
    rcases hb with rfl | ⟨-, rfl⟩ <;> decide
  have ht : FloatText 0 (49 :: List.replicate 59 48) false (.num (49 :: List.replicate 59 48) [] 0) [] := by
    refine ⟨_, _, ⟨0, rfl, by simp⟩, .none _ (.inr (by simp)), ?_⟩
    exact .num (l1 := []) (l2 := []) ⟨by simp, hdig, by simp⟩ (.none (by simp)) (.inl (by simp))
      (.none (.inr (by intro c r neg r1 e; cases e)))
  have hn : digitsNumber (49 :: List.replicate 59 48) = 10 ^ 59 := by decide +kernel
  refine C70_integral_overflow_partial .float std_binary32 pow10_binary32 h ht (by decide)
    (by norm_num [FFmt.minNormal, binary32]) ?_ dst
  rw [hn]
  have hl : (49 :: List.replicate 59 48 : List Byte).length / 19 = 3 := by simp
  rw [hl, zpow_zero, mul_one]
  have h1 : (15 : ℚ) / 16 ≤ (1 - binary32.eps) ^ (9 + 6 * 3) := std_binary32.shrink_ge (by norm_num)
  refine le_trans ?_ (mul_le_mul_of_nonneg_left h1 (by positivity))
  norm_num [binary32]

/-- The digit 3 and 38 zeros (not less than 10^38) are in the range of `float`: `C69_accuracy_partial` applies. -/
example : binary32.Fits (51 :: List.replicate 38 48) [] := by
  refine ⟨⟨[51], List.replicate 38 48, rfl, by decide, by decide +kernel⟩, ?_⟩
  have hn : digitsNumber (51 :: List.replicate 38 48) = 3 * 10 ^ 38 := by decide +kernel
  have e2 : digitsNumber [] = 0 := by decide
  rw [literalValue, hn, e2]
  have h1 : (1 + binary32.eps) ^ roundings [] ≤ 9 / 8 := std_binary32.grow_le (by norm_num [roundings])
  refine le_trans (mul_le_mul_of_nonneg_left h1 (by positivity)) ?_
  norm_num [FFmt.max, binary32]

/-- Non-vacuity of `C70_outcome_partial` (the same text) and `C70_exponent_overflow_deviation` ("0e39"). -/
example (m : Mem) (v : View) (h : ViewOf m v [48, 101, 51, 57]) (dst : Option Flt) :
    strnum_value_f (ieeeOps binary32 (exactPow10 binary32)) .float m dst (some v) 0 =
      .ok (0, dst.map (fun _ => .nan), some (v.part 4 0)) :=
  (C70_exponent_overflow_deviation .float std_binary32 pow10_binary32 h text0e39 (by decide)
    (.of_lt std_binary32 (by intro b hb; rw [isDigit10_iff]; revert b; decide) (by simp)
      (by decide +kernel) (by norm_num [FFmt.minNormal, binary32]))
    (by norm_num [FFmt.minNormal, binary32]) (by norm_num [binary32]) dst).2 (by
      have e1 : digitsNumber [48] = 0 := by decide
      have e2 : digitsNumber [] = 0 := by decide
      simp only [literalValue, e1, e2]
      norm_num)
example : (10 : ℚ) ^ ((38 : Nat) : ℤ) < (2 : ℚ) ^ binary32.emax := by norm_num [binary32]

/-- Non-vacuity of `C69_integer`: "016777217.00" is rounded to 16777216 in `float`. -/
example : FloatText 0 [48, 49, 54, 55, 55, 55, 50, 49, 55, 46, 48, 48] false (.num [48, 49, 54, 55, 55, 55, 50, 49, 55] [48, 48] 0) [] ∧
    digitsNumber [48, 49, 54, 55, 55, 55, 50, 49, 55] = 16777217 ∧ binary32.round 16777217 = .fin 16777216 := by
  refine ⟨⟨_, _, ⟨0, rfl, by decide⟩, .none _ (by decide), ?_⟩, by decide +kernel, by decide +kernel⟩
  refine .num (l1 := [46, 48, 48]) (l2 := []) ⟨rfl, ?_, ?_⟩ (.point ⟨rfl, ?_, by simp⟩) (by decide) (.none (.inr (by intro c r neg r1 e; cases e)))
  · intro b hb; rw [isDigit10_iff]; revert b; decide
  · intro b t e; rw [isDigit10_iff]; cases e; decide
  · intro b hb; rw [isDigit10_iff]; revert b; decide

/-- Non-vacuity of `C70_underflow_deviation`: the exponent -50 in `float`. -/
example : (10 : ℚ) ^ (-50 : ℤ) < (2 : ℚ) ^ (binary32.emin - 1) := by norm_num [binary32]

end CStr
