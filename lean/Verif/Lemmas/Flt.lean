import Mathlib.Algebra.Field.Rat
import Mathlib.Algebra.Order.Field.Rat
import Mathlib.Algebra.Order.Field.Power
import Mathlib.Tactic.Ring
import Mathlib.Tactic.FieldSimp
import Mathlib.Tactic.Linarith
import Mathlib.Tactic.Positivity
import Verif.C.Float32
/-! Rounding to binary32: nearness, representable numbers. -/
namespace CStr

theorem pow2_eq (e : Int) : pow2 e = (2 : ℚ) ^ e := by
  simp only [pow2]
  split
  · rename_i h
    obtain ⟨n, rfl⟩ := Int.eq_ofNat_of_zero_le h
    simp
  · rename_i h
    obtain ⟨n, hn⟩ := Int.eq_ofNat_of_zero_le (show 0 ≤ -e by omega)
    have : e = -(n : Int) := by omega
    subst this
    simp

theorem rat_abs (q : ℚ) : q.abs = |q| := by
  simp only [Rat.abs]
  split
  · rename_i h; rw [abs_of_nonneg h]
  · rename_i h; rw [abs_of_neg (not_le.1 h)]

theorem ilog2_spec {q : ℚ} (h : q ≠ 0) : (2 : ℚ) ^ ilog2 q ≤ |q| ∧ |q| < (2 : ℚ) ^ (ilog2 q + 1) := by
  have hn : q.num.natAbs ≠ 0 := by simpa using h
  have hd : q.den ≠ 0 := q.den_nz
  have hq : |q| = (q.num.natAbs : ℚ) / q.den := by
    conv_lhs => rw [← Rat.num_div_den q, abs_div]
    simp
  obtain ⟨a, ha⟩ : ∃ a, a = q.num.natAbs.log2 := ⟨_, rfl⟩
  obtain ⟨b, hb⟩ : ∃ b, b = q.den.log2 := ⟨_, rfl⟩
  have a1 : ((2 : ℚ) ^ a) ≤ q.num.natAbs := by
    have := Nat.log2_self_le hn; rw [← ha] at this; exact_mod_cast this
  have a2 : (q.num.natAbs : ℚ) < (2 : ℚ) ^ (a + 1) := by
    have := @Nat.lt_log2_self q.num.natAbs; rw [← ha] at this; exact_mod_cast this
  have b1 : ((2 : ℚ) ^ b) ≤ q.den := by
    have := Nat.log2_self_le hd; rw [← hb] at this; exact_mod_cast this
  have b2 : (q.den : ℚ) < (2 : ℚ) ^ (b + 1) := by
    have := @Nat.lt_log2_self q.den; rw [← hb] at this; exact_mod_cast this
  have hdpos : (0 : ℚ) < q.den := by exact_mod_cast Nat.pos_of_ne_zero hd
  have p2 : (2 : ℚ) ≠ 0 := by norm_num
  have lo : (2 : ℚ) ^ ((a : ℤ) - b - 1) ≤ |q| := by
    rw [hq, le_div_iff₀ hdpos]
    have : (2 : ℚ) ^ ((a : ℤ) - b - 1) * q.den ≤ (2 : ℚ) ^ ((a : ℤ) - b - 1) * (2 : ℚ) ^ (b + 1) :=
      mul_le_mul_of_nonneg_left b2.le (by positivity)
    refine this.trans (le_trans (le_of_eq ?_) a1)
    rw [← zpow_natCast, ← zpow_natCast, ← zpow_add₀ p2]
    congr 1; push_cast; ring
  have hi : |q| < (2 : ℚ) ^ ((a : ℤ) - b + 1) := by
    rw [hq, div_lt_iff₀ hdpos]
    have : (2 : ℚ) ^ ((a : ℤ) - b + 1) * (2 : ℚ) ^ b ≤ (2 : ℚ) ^ ((a : ℤ) - b + 1) * q.den :=
      mul_le_mul_of_nonneg_left b1 (by positivity)
    refine lt_of_lt_of_le (lt_of_lt_of_le a2 (le_of_eq ?_)) this
    rw [← zpow_natCast, ← zpow_natCast, ← zpow_add₀ p2]
    congr 1; push_cast; ring
  simp only [ilog2, ← ha, ← hb, rat_abs, pow2_eq]
  split
  · rename_i h1
    refine ⟨lo, ?_⟩
    have : (a : ℤ) - b - 1 + 1 = (a : ℤ) - b := by ring
    rw [this]; exact h1
  · rename_i h1
    exact ⟨not_lt.1 h1, hi⟩

theorem roundEven_near (q : ℚ) : |(roundEven q : ℚ) - q| ≤ 1 / 2 := by
  have h1 := Rat.floor_le q
  have h2 := Rat.lt_floor_add_one q
  push_cast at h2
  simp only [roundEven]
  split
  · rw [abs_le]; constructor <;> linarith
  · split
    · push_cast; rw [abs_le]; constructor <;> linarith
    · split
      · rw [abs_le]; constructor <;> linarith
      · push_cast; rw [abs_le]; constructor <;> linarith

theorem floor_le_roundEven (q : ℚ) : q.floor ≤ roundEven q := by
  simp only [roundEven]; split
  · omega
  · split
    · omega
    · split <;> omega

theorem roundEven_int (z : ℤ) : roundEven (z : ℚ) = z := by
  simp [roundEven, Rat.floor_intCast]

theorem roundEven_ge {q : ℚ} {z : ℤ} (h : (z : ℚ) ≤ q) : z ≤ roundEven q :=
  le_trans (Rat.le_floor_iff.2 h) (floor_le_roundEven q)

theorem roundEven_le {q : ℚ} {z : ℤ} (h : q ≤ (z : ℚ)) : roundEven q ≤ z := by
  by_contra hc
  have hge : z + 1 ≤ roundEven q := by omega
  have : ((z + 1 : ℤ) : ℚ) ≤ (roundEven q : ℚ) := by exact_mod_cast hge
  push_cast at this
  have hn := abs_le.1 (roundEven_near q)
  linarith [hn.2]

/-- The distance of neighbouring floats at `q`. -/
def ulp32 (q : ℚ) : ℚ := (2 : ℚ) ^ (max (ilog2 q - 23) (-149))

theorem ulp32_pos (q : ℚ) : 0 < ulp32 q := by unfold ulp32; positivity

theorem round32_eq {q : ℚ} (h : q ≠ 0) : round32 q =
    if (2 : ℚ) ^ (128 : ℤ) ≤ |(roundEven (q / ulp32 q) : ℚ) * ulp32 q| then .inf (q < 0)
    else .fin ((roundEven (q / ulp32 q) : ℚ) * ulp32 q) := by
  simp only [round32, if_neg h, rat_abs, pow2_eq, ulp32]
  congr 1

theorem round32_zero : round32 0 = .fin 0 := by simp [round32]

/-- A number with a 24 bit significand and an exponent of at least -149. -/
def IsF32 (q : ℚ) : Prop := ∃ (M k : ℤ), q = M * (2 : ℚ) ^ k ∧ |M| ≤ 2 ^ 24 ∧ -149 ≤ k

theorem abs_div_ulp {q : ℚ} (h : q ≠ 0) : |q / ulp32 q| < 2 ^ 24 := by
  have hu := ulp32_pos q
  rw [abs_div, abs_of_pos hu, div_lt_iff₀ hu]
  refine lt_of_lt_of_le (ilog2_spec h).2 ?_
  have : (2 : ℚ) ^ (ilog2 q + 1) = 2 ^ 24 * (2 : ℚ) ^ (ilog2 q - 23) := by
    have e : ilog2 q + 1 = (24 : ℤ) + (ilog2 q - 23) := by ring
    rw [e, zpow_add₀ (by norm_num)]
    norm_num
  rw [this]
  apply mul_le_mul_of_nonneg_left _ (by norm_num)
  exact zpow_le_zpow_right₀ (by norm_num) (le_max_left _ _)

theorem roundEven_abs {q : ℚ} {z : ℕ} (h : |q| ≤ z) : |roundEven q| ≤ z := by
  obtain ⟨h1, h2⟩ := abs_le.1 h
  rw [abs_le]
  exact ⟨roundEven_ge (by push_cast; exact h1), roundEven_le (by push_cast; exact h2)⟩

/-- A finite result is a representable number, near the exact one. -/
theorem round32_fin {q r : ℚ} (h : round32 q = .fin r) :
    IsF32 r ∧ |r| < (2 : ℚ) ^ (128 : ℤ) ∧ |r - q| ≤ max (|q| / 2 ^ 24) (1 / 2 ^ 150) := by
  by_cases h0 : q = 0
  · subst h0
    rw [round32_zero] at h
    injection h with h
    subst h
    refine ⟨⟨0, 0, by simp, by norm_num, by norm_num⟩, by norm_num, by norm_num⟩
  · rw [round32_eq h0] at h
    split at h
    · cases h
    · rename_i hlt
      injection h with h
      have hu := ulp32_pos q
      subst h
      refine ⟨⟨roundEven (q / ulp32 q), max (ilog2 q - 23) (-149), rfl, ?_, le_max_right _ _⟩, not_le.1 hlt, ?_⟩
      · have := roundEven_abs (q := q / ulp32 q) (z := 2 ^ 24) (by push_cast; exact (abs_div_ulp h0).le)
        exact_mod_cast this
      · have hn := roundEven_near (q / ulp32 q)
        have e : (roundEven (q / ulp32 q) : ℚ) * ulp32 q - q = ((roundEven (q / ulp32 q) : ℚ) - q / ulp32 q) * ulp32 q := by
          field_simp
        rw [e, abs_mul, abs_of_pos hu]
        refine (mul_le_mul_of_nonneg_right hn hu.le).trans ?_
        rw [le_max_iff]
        simp only [ulp32]
        rcases le_total (ilog2 q - 23) (-149) with hm | hm
        · right
          rw [max_eq_right hm]
          norm_num
        · left
          rw [max_eq_left hm, le_div_iff₀ (by norm_num)]
          refine le_trans (le_of_eq ?_) (ilog2_spec h0).1
          have e : ilog2 q = (ilog2 q - 23) + 23 := by ring
          conv_rhs => rw [e, zpow_add₀ (by norm_num)]
          norm_num
          ring

/-- Representable numbers are not changed. -/
theorem round32_exact {q : ℚ} (h : IsF32 q) (hb : |q| < (2 : ℚ) ^ (128 : ℤ)) : round32 q = .fin q := by
  by_cases h0 : q = 0
  · subst h0; exact round32_zero
  · have hu := ulp32_pos q
    have key : ∃ z : ℤ, q / ulp32 q = z := by
      obtain ⟨M, k, rfl, hM, hk⟩ := h
      obtain ⟨e, he⟩ : ∃ e, e = max (ilog2 ((M : ℚ) * (2 : ℚ) ^ k) - 23) (-149) := ⟨_, rfl⟩
      simp only [ulp32, ← he]
      by_cases hek : e ≤ k
      · refine ⟨M * 2 ^ (k - e).toNat, ?_⟩
        rw [mul_div_assoc, ← zpow_sub₀ (by norm_num)]
        push_cast
        congr 1
        rw [← zpow_natCast, Int.toNat_of_nonneg (by omega)]
      · have hl := (ilog2_spec h0).1
        have hlog : e = ilog2 ((M : ℚ) * (2 : ℚ) ^ k) - 23 := by
          rcases le_total (ilog2 ((M : ℚ) * (2 : ℚ) ^ k) - 23) (-149) with hm | hm
          · rw [max_eq_right hm] at he; omega
          · rw [max_eq_left hm] at he; exact he
        have hM' : (|(M : ℚ)|) ≤ 2 ^ 24 := by exact_mod_cast hM
        have p2k : (0 : ℚ) < (2 : ℚ) ^ k := by positivity
        have h1 : (2 : ℚ) ^ (ilog2 ((M : ℚ) * (2 : ℚ) ^ k)) ≤ (2 : ℚ) ^ (24 + k) := by
          refine hl.trans ?_
          rw [abs_mul, abs_of_pos p2k, zpow_add₀ (by norm_num)]
          exact mul_le_mul_of_nonneg_right (by exact_mod_cast hM') p2k.le
        have h2 : ilog2 ((M : ℚ) * (2 : ℚ) ^ k) ≤ 24 + k := by
          by_contra hc
          have := zpow_lt_zpow_right₀ (show (1 : ℚ) < 2 by norm_num) (not_le.1 hc)
          linarith
        have h3 : e = k + 1 := by omega
        have h4 : ilog2 ((M : ℚ) * (2 : ℚ) ^ k) = 24 + k := by omega
        rw [h4, abs_mul, abs_of_pos p2k, zpow_add₀ (by norm_num)] at hl
        have h5 : (2 : ℚ) ^ (24 : ℤ) ≤ |(M : ℚ)| := le_of_mul_le_mul_right hl p2k
        have h6 : |M| = 2 ^ 24 := by
          apply le_antisymm hM
          exact_mod_cast h5
        have e1 : (M : ℚ) * (2 : ℚ) ^ k / (2 : ℚ) ^ e = (M : ℚ) / 2 := by
          rw [h3, zpow_add₀ (by norm_num)]
          field_simp
        rw [e1]
        rcases abs_eq (by norm_num) |>.1 h6 with h7 | h7
        · exact ⟨2 ^ 23, by rw [h7]; norm_num⟩
        · exact ⟨-2 ^ 23, by rw [h7]; norm_num⟩
    obtain ⟨z, hz⟩ := key
    have e2 : (roundEven (q / ulp32 q) : ℚ) * ulp32 q = q := by
      rw [hz, roundEven_int, ← hz]
      field_simp
    rw [round32_eq h0, e2, if_neg (not_le.2 hb)]

/-- Numbers of at least 1 stay at least 1. -/
theorem round32_ge_one {q r : ℚ} (hq : 1 ≤ |q|) (h : round32 q = .fin r) : 1 ≤ |r| := by
  have h0 : q ≠ 0 := by rintro rfl; norm_num at hq
  have hlog : 0 ≤ ilog2 q := by
    by_contra hc
    have h1 := (ilog2_spec h0).2
    have h2 : (2 : ℚ) ^ (ilog2 q + 1) ≤ (2 : ℚ) ^ (0 : ℤ) := zpow_le_zpow_right₀ (by norm_num) (by omega)
    rw [zpow_zero] at h2
    linarith
  rw [round32_eq h0] at h
  split at h
  · cases h
  · injection h with h
    subst h
    have hu := ulp32_pos q
    have hue : ulp32 q = (2 : ℚ) ^ (ilog2 q - 23) := by
      simp only [ulp32]; rw [max_eq_left (by omega)]
    have hge : (2 : ℚ) ^ (23 : ℤ) ≤ |q / ulp32 q| := by
      rw [abs_div, abs_of_pos hu, le_div_iff₀ hu, hue, ← zpow_add₀ (by norm_num)]
      refine le_trans (le_of_eq ?_) (ilog2_spec h0).1
      congr 1; ring
    have hz : (2 : ℚ) ^ (23 : ℤ) ≤ |(roundEven (q / ulp32 q) : ℚ)| := by
      rcases le_abs.1 hge with h1 | h1
      · have : (2 ^ 23 : ℤ) ≤ roundEven (q / ulp32 q) := roundEven_ge (by push_cast; exact_mod_cast h1)
        rw [le_abs]; left; exact_mod_cast this
      · have : roundEven (q / ulp32 q) ≤ (-2 ^ 23 : ℤ) := roundEven_le (by
          push_cast
          have h2 : (2 : ℚ) ^ (23 : ℤ) = 2 ^ 23 := by norm_num
          linarith)
        have h3 : (roundEven (q / ulp32 q) : ℚ) ≤ -2 ^ 23 := by exact_mod_cast this
        rw [le_abs]; right
        have h2 : (2 : ℚ) ^ (23 : ℤ) = 2 ^ 23 := by norm_num
        linarith
    rw [abs_mul, abs_of_pos hu, hue]
    have : (2 : ℚ) ^ (23 : ℤ) * (2 : ℚ) ^ (ilog2 q - 23) ≤ |(roundEven (q / ulp32 q) : ℚ)| * (2 : ℚ) ^ (ilog2 q - 23) :=
      mul_le_mul_of_nonneg_right hz (by positivity)
    rw [← hue] at this ⊢
    refine le_trans ?_ this
    rw [hue, ← zpow_add₀ (by norm_num)]
    have e : (23 : ℤ) + (ilog2 q - 23) = ilog2 q := by ring
    rw [e]
    exact one_le_zpow₀ (by norm_num) hlog

end CStr
