import Verif.Lemmas.PrnfFloat
/-! The error of the floating point computations of the formatter. -/
namespace CStr

theorem abs_eq_of_round {x r : ℚ} (h : round32 x = .fin r) (hz : ∃ z : ℤ, x = z * (2 : ℚ) ^ (-149 : ℤ)) : |r - x| ≤ |x| / 2 ^ 24 := by
  obtain ⟨-, -, hm⟩ := round32_fin h
  by_cases hb : |x| / 2 ^ 24 < 1 / 2 ^ 150
  · obtain ⟨z, hz⟩ := hz
    have h1 : |x| < (2 : ℚ) ^ (-126 : ℤ) := by
      rw [div_lt_iff₀ (by norm_num)] at hb
      refine lt_of_lt_of_le hb (le_of_eq ?_)
      norm_num
    have h2 : |z| ≤ 2 ^ 24 := by
      have e : |x| = ((|z| : ℤ) : ℚ) * (2 : ℚ) ^ (-149 : ℤ) := by
        rw [hz, abs_mul, abs_of_pos (show (0 : ℚ) < (2 : ℚ) ^ (-149 : ℤ) by positivity)]; push_cast; rfl
      rw [e] at h1
      have h3 : (2 : ℚ) ^ (-126 : ℤ) = 2 ^ 23 * (2 : ℚ) ^ (-149 : ℤ) := by norm_num
      rw [h3] at h1
      have h4 : ((|z| : ℤ) : ℚ) < 2 ^ 23 := lt_of_mul_lt_mul_right h1 (by positivity)
      have h5 : |z| < 2 ^ 23 := by exact_mod_cast h4
      omega
    have hx : round32 x = .fin x := by
      apply round32_exact ⟨z, -149, hz, h2, by norm_num⟩
      refine lt_trans h1 ?_
      exact zpow_lt_zpow_right₀ (by norm_num) (by norm_num)
    rw [hx] at h
    injection h with h
    rw [h, sub_self, abs_zero]
    positivity
  · exact hm.trans (max_le (le_refl _) (not_lt.1 hb))

theorem IsF32.grid {q : ℚ} (h : IsF32 q) : ∃ z : ℤ, q = z * (2 : ℚ) ^ (-149 : ℤ) := by
  obtain ⟨M, k, rfl, -, hk⟩ := h
  refine ⟨M * 2 ^ (k + 149).toNat, ?_⟩
  push_cast
  rw [← zpow_natCast, Int.toNat_of_nonneg (by omega), mul_assoc, ← zpow_add₀ (by norm_num)]
  congr 2; ring

theorem grid_mul {q : ℚ} (h : IsF32 q) (t : ℤ) : ∃ z : ℤ, q * t = z * (2 : ℚ) ^ (-149 : ℤ) := by
  obtain ⟨z, hz⟩ := h.grid
  exact ⟨z * t, by rw [hz]; push_cast; ring⟩

/-- A rounding that overflows started from a great number. -/
theorem round32_inf {x : ℚ} {n : Bool} (h : round32 x = .inf n) : (2 : ℚ) ^ (127 : ℤ) ≤ |x| := by
  have h0 : x ≠ 0 := by rintro rfl; rw [round32_zero] at h; cases h
  rw [round32_eq h0] at h
  split at h
  · rename_i hb
    have hu := ulp32_pos x
    have h24 : |roundEven (x / ulp32 x)| ≤ ((2 ^ 24 : ℕ) : ℤ) :=
      roundEven_abs (z := 2 ^ 24) (by push_cast; exact (abs_div_ulp h0).le)
    have h24' : |(roundEven (x / ulp32 x) : ℚ)| ≤ 2 ^ 24 := by exact_mod_cast h24
    rw [abs_mul, abs_of_pos hu] at hb
    have h1 : (2 : ℚ) ^ (128 : ℤ) ≤ 2 ^ 24 * ulp32 x := hb.trans (mul_le_mul_of_nonneg_right h24' hu.le)
    have h2 : (2 : ℚ) ^ (128 : ℤ) = 2 ^ 24 * (2 : ℚ) ^ (104 : ℤ) := by norm_num
    rw [h2] at h1
    have h3 : (2 : ℚ) ^ (104 : ℤ) ≤ ulp32 x := le_of_mul_le_mul_left h1 (by norm_num)
    have h4 : 104 ≤ max (ilog2 x - 23) (-149) := by
      by_contra hc
      have := zpow_lt_zpow_right₀ (show (1 : ℚ) < 2 by norm_num) (not_le.1 hc)
      rw [ulp32] at h3
      linarith
    have h5 : 127 ≤ ilog2 x := by omega
    exact (zpow_le_zpow_right₀ (by norm_num) h5).trans (ilog2_spec h0).1
  · cases h

theorem round32_not_nan (x : ℚ) : round32 x ≠ .nan := by
  by_cases h0 : x = 0
  · subst h0; rw [round32_zero]; intro h; cases h
  · rw [round32_eq h0]; split <;> intro h <;> cases h

theorem round32_small {x : ℚ} (h : |x| < (2 : ℚ) ^ (127 : ℤ)) : ∃ r, round32 x = .fin r := by
  cases hr : round32 x with
  | nan => exact absurd hr (round32_not_nan x)
  | inf n => exact absurd (round32_inf hr) (not_le.2 h)
  | fin r => exact ⟨r, rfl⟩

/-- A `float` below 1 is well below 1. -/
theorem IsF32.lt_one {q : ℚ} (h : IsF32 q) (hb : |q| < 1) : |q| ≤ 1 - 1 / 2 ^ 24 := by
  obtain ⟨M, k, hq, hM, hk⟩ := h
  have p2 : (0 : ℚ) < (2 : ℚ) ^ k := by positivity
  have habs : |q| = ((|M| : ℤ) : ℚ) * (2 : ℚ) ^ k := by
    rw [hq, abs_mul, abs_of_pos p2]; push_cast; rfl
  by_cases hk' : -24 ≤ k
  · obtain ⟨n, hn⟩ : ∃ n : ℕ, k = -24 + (n : ℤ) := ⟨(k + 24).toNat, by omega⟩
    have e : |q| = ((|M| * 2 ^ n : ℤ) : ℚ) * (2 : ℚ) ^ (-24 : ℤ) := by
      rw [habs, hn, zpow_add₀ (by norm_num)]; push_cast; rw [zpow_natCast]; ring
    have h24 : (2 : ℚ) ^ (-24 : ℤ) = 1 / 2 ^ 24 := by norm_num
    rw [e, h24] at hb ⊢
    have h1 : ((|M| * 2 ^ n : ℤ) : ℚ) < 2 ^ 24 := by
      rw [mul_one_div, div_lt_one (by norm_num)] at hb; exact hb
    have h2 : |M| * 2 ^ n < 2 ^ 24 := by exact_mod_cast h1
    have h3 : |M| * 2 ^ n ≤ 2 ^ 24 - 1 := by omega
    have h4 : ((|M| * 2 ^ n : ℤ) : ℚ) ≤ 2 ^ 24 - 1 := by exact_mod_cast h3
    have := mul_le_mul_of_nonneg_right h4 (show (0 : ℚ) ≤ 1 / 2 ^ 24 by positivity)
    linarith
  · have h1 : (2 : ℚ) ^ k ≤ (2 : ℚ) ^ (-25 : ℤ) := zpow_le_zpow_right₀ (by norm_num) (by omega)
    have h2 : ((|M| : ℤ) : ℚ) ≤ 2 ^ 24 := by exact_mod_cast hM
    rw [habs]
    calc ((|M| : ℤ) : ℚ) * (2 : ℚ) ^ k ≤ 2 ^ 24 * (2 : ℚ) ^ (-25 : ℤ) := mul_le_mul h2 h1 p2.le (by norm_num)
      _ ≤ _ := by norm_num

/-! ### The scaled number -/

theorem pow10_near {p : Nat} (h : p ≤ 19) : ∃ t : ℤ, round32 ((10 ^ p : Nat) : ℚ) = .fin t ∧ 0 < t ∧
    |(t : ℚ) - 10 ^ p| ≤ 10 ^ p / 2 ^ 24 ∧ (p ≤ 10 → (t : ℚ) = 10 ^ p) := by
  have key : ∀ p < 20, (match round32 ((10 ^ p : Nat) : Rat) with
      | .fin t => decide (t = (t.floor : Rat) ∧ 0 < t.floor ∧ (t - ((10 ^ p : Nat) : Rat)).abs ≤ ((10 ^ p : Nat) : Rat) / ((2 ^ 24 : Nat) : Rat) ∧
          (p ≤ 10 → t = ((10 ^ p : Nat) : Rat)))
      | _ => false) = true := by decide +kernel
  have := key p (by omega)
  cases hr : round32 ((10 ^ p : Nat) : ℚ) with
  | nan => rw [hr] at this; simp at this
  | inf n => rw [hr] at this; simp at this
  | fin t =>
    rw [hr] at this
    simp only [decide_eq_true_eq] at this
    obtain ⟨h1, h2, h3, h4⟩ := this
    refine ⟨t.floor, by rw [← h1], h2, ?_, ?_⟩
    · rw [← h1]; rw [rat_abs] at h3; push_cast at h3; exact h3
    · intro hp; rw [← h1, h4 hp]; push_cast; rfl

theorem nearest_near {s : ℚ} (h : 0 ≤ s) : |(nearest s : ℚ) - s| ≤ 1 / 2 := by
  have h1 := Rat.floor_le (s + 1 / 2)
  have h2 := Rat.lt_floor_add_one (s + 1 / 2)
  push_cast at h2
  have h0 : 0 ≤ (s + 1 / 2).floor := Rat.le_floor_iff.2 (by push_cast; linarith)
  have hc : ((nearest s : ℕ) : ℚ) = ((s + 1 / 2).floor : ℚ) := by
    have : ((nearest s : ℕ) : ℤ) = (s + 1 / 2).floor := Int.toNat_of_nonneg h0
    exact_mod_cast congrArg (fun z : ℤ => (z : ℚ)) this
  rw [hc, abs_le]
  constructor <;> linarith

theorem relErr_bounds (p : Nat) : 0 < relErr p ∧ relErr p ≤ 3 / 2 ^ 24 := by
  rw [relErr]; split <;> norm_num

theorem scaled_near {q : ℚ} (hq : IsF32 q) {p : Nat} (hp : p ≤ 19) :
    (∃ s, scaled q p = .fin s ∧ 0 ≤ s ∧ |s - |q| * 10 ^ p| ≤ |q| * 10 ^ p * relErr p) ∨
      scaled q p = .inf false ∧ (2 : ℚ) ^ 64 ≤ |q| * 10 ^ p * (1 + relErr p) := by
  obtain ⟨t, ht, htpos, hnear, hexact⟩ := pow10_near hp
  have htq : (0 : ℚ) < t := by exact_mod_cast htpos
  have e2 : scaled q p = round32 (|q| * t) := by simp only [scaled, ht, rat_abs]
  have ha : (0 : ℚ) ≤ |q| := abs_nonneg q
  have h10 : (0 : ℚ) < 10 ^ p := by positivity
  have hx0 : 0 ≤ |q| * t := by positivity
  obtain ⟨n1, n2⟩ := abs_le.1 hnear
  rw [e2]
  rcases round32_sign (q := |q| * t) hx0 with ⟨r, hr, hr0⟩ | hr
  · left
    refine ⟨r, hr, hr0, ?_⟩
    have h1 := abs_eq_of_round hr (grid_mul (isF32_abs hq) t)
    rw [abs_of_nonneg hx0] at h1
    rw [relErr]
    split
    · rename_i h; rw [hexact h] at h1; rw [mul_one_div]; exact h1
    · obtain ⟨m1, m2⟩ := abs_le.1 h1
      have k1 : |q| * t ≤ |q| * (10 ^ p + 10 ^ p / 2 ^ 24) := mul_le_mul_of_nonneg_left (by linarith) ha
      have k2 : |q| * (10 ^ p - 10 ^ p / 2 ^ 24) ≤ |q| * t := mul_le_mul_of_nonneg_left (by linarith) ha
      have e : (0 : ℚ) ≤ |q| * 10 ^ p := by positivity
      rw [abs_le]
      constructor
      · have : |q| * (10 ^ p - 10 ^ p / 2 ^ 24) = |q| * 10 ^ p - |q| * 10 ^ p / 2 ^ 24 := by ring
        have : |q| * (10 ^ p + 10 ^ p / 2 ^ 24) = |q| * 10 ^ p + |q| * 10 ^ p / 2 ^ 24 := by ring
        generalize |q| * 10 ^ p = A at *
        generalize |q| * (t : ℚ) = B at *
        linarith
      · have : |q| * (10 ^ p - 10 ^ p / 2 ^ 24) = |q| * 10 ^ p - |q| * 10 ^ p / 2 ^ 24 := by ring
        have : |q| * (10 ^ p + 10 ^ p / 2 ^ 24) = |q| * 10 ^ p + |q| * 10 ^ p / 2 ^ 24 := by ring
        generalize |q| * 10 ^ p = A at *
        generalize |q| * (t : ℚ) = B at *
        linarith
  · right
    refine ⟨hr, ?_⟩
    have h1 := round32_inf hr
    rw [abs_of_nonneg hx0] at h1
    have k1 : |q| * t ≤ |q| * (10 ^ p + 10 ^ p / 2 ^ 24) := mul_le_mul_of_nonneg_left (by linarith) ha
    have e : (0 : ℚ) ≤ |q| * 10 ^ p := by positivity
    have h2 : (2 : ℚ) ^ (127 : ℤ) = 2 ^ 127 := by norm_num
    rw [h2] at h1
    have h3 := mul_nonneg e (relErr_bounds p).1.le
    have : |q| * (10 ^ p + 10 ^ p / 2 ^ 24) = |q| * 10 ^ p + |q| * 10 ^ p / 2 ^ 24 := by ring
    rw [mul_add, mul_one]
    generalize |q| * 10 ^ p = A at *
    generalize |q| * (t : ℚ) = B at *
    linarith

/-! ### Units -/

theorem shrink_step {v : ℚ} (hv : |v| < (2 : ℚ) ^ (128 : ℤ)) (h : 1000 ≤ |v|) :
    ∃ r, (Flt.fin v).divPos 1000 = .fin r ∧ IsF32 r ∧ |r| < (2 : ℚ) ^ (128 : ℤ) ∧ |r - v / 1000| ≤ |v / 1000| / 2 ^ 24 := by
  have habs : |v / 1000| = |v| / 1000 := by rw [abs_div]; norm_num
  have h128 : (2 : ℚ) ^ (128 : ℤ) = 2 * (2 : ℚ) ^ (127 : ℤ) := by norm_num
  obtain ⟨r, hr⟩ := round32_small (x := v / 1000) (by rw [habs, div_lt_iff₀ (by norm_num)]; linarith)
  obtain ⟨h1, h2, h3⟩ := round32_fin hr
  refine ⟨r, hr, h1, h2, h3.trans (max_le (le_refl _) ?_)⟩
  have : (1 : ℚ) ≤ |v / 1000| := by rw [habs, le_div_iff₀ (by norm_num)]; linarith
  calc (1 : ℚ) / 2 ^ 150 ≤ 1 / 2 ^ 24 := by norm_num
    _ ≤ |v / 1000| / 2 ^ 24 := by apply div_le_div_of_nonneg_right this; norm_num

theorem grow_step {v : ℚ} (hf : IsF32 v) (h : |v| < 1) :
    ∃ r, (Flt.fin v).mulPos 1000 = .fin r ∧ IsF32 r ∧ |r| < (2 : ℚ) ^ (128 : ℤ) ∧ |r - v * 1000| ≤ |v * 1000| / 2 ^ 24 := by
  have habs : |v * 1000| = |v| * 1000 := by rw [abs_mul]; norm_num
  have h127 : (1000 : ℚ) ≤ (2 : ℚ) ^ (127 : ℤ) := by norm_num
  obtain ⟨r, hr⟩ := round32_small (x := v * 1000) (by rw [habs]; linarith)
  obtain ⟨h1, h2, -⟩ := round32_fin hr
  have hg := grid_mul hf 1000
  push_cast at hg
  exact ⟨r, hr, h1, h2, abs_eq_of_round hr hg⟩

/-- One more rounding. -/
theorem err_step {a b c e : ℚ} {n : ℕ} (hn : n ≤ 8) (h1 : |b - a| ≤ |a| * (n / 2 ^ 23)) (h2 : |c - b| ≤ |b| / 2 ^ 24) :
    |c - a| ≤ |a| * ((n + 1 : ℕ) / 2 ^ 23) := by
  have hn' : (n : ℚ) ≤ 8 := by exact_mod_cast hn
  have h3 : |b| ≤ |a| + |a| * (n / 2 ^ 23) := by
    have := abs_add_le (b - a) a
    rw [sub_add_cancel] at this
    linarith
  have h4 : |c - a| ≤ |c - b| + |b - a| := by
    have := abs_add_le (c - b) (b - a)
    rwa [sub_add_sub_cancel] at this
  have ha := abs_nonneg a
  have h5 : |a| * ((n : ℚ) / 2 ^ 23) ≤ |a| * 1 := mul_le_mul_of_nonneg_left (by rw [div_le_one (by norm_num)]; linarith) ha
  have h6 : |a| * (((n + 1 : ℕ) : ℚ) / 2 ^ 23) = |a| * ((n : ℚ) / 2 ^ 23) + |a| / 2 ^ 23 := by push_cast; ring
  rw [h6]
  generalize |a| * ((n : ℚ) / 2 ^ 23) = X at *
  linarith

theorem shrink_near {q : ℚ} (hq : IsF32 q ∧ |q| < (2 : ℚ) ^ (128 : ℤ)) (n : ℕ) (hn : n ≤ 8)
    (h : ∀ i < n, ¬ ((Flt.fin q).shrink i).Below 1000) :
    ∃ v, (Flt.fin q).shrink n = .fin v ∧ IsF32 v ∧ |v| < (2 : ℚ) ^ (128 : ℤ) ∧ |v * 1000 ^ n - q| ≤ |q| * (n / 2 ^ 23) := by
  induction n with
  | zero => exact ⟨q, rfl, hq.1, hq.2, by simp⟩
  | succ n ih =>
    obtain ⟨v, hv, h1, h2, h3⟩ := ih (by omega) (fun i hi => h i (by omega))
    have hb := h n (by omega)
    rw [hv] at hb
    simp only [Flt.Below, rat_abs, not_lt] at hb
    obtain ⟨r, hr, r1, r2, r3⟩ := shrink_step h2 hb
    refine ⟨r, by simp only [Flt.shrink, hv, hr], r1, r2, ?_⟩
    have p : (0 : ℚ) < 1000 ^ (n + 1) := by positivity
    refine err_step (e := 0) (by omega) h3 ?_
    have e : r * 1000 ^ (n + 1) - v * 1000 ^ n = (r - v / 1000) * 1000 ^ (n + 1) := by rw [pow_succ]; field_simp
    have e' : |v * 1000 ^ n| = |v / 1000| * 1000 ^ (n + 1) := by
      rw [← abs_of_pos p, ← abs_mul]; congr 1; rw [pow_succ]; field_simp
    rw [e, e', abs_mul, abs_of_pos p, mul_div_right_comm]
    exact mul_le_mul_of_nonneg_right r3 p.le

theorem grow_near {q : ℚ} (hq : IsF32 q ∧ |q| < (2 : ℚ) ^ (128 : ℤ)) (n : ℕ) (hn : n ≤ 8)
    (h : ∀ i < n, ((Flt.fin q).grow i).Below 1) :
    ∃ v, (Flt.fin q).grow n = .fin v ∧ IsF32 v ∧ |v| < (2 : ℚ) ^ (128 : ℤ) ∧ |v / 1000 ^ n - q| ≤ |q| * (n / 2 ^ 23) := by
  induction n with
  | zero => exact ⟨q, rfl, hq.1, hq.2, by simp⟩
  | succ n ih =>
    obtain ⟨v, hv, h1, h2, h3⟩ := ih (by omega) (fun i hi => h i (by omega))
    have hb := h n (by omega)
    rw [hv] at hb
    simp only [Flt.Below, rat_abs] at hb
    obtain ⟨r, hr, r1, r2, r3⟩ := grow_step h1 hb
    refine ⟨r, by simp only [Flt.grow, hv, hr], r1, r2, ?_⟩
    have p : (0 : ℚ) < 1000 ^ (n + 1) := by positivity
    refine err_step (e := 0) (by omega) h3 ?_
    have e : r / 1000 ^ (n + 1) - v / 1000 ^ n = (r - v * 1000) / 1000 ^ (n + 1) := by rw [pow_succ]; field_simp
    have e' : |v / 1000 ^ n| = |v * 1000| / 1000 ^ (n + 1) := by
      rw [← abs_of_pos p, ← abs_div]; congr 1; rw [pow_succ]; field_simp
    rw [e, e', abs_div, abs_of_pos p, div_right_comm]
    exact div_le_div_of_nonneg_right r3 p.le

theorem engValue_near {q : ℚ} (hq : IsF32 q ∧ |q| < (2 : ℚ) ^ (128 : ℤ)) {j : Int} (h : EngExp (.fin q) j) :
    ∃ v, engValue (.fin q) j = .fin v ∧ IsF32 v ∧ |v| < (2 : ℚ) ^ (128 : ℤ) ∧ |v * (1000 : ℚ) ^ j - q| ≤ |q| / 2 ^ 20 := by
  have hlow := h.low
  have hhigh := h.high
  have hb : ∀ n : ℕ, n ≤ 8 → |q| * ((n : ℚ) / 2 ^ 23) ≤ |q| / 2 ^ 20 := by
    intro n hn
    have hn' : (n : ℚ) ≤ 8 := by exact_mod_cast hn
    rw [div_eq_mul_one_div |q|]
    apply mul_le_mul_of_nonneg_left _ (abs_nonneg q)
    rw [div_le_div_iff₀ (by norm_num) (by norm_num)]
    linarith
  by_cases hj : 0 ≤ j
  · obtain ⟨n, rfl⟩ := Int.eq_ofNat_of_zero_le hj
    obtain ⟨v, h1, h2, h3, h4⟩ := shrink_near hq n (by omega) (fun i hi => h.down i (by omega))
    refine ⟨v, by simpa [engValue] using h1, h2, h3, ?_⟩
    rw [zpow_natCast]
    exact h4.trans (hb n (by omega))
  · obtain ⟨n, hn⟩ : ∃ n : ℕ, j = -(n : ℤ) := ⟨(-j).toNat, by omega⟩
    subst hn
    obtain ⟨v, h1, h2, h3, h4⟩ := grow_near hq n (by omega) (fun i hi => h.up i (by omega))
    refine ⟨v, by rw [engValue, if_neg hj]; simpa using h1, h2, h3, ?_⟩
    rw [zpow_neg, zpow_natCast, ← div_eq_mul_inv]
    exact h4.trans (hb n (by omega))

end CStr
