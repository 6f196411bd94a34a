import Verif.Lemmas.Flt
import Verif.C.Ieee
/-! Helper lemmas: rounding to a binary floating point format. -/
namespace CStr

namespace FFmt
variable (F : FFmt)

/-- The distance of neighbouring numbers of the format at `q`. -/
def ulp (q : ℚ) : ℚ := (2 : ℚ) ^ (max (ilog2 q - (F.prec - 1)) F.emin)

/-- The numbers of the format (without the upper limit). -/
def Rep (q : ℚ) : Prop := ∃ (M k : ℤ), q = M * (2 : ℚ) ^ k ∧ |M| ≤ 2 ^ F.prec ∧ F.emin ≤ k

variable {F}

theorem ulp_pos (q : ℚ) : 0 < F.ulp q := by unfold ulp; positivity

theorem round_eq {q : ℚ} (h : q ≠ 0) : F.round q =
    if (2 : ℚ) ^ F.emax ≤ |(roundEven (q / F.ulp q) : ℚ) * F.ulp q| then .inf (q < 0)
    else .fin ((roundEven (q / F.ulp q) : ℚ) * F.ulp q) := by
  simp only [round, if_neg h, rat_abs, pow2_eq, ulp]
  congr 1

theorem round_zero : F.round 0 = .fin 0 := by simp [round]

theorem Rep.zero : F.Rep 0 := ⟨0, max 0 F.emin, by simp, by simp, le_max_right _ _⟩

/-- A number of the format that is not nearer to 0 than `q` is a multiple of the distance at `q`. -/
theorem Rep.multiple {b q : ℚ} (hp : 1 ≤ F.prec) (hb : F.Rep b) (h0 : q ≠ 0) (hle : (2 : ℚ) ^ ilog2 q ≤ |b|) :
    ∃ z : ℤ, b = z * F.ulp q := by
  obtain ⟨M, k, rfl, hM, hk⟩ := hb
  obtain ⟨e, he⟩ : ∃ e, e = max (ilog2 q - (F.prec - 1)) F.emin := ⟨_, rfl⟩
  simp only [ulp, ← he]
  by_cases hek : e ≤ k
  · refine ⟨M * 2 ^ (k - e).toNat, ?_⟩
    push_cast
    rw [← zpow_natCast, Int.toNat_of_nonneg (by omega), mul_assoc, ← zpow_add₀ (by norm_num)]
    congr 2; ring
  · have hlog : e = ilog2 q - (F.prec - 1) := by
      rcases le_total (ilog2 q - (F.prec - 1)) F.emin with hm | hm
      · rw [max_eq_right hm] at he; omega
      · rw [max_eq_left hm] at he; exact he
    have hM' : (|(M : ℚ)|) ≤ 2 ^ (F.prec : ℤ) := by rw [zpow_natCast]; exact_mod_cast hM
    have p2k : (0 : ℚ) < (2 : ℚ) ^ k := by positivity
    rw [abs_mul, abs_of_pos p2k] at hle
    have h1 : (2 : ℚ) ^ ilog2 q ≤ (2 : ℚ) ^ ((F.prec : ℤ) + k) := by
      refine hle.trans ?_
      rw [zpow_add₀ (by norm_num)]
      exact mul_le_mul_of_nonneg_right hM' p2k.le
    have h2 : ilog2 q ≤ F.prec + k := (zpow_le_zpow_iff_right₀ (by norm_num)).1 h1
    have h3 : e = k + 1 := by omega
    have h4 : ilog2 q = F.prec + k := by omega
    rw [h4, zpow_add₀ (by norm_num)] at hle
    have h5 : (2 : ℚ) ^ (F.prec : ℤ) ≤ |(M : ℚ)| := le_of_mul_le_mul_right hle p2k
    have h6 : |M| = 2 ^ F.prec := by
      apply le_antisymm hM
      rw [zpow_natCast] at h5
      exact_mod_cast h5
    obtain ⟨n, hn⟩ : ∃ n, F.prec = n + 1 := ⟨F.prec - 1, by omega⟩
    rw [h3, zpow_add₀ (by norm_num), zpow_one]
    rcases abs_eq (by positivity) |>.1 h6 with h7 | h7
    · refine ⟨2 ^ n, ?_⟩
      rw [h7, hn]; push_cast; ring
    · refine ⟨-2 ^ n, ?_⟩
      rw [h7, hn]; push_cast; ring

theorem abs_div_ulp {q : ℚ} (h : q ≠ 0) : |q / F.ulp q| < 2 ^ F.prec := by
  have hu := F.ulp_pos q
  rw [abs_div, abs_of_pos hu, div_lt_iff₀ hu]
  refine lt_of_lt_of_le (ilog2_spec h).2 ?_
  have : (2 : ℚ) ^ (ilog2 q + 1) = 2 ^ F.prec * (2 : ℚ) ^ (ilog2 q - (F.prec - 1)) := by
    have e : ilog2 q + 1 = (F.prec : ℤ) + (ilog2 q - (F.prec - 1)) := by ring
    rw [e, zpow_add₀ (by norm_num), zpow_natCast]
  rw [this]
  apply mul_le_mul_of_nonneg_left _ (by positivity)
  exact zpow_le_zpow_right₀ (by norm_num) (le_max_left _ _)

/-- A finite result is a number of the format, near the exact one. -/
theorem round_fin {q r : ℚ} (h : F.round q = .fin r) :
    F.Rep r ∧ |r| < (2 : ℚ) ^ F.emax ∧ |r - q| ≤ max (|q| / 2 ^ F.prec) ((2 : ℚ) ^ (F.emin - 1)) := by
  by_cases h0 : q = 0
  · subst h0
    rw [round_zero] at h
    injection h with h
    subst h
    refine ⟨Rep.zero, by rw [abs_zero]; positivity, ?_⟩
    rw [sub_self, abs_zero, zero_div, le_max_iff]; left; exact le_refl _
  · rw [round_eq h0] at h
    split at h
    · cases h
    · rename_i hlt
      injection h with h
      have hu := F.ulp_pos q
      subst h
      refine ⟨⟨roundEven (q / F.ulp q), max (ilog2 q - (F.prec - 1)) F.emin, rfl, ?_, le_max_right _ _⟩, not_le.1 hlt, ?_⟩
      · have := roundEven_abs (q := q / F.ulp q) (z := 2 ^ F.prec) (by push_cast; exact (abs_div_ulp h0).le)
        exact_mod_cast this
      · have hn := roundEven_near (q / F.ulp q)
        have e : (roundEven (q / F.ulp q) : ℚ) * F.ulp q - q = ((roundEven (q / F.ulp q) : ℚ) - q / F.ulp q) * F.ulp q := by
          field_simp
        rw [e, abs_mul, abs_of_pos hu]
        refine (mul_le_mul_of_nonneg_right hn hu.le).trans ?_
        rw [le_max_iff]
        simp only [ulp]
        rcases le_total (ilog2 q - (F.prec - 1)) F.emin with hm | hm
        · right
          rw [max_eq_right hm, zpow_sub₀ (by norm_num)]
          norm_num; linarith
        · left
          rw [max_eq_left hm, le_div_iff₀ (by positivity)]
          refine le_trans (le_of_eq ?_) (ilog2_spec h0).1
          have e : ilog2 q = (ilog2 q - (F.prec - 1)) + F.prec - 1 := by ring
          conv_rhs => rw [e, zpow_sub₀ (by norm_num), zpow_add₀ (by norm_num), zpow_natCast]
          norm_num
          ring

theorem round_not_nan (q : ℚ) : F.round q ≠ .nan := by
  by_cases h0 : q = 0
  · subst h0; rw [round_zero]; intro h; cases h
  · rw [round_eq h0]; split <;> intro h <;> cases h

/-- Rounding does not pass a number of the format: from below. -/
theorem round_le {q b : ℚ} (hp : 1 ≤ F.prec) (h0 : 0 ≤ q) (hb : F.Rep b) (hq : q ≤ b) (hm : b < (2 : ℚ) ^ F.emax) :
    ∃ r, F.round q = .fin r ∧ 0 ≤ r ∧ r ≤ b := by
  by_cases hz : q = 0
  · subst hz; exact ⟨0, round_zero, le_refl _, hq⟩
  · have hu := F.ulp_pos q
    have hb0 : 0 ≤ b := h0.trans hq
    have hl := (ilog2_spec hz).1
    rw [abs_of_nonneg h0] at hl
    obtain ⟨z, hbz⟩ := hb.multiple hp hz (by rw [abs_of_nonneg hb0]; exact hl.trans hq)
    have h1 : roundEven (q / F.ulp q) ≤ z := roundEven_le (by rw [div_le_iff₀ hu, ← hbz]; exact hq)
    have h2 : (0 : ℤ) ≤ roundEven (q / F.ulp q) := roundEven_ge (by push_cast; positivity)
    have h1' : (roundEven (q / F.ulp q) : ℚ) * F.ulp q ≤ b := by
      rw [hbz]; exact mul_le_mul_of_nonneg_right (by exact_mod_cast h1) hu.le
    have h2' : 0 ≤ (roundEven (q / F.ulp q) : ℚ) * F.ulp q := mul_nonneg (by exact_mod_cast h2) hu.le
    refine ⟨_, ?_, h2', h1'⟩
    rw [round_eq hz, if_neg]
    rw [abs_of_nonneg h2', not_le]
    exact lt_of_le_of_lt h1' hm

/-- Rounding does not pass a number of the format: from above. -/
theorem round_ge {q b r : ℚ} (hp : 1 ≤ F.prec) (hb : F.Rep b) (hb0 : 0 < b) (hq : b ≤ q) (h : F.round q = .fin r) : b ≤ r := by
  have hq0 : 0 < q := lt_of_lt_of_le hb0 hq
  have hz : q ≠ 0 := hq0.ne'
  have hu := F.ulp_pos q
  rw [round_eq hz] at h
  split at h
  · cases h
  · injection h with h
    subst h
    by_cases hl : (2 : ℚ) ^ ilog2 q ≤ b
    · obtain ⟨z, hbz⟩ := hb.multiple hp hz (by rw [abs_of_pos hb0]; exact hl)
      have h1 : z ≤ roundEven (q / F.ulp q) := roundEven_ge (by rw [le_div_iff₀ hu, ← hbz]; exact hq)
      rw [hbz]
      exact mul_le_mul_of_nonneg_right (by exact_mod_cast h1) hu.le
    · have hl' := (ilog2_spec hz).1
      rw [abs_of_pos hq0] at hl'
      refine le_trans (not_le.1 hl).le ?_
      simp only [ulp]
      rcases le_total (ilog2 q - (F.prec - 1)) F.emin with hm | hm
      · rw [max_eq_right hm]
        -- all numbers of the format are multiples of the least one
        obtain ⟨M, k, hM, -, hk⟩ := hb
        have hbig : b ≤ (roundEven (q / (2 : ℚ) ^ F.emin) : ℚ) * (2 : ℚ) ^ F.emin := by
          have e : b = (M * 2 ^ (k - F.emin).toNat : ℤ) * (2 : ℚ) ^ F.emin := by
            rw [hM]; push_cast
            rw [← zpow_natCast, Int.toNat_of_nonneg (by omega), mul_assoc, ← zpow_add₀ (by norm_num)]
            congr 2; ring
          rw [e]
          refine mul_le_mul_of_nonneg_right ?_ (by positivity)
          have : (M * 2 ^ (k - F.emin).toNat : ℤ) ≤ roundEven (q / (2 : ℚ) ^ F.emin) :=
            roundEven_ge (by rw [le_div_iff₀ (by positivity), ← e]; exact hq)
          exact_mod_cast this
        by_cases hlog : F.emin ≤ ilog2 q
        · have e : (2 : ℚ) ^ ilog2 q = (2 ^ (ilog2 q - F.emin).toNat : ℤ) * (2 : ℚ) ^ F.emin := by
            push_cast
            rw [← zpow_natCast, Int.toNat_of_nonneg (by omega), ← zpow_add₀ (by norm_num)]
            congr 1; ring
          rw [e]
          refine mul_le_mul_of_nonneg_right ?_ (by positivity)
          have : (2 ^ (ilog2 q - F.emin).toNat : ℤ) ≤ roundEven (q / (2 : ℚ) ^ F.emin) :=
            roundEven_ge (by rw [le_div_iff₀ (by positivity), ← e]; exact hl')
          exact_mod_cast this
        · exfalso
          have h1 : (2 : ℚ) ^ F.emin ≤ b := by
            have hM1 : (1 : ℤ) ≤ M := by
              by_contra hc
              have : (M : ℚ) ≤ 0 := by exact_mod_cast (by omega : M ≤ 0)
              have : b ≤ 0 := by rw [hM]; exact mul_nonpos_of_nonpos_of_nonneg this (by positivity)
              linarith
            rw [hM]
            have h2 : (2 : ℚ) ^ F.emin ≤ (2 : ℚ) ^ k := zpow_le_zpow_right₀ (by norm_num) hk
            have h3 : (1 : ℚ) ≤ M := by exact_mod_cast hM1
            nlinarith [show (0 : ℚ) < (2 : ℚ) ^ k by positivity]
          have h2 := (ilog2_spec hz).2
          rw [abs_of_pos hq0] at h2
          have h3 : (2 : ℚ) ^ (ilog2 q + 1) ≤ (2 : ℚ) ^ F.emin := zpow_le_zpow_right₀ (by norm_num) (by omega)
          linarith
      · rw [max_eq_left hm]
        have e : (2 : ℚ) ^ ilog2 q = (2 ^ (F.prec - 1) : ℤ) * (2 : ℚ) ^ (ilog2 q - (F.prec - 1)) := by
          push_cast
          rw [← zpow_natCast, ← zpow_add₀ (by norm_num)]
          congr 1; push_cast [Nat.cast_sub hp]; ring
        rw [e]
        refine mul_le_mul_of_nonneg_right ?_ (by positivity)
        have : (2 ^ (F.prec - 1) : ℤ) ≤ roundEven (q / (2 : ℚ) ^ (ilog2 q - (F.prec - 1))) :=
          roundEven_ge (by rw [le_div_iff₀ (by positivity), ← e]; exact hl')
        exact_mod_cast this

/-- Numbers of the format are not changed. -/
theorem round_exact {q : ℚ} (hp : 1 ≤ F.prec) (h : F.Rep q) (h0 : 0 ≤ q) (hb : q < (2 : ℚ) ^ F.emax) : F.round q = .fin q := by
  by_cases hz : q = 0
  · subst hz; exact round_zero
  · obtain ⟨r, hr, -, h1⟩ := round_le hp h0 h (le_refl _) hb
    have h2 := round_ge hp h (lt_of_le_of_ne h0 (Ne.symm hz)) (le_refl _) hr
    rw [hr, le_antisymm h1 h2]

/-- Overflow. -/
theorem round_over {q : ℚ} (hp : 1 ≤ F.prec) (hF : F.emin ≤ F.emax) (hq : (2 : ℚ) ^ F.emax ≤ q) : F.round q = .inf false := by
  have p2 : (0 : ℚ) < (2 : ℚ) ^ F.emax := by positivity
  have hq0 : 0 < q := lt_of_lt_of_le p2 hq
  cases hr : F.round q with
  | nan => exact absurd hr (round_not_nan q)
  | fin r =>
    have h1 := round_ge hp ⟨1, F.emax, by simp, by rw [abs_one]; exact one_le_pow₀ (by norm_num), hF⟩ p2 hq hr
    have h2 := (round_fin hr).2.1
    rw [abs_of_nonneg (p2.le.trans h1)] at h2
    linarith
  | inf n =>
    rw [round_eq hq0.ne'] at hr
    split at hr
    · injection hr with hr
      rw [← hr]; simp [hq0.le]
    · cases hr

end FFmt
end CStr
