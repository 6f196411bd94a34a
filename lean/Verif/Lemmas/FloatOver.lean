import Verif.Lemmas.FloatIeee
/-
  Lower bounds for the digits of a literal, of any length: used for C70.
-/
namespace CStr
namespace FFmt
variable {F : FFmt}

theorem rep_one (hF : F.Std) : F.Rep 1 :=
  ⟨1, 0, by simp, by rw [abs_one]; exact one_le_pow₀ (by norm_num), by have := hF.emin; have := hF.prec; omega⟩

/-- The finite numbers of the format. -/
def Finite (F : FFmt) (x : ℚ) : Prop := F.Rep x ∧ x < (2 : ℚ) ^ F.emax

theorem Finite.zero : F.Finite 0 := ⟨Rep.zero, by positivity⟩

/-- Rounding a number that is not negative. -/
theorem round_nonneg (q : ℚ) (h : 0 ≤ q) : F.round q = .inf false ∨ ∃ r, F.round q = .fin r ∧ F.Finite r ∧ 0 ≤ r := by
  by_cases h0 : q = 0
  · subst h0; exact .inr ⟨0, round_zero, .zero, le_refl _⟩
  · cases hr : F.round q with
    | nan => exact absurd hr (round_not_nan _)
    | inf n =>
      left
      rw [round_eq h0] at hr
      split at hr
      · injection hr with hr
        rw [← hr]; simp [h]
      · cases hr
    | fin r =>
      right
      refine ⟨r, rfl, ⟨(round_fin hr).1, lt_of_le_of_lt (le_abs_self r) (round_fin hr).2.1⟩, ?_⟩
      rw [round_eq h0] at hr
      split at hr
      · cases hr
      · injection hr with hr
        rw [← hr]
        refine mul_nonneg ?_ (ulp_pos _).le
        have : (0 : ℤ) ≤ roundEven (q / F.ulp q) := roundEven_ge (by
          have := F.ulp_pos q
          push_cast; positivity)
        exact_mod_cast this

theorem round_lower (hF : F.Std) {q : ℚ} (h : 1 ≤ q) :
    F.round q = .inf false ∨ ∃ r, F.round q = .fin r ∧ F.Finite r ∧ 1 ≤ r ∧ q * (1 - F.eps) ≤ r := by
  rcases round_nonneg (F := F) q (by linarith) with hr | ⟨r, hr, hrep, -⟩
  · exact .inl hr
  · refine .inr ⟨r, hr, hrep, round_ge hF.p1 (rep_one hF) (by norm_num) h hr, ?_⟩
    have h3 := (round_fin hr).2.2
    have e0 := F.eps_pos
    have h4 : Max.max (|q| / 2 ^ F.prec) ((2 : ℚ) ^ (F.emin - 1)) ≤ q * F.eps := by
      apply max_le
      · rw [abs_of_nonneg (by linarith), eps, div_eq_mul_one_div]
      · have : (2 : ℚ) ^ (F.emin - 1) = F.minNormal * F.eps := by
          rw [minNormal, eps, one_div, ← zpow_natCast, ← zpow_neg, ← zpow_add₀ (by norm_num)]
          congr 1; ring
        rw [this]
        exact mul_le_mul_of_nonneg_right (by linarith [hF.minNormal_le]) e0.le
    have := (abs_le.1 (h3.trans h4)).1
    linarith

/-- `a` is +infinity, or 0, or a number from 1 upwards, and not less than `v` but for `k` roundings. -/
def AtLeast (F : FFmt) (k : Nat) (a : Flt) (v : ℚ) : Prop :=
  a = .inf false ∨ ∃ x, a = .fin x ∧ F.Finite x ∧ (x = 0 ∨ 1 ≤ x) ∧ v * (1 - F.eps) ^ k ≤ x

theorem AtLeast.mono (hF : F.Std) {k k' : Nat} {a : Flt} {v w : ℚ} (h : F.AtLeast k a v) (hw : 0 ≤ w) (hwv : w ≤ v) (hk : k ≤ k') :
    F.AtLeast k' a w := by
  have e0 := F.eps_pos
  have e1 := hF.eps_lt
  rcases h with h | ⟨x, h1, h2, h3, h4⟩
  · exact .inl h
  · refine .inr ⟨x, h1, h2, h3, le_trans (mul_le_mul hwv ?_ (pow_nonneg (by linarith) _) (by linarith)) h4⟩
    exact pow_le_pow_of_le_one (by linarith) (by linarith) hk

theorem AtLeast.add (hF : F.Std) {k : Nat} {a b : Flt} {v w : ℚ} (h1 : F.AtLeast k a v) (h2 : F.AtLeast k b w) (hv : 0 ≤ v) (hw : 0 ≤ w) :
    F.AtLeast (k + 1) (F.add a b) (v + w) := by
  have e0 := F.eps_pos
  have e1 := hF.eps_lt
  rcases h1 with rfl | ⟨x, rfl, rx, cx, lx⟩
  · rcases h2 with rfl | ⟨y, rfl, -⟩
    · exact .inl (by simp [FFmt.add])
    · exact .inl (by simp [FFmt.add])
  · rcases h2 with rfl | ⟨y, rfl, ry, cy, ly⟩
    · exact .inl (by simp [FFmt.add])
    · show F.AtLeast _ (F.round (x + y)) _
      have hx0 : 0 ≤ x := by rcases cx with h | h <;> linarith
      have hy0 : 0 ≤ y := by rcases cy with h | h <;> linarith
      have p0 : 0 ≤ 1 - F.eps := by linarith
      have hle : (v + w) * (1 - F.eps) ^ k ≤ x + y := by rw [add_mul]; linarith
      by_cases hz : x + y = 0
      · rw [hz, round_zero]
        refine .inr ⟨0, rfl, .zero, .inl rfl, ?_⟩
        rw [hz] at hle
        rw [pow_succ, ← mul_assoc]
        exact mul_nonpos_of_nonpos_of_nonneg hle p0
      · have h1 : 1 ≤ x + y := by
          rcases cx with h | h
          · rcases cy with h' | h'
            · exact absurd (by rw [h, h', add_zero]) hz
            · linarith
          · linarith
        rcases round_lower hF h1 with h | ⟨r, h, rr, cr, lr⟩
        · exact .inl h
        · refine .inr ⟨r, h, rr, .inr cr, le_trans ?_ lr⟩
          rw [pow_succ, ← mul_assoc]
          exact mul_le_mul_of_nonneg_right hle p0

theorem AtLeast.ofULL (hF : F.Std) {n : Nat} (h : n < 18446744073709551616) : F.AtLeast 1 (F.round n) n := by
  by_cases h0 : n = 0
  · subst h0
    rw [Nat.cast_zero, round_zero]
    exact .inr ⟨0, rfl, .zero, .inl rfl, by simp⟩
  · have : (1 : ℚ) ≤ n := by exact_mod_cast Nat.one_le_iff_ne_zero.2 h0
    rcases round_lower hF this with h | ⟨r, h, rr, cr, lr⟩
    · exact .inl h
    · exact .inr ⟨r, h, rr, .inr cr, by rw [pow_one]; exact lr⟩

theorem AtLeast.mul_pow (hF : F.Std) {pow : Int → Flt} (hp : Pow10 F pow) {k n : Nat} {a : Flt} {v : ℚ} (h : F.AtLeast k a v)
    (hv : 0 ≤ v) (hn : 0 < v ∨ n = 0) : F.AtLeast (k + 4) (F.mul a (pow n)) (v * 10 ^ n) := by
  have e0 := F.eps_pos
  have e1 := hF.eps_lt
  have p0 : 0 ≤ 1 - F.eps := by linarith
  -- the power
  have hpow : pow n = .inf false ∧ n ≠ 0 ∨ ∃ y, pow n = .fin y ∧ 1 ≤ y ∧ (10 : ℚ) ^ n * (1 - F.eps) ^ 3 ≤ y := by
    by_cases hn0 : n = 0
    · right
      subst hn0
      refine ⟨1, by exact_mod_cast hp.one, le_refl _, ?_⟩
      rw [pow_zero, one_mul]
      exact pow_le_one₀ p0 (by linarith)
    · have h10 : (10 : ℚ) ≤ 10 ^ n := by
        calc (10 : ℚ) = 10 ^ 1 := by norm_num
          _ ≤ 10 ^ n := pow_le_pow_right₀ (by norm_num) (by omega)
      by_cases hov : (2 : ℚ) ^ F.emax ≤ (10 : ℚ) ^ (n : ℤ)
      · exact .inl ⟨hp.over _ hov, hn0⟩
      · right
        obtain ⟨y, ey, -, ny⟩ := hp.good hF (n := (n : ℤ)) (by rw [zpow_natCast]; linarith [hF.minNormal_le]) (not_le.1 hov)
        rw [zpow_natCast] at ny
        refine ⟨y, ey, ?_, ny.1⟩
        have := hF.shrink_ge (k := 3) (by norm_num)
        have h2 : (10 : ℚ) * (15 / 16) ≤ 10 ^ n * (1 - F.eps) ^ 3 := mul_le_mul h10 this (by norm_num) (by positivity)
        linarith [ny.1]
  rcases h with rfl | ⟨x, rfl, rx, cx, lx⟩
  · left
    rcases hpow with ⟨h, -⟩ | ⟨y, h, hy, -⟩
    · rw [h]; rfl
    · rw [h]
      have h1 : y ≠ 0 := by intro h; rw [h] at hy; norm_num at hy
      have h2 : ¬ y < 0 := by linarith
      simp [FFmt.mul, h1, h2]
  · rcases cx with hx | hx
    · subst hx
      have hv0 : v = 0 := by
        by_contra hne
        have hpos : 0 < v := lt_of_le_of_ne hv (Ne.symm hne)
        have : 0 < v * (1 - F.eps) ^ k := mul_pos hpos (pow_pos (by linarith) _)
        linarith
      have hn0 : n = 0 := by
        rcases hn with h | h
        · rw [hv0] at h; exact absurd h (lt_irrefl _)
        · exact h
      rcases hpow with ⟨-, h⟩ | ⟨y, h, -, -⟩
      · exact absurd hn0 h
      · rw [h]
        have : F.mul (.fin 0) (.fin y) = .fin 0 := by
          show F.round (0 * y) = _
          rw [zero_mul, round_zero]
        rw [this, hv0, zero_mul]
        exact .inr ⟨0, rfl, .zero, .inl rfl, by simp⟩
    · rcases hpow with ⟨h, -⟩ | ⟨y, h, hy, ly⟩
      · left
        rw [h]
        have h1 : x ≠ 0 := by intro h; rw [h] at hx; norm_num at hx
        have h2 : ¬ x < 0 := by linarith
        simp [FFmt.mul, h1, h2]
      · rw [h]
        show F.AtLeast _ (F.round (x * y)) _
        have hxy : 1 ≤ x * y := by nlinarith
        have hle : v * 10 ^ n * (1 - F.eps) ^ (k + 3) ≤ x * y := by
          have := mul_le_mul lx ly (by positivity) (by linarith)
          calc v * 10 ^ n * (1 - F.eps) ^ (k + 3) = v * (1 - F.eps) ^ k * (10 ^ n * (1 - F.eps) ^ 3) := by rw [pow_add]; ring
            _ ≤ x * y := this
        rcases round_lower hF hxy with h | ⟨r, h, rr, cr, lr⟩
        · exact .inl h
        · refine .inr ⟨r, h, rr, .inr cr, le_trans ?_ lr⟩
          rw [show k + 4 = k + 3 + 1 by omega, pow_succ, ← mul_assoc]
          exact mul_le_mul_of_nonneg_right hle p0

end FFmt

variable {F : FFmt}

/-- The integral part, of any length. -/
theorem intFold_atLeast {pow : Int → Flt} (hF : F.Std) (hp : Pow10 F pow) {cs : List (List Byte)} (h : Chunks cs)
    (hd : ∀ b ∈ cs.flatten, isDigit b = true) {k : Nat} {a : Flt} {v : ℚ} (ha : F.AtLeast k a v) (hv : 0 ≤ v) :
    F.AtLeast (k + 6 * cs.length) (intFold (ieeeOps F pow) cs a) (v + decNum cs.flatten) := by
  induction cs generalizing k a v with
  | nil => simpa [intFold, decNum, codeNum_nil] using ha
  | cons c cs ih =>
    have hc64 : decNum c < 18446744073709551616 := by
      cases h with
      | last _ h1 => exact h1
      | more _ h1 _ _ => exact h1
    have hcs : Chunks cs := by
      cases h with
      | last _ h1 => exact .nil
      | more _ _ _ h1 => exact h1
    have hpos : 1 ≤ decNum c ∨ cs.flatten.length = 0 := by
      cases cs with
      | nil => right; rfl
      | cons b t => exact .inl (h.first_pos (fun x hx => hd x (by simp [hx])))
    have g1 := (ha.mono hF hv (le_refl v) (show k ≤ k + 1 by omega)).add hF
      ((FFmt.AtLeast.ofULL hF hc64).mono hF (by positivity) (le_refl _) (show 1 ≤ k + 1 by omega)) hv (by positivity)
    have g2 := g1.mul_pow hF hp (n := cs.flatten.length) (by positivity) (by
      rcases hpos with h | h
      · left
        have : (1 : ℚ) ≤ decNum c := by exact_mod_cast h
        linarith
      · exact .inr h)
    have g3 := ih hcs (fun x hx => hd x (by simp only [List.flatten_cons, List.mem_append]; exact .inr hx)) g2 (by positivity)
    have hle : v + (decNum (c :: cs).flatten : ℚ) ≤ (v + decNum c) * 10 ^ cs.flatten.length + decNum cs.flatten := by
      rw [List.flatten_cons, decNum_append]
      have h1 : (1 : ℚ) ≤ 10 ^ cs.flatten.length := one_le_pow₀ (by norm_num)
      push_cast
      nlinarith [mul_le_mul_of_nonneg_left h1 hv]
    exact g3.mono hF (by positivity) hle (by simp only [List.length_cons]; omega)

/-- `a` is +infinity or not less than `w`. -/
def FFmt.Above (F : FFmt) (a : Flt) (w : ℚ) : Prop := a = .inf false ∨ ∃ x, a = .fin x ∧ F.Finite x ∧ w ≤ x

/-- The fractional part does not make it less. -/
theorem fracFold_above {pow : Int → Flt} (hF : F.Std) (hp : Pow10 F pow) {cs : List (List Byte)} (h : Chunks cs) {p : Nat} {a : Flt} {w : ℚ}
    (hw : 0 < w) (ha : F.Above a w) : F.Above (fracFold (ieeeOps F pow) cs (-(p : ℤ)) a) w := by
  induction cs generalizing p a with
  | nil => exact ha
  | cons c cs ih =>
    have ep : (-(p : ℤ)) - c.length = -((p + c.length : ℕ) : ℤ) := by push_cast; ring
    have hc64 : decNum c < 18446744073709551616 := by
      cases h with
      | last _ h1 => exact h1
      | more _ h1 _ _ => exact h1
    have hcs : Chunks cs := by
      cases h with
      | last _ h1 => exact .nil
      | more _ _ _ h1 => exact h1
    simp only [fracFold]
    rw [ep]
    apply ih hcs
    -- the piece
    have hpw : ∃ y, pow (-((p + c.length : ℕ) : ℤ)) = .fin y ∧ 0 ≤ y := by
      by_cases hm : F.minNormal ≤ (10 : ℚ) ^ (-((p + c.length : ℕ) : ℤ))
      · obtain ⟨y, ey, -, ny⟩ := hp.good hF hm (by
          have h1 : (10 : ℚ) ^ (-((p + c.length : ℕ) : ℤ)) ≤ (10 : ℚ) ^ (0 : ℤ) := zpow_le_zpow_right₀ (by norm_num) (by omega)
          rw [zpow_zero] at h1
          have := hF.emax
          have h2 : (2 : ℚ) ^ (1 : ℤ) ≤ (2 : ℚ) ^ F.emax := zpow_le_zpow_right₀ (by norm_num) (by omega)
          rw [zpow_one] at h2
          linarith)
        exact ⟨y, ey, ny.nonneg hF (by positivity)⟩
      · obtain ⟨y, ey, -, ny, -⟩ := hp.small _ (not_le.1 hm)
        exact ⟨y, ey, ny⟩
    obtain ⟨y, ey, y0⟩ := hpw
    have hnn : ∀ z, 0 ≤ z → ∀ a', F.Above a' w → F.Above (F.add a' (.fin z)) w := by
      intro z hz a' h
      rcases h with rfl | ⟨x, rfl, rx, lx⟩
      · exact .inl rfl
      · show F.Above (F.round (x + z)) w
        rcases FFmt.round_nonneg (F := F) (x + z) (by linarith) with h | ⟨r, h, rr, -⟩
        · exact .inl h
        · exact .inr ⟨r, h, rr, lx.trans (FFmt.round_ge hF.p1 rx.1 (by linarith) (by linarith) h)⟩
    have hinf : ∀ a', F.Above a' w → F.Above (F.add a' (.inf false)) w := by
      intro a' h
      rcases h with rfl | ⟨x, rfl, rx, lx⟩
      · exact .inl (by simp [FFmt.add])
      · exact .inl rfl
    obtain ⟨r, hr, -, nr⟩ := ofULL_good hF hc64
    show F.Above (F.add a (F.mul (F.round (decNum c)) (pow (-((p + c.length : ℕ) : ℤ))))) w
    rw [ey, hr]
    show F.Above (F.add a (F.round (r * y))) w
    rcases FFmt.round_nonneg (F := F) (r * y) (mul_nonneg (nr.nonneg hF (by positivity)) y0) with h | ⟨z, h, -, z0⟩
    · rw [h]; exact hinf _ ha
    · rw [h]; exact hnn _ z0 _ ha

/-- The digits of a literal are not less than the integral part but for a few roundings. -/
theorem Assembled.above {pow : Int → Flt} (hF : F.Std) (hp : Pow10 F pow) {i f : List Byte} {e : Int} {val : Flt}
    (h : Assembled (ieeeOps F pow) i f e val) (di : ∀ b ∈ i, isDigit b = true) (hi : 0 < digitsNumber i) :
    ∃ a, F.Above a (digitsNumber i * (1 - F.eps) ^ (6 + 6 * (i.length / 19))) ∧ val = F.mul a (pow e) := by
  obtain ⟨ci, cf, f', z, c1, rfl, c3, rfl, rfl, hlast, rfl⟩ := h.eq
  have e0 := F.eps_pos
  have e1 := hF.eps_lt
  rw [digitsNumber_eq di] at hi ⊢
  have hq : (0 : ℚ) < decNum ci.flatten := by exact_mod_cast hi
  refine ⟨_, fracFold_above hF hp c3 (p := 0) (mul_pos hq (pow_pos (by linarith) _)) ?_, rfl⟩
  have g := (intFold_atLeast hF hp c1 di (k := 0) (a := .fin 0) (v := 0) (.inr ⟨0, rfl, .zero, .inl rfl, by simp⟩)
    (le_refl _)).mono hF (w := decNum ci.flatten) hq.le (by simp) (k' := 6 + 6 * (ci.flatten.length / 19)) (by
      have := c1.count di; omega)
  rcases g with h | ⟨x, h1, h2, -, h3⟩
  · exact .inl h
  · exact .inr ⟨x, h1, h2, h3⟩

end CStr
