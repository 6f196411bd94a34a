import Verif.Lemmas.Ieee
import Verif.Lemmas.FloatRat
import Verif.Spec.FloatIeee
/-! Helper lemmas: assembling the value of a floating point literal with IEEE arithmetic. -/
namespace CStr

variable {F : FFmt}

theorem FFmt.eps_pos : 0 < F.eps := by unfold FFmt.eps; positivity

theorem FFmt.Std.eps_le (h : F.Std) : F.eps ≤ 1 / 2 ^ 24 := by
  unfold FFmt.eps
  exact one_div_le_one_div_of_le (by positivity) (pow_le_pow_right₀ (by norm_num) h.prec)

theorem FFmt.Std.p1 (h : F.Std) : 1 ≤ F.prec := by have := h.prec; omega

theorem FFmt.Std.eps_lt (h : F.Std) : F.eps < 1 := lt_of_le_of_lt h.eps_le (by norm_num)

theorem FFmt.minNormal_pos : 0 < F.minNormal := by unfold FFmt.minNormal; positivity

theorem FFmt.Std.minNormal_le (h : F.Std) : F.minNormal ≤ 1 / 4 := by
  unfold FFmt.minNormal
  have := h.emin
  have h1 : (2 : ℚ) ^ (F.emin + F.prec - 1) ≤ (2 : ℚ) ^ (-2 : ℤ) := zpow_le_zpow_right₀ (by norm_num) (by omega)
  norm_num at h1 ⊢
  exact h1

namespace FFmt

theorem near_refl (v : ℚ) : F.Near 0 v v := by simp [Near]

theorem Near.mono {k k' : Nat} {x v : ℚ} (hF : F.Std) (h : F.Near k x v) (hv : 0 ≤ v) (hk : k ≤ k') : F.Near k' x v := by
  have e0 := F.eps_pos
  have e1 := hF.eps_lt
  refine ⟨le_trans ?_ h.1, h.2.trans ?_⟩
  · exact mul_le_mul_of_nonneg_left (pow_le_pow_of_le_one (by linarith) (by linarith) hk) hv
  · exact mul_le_mul_of_nonneg_left (pow_le_pow_right₀ (by linarith) hk) hv

theorem Near.nonneg {k : Nat} {x v : ℚ} (hF : F.Std) (h : F.Near k x v) (hv : 0 ≤ v) : 0 ≤ x := by
  have e1 := hF.eps_lt
  exact le_trans (mul_nonneg hv (pow_nonneg (by linarith) _)) h.1

theorem Near.add {k : Nat} {x v y w : ℚ} (h1 : F.Near k x v) (h2 : F.Near k y w) : F.Near k (x + y) (v + w) := by
  refine ⟨?_, ?_⟩
  · rw [add_mul]; exact add_le_add h1.1 h2.1
  · rw [add_mul]; exact add_le_add h1.2 h2.2

theorem Near.mul {a b : Nat} {x v y w : ℚ} (hF : F.Std) (h1 : F.Near a x v) (h2 : F.Near b y w) (hv : 0 ≤ v) (hw : 0 ≤ w) :
    F.Near (a + b) (x * y) (v * w) := by
  have e0 := F.eps_pos
  have e1 := hF.eps_lt
  have hx := h1.nonneg hF hv
  have hy := h2.nonneg hF hw
  refine ⟨?_, ?_⟩
  · have : v * w * (1 - F.eps) ^ (a + b) = (v * (1 - F.eps) ^ a) * (w * (1 - F.eps) ^ b) := by rw [pow_add]; ring
    rw [this]
    exact mul_le_mul h1.1 h2.1 (mul_nonneg hw (pow_nonneg (by linarith) _)) hx
  · have : v * w * (1 + F.eps) ^ (a + b) = (v * (1 + F.eps) ^ a) * (w * (1 + F.eps) ^ b) := by rw [pow_add]; ring
    rw [this]
    exact mul_le_mul h1.2 h2.2 hy (mul_nonneg hv (pow_nonneg (by linarith) _))

theorem Near.trans {a b : Nat} {x y v : ℚ} (hF : F.Std) (h1 : F.Near a x y) (h2 : F.Near b y v) : F.Near (a + b) x v := by
  have e0 := F.eps_pos
  have e1 := hF.eps_lt
  refine ⟨?_, ?_⟩
  · refine le_trans ?_ h1.1
    rw [add_comm a b, pow_add, ← mul_assoc]
    exact mul_le_mul_of_nonneg_right h2.1 (pow_nonneg (by linarith) _)
  · refine h1.2.trans ?_
    rw [add_comm a b, pow_add, ← mul_assoc]
    exact mul_le_mul_of_nonneg_right h2.2 (pow_nonneg (by linarith) _)

theorem near_one {x v : ℚ} (h : |x - v| ≤ v * F.eps) : F.Near 1 x v := by
  rw [abs_le] at h
  constructor <;> rw [pow_one] <;> linarith [h.1, h.2]

theorem near_three {x v : ℚ} (hF : F.Std) (hv : 0 ≤ v) (h : |x - v| ≤ v * (2 * F.eps)) : F.Near 3 x v := by
  rw [abs_le] at h
  have e0 := F.eps_pos
  have e1 := hF.eps_le
  constructor
  · have : v * (1 - F.eps) ^ 3 ≤ v * (1 - 2 * F.eps) := by
      apply mul_le_mul_of_nonneg_left _ hv
      nlinarith [pow_pos e0 3, pow_pos e0 2]
    linarith [h.1]
  · have : v * (1 + 2 * F.eps) ≤ v * (1 + F.eps) ^ 3 := by
      apply mul_le_mul_of_nonneg_left _ hv
      nlinarith [pow_pos e0 3, pow_pos e0 2]
    linarith [h.2]

/-- `a` is a number of the format, near `v`. -/
def Good (F : FFmt) (k : Nat) (a : Flt) (v : ℚ) : Prop := ∃ x, a = .fin x ∧ F.Rep x ∧ F.Near k x v

theorem Rep.min_mul {x : ℚ} (h : F.Rep x) : ∃ z : ℤ, x = z * (2 : ℚ) ^ F.emin := by
  obtain ⟨M, k, rfl, -, hk⟩ := h
  refine ⟨M * 2 ^ (k - F.emin).toNat, ?_⟩
  push_cast
  rw [← zpow_natCast, Int.toNat_of_nonneg (by omega), mul_assoc, ← zpow_add₀ (by norm_num)]
  congr 2; ring

/-- A small sum of two numbers of the format is a number of the format. -/
theorem Rep.add {x y : ℚ} (hx : F.Rep x) (hy : F.Rep y) (h : |x + y| ≤ F.minNormal) (hp : 1 ≤ F.prec) : F.Rep (x + y) := by
  obtain ⟨a, ha⟩ := hx.min_mul
  obtain ⟨b, hb⟩ := hy.min_mul
  have e : x + y = (a + b : ℤ) * (2 : ℚ) ^ F.emin := by rw [ha, hb]; push_cast; ring
  refine ⟨a + b, F.emin, e, ?_, le_refl _⟩
  rw [e, abs_mul, abs_of_pos (show (0 : ℚ) < (2 : ℚ) ^ F.emin by positivity), minNormal] at h
  have e2 : (2 : ℚ) ^ (F.emin + F.prec - 1) = (2 : ℚ) ^ (F.prec - 1) * (2 : ℚ) ^ F.emin := by
    rw [← zpow_natCast, ← zpow_add₀ (by norm_num)]
    congr 1; push_cast [Nat.cast_sub hp]; ring
  rw [e2] at h
  have h1 := le_of_mul_le_mul_right h (by positivity)
  have h2 : |a + b| ≤ 2 ^ (F.prec - 1) := by exact_mod_cast h1
  exact h2.trans (pow_le_pow_right₀ (by norm_num) (by omega))

theorem Good.mono {k k' : Nat} {a : Flt} {v : ℚ} (hF : F.Std) (h : F.Good k a v) (hv : 0 ≤ v) (hk : k ≤ k') : F.Good k' a v := by
  obtain ⟨x, h1, h2, h3⟩ := h
  exact ⟨x, h1, h2, h3.mono hF hv hk⟩

/-- Powers of two of the format. -/
theorem rep_pow2 {k : ℤ} (h : F.emin ≤ k) : F.Rep ((2 : ℚ) ^ k) :=
  ⟨1, k, by simp, by rw [abs_one]; exact one_le_pow₀ (by norm_num), h⟩

theorem max_lt : F.max < (2 : ℚ) ^ F.emax := by
  unfold max
  have : (0 : ℚ) < (2 : ℚ) ^ (F.emax - F.prec) := by positivity
  linarith

theorem Std.max_eq (hF : F.Std) : F.max = (2 ^ F.prec - 1 : ℤ) * (2 : ℚ) ^ (F.emax - F.prec) := by
  have e : (2 : ℚ) ^ F.emax = (2 : ℚ) ^ F.prec * (2 : ℚ) ^ (F.emax - F.prec) := by
    rw [← zpow_natCast, ← zpow_add₀ (by norm_num)]
    congr 1; ring
  unfold max
  rw [e]
  push_cast
  ring

theorem Std.rep_max (hF : F.Std) : F.Rep F.max := by
  refine ⟨2 ^ F.prec - 1, F.emax - F.prec, hF.max_eq, ?_, ?_⟩
  · have : (1 : ℤ) ≤ 2 ^ F.prec := one_le_pow₀ (by norm_num)
    rw [abs_of_nonneg (by omega)]; omega
  · have := hF.emin; have := hF.emax; omega

theorem Std.max_ge (hF : F.Std) : (2 : ℚ) ^ (127 : ℤ) ≤ F.max := by
  have := hF.emax
  have := hF.prec
  have e : (2 : ℚ) ^ F.emax = 2 * (2 : ℚ) ^ (F.emax - 1) := by
    rw [zpow_sub₀ (by norm_num)]; norm_num; ring
  have h1 : (2 : ℚ) ^ (F.emax - F.prec) ≤ (2 : ℚ) ^ (F.emax - 1) := zpow_le_zpow_right₀ (by norm_num) (by omega)
  have h2 : (2 : ℚ) ^ (127 : ℤ) ≤ (2 : ℚ) ^ (F.emax - 1) := zpow_le_zpow_right₀ (by norm_num) (by omega)
  unfold max
  rw [e]
  linarith

/-- Rounding a number of the normal range, or 0, or a number of the format. -/
theorem good_round {q : ℚ} (hF : F.Std) (h0 : 0 ≤ q) (hb : q ≤ F.max) (h : F.Rep q ∨ F.minNormal ≤ q) :
    F.Good 1 (F.round q) q := by
  have hlim := F.max_lt
  have e0 := F.eps_pos
  rcases h with h | h
  · refine ⟨q, round_exact hF.p1 h h0 (lt_of_le_of_lt hb hlim), h, (near_refl q).mono hF h0 (by omega)⟩
  · have := hF.emin
    have := hF.emax
    have := hF.prec
    obtain ⟨r, hr, -, -⟩ := round_le hF.p1 h0 hF.rep_max hb hlim
    obtain ⟨h1, -, h3⟩ := round_fin hr
    refine ⟨r, hr, h1, near_one (h3.trans (max_le ?_ ?_))⟩
    · rw [abs_of_nonneg h0, eps]; rw [div_eq_mul_one_div]
    · have : (2 : ℚ) ^ (F.emin - 1) = F.minNormal * F.eps := by
        rw [minNormal, eps, one_div, ← zpow_natCast, ← zpow_neg, ← zpow_add₀ (by norm_num)]
        congr 1; ring
      rw [this]
      exact mul_le_mul_of_nonneg_right h e0.le

theorem Good.add {k : Nat} {a b : Flt} {v w : ℚ} (hF : F.Std) (h1 : F.Good k a v) (h2 : F.Good k b w) (hv : 0 ≤ v) (hw : 0 ≤ w)
    (hb : (v + w) * (1 + F.eps) ^ k ≤ F.max) : F.Good (k + 1) (F.add a b) (v + w) := by
  obtain ⟨x, rfl, rx, nx⟩ := h1
  obtain ⟨y, rfl, ry, ny⟩ := h2
  have hn := nx.add ny
  have h0 := hn.nonneg hF (by positivity)
  have hg : F.Good 1 (F.round (x + y)) (x + y) := by
    apply good_round hF h0 (hn.2.trans hb)
    by_cases hm : x + y ≤ F.minNormal
    · exact .inl (rx.add ry (by rwa [abs_of_nonneg h0]) hF.p1)
    · exact .inr (not_le.1 hm).le
  obtain ⟨r, h3, h4, h5⟩ := hg
  refine ⟨r, h3, h4, ?_⟩
  rw [add_comm k 1]
  exact h5.trans hF hn

theorem Good.mul {i j : Nat} {a b : Flt} {v w : ℚ} (hF : F.Std) (h1 : F.Good i a v) (h2 : F.Good j b w) (hv : 0 ≤ v) (hw : 0 ≤ w)
    (hm : v * w = 0 ∨ F.minNormal ≤ v * w * (1 - F.eps) ^ (i + j))
    (hb : v * w * (1 + F.eps) ^ (i + j) ≤ F.max) : F.Good (i + j + 1) (F.mul a b) (v * w) := by
  obtain ⟨x, rfl, rx, nx⟩ := h1
  obtain ⟨y, rfl, ry, ny⟩ := h2
  have hn := nx.mul hF ny hv hw
  have h0 := hn.nonneg hF (by positivity)
  have hg : F.Good 1 (F.round (x * y)) (x * y) := by
    apply good_round hF h0 (hn.2.trans hb)
    rcases hm with hm | hm
    · left
      have h5 := hn.2
      rw [hm, zero_mul] at h5
      rw [le_antisymm h5 h0]; exact Rep.zero
    · exact .inr (hm.trans hn.1)
  obtain ⟨r, h3, h4, h5⟩ := hg
  refine ⟨r, h3, h4, ?_⟩
  rw [add_comm (i + j) 1]
  exact h5.trans hF hn

/-- Multiplication by 1 is exact. -/
theorem Good.mul_one {k : Nat} {a : Flt} {v : ℚ} (hF : F.Std) (h : F.Good k a v) (hv : 0 ≤ v)
    (hb : v * (1 + F.eps) ^ k ≤ F.max) : F.mul a (.fin 1) = a := by
  obtain ⟨x, rfl, rx, nx⟩ := h
  have hlim := F.max_lt
  show F.round (x * 1) = _
  rw [_root_.mul_one]
  exact round_exact hF.p1 rx (nx.nonneg hF hv) (lt_of_le_of_lt (nx.2.trans hb) hlim)

end FFmt

theorem Pow10.good {pow : Int → Flt} (hF : F.Std) (h : Pow10 F pow) {n : Int} (h1 : F.minNormal ≤ (10 : ℚ) ^ n)
    (h2 : (10 : ℚ) ^ n < (2 : ℚ) ^ F.emax) : F.Good 3 (pow n) ((10 : ℚ) ^ n) := by
  obtain ⟨x, e1, e2, e3⟩ := h.normal n h1 h2
  exact ⟨x, e1, e2, FFmt.near_three hF (by positivity) e3⟩

/-- A few roundings change a number by less than an eighth. -/
theorem FFmt.Std.grow_le (hF : F.Std) {k : Nat} (hk : k ≤ 2 ^ 20) : (1 + F.eps) ^ k ≤ 9 / 8 := by
  have e0 := F.eps_pos
  have e1 := hF.eps_le
  have h1 : (1 : ℚ) - k * F.eps ≤ (1 - F.eps) ^ k := by
    have := one_add_mul_le_pow (a := -F.eps) (by linarith [hF.eps_lt]) k
    rw [mul_neg, ← sub_eq_add_neg, ← sub_eq_add_neg] at this
    exact this
  have hke : (k : ℚ) * F.eps ≤ 1 / 16 := by
    have : (k : ℚ) ≤ 2 ^ 20 := by exact_mod_cast hk
    calc (k : ℚ) * F.eps ≤ 2 ^ 20 * (1 / 2 ^ 24) := mul_le_mul this e1 e0.le (by norm_num)
      _ = 1 / 16 := by norm_num
  have h2 : (1 + F.eps) ^ k * (1 - F.eps) ^ k ≤ 1 := by
    rw [← mul_pow]
    apply pow_le_one₀
    · nlinarith [hF.eps_lt]
    · nlinarith
  have h3 : (15 : ℚ) / 16 ≤ (1 - F.eps) ^ k := by linarith
  have h4 : 0 < (1 + F.eps) ^ k := by positivity
  nlinarith

theorem FFmt.Std.shrink_ge (hF : F.Std) {k : Nat} (hk : k ≤ 2 ^ 20) : (15 : ℚ) / 16 ≤ (1 - F.eps) ^ k := by
  have e0 := F.eps_pos
  have e1 := hF.eps_le
  have h1 : (1 : ℚ) - k * F.eps ≤ (1 - F.eps) ^ k := by
    have := one_add_mul_le_pow (a := -F.eps) (by linarith [hF.eps_lt]) k
    rw [mul_neg, ← sub_eq_add_neg, ← sub_eq_add_neg] at this
    exact this
  have hke : (k : ℚ) * F.eps ≤ 1 / 16 := by
    have : (k : ℚ) ≤ 2 ^ 20 := by exact_mod_cast hk
    calc (k : ℚ) * F.eps ≤ 2 ^ 20 * (1 / 2 ^ 24) := mul_le_mul this e1 e0.le (by norm_num)
      _ = 1 / 16 := by norm_num
  linarith

/-- Numbers below `10^38` and a little more do not overflow. -/
theorem FFmt.Std.room (hF : F.Std) {k : Nat} (hk : k ≤ 2 ^ 20) {v : ℚ} (h0 : 0 ≤ v) (hv : v ≤ 10 ^ 38) :
    v * (1 + F.eps) ^ k ≤ F.max := by
  have h1 := hF.grow_le hk
  refine le_trans ?_ hF.max_ge
  calc v * (1 + F.eps) ^ k ≤ 10 ^ 38 * (9 / 8) := mul_le_mul hv h1 (by have := F.eps_pos; positivity) (by norm_num)
    _ ≤ (2 : ℚ) ^ (127 : ℤ) := by norm_num

theorem ofULL_good (hF : F.Std) {n : Nat} (h : n < 18446744073709551616) : F.Good 1 (F.round n) n := by
  have h2 := hF.max_ge
  have h3 : (n : ℚ) ≤ 18446744073709551616 := by exact_mod_cast h.le
  apply FFmt.good_round hF (by positivity) (by norm_num at h2; linarith)
  by_cases h0 : n = 0
  · left; rw [h0]; simpa using FFmt.Rep.zero
  · right
    have : (1 : ℚ) ≤ n := by exact_mod_cast Nat.one_le_iff_ne_zero.2 h0
    linarith [hF.minNormal_le]

theorem FFmt.Good.zero_add {k : Nat} {a : Flt} {v : ℚ} (hF : F.Std) (h : F.Good k a v) (hv : 0 ≤ v)
    (hb : v * (1 + F.eps) ^ k ≤ F.max) : F.add (.fin 0) a = a := by
  obtain ⟨x, rfl, rx, nx⟩ := h
  have hlim := F.max_lt
  show F.round (0 + x) = _
  rw [_root_.zero_add]
  exact FFmt.round_exact hF.p1 rx (nx.nonneg hF hv) (lt_of_le_of_lt (nx.2.trans hb) hlim)

/-- The first piece of several is not zero. -/
theorem Chunks.first_pos {c b : List Byte} {cs : List (List Byte)} (h : Chunks (c :: b :: cs)) (hd : ∀ x ∈ b, isDigit x = true) :
    1 ≤ decNum c := by
  cases h with
  | more h1 h2 h3 h4 =>
    rename_i b' d
    rw [decNum_append] at h3
    have hb : decNum [b'] < 10 ^ 1 := decNum_lt [b'] (by intro x hx; simp at hx; subst hx; exact hd _ (by simp))
    by_contra hc
    have : decNum c = 0 := by omega
    rw [this] at h3
    omega

/-- The integral part. -/
theorem intFold_good {pow : Int → Flt} (hF : F.Std) (hp : Pow10 F pow) {cs : List (List Byte)} (h : Chunks cs)
    (hd : ∀ b ∈ cs.flatten, isDigit b = true) (h2 : cs.length ≤ 2) (hmax : (decNum cs.flatten : ℚ) * (1 + F.eps) ^ 6 ≤ F.max) :
    F.Good 6 (intFold (ieeeOps F pow) cs (.fin 0)) (decNum cs.flatten) := by
  have hroom : ∀ (n k : ℕ), n ≤ decNum cs.flatten → k ≤ 6 → (n : ℚ) * (1 + F.eps) ^ k ≤ F.max := fun n k hn hk => by
    have e0 := F.eps_pos
    refine le_trans (mul_le_mul ?_ (pow_le_pow_right₀ (by linarith) hk) (by positivity) (by positivity)) hmax
    exact_mod_cast hn
  match cs, h2 with
  | [], _ => exact ⟨0, rfl, FFmt.Rep.zero, by simp [FFmt.Near, decNum, codeNum_nil]⟩
  | [c], _ =>
    cases h with
    | last h1 h3 =>
      have g := ofULL_good hF h3
      have hb := hroom (decNum c) 1 (by simp) (by omega)
      simp only [intFold, ieeeOps, List.flatten_nil, List.length_nil, List.flatten_cons, List.append_nil]
      rw [show ((0 : ℕ) : ℤ) = 0 from rfl, hp.one, g.zero_add hF (by positivity) hb, g.mul_one hF (by positivity) hb]
      exact g.mono hF (by positivity) (by omega)
  | [c, d], _ =>
    have hpos := h.first_pos (fun x hx => hd x (by simp [hx]))
    have hc64 : decNum c < 18446744073709551616 := by cases h with | more _ h3 _ _ => exact h3
    have hd64 : decNum d < 18446744073709551616 := by cases h with | more _ _ _ h4 => cases h4 with | last _ h5 => exact h5
    have e : decNum [c, d].flatten = decNum c * 10 ^ d.length + decNum d := by simp [decNum_append]
    rw [e] at hroom ⊢
    have g1 := ofULL_good hF hc64
    have g2 := ofULL_good hF hd64
    have hlen : 10 ^ d.length ≤ decNum c * 10 ^ d.length := Nat.le_mul_of_pos_left _ (by omega)
    have hb1 := hroom (decNum c) 1 (le_trans (Nat.le_mul_of_pos_right _ (by positivity)) (Nat.le_add_right _ _)) (by omega)
    have hpw := hp.good hF (n := (d.length : ℤ)) (by
        rw [zpow_natCast]
        have : (1 : ℚ) ≤ 10 ^ d.length := one_le_pow₀ (by norm_num)
        linarith [hF.minNormal_le]) (by
        have h1 := hroom (10 ^ d.length) 0 (by omega) (by omega)
        rw [pow_zero, mul_one] at h1
        rw [zpow_natCast]
        push_cast at h1
        exact lt_of_le_of_lt h1 F.max_lt)
    have g3 := g1.mul hF hpw (by positivity) (by positivity) (.inr (by
        have h1 : (1 : ℚ) ≤ (decNum c : ℚ) * (10 : ℚ) ^ (d.length : ℤ) := by
          rw [zpow_natCast]
          have : 1 ≤ decNum c * 10 ^ d.length := le_trans (Nat.one_le_pow _ _ (by omega)) hlen
          exact_mod_cast this
        have h2 := hF.shrink_ge (k := 1 + 3) (by omega)
        have h3 := hF.minNormal_le
        have h4 := mul_le_mul h1 h2 (by norm_num) (by positivity)
        exact (h3.trans (by norm_num)).trans h4)) (by
        have := hroom (decNum c * 10 ^ d.length) (1 + 3) (by omega) (by omega)
        rw [zpow_natCast]
        push_cast at this ⊢
        exact this)
    have g4 := g3.add hF (g2.mono hF (by positivity) (show 1 ≤ 1 + 3 + 1 by omega)) (by positivity) (by positivity) (by
        have := hroom (decNum c * 10 ^ d.length + decNum d) (1 + 3 + 1) (by omega) (by omega)
        rw [zpow_natCast]
        push_cast at this ⊢
        exact this)
    have g5 : F.Good 6 (F.add (F.mul (F.round (decNum c)) (pow d.length)) (F.round (decNum d))) ((decNum c * 10 ^ d.length + decNum d : ℕ) : ℚ) := by
      push_cast
      rw [zpow_natCast] at g4
      exact g4
    simp only [intFold, ieeeOps, List.flatten_nil, List.length_nil, List.flatten_cons, List.append_nil]
    rw [show ((0 : ℕ) : ℤ) = 0 from rfl, hp.one, g1.zero_add hF (by positivity) hb1, g5.mul_one hF (by positivity) (hroom _ 6 (le_refl _) (by omega))]
    exact g5

/-- The number of pieces. -/
theorem Chunks.count {cs : List (List Byte)} (h : Chunks cs) (hd : ∀ b ∈ cs.flatten, isDigit b = true) :
    cs.length ≤ cs.flatten.length / 19 + 1 := by
  induction h with
  | nil => simp
  | last h1 h2 => simp
  | @more c b d cs h1 h2 h3 h4 ih =>
    have ih := ih (fun x hx => hd x (by simp only [List.flatten_cons, List.mem_append] at hx ⊢; exact .inr hx))
    have hlen : 19 ≤ c.length := by
      by_contra hc
      have h5 := decNum_lt (c ++ [b]) (fun x hx => hd x (by
        simp only [List.mem_append, List.mem_singleton] at hx
        simp only [List.flatten_cons, List.mem_append, List.mem_cons]
        rcases hx with hx | hx
        · exact .inl hx
        · exact .inr (.inl (.inl hx))))
      have h6 : 10 ^ (c ++ [b]).length ≤ 10 ^ 19 := Nat.pow_le_pow_right (by norm_num) (by simp; omega)
      have h7 : (10 : Nat) ^ 19 < 18446744073709551616 := by norm_num
      omega
    rw [List.flatten_cons, List.length_append]
    simp only [List.length_cons] at ih ⊢
    omega

/-- The fractional part. -/
theorem fracFold_good {pow : Int → Flt} (hF : F.Std) (hp : Pow10 F pow) {cs : List (List Byte)} (h : Chunks cs)
    (hd : ∀ b ∈ cs.flatten, isDigit b = true) {p : Nat} {a : Flt} {v : ℚ} {k : Nat} (ha : F.Good k a v) (hv : 0 ≤ v) (hk : 6 ≤ k)
    (hkm : k + cs.length ≤ 2 ^ 20) (hmin : 2 * F.minNormal ≤ (10 : ℚ) ^ (-(p + cs.flatten.length : ℕ) : ℤ))
    (hb : (v + decNum cs.flatten * (10 : ℚ) ^ (-(p + cs.flatten.length : ℕ) : ℤ)) * (1 + F.eps) ^ (k + cs.length) ≤ F.max) :
    F.Good (k + cs.length) (fracFold (ieeeOps F pow) cs (-(p : ℤ)) a)
      (v + decNum cs.flatten * (10 : ℚ) ^ (-(p + cs.flatten.length : ℕ) : ℤ)) := by
  induction cs generalizing p a v k with
  | nil => simpa [fracFold, decNum, codeNum_nil] using ha
  | cons c cs ih =>
    have hc64 : decNum c < 18446744073709551616 := by
      cases h with
      | last _ h1 => exact h1
      | more _ h1 _ _ => exact h1
    have hcs : Chunks cs := by
      cases h with
      | last _ h1 => exact .nil
      | more _ _ _ h1 => exact h1
    have e10 : (10 : ℚ) ≠ 0 := by norm_num
    have hlen : (c :: cs).flatten.length = c.length + cs.flatten.length := by simp
    have esplit : (decNum (c :: cs).flatten : ℚ) * (10 : ℚ) ^ (-(p + (c :: cs).flatten.length : ℕ) : ℤ) =
        decNum c * (10 : ℚ) ^ (-(p + c.length : ℕ) : ℤ) +
          decNum cs.flatten * (10 : ℚ) ^ (-(p + c.length + cs.flatten.length : ℕ) : ℤ) := by
      rw [hlen, List.flatten_cons, decNum_append]
      have e1 : (-(p + c.length : ℕ) : ℤ) = (-(p + c.length + cs.flatten.length : ℕ) : ℤ) + (cs.flatten.length : ℕ) := by
        push_cast; ring
      rw [e1, zpow_add₀ e10, zpow_natCast, ← add_assoc]
      push_cast
      ring
    have hcn : (0 : ℚ) ≤ decNum c * (10 : ℚ) ^ (-(p + c.length : ℕ) : ℤ) := by positivity
    have hrn : (0 : ℚ) ≤ decNum cs.flatten * (10 : ℚ) ^ (-(p + c.length + cs.flatten.length : ℕ) : ℤ) := by positivity
    have hpn : 2 * F.minNormal ≤ (10 : ℚ) ^ (-(p + c.length : ℕ) : ℤ) := by
      refine hmin.trans (zpow_le_zpow_right₀ (by norm_num) ?_)
      rw [hlen]; push_cast; omega
    have hmp := F.minNormal_pos
    have hpw := hp.good hF (n := (-(p + c.length : ℕ) : ℤ)) (by linarith) (by
        have h1 : (10 : ℚ) ^ (-(p + c.length : ℕ) : ℤ) ≤ (10 : ℚ) ^ (0 : ℤ) := zpow_le_zpow_right₀ (by norm_num) (by omega)
        rw [zpow_zero] at h1
        have := hF.emax
        have h2 : (2 : ℚ) ^ (1 : ℤ) ≤ (2 : ℚ) ^ F.emax := zpow_le_zpow_right₀ (by norm_num) (by omega)
        rw [zpow_one] at h2
        linarith)
    rw [esplit] at hb ⊢
    have e0 := F.eps_pos
    have hroom : ∀ (x : ℚ) (j : ℕ), 0 ≤ x → x ≤ v + (decNum c * (10 : ℚ) ^ (-(p + c.length : ℕ) : ℤ) +
        decNum cs.flatten * (10 : ℚ) ^ (-(p + c.length + cs.flatten.length : ℕ) : ℤ)) → j ≤ k + (c :: cs).length →
        x * (1 + F.eps) ^ j ≤ F.max := fun x j hx0 hx hj =>
      le_trans (mul_le_mul hx (pow_le_pow_right₀ (by linarith) hj) (by positivity) (by linarith)) hb
    have g1 := (ofULL_good hF hc64).mul hF hpw (by positivity) (by positivity) (by
        by_cases h0 : decNum c = 0
        · left; rw [h0]; simp
        · right
          have h1 : (1 : ℚ) ≤ decNum c := by exact_mod_cast Nat.one_le_iff_ne_zero.2 h0
          have h2 := hF.shrink_ge (k := 1 + 3) (by omega)
          have h3 : (10 : ℚ) ^ (-(p + c.length : ℕ) : ℤ) ≤ decNum c * (10 : ℚ) ^ (-(p + c.length : ℕ) : ℤ) :=
            le_mul_of_one_le_left (by positivity) h1
          have h4 := mul_le_mul (hpn.trans h3) h2 (by norm_num) (by positivity)
          exact le_trans (by linarith) h4) (hroom _ _ hcn (by linarith) (by omega))
    have g2 := ha.add hF (g1.mono hF hcn (show 1 + 3 + 1 ≤ k by omega)) hv hcn
      (hroom _ _ (by linarith) (by linarith) (by omega))
    have g3 := ih hcs (fun x hx => hd x (by simp only [List.flatten_cons, List.mem_append]; exact .inr hx)) (p := p + c.length) g2
      (by linarith) (by omega) (by simp only [List.length_cons] at hkm; omega)
      (by rw [hlen, ← add_assoc] at hmin; exact hmin)
      (hroom _ _ (by linarith) (by linarith) (by simp only [List.length_cons]; omega))
    have ek : k + (c :: cs).length = k + 1 + cs.length := by simp only [List.length_cons]; omega
    have ep : (-(p : ℤ)) - c.length = -((p + c.length : ℕ) : ℤ) := by push_cast; ring
    rw [ek, ← add_assoc]
    simp only [fracFold]
    rw [ep]
    exact g3

theorem FFmt.Std.len_le (hF : F.Std) {n : Nat} (h : 2 * F.minNormal ≤ (10 : ℚ) ^ (-(n : ℤ))) : n ≤ 2 ^ 20 := by
  by_contra hc
  have h1 : (10 : ℚ) ^ (-(n : ℤ)) ≤ (2 : ℚ) ^ (-(n : ℤ)) := by
    rw [zpow_neg, zpow_neg, zpow_natCast, zpow_natCast]
    exact inv_anti₀ (by positivity) (pow_le_pow_left₀ (by norm_num) (by norm_num) _)
  have h2 : (2 : ℚ) ^ (-(n : ℤ)) ≤ (2 : ℚ) ^ F.emin := zpow_le_zpow_right₀ (by norm_num) (by have := hF.emin_ge; omega)
  have h3 : (2 : ℚ) ^ F.emin ≤ F.minNormal := by
    unfold FFmt.minNormal
    exact zpow_le_zpow_right₀ (by norm_num) (by have := hF.prec; omega)
  linarith [F.minNormal_pos]

/-- The number before the exponent is applied. -/
theorem mantissa_good {pow : Int → Flt} (hF : F.Std) (hp : Pow10 F pow) {ci cf : List (List Byte)} {z : Nat} (h1 : Chunks ci)
    (h2 : Chunks cf) (d1 : ∀ b ∈ ci.flatten, isDigit b = true) (d2 : ∀ b ∈ cf.flatten, isDigit b = true)
    (hi : ci.length ≤ 2) (hf : 2 * F.minNormal ≤ (10 : ℚ) ^ (-((cf.flatten ++ List.replicate z 48).length : ℤ)))
    (hmax : (decNum ci.flatten + decNum (cf.flatten ++ List.replicate z 48) / 10 ^ (cf.flatten ++ List.replicate z 48).length : ℚ) *
      (1 + F.eps) ^ (7 + (cf.flatten ++ List.replicate z 48).length / 19) ≤ F.max) :
    F.Good (7 + (cf.flatten ++ List.replicate z 48).length / 19) (fracFold (ieeeOps F pow) cf 0 (intFold (ieeeOps F pow) ci (.fin 0)))
      (decNum ci.flatten + decNum (cf.flatten ++ List.replicate z 48) / 10 ^ (cf.flatten ++ List.replicate z 48).length) ∧
    7 + (cf.flatten ++ List.replicate z 48).length / 19 ≤ 2 ^ 17 := by
  have hlen := hF.len_le hf
  have hl : (cf.flatten ++ List.replicate z 48).length = cf.flatten.length + z := by simp
  have hcount := h2.count d2
  have hval : (decNum (cf.flatten ++ List.replicate z 48) : ℚ) / 10 ^ (cf.flatten ++ List.replicate z 48).length =
      decNum cf.flatten * (10 : ℚ) ^ (-(0 + cf.flatten.length : ℕ) : ℤ) := by
    have hz2 : decNum (List.replicate z 48) = 0 := codeNum_zeros 10 z rfl
    rw [hl, decNum_append, hz2, zero_add, zpow_neg, zpow_natCast, pow_add, List.length_replicate]
    push_cast
    have h10 : (10 : ℚ) ^ z ≠ 0 := by positivity
    have h11 : (10 : ℚ) ^ cf.flatten.length ≠ 0 := by positivity
    field_simp
    ring
  have e0 := F.eps_pos
  have g := intFold_good hF hp h1 d1 hi (le_trans (mul_le_mul (le_add_of_nonneg_right (by positivity))
    (pow_le_pow_right₀ (by linarith) (by omega)) (by positivity) (by positivity)) hmax)
  have g2 := fracFold_good hF hp h2 d2 (p := 0) g (by positivity) (le_refl 6) (by omega) (by
    refine hf.trans (zpow_le_zpow_right₀ (by norm_num) ?_)
    rw [hl]; push_cast; omega) (by
    rw [hval] at hmax
    exact le_trans (mul_le_mul_of_nonneg_left (pow_le_pow_right₀ (by linarith) (by omega)) (by positivity)) hmax)
  rw [hval]
  refine ⟨?_, by omega⟩
  have hneg : (-((0 : ℕ) : ℤ)) = 0 := by simp
  rw [hneg] at g2
  exact g2.mono hF (by positivity) (by omega)

end CStr
