import Verif.Props.FloatIeee
import Verif.Props.PrnfFloat
/-! Property C71: floating point numbers that the text formatter prints can be read back. -/
namespace CStr

theorem digit_facts {b : Byte} (h : isDigit b = true) : b ≠ 32 ∧ b ≠ 45 ∧ b ≠ 43 ∧ b ≠ 46 := by
  refine ⟨?_, ?_, ?_, ?_⟩ <;> (rintro rfl; revert h; decide)

/-- A printed number, between spaces and with an optional sign, is a literal. -/
theorem floatText_fixed {ip fp : List Byte} (hdigits : ∀ b ∈ ip ++ fp, isDigit b = true) (hne : ip ≠ []) (a b : Nat) {sg : List Byte} {neg : Bool}
    (hsg : sg = [45] ∧ neg = true ∨ (sg = [] ∨ sg = [43] ∨ sg = [32]) ∧ neg = false) :
    FloatText 0 (List.replicate a 32 ++ (sg ++ pointed ip fp) ++ List.replicate b 32) neg (.num ip fp 0) (List.replicate b 32) := by
  obtain ⟨d, ip', rfl⟩ : ∃ d ip', ip = d :: ip' := by
    cases ip with
    | nil => exact absurd rfl hne
    | cons d t => exact ⟨d, t, rfl⟩
  have hd := digit_facts (hdigits d (by simp))
  have hdig : ∀ x ∈ d :: ip', IsDigitOf 10 x := fun x hx => (isDigit10_iff x).2 (hdigits x (List.mem_append_left _ hx))
  have hfd : ∀ x ∈ fp, IsDigitOf 10 x := fun x hx => (isDigit10_iff x).2 (hdigits x (List.mem_append_right _ hx))
  have hrest : ∀ x t, List.replicate b 32 = x :: t → x = (32 : Byte) := by
    intro x t e
    have : x ∈ List.replicate b (32 : Byte) := by rw [e]; simp
    exact List.eq_of_mem_replicate this
  have hnd : ¬ IsDigitOf 10 32 := by rw [isDigit10_iff]; decide
  have hbody : FloatBody 0 (pointed (d :: ip') fp ++ List.replicate b 32) (.num (d :: ip') fp 0) (List.replicate b 32) := by
    have hexp : AfterExponent 0 (List.replicate b 32) 0 (List.replicate b 32) := by
      refine .none (.inr ?_)
      intro c r ng r1 e hc
      have := hrest _ _ e
      subst this
      rcases hc with hc | hc <;> exact absurd hc (by decide)
    by_cases hfp : fp = []
    · subst hfp
      rw [pointed, if_pos rfl]
      refine .num (l1 := List.replicate b 32) (l2 := List.replicate b 32) ⟨rfl, hdig, ?_⟩ (.none ?_) (.inl (by simp)) hexp
      · intro x t e; rw [hrest x t e]; exact hnd
      · intro e
        cases b with
        | zero => simp at e
        | succ b => rw [List.replicate_succ, List.head?_cons, Option.some.injEq] at e; exact absurd e (by decide)
    · rw [pointed, if_neg hfp]
      refine .num (l1 := 46 :: (fp ++ List.replicate b 32)) (l2 := List.replicate b 32) ⟨by simp, hdig, ?_⟩ (.point ⟨rfl, hfd, ?_⟩) (.inl (by simp)) hexp
      · intro x t e
        injection e with e1 e2
        subst e1
        rw [isDigit10_iff]; decide
      · intro x t e; rw [hrest x t e]; exact hnd
  have hhead : (pointed (d :: ip') fp ++ List.replicate b 32).head? = some d := by
    rw [pointed]; split <;> rfl
  have h0 : flag 0 STRNUM_NOSPACE = false := by decide
  have h1 : flag 0 STRNUM_NOSIGN = false := by decide
  have hnone : AfterSign 0 (pointed (d :: ip') fp ++ List.replicate b 32) false (pointed (d :: ip') fp ++ List.replicate b 32) :=
    .none _ (.inr (by rw [hhead]; simp only [ne_eq, Option.some.injEq]; exact ⟨hd.2.1, hd.2.2.1⟩))
  have hsp : ∀ n, AfterSpaces 0 (List.replicate n 32 ++ (pointed (d :: ip') fp ++ List.replicate b 32)) (pointed (d :: ip') fp ++ List.replicate b 32) := by
    intro n
    simp only [AfterSpaces, h0, Bool.false_eq_true, if_false]
    exact ⟨n, rfl, by rw [hhead]; simp only [ne_eq, Option.some.injEq]; exact hd.1⟩
  have hsp2 : ∀ x : Byte, x ≠ 32 → AfterSpaces 0 (List.replicate a 32 ++ x :: (pointed (d :: ip') fp ++ List.replicate b 32))
      (x :: (pointed (d :: ip') fp ++ List.replicate b 32)) := by
    intro x hx
    simp only [AfterSpaces, h0, Bool.false_eq_true, if_false]
    exact ⟨a, rfl, by simpa using hx⟩
  rcases hsg with ⟨rfl, rfl⟩ | ⟨rfl | rfl | rfl, rfl⟩
  · refine ⟨_, _, ?_, .minus _ h1, hbody⟩
    have := hsp2 45 (by decide)
    simpa using this
  · refine ⟨_, _, ?_, hnone, hbody⟩
    have := hsp a
    simpa using this
  · refine ⟨_, _, ?_, .plus _ h1, hbody⟩
    have := hsp2 43 (by decide)
    simpa using this
  · refine ⟨_, _, ?_, hnone, hbody⟩
    have := hsp (a + 1)
    rw [List.replicate_succ'] at this
    simpa using this

theorem decVal_eq_digitsNumber (l : List Byte) : decVal l = digitsNumber l := by
  unfold decVal digitsNumber
  congr 1
  funext n b
  rw [Nat.mul_comm]

theorem digitsNumber_append (l r : List Byte) : digitsNumber (l ++ r) = digitsNumber l * 10 ^ r.length + digitsNumber r := by
  have : ∀ (r : List Byte) (n : Nat), r.foldl (fun n b => 10 * n + (b.toNat - 48)) n = n * 10 ^ r.length + digitsNumber r := by
    intro r
    induction r with
    | nil => intro n; simp [digitsNumber]
    | cons b r ih =>
      intro n
      have h2 : digitsNumber (b :: r) = (10 * 0 + (b.toNat - 48)) * 10 ^ r.length + digitsNumber r := by
        rw [← ih]; rfl
      rw [List.foldl_cons, ih, h2, List.length_cons]
      ring
  unfold digitsNumber
  rw [List.foldl_append, this]
  rfl

theorem fixedValue_eq (ip fp : List Byte) : fixedValue ip fp = literalValue ip fp 0 := by
  rw [fixedValue, literalValue, decVal_eq_digitsNumber, digitsNumber_append, zpow_zero, mul_one]
  push_cast
  rw [add_div, mul_div_assoc, div_self (by positivity), mul_one]

theorem sign_cases (c : Conv) (neg : Bool) :
    c.sign neg = [45] ∧ neg = true ∨ (c.sign neg = [] ∨ c.sign neg = [43] ∨ c.sign neg = [32]) ∧ neg = false := by
  cases neg with
  | true => exact .inl ⟨rfl, rfl⟩
  | false =>
    right
    refine ⟨?_, rfl⟩
    simp only [Conv.sign, Bool.false_eq_true, if_false, Conv.plusSign]
    split
    · rename_i f hf
      have := List.find?_some hf
      cases f <;> simp_all [Flag.char]
    · exact .inl rfl

theorem zeros_pointed (z : Nat) (ip fp : List Byte) : List.replicate z 48 ++ pointed ip fp = pointed (List.replicate z 48 ++ ip) fp := by
  unfold pointed; split <;> simp

theorem zeros_digits (z : Nat) {ip fp : List Byte} (h : ∀ b ∈ ip ++ fp, isDigit b = true) : ∀ b ∈ (List.replicate z 48 ++ ip) ++ fp, isDigit b = true := by
  intro b hb
  rw [List.append_assoc, List.mem_append] at hb
  rcases hb with hb | hb
  · rw [List.eq_of_mem_replicate hb]; decide
  · exact h b hb

theorem zeros_number (z : Nat) : digitsNumber (List.replicate z 48) = 0 := by
  induction z with
  | zero => rfl
  | succ z ih =>
    have h48 : ((48 : Byte).toNat - 48) = 0 := by decide
    rw [List.replicate_succ', digitsNumber_append, ih]
    simp [digitsNumber, h48]

theorem zeros_value (z : Nat) (ip fp : List Byte) : fixedValue (List.replicate z 48 ++ ip) fp = fixedValue ip fp := by
  unfold fixedValue
  rw [List.append_assoc, decVal_eq_digitsNumber, decVal_eq_digitsNumber, digitsNumber_append, zeros_number, Nat.zero_mul, Nat.zero_add]

/-- Reading a text of spaces, a sign, the digits of a number near `q`, and spaces. -/
theorem read_back_core {p : Nat} (hp19 : p ≤ 19) {q : ℚ} (hq : |q| * 10 ^ p < 2 ^ 63) {ip fp : List Byte} (hdigits : ∀ b ∈ ip ++ fp, isDigit b = true)
    (hne : ip ≠ []) (hfl : fp.length = p) (herr : |fixedValue ip fp - (|q|)| ≤ 1 / 2 / 10 ^ p + |q| * relErr p) {a b : Nat} {sg t : List Byte}
    (hsg : sg = [45] ∧ decide (q < 0) = true ∨ (sg = [] ∨ sg = [43] ∨ sg = [32]) ∧ decide (q < 0) = false)
    (hab : t = List.replicate a 32 ++ (sg ++ pointed ip fp) ++ List.replicate b 32)
    (ty : FTy) {F : FFmt} (hS : F.Std) (hE : F.emin + F.prec ≤ -125) {pow : Int → Flt} (hpow : Pow10 F pow) {m' : Mem} {v : View}
    (hview : ViewOf m' v t) : ∃ r, |r - q| ≤ 1 / 10 ^ p + |q| / 2 ^ 19 ∧
      ∀ dst, strnum_value_f (ieeeOps F pow) ty m' (some dst) (some v) 0 = .ok (0, some (.fin r), some (v.part (t.length - b) b)) := by
  have hrel0 : 0 ≤ relErr p := by unfold relErr; split <;> norm_num
  have hrel : relErr p ≤ 3 / 2 ^ 24 := by unfold relErr; split <;> norm_num
  have q0 := abs_nonneg q
  have p10 : (0 : ℚ) < 10 ^ p := by positivity
  have p1 : (1 : ℚ) ≤ 10 ^ p := one_le_pow₀ (by norm_num)
  have hT := floatText_fixed hdigits hne a b hsg
  rw [← hab] at hT
  -- the value
  rw [fixedValue_eq] at herr
  obtain ⟨V, hV⟩ : ∃ V, literalValue ip fp 0 = V := ⟨_, rfl⟩
  have V0 : 0 ≤ V := by rw [← hV]; unfold literalValue; positivity
  have hV1 : V = (decVal (ip ++ fp) : ℚ) / 10 ^ p := by rw [← hV, ← fixedValue_eq, fixedValue, hfl]
  rw [hV] at herr
  have herr' := abs_le.1 herr
  have hq' : |q| < 2 ^ 63 := lt_of_le_of_lt (le_mul_of_one_le_right q0 p1) hq
  have h12 : 1 / 2 / (10 : ℚ) ^ p ≤ 1 / 2 := div_le_self (by norm_num) p1
  have hmulrel : |q| * relErr p ≤ |q| * (3 / 2 ^ 24) := mul_le_mul_of_nonneg_left hrel q0
  have hVle : V ≤ 2 ^ 64 := by
    have : |q| * (3 / 2 ^ 24) ≤ 2 ^ 63 * (3 / 2 ^ 24) := mul_le_mul_of_nonneg_right hq'.le (by norm_num)
    norm_num at this hq' ⊢
    linarith
  have hround : roundings fp ≤ 12 := by unfold roundings; omega
  have hmin : F.minNormal ≤ 1 / 10 ^ 21 := by
    have : F.minNormal ≤ (2 : ℚ) ^ (-126 : ℤ) := zpow_le_zpow_right₀ (by norm_num) (by omega)
    refine this.trans (by norm_num)
  have hmin0 : (0 : ℚ) < F.minNormal := by unfold FFmt.minNormal; positivity
  have heps : F.eps ≤ 1 / 2 ^ 24 := by
    unfold FFmt.eps
    exact one_div_le_one_div_of_le (by norm_num) (pow_le_pow_right₀ (by norm_num) hS.prec)
  have eps0 := F.eps_pos
  have hpow19 : (10 : ℚ) ^ p ≤ 10 ^ 19 := pow_le_pow_right₀ (by norm_num) hp19
  have hmax : (2 : ℚ) ^ 65 ≤ F.max := by
    unfold FFmt.max
    have e1 : (2 : ℚ) ^ F.emax = 2 * (2 : ℚ) ^ (F.emax - 1) := by
      rw [← zpow_one_add₀ (by norm_num)]; congr 1; omega
    have e2 : (2 : ℚ) ^ (F.emax - F.prec) ≤ (2 : ℚ) ^ (F.emax - 1) := zpow_le_zpow_right₀ (by norm_num) (by have := hS.prec; omega)
    have e3 : (2 : ℚ) ^ (65 : ℤ) ≤ (2 : ℚ) ^ (F.emax - 1) := zpow_le_zpow_right₀ (by norm_num) (by have := hS.emax; omega)
    norm_num at e3 ⊢
    linarith
  have hlow : (1 : ℚ) / 2 ≤ (1 - F.eps) ^ roundings fp := by
    have g1 := one_add_mul_le_pow (a := -F.eps) (by linarith [show (1 : ℚ) / 2 ^ 24 ≤ 1 by norm_num]) (roundings fp)
    rw [mul_neg, ← sub_eq_add_neg, ← sub_eq_add_neg] at g1
    refine le_trans ?_ g1
    have : (roundings fp : ℚ) * F.eps ≤ 12 * (1 / 2 ^ 24) := mul_le_mul (by exact_mod_cast hround) heps eps0.le (by norm_num)
    norm_num at this ⊢
    linarith
  have hhigh : (1 + F.eps) ^ roundings fp ≤ 2 := by
    have g1 : (1 + F.eps) ^ roundings fp ≤ (1 + 1 / 2 ^ 24) ^ 12 :=
      le_trans (pow_le_pow_right₀ (by linarith) hround) (pow_le_pow_left₀ (by linarith) (by linarith) _)
    refine g1.trans (by norm_num)
  have hi : digitsNumber ip < 10 ^ 38 := by
    have : (digitsNumber ip : ℚ) ≤ V := by
      rw [← hV, literalValue, zpow_zero, mul_one]
      have : (0 : ℚ) ≤ digitsNumber fp / 10 ^ fp.length := by positivity
      linarith
    have h3 : (digitsNumber ip : ℚ) ≤ 2 ^ 64 := this.trans hVle
    have h4 : digitsNumber ip ≤ 2 ^ 64 := by exact_mod_cast h3
    exact lt_of_le_of_lt h4 (by norm_num)
  have hroom : V * (1 + F.eps) ^ roundings fp ≤ F.max := by
    have h5 : V * (1 + F.eps) ^ roundings fp ≤ 2 ^ 64 * 2 := mul_le_mul hVle hhigh (by positivity) (by positivity)
    exact le_trans h5 (le_trans (by norm_num) hmax)
  obtain ⟨r, -, hnear, hres⟩ := C69_accuracy_partial ty hS hpow hview hT (by decide)
    ⟨.of_lt (fun x hx => (isDigit10_iff x).2 (hdigits x (List.mem_append_left _ hx))) hi, by rw [hV]; exact hroom⟩
    (by
      rw [hfl, zpow_neg, zpow_natCast]
      have : (1 : ℚ) / 10 ^ 19 ≤ (10 ^ p)⁻¹ := by rw [← one_div]; exact one_div_le_one_div_of_le p10 hpow19
      refine le_trans ?_ this
      norm_num at hmin ⊢
      linarith)
    (by
      rw [zpow_zero]
      refine ⟨hmin.trans (by norm_num), ?_⟩
      exact one_lt_zpow₀ (by norm_num) (by have := hS.emax; omega))
    (by
      rw [hV]
      by_cases hz : decVal (ip ++ fp) = 0
      · left; rw [hV1, hz]; simp
      · right
        have h3 : (1 : ℚ) ≤ decVal (ip ++ fp) := by exact_mod_cast Nat.one_le_iff_ne_zero.2 hz
        have h4 : (1 : ℚ) / 10 ^ 19 ≤ V := by
          rw [hV1]
          exact div_le_div₀ (by linarith) h3 p10 hpow19
        have h5 : (1 : ℚ) / 10 ^ 19 * (1 / 2) ≤ V * (1 - F.eps) ^ roundings fp := mul_le_mul h4 hlow (by norm_num) V0
        refine le_trans ?_ h5
        norm_num at hmin ⊢
        linarith)
    (by rw [hV]; exact hroom)
  rw [hV] at hnear
  have hre := C69_relative_error V0 (by
    have : (roundings fp : ℚ) * F.eps ≤ 12 * (1 / 2 ^ 24) := mul_le_mul (by exact_mod_cast hround) heps eps0.le (by norm_num)
    exact this.trans (by norm_num)) hnear
  have hfac : 2 * (roundings fp : ℚ) * F.eps ≤ 24 / 2 ^ 24 := by
    have : (roundings fp : ℚ) * F.eps ≤ 12 * (1 / 2 ^ 24) := mul_le_mul (by exact_mod_cast hround) heps eps0.le (by norm_num)
    rw [mul_assoc]
    linarith
  have hre2 : |r - V| ≤ V * (24 / 2 ^ 24) := hre.trans (mul_le_mul_of_nonneg_left hfac V0)
  have hfin : |r - (|q|)| ≤ 1 / 10 ^ p + |q| / 2 ^ 19 := by
    have e1 : (1 : ℚ) / 2 / 10 ^ p = 1 / 10 ^ p / 2 := by ring
    obtain ⟨u, hu⟩ : ∃ u, (1 : ℚ) / 10 ^ p = u := ⟨_, rfl⟩
    rw [e1, hu] at herr' herr
    rw [hu]
    have u0 : 0 ≤ u := by rw [← hu]; positivity
    have h3 : |r - (|q|)| ≤ |r - V| + |V - (|q|)| := abs_sub_le r V (|q|)
    have h4 : ∀ A V u d d1 d2 : ℚ, 0 ≤ A → 0 ≤ u → d ≤ d1 + d2 → d1 ≤ V * (24 / 2 ^ 24) → d2 ≤ u / 2 + A * (3 / 2 ^ 24) →
        V - A ≤ u / 2 + A * (3 / 2 ^ 24) → d ≤ u + A / 2 ^ 19 := by
      intro A V u d d1 d2 _ _ _ _ _ _
      norm_num at *
      linarith
    exact h4 _ V u _ _ _ q0 u0 h3 hre2 (herr.trans (by linarith)) (by linarith [herr'.2])
  refine ⟨if decide (q < 0) then -r else r, ?_, ?_⟩
  · refine le_trans (le_of_eq ?_) hfin
    by_cases hn : q < 0
    · simp only [hn, decide_true, if_true]
      rw [abs_of_neg hn, ← abs_neg]
      congr 1; ring
    · simp only [hn, decide_false, Bool.false_eq_true, if_false]
      rw [abs_of_nonneg (not_lt.1 hn)]
  · intro dst
    rw [hres (some dst)]
    simp only [Option.map_some, List.length_replicate]

/-- C71. A finite number that is printed with `%f`, with any width, precision and flags (with the flag `0` only if the field is left
aligned or the number has no sign, see `C71_zero_flag_exact`), is read back by `strnum_value` as a
number that differs from it by at most a unit of the last printed place and a relative error of 2^-19; the padding on the right remains.
The destination type is any IEEE format with the range of `float`, and the number with its decimal places fits into 63 bits. -/
theorem C71_read_back {m : Mem} {fmt : Addr} {c : Conv} {x : Flt} {q : ℚ} (hv : c.value = .flt x) (hx : x.toFloat = .fin q) (more : List VArg)
    (hF : Format m fmt [.conv c]) (hlen : (c.output.length : Int) ≤ INT_MAX) 
    (hz : Flag.zero ∉ c.flags ∨ c.left = true ∨ c.sign (q < 0) = []) (hq : |q| * 10 ^ c.places 3 < 2 ^ 63) :
    ∃ t, printed m fmt (c.args ++ more) = .ok ((t.length : Int), t) ∧
      ∀ (ty : FTy) {F : FFmt} (_ : F.Std) (_ : F.emin + F.prec ≤ -125) {pow : Int → Flt} (_ : Pow10 F pow) {m' : Mem} {v : View}
        (_ : ViewOf m' v t), ∃ r b, t.drop (t.length - b) = List.replicate b 32 ∧ |r - q| ≤ 1 / 10 ^ c.places 3 + |q| / 2 ^ 19 ∧
          ∀ dst, strnum_value_f (ieeeOps F pow) ty m' (some dst) (some v) 0 = .ok (0, some (.fin r), some (v.part (t.length - b) b)) := by
  have hok := hF.items.1.value
  simp only [hv] at hok
  have ht : c.value.ty = .float := by rw [hv]; rfl
  have hp19 : c.places 3 ≤ 19 := by
    have := (get_prec_eq (.inl ht) hok).2
    rw [ht] at this; exact this
  obtain ⟨t, h1, h2⟩ := C66_float hv hx more hF hlen
  obtain ⟨p, hp⟩ : ∃ p, c.places 3 = p := ⟨_, rfl⟩
  rw [hp] at h2 hq hp19 ⊢
  have hrel0 : 0 ≤ relErr p := by unfold relErr; split <;> norm_num
  have hrel : relErr p ≤ 3 / 2 ^ 24 := by unfold relErr; split <;> norm_num
  have q0 := abs_nonneg q
  have p10 : (0 : ℚ) < 10 ^ p := by positivity
  have p1 : (1 : ℚ) ≤ 10 ^ p := one_le_pow₀ (by norm_num)
  refine ⟨t, h1, fun ty F hS hE pow hpow m' v hview => ?_⟩
  rcases h2 with ⟨ip, fp, hfix, htext, herr⟩ | ⟨-, hbig⟩
  swap
  · exfalso
    have : |q| * 10 ^ p * (1 + relErr p) ≤ 2 ^ 63 * (1 + 3 / 2 ^ 24) := by
      apply mul_le_mul hq.le (by linarith) (by linarith) (by positivity)
    norm_num at this hbig
    linarith
  -- the zeros that fill the field become digits of the number
  obtain ⟨a, b, z, hab⟩ : ∃ a b z, t = List.replicate a 32 ++ (c.sign (q < 0) ++ (List.replicate z 48 ++ pointed ip fp)) ++ List.replicate b 32 := by
    rw [htext, Conv.field]
    by_cases hl : c.left = true
    · rw [if_pos hl]
      exact ⟨0, c.minWidth - (c.sign (q < 0) ++ pointed ip fp).length, 0, by simp⟩
    · rw [if_neg hl]
      rcases hz with hz | hz | hz
      · rw [show c.fltPad = 32 from if_neg hz]
        exact ⟨c.minWidth - (c.sign (q < 0) ++ pointed ip fp).length, 0, 0, by simp⟩
      · exact absurd hz hl
      · by_cases hz0 : Flag.zero ∈ c.flags
        · rw [show c.fltPad = 48 from if_pos hz0, hz]
          exact ⟨0, 0, c.minWidth - ([] ++ pointed ip fp).length, by simp⟩
        · rw [show c.fltPad = 32 from if_neg hz0]
          exact ⟨c.minWidth - (c.sign (q < 0) ++ pointed ip fp).length, 0, 0, by simp⟩
  rw [zeros_pointed] at hab
  obtain ⟨r, hr1, hr2⟩ := read_back_core hp19 hq (zeros_digits z hfix.digits) (by simp [hfix.nonempty]) hfix.places (by rw [zeros_value]; exact herr)
    (sign_cases c (decide (q < 0))) hab ty hS hE hpow hview
  refine ⟨r, b, ?_, hr1, hr2⟩
  rw [hab]
  apply List.drop_left'
  simp only [List.length_append, List.length_replicate]; omega

/-- C71, through a buffer: the number is printed with `strbuf_prnf` and read from the view that is returned. -/
theorem C71_buffer {cfg : Cfg} (hcfg : cfg.Ok) {s : St} (hs : s.Sane) {p : Addr} {b : Buf} (hb : BufAt s p b) {c : Conv} {x : Flt} {q : ℚ}
    (hv : c.value = .flt x) (hx : x.toFloat = .fin q) {fmt : Addr} (more : List VArg) (hF : FormatApart s.mem p (storage b.cap) fmt [.conv c])
    (hlen : (c.output.length : Int) ≤ INT_MAX) (hz : Flag.zero ∉ c.flags ∨ c.left = true ∨ c.sign (q < 0) = []) (hq : |q| * 10 ^ c.places 3 < 2 ^ 63)
    (hroom : b.Fits c.output.length) (hh : cfg.Handles b c.output.length)
    (ty : FTy) {F : FFmt} (hS : F.Std) (hE : F.emin + F.prec ≤ -125) {pow : Int → Flt} (hpow : Pow10 F pow) (dst : Flt) :
    (b.Dynamic ∧ strbuf_vprnf cfg s (some p) fmt (c.args ++ more) = .env .alloc) ∨
    ∃ v p' s', strbuf_vprnf cfg s (some p) fmt (c.args ++ more) = .ok (v, some p', s') ∧
      ∃ r w, |r - q| ≤ 1 / 10 ^ c.places 3 + |q| / 2 ^ 19 ∧
        strnum_value_f (ieeeOps F pow) ty s'.mem (some dst) (some v) 0 = .ok (0, some (.fin r), some w) := by
  have hF0 : Format s.mem fmt [.conv c] := hF _ (fun _ _ _ => rfl)
  have ho : formatOutput [.conv c] = c.output := by simp [formatOutput, formatOutputFrom, FmtItem.output]
  have he : formatArgs [.conv c] = c.args := by simp [formatArgs, FmtItem.args]
  obtain ⟨t, h1, h2⟩ := C71_read_back hv hx more hF0 hlen hz hq
  rw [printed_conv more hF0 hlen] at h1
  have ht : c.output = t := by
    simp only [Res.ok.injEq, Prod.mk.injEq] at h1
    exact h1.2
  obtain ⟨cap, -, h⟩ := C68_prnf hcfg hs hb more hF (by rw [ho]; exact hlen) (by rw [ho]; exact hh)
  rw [ho, if_pos hroom, he, ht] at h
  rcases h with h | ⟨p', s', h3, h4⟩
  · exact .inl h
  · right
    obtain ⟨r, k, -, h5, h6⟩ := h2 ty hS hE hpow h4.buf.viewOf
    exact ⟨_, p', s', h3, r, _, h5, h6 dst⟩

/-- Zeros before a sign are a literal of their own. -/
theorem floatText_zeros {k : Nat} (hk : 0 < k) {x : Byte} (hx : x = 45 ∨ x = 43 ∨ x = 32) (t : List Byte) :
    FloatText 0 (List.replicate k 48 ++ x :: t) false (.num (List.replicate k 48) [] 0) (x :: t) := by
  have h1 : flag 0 STRNUM_NOSIGN = false := by decide
  have h0 : flag 0 STRNUM_NOSPACE = false := by decide
  have hhead : (List.replicate k 48 ++ x :: t).head? = some 48 := by
    obtain ⟨j, rfl⟩ : ∃ j, k = j + 1 := ⟨k - 1, by omega⟩
    rfl
  refine ⟨List.replicate k 48 ++ x :: t, List.replicate k 48 ++ x :: t, ?_, .none _ (.inr (by rw [hhead]; decide)), ?_⟩
  · simp only [AfterSpaces, h0, Bool.false_eq_true, if_false]
    exact ⟨0, rfl, by rw [hhead]; decide⟩
  · refine .num (l1 := x :: t) (l2 := x :: t) ⟨rfl, ?_, ?_⟩ (.none ?_) (.inl (by simp; omega)) (.none (.inr ?_))
    · intro b hb
      rw [List.eq_of_mem_replicate hb, isDigit10_iff]; decide
    · intro y u e
      injection e with e1 e2
      subst e1
      rw [isDigit10_iff]
      rcases hx with rfl | rfl | rfl <;> decide
    · rw [List.head?_cons]
      rcases hx with rfl | rfl | rfl <;> decide
    · intro c r ng r1 e hc
      injection e with e1 e2
      subst e1
      rcases hx with rfl | rfl | rfl <;> rcases hc with hc | hc <;> exact absurd hc (by decide)

/-- C71. The case `C71_read_back` leaves out: the flag `0`, a field that is not left aligned, and a sign. The zeros that fill the field are
printed before the sign. If there are any, `strnum_value` reads 0, whatever the number is, and what remains is the sign and the digits; if there
are none, the number is read back. -/
theorem C71_zero_flag_exact {m : Mem} {fmt : Addr} {c : Conv} {x : Flt} {q : ℚ} (hv : c.value = .flt x) (hx : x.toFloat = .fin q) (more : List VArg)
    (hF : Format m fmt [.conv c]) (hlen : (c.output.length : Int) ≤ INT_MAX)
    (hz : Flag.zero ∈ c.flags) (hl : c.left = false) (hs : c.sign (q < 0) ≠ []) (hq : |q| * 10 ^ c.places 3 < 2 ^ 63) :
    ∃ k body, printed m fmt (c.args ++ more) = .ok (((List.replicate k 48 ++ (c.sign (q < 0) ++ body)).length : Int), List.replicate k 48 ++ (c.sign (q < 0) ++ body)) ∧
      k = c.minWidth - (c.sign (q < 0) ++ body).length ∧
      ∀ (ty : FTy) {F : FFmt} (_ : F.Std) (_ : F.emin + F.prec ≤ -125) {pow : Int → Flt} (_ : Pow10 F pow) {m' : Mem} {v : View}
        (_ : ViewOf m' v (List.replicate k 48 ++ (c.sign (q < 0) ++ body))),
        (0 < k → ∀ dst, strnum_value_f (ieeeOps F pow) ty m' (some dst) (some v) 0 =
          .ok (0, some (.fin 0), some (v.part k (c.sign (q < 0) ++ body).length))) ∧
        (k = 0 → ∃ r, |r - q| ≤ 1 / 10 ^ c.places 3 + |q| / 2 ^ 19 ∧
          ∀ dst, strnum_value_f (ieeeOps F pow) ty m' (some dst) (some v) 0 =
            .ok (0, some (.fin r), some (v.part (c.sign (q < 0) ++ body).length 0))) := by
  have hok := hF.items.1.value
  simp only [hv] at hok
  have ht : c.value.ty = .float := by rw [hv]; rfl
  have hp19 : c.places 3 ≤ 19 := by
    have := (get_prec_eq (.inl ht) hok).2
    rw [ht] at this; exact this
  obtain ⟨t, h1, h2⟩ := C66_float hv hx more hF hlen
  have hrel : relErr (c.places 3) ≤ 3 / 2 ^ 24 := by unfold relErr; split <;> norm_num
  rcases h2 with ⟨ip, fp, hfix, htext, herr⟩ | ⟨-, hbig⟩
  swap
  · exfalso
    have q0 := abs_nonneg q
    have hrel0 : 0 ≤ relErr (c.places 3) := by unfold relErr; split <;> norm_num
    have : |q| * 10 ^ c.places 3 * (1 + relErr (c.places 3)) ≤ 2 ^ 63 * (1 + 3 / 2 ^ 24) := by
      apply mul_le_mul hq.le (by linarith) (by linarith) (by positivity)
    norm_num at this hbig
    linarith
  rw [show c.fltPad = 48 from if_pos hz, Conv.field, if_neg (by simp [hl])] at htext
  obtain ⟨k, hk⟩ : ∃ k, c.minWidth - (c.sign (q < 0) ++ pointed ip fp).length = k := ⟨_, rfl⟩
  rw [hk] at htext
  refine ⟨k, pointed ip fp, by rw [h1, htext], hk.symm, fun ty F hS hE pow hpow m' v hview => ⟨fun hk0 dst => ?_, fun hk0 => ?_⟩⟩
  · obtain ⟨y, hy, hsy⟩ : ∃ y, c.sign (q < 0) = [y] ∧ (y = 45 ∨ y = 43 ∨ y = 32) := by
      rcases sign_cases c (decide (q < 0)) with ⟨e, -⟩ | ⟨e | e | e, -⟩
      · exact ⟨_, e, .inl rfl⟩
      · exact absurd e hs
      · exact ⟨_, e, .inr (.inl rfl)⟩
      · exact ⟨_, e, .inr (.inr rfl)⟩
    rw [hy] at hview ⊢
    obtain ⟨r, hr1, hr2, hr3⟩ := C69_integer ty hS hpow.one hview (floatText_zeros hk0 hsy _) (by rw [zeros_number]; norm_num) (by simp)
    have hr0 : r = 0 := by
      have := hr2 (by rw [zeros_number]; exact Nat.zero_le _)
      rw [this, zeros_number]; rfl
    rw [hr3 (some dst), hr0]
    simp
  · subst hk0
    obtain ⟨r, hr1, hr2⟩ := read_back_core hp19 hq hfix.digits hfix.nonempty hfix.places herr (sign_cases c (decide (q < 0)))
      (a := 0) (b := 0) (by simp) ty hS hE hpow hview
    exact ⟨r, hr1, fun dst => by simpa using hr2 dst⟩

/-- With the flag `0` the zeros stand before the sign: `%07.1f` of -2.5 prints `000-2.5`, which is read as 0. -/
theorem C71_zero_flag_deviation : printed (memAt 8000 [37, 48, 55, 46, 49, 102, 0]) 8000 [.dbl (.fin (-5 / 2))] =
      .ok (7, [48, 48, 48, 45, 50, 46, 53]) ∧
    readDouble [48, 48, 48, 45, 50, 46, 53] = .ok (0, some (.fin 0), some ⟨8003, 4⟩) := by decide +kernel

/-- `%7.2f` of -2.25 -/
def exConv : Conv := ⟨[], some (.digits [55]), some (.digits [50]), .none, 102, .flt (.fin (-9 / 4))⟩

theorem exConv_ok (m : Mem) : exConv.Ok m := by
  refine ⟨by simp [exConv, Value.HasLetter], ?_, ?_, ?_⟩
  · simp only [exConv, Option.some.injEq, forall_eq']
    exact ⟨⟨by decide, by decide⟩, by decide, by simp⟩
  · simp only [exConv, Option.some.injEq, forall_eq']
    exact ⟨by decide, by decide⟩
  · simp only [exConv, Option.some.injEq, forall_eq']
    exact ⟨by decide, by decide⟩

theorem exConv_output : exConv.output = [32, 32, 45, 50, 46, 50, 53] := by decide +kernel

/-- Non-vacuity of `C71_read_back`: `%7.2f` of -2.25 prints `  -2.25`, and reading it as `float` gives a number within 0.02 of it. -/
example : printed (memAt 8000 [37, 55, 46, 50, 102, 0]) 8000 [.dbl (.fin (-9 / 4))] = .ok (7, [32, 32, 45, 50, 46, 50, 53]) ∧
    ∃ r b, |r - (-9 / 4)| ≤ 1 / 50 ∧ strnum_value_f (ieeeOps binary32 (exactPow10 binary32)) .float (memAt 9000 [32, 32, 45, 50, 46, 50, 53])
      (some (.fin 0)) (some ⟨9000, 7⟩) 0 = .ok (0, some (.fin r), some ((View.mk 9000 7).part (7 - b) b)) := by
  have hF : Format (memAt 8000 [37, 55, 46, 50, 102, 0]) 8000 [.conv exConv] :=
    ⟨holds_memAt _ _ (by decide) (by decide), by decide, exConv_ok _, trivial⟩
  have hv : exConv.value = .flt (.fin (-9 / 4)) := rfl
  have hx : (Flt.fin (-9 / 4)).toFloat = .fin (-9 / 4) := by decide +kernel
  have hp : exConv.places 3 = 2 := by decide
  have habs : |(-9 / 4 : ℚ)| = 9 / 4 := by rw [abs_of_neg (by norm_num)]; norm_num
  obtain ⟨t, h1, h2⟩ := C71_read_back hv hx [] hF (by rw [exConv_output]; decide) (.inl (by simp [exConv])) (by rw [hp, habs]; norm_num)
  have h3 := printed_conv [] hF (by rw [exConv_output]; decide)
  rw [exConv_output] at h3
  have ht : t = [32, 32, 45, 50, 46, 50, 53] := by
    rw [h3] at h1
    simp only [Res.ok.injEq, Prod.mk.injEq] at h1
    exact h1.2.symm
  subst ht
  refine ⟨h1, ?_⟩
  obtain ⟨r, b, -, h5, h6⟩ := h2 .float std_binary32 (by decide) pow10_binary32 (m' := memAt 9000 [32, 32, 45, 50, 46, 50, 53]) (v := ⟨9000, 7⟩)
    ⟨⟨rfl, by decide, holds_memAt _ _ (by decide) (by decide)⟩, by decide⟩
  refine ⟨r, b, ?_, h6 _⟩
  rw [hp, habs] at h5
  exact h5.trans (by norm_num)

/-- Non-vacuity of `C71_buffer`: the same into a fixed buffer of capacity 8. -/
example : ∃ v p' s', strbuf_vprnf isoCfg (exSt exF [37, 55, 46, 50, 102, 0]) (some exP) exQ [.dbl (.fin (-9 / 4))] = .ok (v, some p', s') ∧
    ∃ r w, |r - (-9 / 4)| ≤ 1 / 50 ∧
      strnum_value_f (ieeeOps binary64 (exactPow10 binary64)) .double s'.mem (some .nan) (some v) 0 = .ok (0, some (.fin r), some w) := by
  have hF : FormatApart (exSt exF [37, 55, 46, 50, 102, 0]).mem exP (storage exF.cap) exQ [.conv exConv] := by
    intro m' h
    refine ⟨?_, by decide, exConv_ok _, trivial⟩
    apply (exSt_other (b := exF) (l := [37, 55, 46, 50, 102, 0]) (by decide)).holds.congr
    intro i hi
    refine h _ ?_ ?_
    · simp only [InRange, exP, exQ, storage, exF]; omega
    · simp only [exSt]
      rw [if_neg (by omega)]
      exact memAt_isSome hi
  have hx : (Flt.fin (-9 / 4)).toFloat = .fin (-9 / 4) := by decide +kernel
  have hp : exConv.places 3 = 2 := by decide
  have habs : |(-9 / 4 : ℚ)| = 9 / 4 := by rw [abs_of_neg (by norm_num)]; norm_num
  have h := C71_buffer isoCfg_ok (exSt_sane exF_valid _) (exSt_buf exF_valid _) (c := exConv) rfl hx [] hF (by rw [exConv_output]; decide)
    (.inl (by simp [exConv])) (by rw [hp, habs]; norm_num) (by rw [exConv_output]; exact .inl (by decide)) (by rw [exConv_output]; exact .inr (.inl (by decide)))
    .double std_binary64 (by decide) pow10_binary64 .nan
  rcases h with ⟨h, -⟩ | ⟨v, p', s', h1, r, w, h2, h3⟩
  · exact absurd h (by decide)
  · refine ⟨v, p', s', h1, r, w, ?_, h3⟩
    rw [hp, habs] at h2
    exact h2.trans (by norm_num)

/-- `%09.2f` of -2.25 and of 2.25 -/
def exConvZ (q : ℚ) : Conv := ⟨[.zero], some (.digits [57]), some (.digits [50]), .none, 102, .flt (.fin q)⟩

theorem exConvZ_ok (q : ℚ) (m : Mem) : (exConvZ q).Ok m := by
  refine ⟨by simp [exConvZ, Value.HasLetter], ?_, ?_, ?_⟩
  · simp only [exConvZ, Option.some.injEq, forall_eq']
    exact ⟨⟨by decide, by decide⟩, by decide, by simp⟩
  · simp only [exConvZ, Option.some.injEq, forall_eq']
    exact ⟨by decide, by decide⟩
  · simp only [exConvZ, Option.some.injEq, forall_eq']
    exact ⟨by decide, by decide⟩

theorem exConvZ_neg_output : (exConvZ (-9 / 4)).output = [48, 48, 48, 48, 45, 50, 46, 50, 53] := by decide +kernel
theorem exConvZ_output : (exConvZ (9 / 4)).output = [48, 48, 48, 48, 48, 50, 46, 50, 53] := by decide +kernel

/-- Non-vacuity of `C71_zero_flag_exact`: `%09.2f` of -2.25 prints `0000-2.25`, of which 0 is read and `-2.25` remains. -/
example : printed (memAt 8000 [37, 48, 57, 46, 50, 102, 0]) 8000 [.dbl (.fin (-9 / 4))] = .ok (9, [48, 48, 48, 48, 45, 50, 46, 50, 53]) ∧
    strnum_value_f (ieeeOps binary32 (exactPow10 binary32)) .float (memAt 9000 [48, 48, 48, 48, 45, 50, 46, 50, 53])
      (some .nan) (some ⟨9000, 9⟩) 0 = .ok (0, some (.fin 0), some ⟨9004, 5⟩) := by
  have hF : Format (memAt 8000 [37, 48, 57, 46, 50, 102, 0]) 8000 [.conv (exConvZ (-9 / 4))] :=
    ⟨holds_memAt _ _ (by decide) (by decide), by decide, exConvZ_ok _ _, trivial⟩
  have hx : (Flt.fin (-9 / 4)).toFloat = .fin (-9 / 4) := by decide +kernel
  have hp : (exConvZ (-9 / 4)).places 3 = 2 := by decide
  have habs : |(-9 / 4 : ℚ)| = 9 / 4 := by rw [abs_of_neg (by norm_num)]; norm_num
  have hsign : (exConvZ (-9 / 4)).sign ((-9 / 4 : ℚ) < 0) = [45] := by
    rw [Conv.sign, if_pos (by norm_num)]
  obtain ⟨k, body, h1, hk, h2⟩ := C71_zero_flag_exact (c := exConvZ (-9 / 4)) rfl hx [] hF (by rw [exConvZ_neg_output]; decide) (by simp [exConvZ])
    (by decide) (by rw [hsign]; simp) (by rw [hp, habs]; norm_num)
  have h3 := printed_conv [] hF (by rw [exConvZ_neg_output]; decide)
  rw [exConvZ_neg_output] at h3
  rw [hsign] at h1 hk h2
  rw [h3] at h1
  simp only [Res.ok.injEq, Prod.mk.injEq] at h1
  have e := h1.2.symm
  have hw : (exConvZ (-9 / 4)).minWidth = 9 := by decide
  have hlen := congrArg List.length e
  simp only [List.length_append, List.length_replicate, List.length_cons, List.length_nil] at hlen
  have hk4 : k = 4 := by
    have hget : (List.replicate k (48 : Byte) ++ ([45] ++ body))[k]? = some 45 := by
      rw [List.getElem?_append_right (by simp)]; simp
    rw [e] at hget
    have : k < 9 := by omega
    match k, this, hget with
    | 0, _, h => exact absurd h (by decide)
    | 1, _, h => exact absurd h (by decide)
    | 2, _, h => exact absurd h (by decide)
    | 3, _, h => exact absurd h (by decide)
    | 4, _, _ => rfl
    | 5, _, h => exact absurd h (by decide)
    | 6, _, h => exact absurd h (by decide)
    | 7, _, h => exact absurd h (by decide)
    | 8, _, h => exact absurd h (by decide)
  subst hk4
  have hb : ([45] ++ body).length = 5 := by simp only [List.length_append, List.length_cons, List.length_nil]; omega
  refine ⟨h3, ?_⟩
  have h4 := (h2 .float std_binary32 (by decide) pow10_binary32 (m' := memAt 9000 [48, 48, 48, 48, 45, 50, 46, 50, 53]) (v := ⟨9000, 9⟩)
    (by rw [e]; exact ⟨⟨rfl, by decide, holds_memAt _ _ (by decide) (by decide)⟩, by decide⟩)).1 (by decide) .nan
  rw [hb] at h4
  exact h4

/-- Non-vacuity of `C71_read_back` with the flag `0`: `%09.2f` of 2.25 prints `000002.25`, which is read back. -/
example : printed (memAt 8000 [37, 48, 57, 46, 50, 102, 0]) 8000 [.dbl (.fin (9 / 4))] = .ok (9, [48, 48, 48, 48, 48, 50, 46, 50, 53]) ∧
    ∃ r b, |r - (9 / 4)| ≤ 1 / 50 ∧ strnum_value_f (ieeeOps binary32 (exactPow10 binary32)) .float (memAt 9000 [48, 48, 48, 48, 48, 50, 46, 50, 53])
      (some (.fin 0)) (some ⟨9000, 9⟩) 0 = .ok (0, some (.fin r), some ((View.mk 9000 9).part (9 - b) b)) := by
  have hF : Format (memAt 8000 [37, 48, 57, 46, 50, 102, 0]) 8000 [.conv (exConvZ (9 / 4))] :=
    ⟨holds_memAt _ _ (by decide) (by decide), by decide, exConvZ_ok _ _, trivial⟩
  have hx : (Flt.fin (9 / 4)).toFloat = .fin (9 / 4) := by decide +kernel
  have hp : (exConvZ (9 / 4)).places 3 = 2 := by decide
  have habs : |(9 / 4 : ℚ)| = 9 / 4 := abs_of_pos (by norm_num)
  have hsign : (exConvZ (9 / 4)).sign ((9 / 4 : ℚ) < 0) = [] := by
    rw [Conv.sign, if_neg (by norm_num)]; decide
  obtain ⟨t, h1, h2⟩ := C71_read_back (c := exConvZ (9 / 4)) rfl hx [] hF (by rw [exConvZ_output]; decide) (.inr (.inr hsign)) (by rw [hp, habs]; norm_num)
  have h3 := printed_conv [] hF (by rw [exConvZ_output]; decide)
  rw [exConvZ_output] at h3
  have ht : t = [48, 48, 48, 48, 48, 50, 46, 50, 53] := by
    rw [h3] at h1
    simp only [Res.ok.injEq, Prod.mk.injEq] at h1
    exact h1.2.symm
  subst ht
  refine ⟨h1, ?_⟩
  obtain ⟨r, b, -, h5, h6⟩ := h2 .float std_binary32 (by decide) pow10_binary32 (m' := memAt 9000 [48, 48, 48, 48, 48, 50, 46, 50, 53]) (v := ⟨9000, 9⟩)
    ⟨⟨rfl, by decide, holds_memAt _ _ (by decide) (by decide)⟩, by decide⟩
  refine ⟨r, b, ?_, h6 _⟩
  rw [hp, habs] at h5
  exact h5.trans (by norm_num)

end CStr
