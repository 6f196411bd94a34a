import Verif.Lemmas.Flt
import Verif.Lemmas.PrnfParse
/-! Printing of floating point numbers. -/
namespace CStr

/-! ### Comparisons -/

theorem below_iff (y : Flt) (b : ℚ) : ((Flt.fin (-b)).lt y && y.lt (.fin b)) = true ↔ y.Below b := by
  cases y with
  | nan => simp [Flt.lt, Flt.Below]
  | inf n => cases n <;> simp [Flt.lt, Flt.Below]
  | fin q => simp [Flt.lt, Flt.Below, rat_abs, abs_lt]

theorem toFloat_fin {x : Flt} {q : ℚ} (h : x.toFloat = .fin q) : IsF32 q := by
  cases x with
  | nan => cases h
  | inf n => cases h
  | fin z => exact (round32_fin h).1

/-! ### Engineering notation -/

theorem isF32_abs {q : ℚ} (h : IsF32 q) : IsF32 |q| := by
  obtain ⟨M, k, rfl, hM, hk⟩ := h
  refine ⟨|M|, k, ?_, by rwa [abs_abs], hk⟩
  rw [abs_mul, abs_of_pos (show (0 : ℚ) < (2 : ℚ) ^ k by positivity)]
  push_cast; rfl

theorem shrink_ge_one {y : Flt} {n : Nat} (h : ¬ (y.shrink n).Below 1000) : ¬ (y.shrink (n + 1)).Below 1 := by
  simp only [Flt.shrink]
  cases hy : y.shrink n with
  | nan => simp [Flt.divPos, Flt.Below]
  | inf b => simp [Flt.divPos, Flt.Below]
  | fin q =>
    rw [hy] at h
    simp only [Flt.Below, rat_abs, not_lt] at h
    simp only [Flt.divPos]
    cases hr : round32 (q / 1000) with
    | nan => simp [Flt.Below]
    | inf b => simp [Flt.Below]
    | fin r =>
      simp only [Flt.Below, rat_abs, not_lt]
      refine round32_ge_one ?_ hr
      rw [abs_div, le_div_iff₀ (by norm_num)]
      norm_num
      exact h

theorem below_mono {y : Flt} {a b : ℚ} (hab : a ≤ b) (h : y.Below a) : y.Below b := by
  cases y with
  | nan => exact h
  | inf n => exact h
  | fin q => exact lt_of_lt_of_le h hab

theorem eng_down_step {v : Flt} {i k : Nat} (h : ¬ v.Below 1000) (hi : i < 16) :
    eng_down (k + 1) v i = eng_down k (v.divPos 1000) (i + 1) := by
  have : ¬ ((Flt.fin (-1000)).lt v && v.lt (.fin 1000)) = true := fun hc => h ((below_iff v 1000).1 hc)
  rw [eng_down, if_pos]
  simp [this, hi]

theorem eng_down_stop {v : Flt} {i k : Nat} (h : v.Below 1000 ∨ 16 ≤ i) : eng_down k v i = (v, i) := by
  cases k with
  | zero => rfl
  | succ k =>
    rw [eng_down, if_neg]
    rcases h with h | h
    · simp [(below_iff v 1000).2 h]
    · simp; omega

theorem eng_up_step {v : Flt} {i k : Nat} (h : v.Below 1) (hi : i ≠ 0) : eng_up (k + 1) v i = eng_up k (v.mulPos 1000) (i - 1) := by
  rw [eng_up, if_pos]
  rw [(below_iff v 1).2 h]
  simp [hi]

theorem eng_up_stop {v : Flt} {i k : Nat} (h : ¬ v.Below 1 ∨ i = 0) : eng_up k v i = (v, i) := by
  cases k with
  | zero => rfl
  | succ k =>
    rw [eng_up, if_neg]
    rcases h with h | h
    · have : ¬ ((Flt.fin (-1)).lt v && v.lt (.fin 1)) = true := fun hc => h ((below_iff v 1).1 hc)
      simp [this]
    · simp [h]

theorem eng_down_eq {y : Flt} {t : Nat} (ht : t ≤ 8) (h1 : ∀ i < t, ¬ (y.shrink i).Below 1000) (h2 : t < 8 → (y.shrink t).Below 1000)
    (d a k : Nat) (ha : a + d = t) (hk : d ≤ k) : eng_down k (y.shrink a) (8 + a) = (y.shrink t, 8 + t) := by
  induction d generalizing a k with
  | zero =>
    have : a = t := by omega
    subst this
    apply eng_down_stop
    by_cases h8 : a < 8
    · exact .inl (h2 h8)
    · right; omega
  | succ d ih =>
    obtain ⟨k, rfl⟩ : ∃ j, k = j + 1 := ⟨k - 1, by omega⟩
    rw [eng_down_step (h1 a (by omega)) (by omega)]
    exact ih (a + 1) k (by omega) (by omega)

theorem eng_up_eq {y : Flt} {t : Nat} (ht : t ≤ 8) (h1 : ∀ i < t, (y.grow i).Below 1) (h2 : t < 8 → ¬ (y.grow t).Below 1)
    (d a k : Nat) (ha : a + d = t) (hk : d ≤ k) : eng_up k (y.grow a) (8 - a) = (y.grow t, 8 - t) := by
  induction d generalizing a k with
  | zero =>
    have : a = t := by omega
    subst this
    apply eng_up_stop
    by_cases h8 : a < 8
    · exact .inl (h2 h8)
    · right; omega
  | succ d ih =>
    obtain ⟨k, rfl⟩ : ∃ j, k = j + 1 := ⟨k - 1, by omega⟩
    rw [eng_up_step (h1 a (by omega)) (by omega)]
    have e : 8 - a - 1 = 8 - (a + 1) := by omega
    rw [e]
    exact ih (a + 1) k (by omega) (by omega)

/-- The letter of a unit, 0 if there is none. -/
def siByte (j : Int) : Byte :=
  match siPrefix j with
  | b :: _ => b
  | [] => 0

theorem siByte_eq {j : Int} (h1 : -8 ≤ j) (h2 : j ≤ 8) :
    engTbl[(8 + j).toNat]? = some (siByte j) ∧ siPrefix j = if siByte j ≠ 0 then [siByte j] else [] := by
  have : j = -8 ∨ j = -7 ∨ j = -6 ∨ j = -5 ∨ j = -4 ∨ j = -3 ∨ j = -2 ∨ j = -1 ∨ j = 0 ∨ j = 1 ∨ j = 2 ∨ j = 3 ∨ j = 4 ∨ j = 5 ∨ j = 6 ∨
    j = 7 ∨ j = 8 := by omega
  rcases this with rfl | rfl | rfl | rfl | rfl | rfl | rfl | rfl | rfl | rfl | rfl | rfl | rfl | rfl | rfl | rfl | rfl <;> decide

theorem get_eng_eq {y : Flt} {j : Int} (h : EngExp y j) : get_eng y = .ok (engValue y j, siByte j) := by
  have hlow := h.low
  have hhigh := h.high
  have key : eng_up 16 (eng_down 16 y 8).1 (eng_down 16 y 8).2 = (engValue y j, (8 + j).toNat) := by
    by_cases hj : 0 ≤ j
    · have hv : engValue y j = y.shrink j.toNat := by rw [engValue, if_pos hj]
      have hd : eng_down 16 y 8 = (y.shrink j.toNat, 8 + j.toNat) :=
        eng_down_eq (by omega) (fun i hi => h.down i (by omega)) (fun h8 => hv ▸ h.below hj (by omega)) j.toNat 0 16 (by omega) (by omega)
      rw [hd, hv]
      have e : (8 + j).toNat = 8 + j.toNat := by omega
      rw [e]
      apply eng_up_stop
      left
      by_cases h0 : j = 0
      · subst h0; exact hv ▸ h.above (by omega) (by omega)
      · have e : j.toNat = (j.toNat - 1) + 1 := by omega
        rw [e]
        exact shrink_ge_one (h.down _ (by omega))
    · have hv : engValue y j = y.grow (-j).toNat := by rw [engValue, if_neg hj]
      have hd : eng_down 16 y 8 = (y, 8) := eng_down_stop (.inl (below_mono (by norm_num) (h.up 0 (by omega))))
      rw [hd, hv]
      have e : (8 + j).toNat = 8 - (-j).toNat := by omega
      rw [e]
      exact eng_up_eq (by omega) (fun i hi => h.up i (by omega)) (fun h8 => hv ▸ h.above (by omega) (by omega)) (-j).toNat 0 16 (by omega) (by omega)
  unfold get_eng
  rcases hd : eng_down 16 y 8 with ⟨v, i⟩
  rw [hd] at key
  simp only at key
  simp only [key, (siByte_eq hlow hhigh).1]

/-! ### Rounding -/

theorem sub_floor_f32 {s : ℚ} (h : IsF32 s) (h0 : 0 ≤ s) : IsF32 (s - s.floor) ∧ (s - s.floor ≠ 0 → s < 2 ^ 24) := by
  obtain ⟨M, k, hs, hM, hk⟩ := h
  by_cases hk0 : 0 ≤ k
  · have hint : s = ((M * 2 ^ k.toNat : ℤ) : ℚ) := by
      rw [hs]; push_cast
      rw [← zpow_natCast, Int.toNat_of_nonneg hk0]
    have hz : s - s.floor = 0 := by
      conv_lhs => rw [hint]
      rw [Rat.floor_intCast, sub_self]
    rw [hz]
    exact ⟨⟨0, 0, by simp, by norm_num, by norm_num⟩, fun h => absurd rfl h⟩
  · obtain ⟨n, hn⟩ : ∃ n : ℕ, k = -(n : ℤ) := ⟨(-k).toNat, by omega⟩
    have p2 : (0 : ℚ) < (2 : ℚ) ^ k := by positivity
    have hM0 : 0 ≤ M := by
      by_contra hc
      have hlt : (M : ℚ) < 0 := by exact_mod_cast not_le.1 hc
      have := mul_neg_of_neg_of_pos hlt p2
      rw [← hs] at this; linarith
    have hM' : M ≤ 2 ^ 24 := by rwa [abs_of_nonneg hM0] at hM
    have hfl := Rat.floor_le s
    have hf0 : 0 ≤ s.floor := Rat.le_floor_iff.2 (by simpa using h0)
    have e : s - s.floor = ((M - s.floor * 2 ^ n : ℤ) : ℚ) * (2 : ℚ) ^ k := by
      push_cast
      rw [sub_mul, ← hs, mul_assoc, hn, zpow_neg, zpow_natCast, mul_inv_cancel₀ (by positivity), mul_one]
    refine ⟨⟨M - s.floor * 2 ^ n, k, e, ?_, hk⟩, fun _ => ?_⟩
    · have h1 : 0 ≤ ((M - s.floor * 2 ^ n : ℤ) : ℚ) := by
        by_contra hc
        have := mul_neg_of_neg_of_pos (not_le.1 hc) p2
        rw [← e] at this; linarith
      have h2 : 0 ≤ M - s.floor * 2 ^ n := by exact_mod_cast h1
      rw [abs_of_nonneg h2]
      have : 0 ≤ s.floor * 2 ^ n := by positivity
      omega
    · rw [hs]
      have h1 : (2 : ℚ) ^ k ≤ (2 : ℚ) ^ (-1 : ℤ) := zpow_le_zpow_right₀ (by norm_num) (by omega)
      have h2 : (M : ℚ) ≤ 2 ^ 24 := by exact_mod_cast hM'
      have h3 : (0 : ℚ) ≤ M := by exact_mod_cast hM0
      calc (M : ℚ) * (2 : ℚ) ^ k ≤ M * (2 : ℚ) ^ (-1 : ℤ) := mul_le_mul_of_nonneg_left h1 h3
        _ ≤ 2 ^ 24 * (2 : ℚ) ^ (-1 : ℤ) := mul_le_mul_of_nonneg_right h2 (by positivity)
        _ < 2 ^ 24 := by norm_num

theorem pow2_64 : pow2 64 = 2 ^ 64 := by rw [pow2_eq]; norm_num

theorem round_float_eq {s : ℚ} (h : IsF32 s) (h0 : 0 ≤ s) (hs : s < pow2 64) :
    round_float_to_ulong (.fin s) = .ok (nearest s) ∧ nearest s < 2 ^ 64 := by
  rw [pow2_64] at hs
  have hf0 : 0 ≤ s.floor := Rat.le_floor_iff.2 (by simpa using h0)
  have hfl := Rat.floor_le s
  have hfl1 := Rat.lt_floor_add_one s
  push_cast at hfl1
  have hcast : ((s.floor.toNat : ℕ) : ℚ) = (s.floor : ℚ) := by
    have : ((s.floor.toNat : ℕ) : ℤ) = s.floor := Int.toNat_of_nonneg hf0
    exact_mod_cast congrArg (fun z : ℤ => (z : ℚ)) this
  have hlt : s.floor.toNat < 2 ^ 64 := by
    have : ((s.floor.toNat : ℕ) : ℚ) < 2 ^ 64 := by rw [hcast]; linarith
    exact_mod_cast this
  obtain ⟨hf32, hsmall⟩ := sub_floor_f32 h h0
  have hb : |s - s.floor| < (2 : ℚ) ^ (128 : ℤ) := by
    rw [abs_of_nonneg (by linarith)]
    have : (1 : ℚ) ≤ (2 : ℚ) ^ (128 : ℤ) := one_le_zpow₀ (by norm_num) (by norm_num)
    linarith
  have hsub : (Flt.fin s).subFin (s.floor.toNat : ℚ) = .fin (s - s.floor) := by
    simp only [Flt.subFin, hcast]
    exact round32_exact hf32 hb
  have hstep : round_float_to_ulong (.fin s) =
      if (Flt.fin (1 / 2)).le (.fin (s - s.floor)) then .ok ((s.floor.toNat + 1) % 2 ^ 64) else .ok s.floor.toNat := by
    simp only [round_float_to_ulong]
    rw [if_pos ⟨by linarith, by rw [pow2_64]; exact hs⟩, hsub]
  rw [hstep]
  simp only [Flt.le, decide_eq_true_eq]
  by_cases hhalf : (1 : ℚ) / 2 ≤ s - s.floor
  · rw [if_pos hhalf]
    have h24 := hsmall (by intro h; rw [h] at hhalf; norm_num at hhalf)
    have hfl24 : s.floor.toNat < 2 ^ 24 := by
      have : ((s.floor.toNat : ℕ) : ℚ) < 2 ^ 24 := by rw [hcast]; linarith
      exact_mod_cast this
    have e : (s + 1 / 2).floor = s.floor + 1 := by
      apply le_antisymm
      · have : (s + 1 / 2).floor < s.floor + 2 := by
          have h1 := Rat.floor_le (s + 1 / 2)
          have : (((s + 1 / 2).floor : ℤ) : ℚ) < ((s.floor + 2 : ℤ) : ℚ) := by push_cast; linarith
          exact_mod_cast this
        omega
      · apply Rat.le_floor_iff.2
        push_cast; linarith
    have en : nearest s = s.floor.toNat + 1 := by rw [nearest, e]; omega
    rw [en, Nat.mod_eq_of_lt (by omega)]
    exact ⟨rfl, by omega⟩
  · rw [if_neg hhalf]
    have e : (s + 1 / 2).floor = s.floor := by
      apply le_antisymm
      · have : (s + 1 / 2).floor < s.floor + 1 := by
          have h1 := Rat.floor_le (s + 1 / 2)
          have : (((s + 1 / 2).floor : ℤ) : ℚ) < ((s.floor + 1 : ℤ) : ℚ) := by push_cast; linarith
          exact_mod_cast this
        omega
      · apply Rat.le_floor_iff.2
        linarith
    have en : nearest s = s.floor.toNat := by rw [nearest, e]
    rw [en]
    exact ⟨rfl, hlt⟩

/-! ### Digits -/

theorem lowDigits_succ (p n : Nat) : lowDigits (p + 1) n = lowDigits p (n / 10) ++ [UInt8.ofNat (48 + n % 10)] := by
  induction p generalizing n with
  | zero => simp [lowDigits]
  | succ p ih =>
    have h : ∀ p n, lowDigits (p + 1) n = UInt8.ofNat (48 + n / 10 ^ p % 10) :: lowDigits p n := by
      intro p n; simp [lowDigits, List.range_succ]
    rw [h (p + 1), ih, h p]
    simp [Nat.div_div_eq_div_mul, Nat.pow_succ, Nat.mul_comm]

theorem length_lowDigits (p n : Nat) : (lowDigits p n).length = p := by simp [lowDigits]

/-- At least `p + 1` digits are the integer part followed by the `p` lowest digits. -/
theorem padded_digits (p n : Nat) :
    List.replicate (p + 1 - (printBytes 10 n).length) 48 ++ printBytes 10 n = printBytes 10 (n / 10 ^ p) ++ lowDigits p n := by
  induction p generalizing n with
  | zero =>
    have : 1 ≤ (printBytes 10 n).length := by
      by_cases h : 10 ≤ n
      · rw [printBytes_step h]; simp
      · rw [printBytes_small (by omega)]; simp
    have e : 0 + 1 - (printBytes 10 n).length = 0 := by omega
    rw [e]; simp [lowDigits]
  | succ p ih =>
    have hd : n / 10 ^ (p + 1) = n / 10 / 10 ^ p := by rw [Nat.div_div_eq_div_mul, Nat.pow_succ, Nat.mul_comm]
    rw [lowDigits_succ, hd, ← List.append_assoc, ← ih]
    by_cases h : 10 ≤ n
    · rw [printBytes_step h]
      simp
    · have hn : n < 10 := by omega
      have h0 : n / 10 = 0 := by omega
      rw [h0, printBytes_small hn, printBytes_small (show 0 < 10 by decide), Nat.mod_eq_of_lt hn]
      simp only [List.length_singleton]
      have e : p + 1 + 1 - 1 = (p + 1 - 1) + 1 := by omega
      rw [e, List.replicate_succ', List.append_assoc, List.append_assoc]
      rfl

section
variable {σ : Type} {K : Sink σ}

theorem out_radix_none (l : List Byte) (o : OutInfo σ) (r : Nat) (h : l.length ≤ r) (hr : r ≤ 255) : out_radix K o r l = out_list K o l := by
  induction l generalizing o r with
  | nil => rfl
  | cons x l ih =>
    simp only [List.length_cons] at h
    simp only [out_radix, out_list, show r ≠ 0 by omega, if_false, Res.bind_ok]
    congr 1
    funext o'
    have e : (r + 255) % 256 = r - 1 := by omega
    rw [e]
    exact ih o' (r - 1) (by omega) (by omega)

theorem out_radix_eq (a b : List Byte) (o : OutInfo σ) (ha : a.length ≤ 255) (hb : 1 ≤ b.length) (hb' : b.length ≤ 255) :
    out_radix K o a.length (a ++ b) = out_list K o (a ++ 46 :: b) := by
  induction a generalizing o with
  | nil =>
    cases b with
    | nil => simp at hb
    | cons x b =>
      simp only [List.length_cons] at hb'
      simp only [List.length_nil, List.nil_append, out_radix, if_true, out_list]
      congr 1
      funext o1
      congr 1
      funext o2
      exact out_radix_none b o2 255 (by omega) (by omega)
  | cons x a ih =>
    simp only [List.length_cons] at ha
    simp only [List.length_cons, List.cons_append, out_radix, out_list, show a.length + 1 ≠ 0 by omega, if_false, Res.bind_ok]
    congr 1
    funext o'
    have e : (a.length + 1 + 255) % 256 = a.length := by omega
    rw [e]
    exact ih o' (by omega)

/-- The three parts of a field. -/
theorem out_field {p : Placeholder} (o : OutInfo σ) (h0 : 0 ≤ p.width) (h1 : p.width < INT_MAX) (t : List Byte) (hn : (t.length : Int) ≤ INT_MAX)
    {f : OutInfo σ → Res (OutInfo σ)} (hf : ∀ o, f o = out_list K o t) :
    (prepad K o p (t.length : Nat) >>= fun o => f o >>= fun o => postpad K o p (t.length : Nat)) = out_list K o (fieldOf p t) := by
  rw [fieldOf, out_list_append, out_list_append, prepad_eq o h0 h1 hn, Res.bind_assoc']
  congr 1
  funext o1
  rw [hf]
  congr 1
  funext o2
  rw [postpad_eq o2 h0 h1 hn]

/-- The optional character of a sign or suffix. -/
theorem out_opt {α : Type} (C : Prop) [Decidable C] (o : OutInfo σ) (x : Byte) (g : OutInfo σ → Res α) :
    (if C then out_char K o x >>= g else g o) = (out_list K o (if C then [x] else []) >>= g) := by
  by_cases h : C
  · simp [h, out_list_single]
  · simp [h, out_list]

end

/-- The text of a number, with sign and suffix. -/
def normalText (sign : Byte) (prec n : Nat) (post : Byte) : List Byte :=
  (if sign ≠ 0 then [sign] else []) ++ fixedText prec n ++ (if post ≠ 0 ∧ n ≠ 0 then [post] else [])

section
variable {σ : Type} {K : Sink σ}

theorem out_digits {prec n : Nat} (hp : prec ≤ 19) (hn : n < 2 ^ 64) :
    (∃ txt, txt = List.replicate (prec + 1 - (printBytes 10 n).length) 48 ++ printBytes 10 n ∧ txt.length ≤ 20 ∧
      prec + 1 ≤ txt.length ∧
      (fixedText prec n).length = (if prec ≠ 0 then txt.length + 1 else txt.length) ∧
      ∀ o : OutInfo σ, out_radix K o (if prec ≠ 0 then txt.length - prec else 255) txt = out_list K o (fixedText prec n)) := by
  have hl : (printBytes 10 n).length ≤ 20 := printBytes_len (k := 19) (by omega)
  have e := padded_digits prec n
  have hlen : (List.replicate (prec + 1 - (printBytes 10 n).length) (48 : Byte) ++ printBytes 10 n).length ≤ 20 := by
    rw [List.length_append, List.length_replicate]; omega
  have hge : prec + 1 ≤ (List.replicate (prec + 1 - (printBytes 10 n).length) (48 : Byte) ++ printBytes 10 n).length := by
    rw [List.length_append, List.length_replicate]; omega
  refine ⟨_, rfl, hlen, hge, ?_, ?_⟩
  · rw [e, fixedText]
    by_cases h0 : prec = 0
    · subst h0; simp [lowDigits]
    · simp only [h0, if_false, ne_eq, not_false_eq_true, if_true, List.length_append, List.length_cons, length_lowDigits]
      omega
  · intro o
    rw [e] at hlen hge ⊢
    by_cases h0 : prec = 0
    · subst h0
      simp only [ne_eq, not_true, if_false, fixedText, if_true]
      have : lowDigits 0 n = [] := by simp [lowDigits]
      rw [this] at hlen ⊢
      exact out_radix_none _ _ _ (by omega) (by omega)
    · simp only [h0, if_false, ne_eq, not_false_eq_true, if_true, fixedText]
      rw [List.length_append, length_lowDigits] at hlen hge
      have e2 : (printBytes 10 (n / 10 ^ prec) ++ lowDigits prec n).length - prec = (printBytes 10 (n / 10 ^ prec)).length := by
        rw [List.length_append, length_lowDigits]; omega
      rw [e2]
      exact out_radix_eq _ _ _ (by omega) (by rw [length_lowDigits]; omega) (by rw [length_lowDigits]; omega)

theorem print_float_normal_eq {p : Placeholder} {v : Flt} {s : ℚ} (post : Byte) (o : OutInfo σ) (h0 : 0 ≤ p.width) (h1 : p.width < INT_MAX)
    (hp : get_prec p ≤ 19)
    (hv : mulPow10 (if v.lt (.fin 0) then v.neg else v) (get_prec p) = .fin s) (hf : IsF32 s) (hs0 : 0 ≤ s) (hs : s < pow2 64) :
    print_float_normal K o p v post =
      out_list K o (fieldOf p (normalText (determine_sign_char_of_float p v) (get_prec p) (nearest s) post)) := by
  obtain ⟨hr, hn⟩ := round_float_eq hf hs0 hs
  obtain ⟨txt, htxt, hlen, hge, hfix, hout⟩ := out_digits (σ := σ) (K := K) hp hn
  obtain ⟨sg, hsg⟩ : ∃ x, determine_sign_char_of_float p v = x := ⟨_, rfl⟩
  obtain ⟨P, hP⟩ : ∃ x, get_prec p = x := ⟨_, rfl⟩
  obtain ⟨N, hN⟩ : ∃ x, nearest s = x := ⟨_, rfl⟩
  rw [hN] at hr hn htxt hout hfix
  rw [hP] at hv hp htxt hge hfix hout
  have hrev : (printBytes 10 N).reverse ++ List.replicate (P + 1 - (printBytes 10 N).reverse.length) 48 = txt.reverse := by
    rw [htxt, List.reverse_append, List.reverse_replicate, List.length_reverse]
  have htlen : (if post ≠ 0 ∧ N ≠ 0 then (if sg ≠ 0 then (if P ≠ 0 then txt.length + 1 else txt.length) + 1 else
      (if P ≠ 0 then txt.length + 1 else txt.length)) + 1 else (if sg ≠ 0 then (if P ≠ 0 then txt.length + 1 else txt.length) + 1 else
      (if P ≠ 0 then txt.length + 1 else txt.length))) = (normalText sg P N post).length := by
    rw [← hfix]
    simp only [normalText, List.length_append]
    by_cases ha : sg = 0 <;> by_cases hb : post ≠ 0 ∧ N ≠ 0 <;> simp [ha, hb] <;> omega
  have hsmall : (normalText sg P N post).length ≤ 23 := by
    rw [← htlen]
    split <;> split <;> split <;> omega
  simp only [print_float_normal, hsg, hP, hv, hr, Res.bind_ok, hN]
  rw [ulong2asc_rev_eq hn]
  simp only [Res.bind_ok]
  rw [hrev]
  simp only [List.length_reverse, List.reverse_reverse]
  rw [if_pos (by simp only [DEC_BUF_SIZE]; omega)]
  have em : ∀ (a b c d : Nat), (if P ≠ 0 then (a, b) else (c, d)) = (if P ≠ 0 then a else c, if P ≠ 0 then b else d) := by
    intro a b c d; split <;> rfl
  rw [em]
  simp only [htlen]
  rw [← out_field (p := p) (K := K) o h0 h1 (normalText sg P N post) (by simp only [INT_MAX]; omega)
    (f := fun o => out_list K o (if sg ≠ 0 then [sg] else []) >>= fun o => out_list K o (fixedText P N) >>= fun o =>
      out_list K o (if post ≠ 0 ∧ N ≠ 0 then [post] else []))]
  · simp only [Res.bind_assoc']
    congr 1
    funext o1
    refine (out_opt (sg ≠ 0) o1 sg _).trans ?_
    congr 1
    funext o2
    rw [hout]
    congr 1
    funext o3
    exact out_opt (post ≠ 0 ∧ N ≠ 0) o3 post _
  · intro o1
    simp only [normalText, out_list_append, Res.bind_assoc']

theorem print_float_special_eq {p : Placeholder} {v : Flt} {msg : List Byte} (o : OutInfo σ) (h0 : 0 ≤ p.width) (h1 : p.width < INT_MAX)
    (hm : msg.length ≤ 4) :
    print_float_special K o p msg v = out_list K o (fieldOf { p with type := .str, prec := 1 }
      ((if determine_sign_char_of_float p v ≠ 0 then [determine_sign_char_of_float p v] else []) ++ msg)) := by
  obtain ⟨sg, hsg⟩ : ∃ x, determine_sign_char_of_float p v = x := ⟨_, rfl⟩
  have hl : (if sg ≠ 0 then (msg.length : Int) + 1 else msg.length) = (((if sg ≠ 0 then [sg] else []) ++ msg).length : Nat) := by
    by_cases h : sg = 0 <;> simp [h]
  simp only [print_float_special, hsg, hl]
  rw [← out_field (K := K) (p := { p with type := .str, prec := 1 }) o h0 h1 _ (by simp only [INT_MAX, List.length_append]; split <;> simp <;> omega)
    (f := fun o => out_list K o (if sg ≠ 0 then [sg] else []) >>= fun o => out_list K o msg)]
  · simp only [Res.bind_assoc']
    congr 1
    funext o1
    exact out_opt (sg ≠ 0) o1 sg _
  · intro o1; rw [out_list_append]

end

/-! ### The whole placeholder -/

/-- A value of type `float`. -/
def Flt.Valid : Flt → Prop
  | .fin q => IsF32 q ∧ |q| < (2 : ℚ) ^ (128 : ℤ)
  | _ => True

theorem round32_valid (q : ℚ) : (round32 q).Valid := by
  cases h : round32 q with
  | nan => trivial
  | inf n => trivial
  | fin r => exact ⟨(round32_fin h).1, (round32_fin h).2.1⟩

theorem toFloat_valid (x : Flt) : x.toFloat.Valid := by
  cases x with
  | nan => trivial
  | inf n => trivial
  | fin q => exact round32_valid q

theorem divPos_valid {x : Flt} (h : x.Valid) (b : ℚ) : (x.divPos b).Valid := by
  cases x with
  | nan => trivial
  | inf n => trivial
  | fin q => exact round32_valid _

theorem mulPos_valid {x : Flt} (h : x.Valid) (b : ℚ) : (x.mulPos b).Valid := by
  cases x with
  | nan => trivial
  | inf n => trivial
  | fin q => exact round32_valid _

theorem engValue_valid {y : Flt} (h : y.Valid) (j : Int) : (engValue y j).Valid := by
  have h1 : ∀ n, (y.shrink n).Valid := by
    intro n; induction n with
    | zero => exact h
    | succ n ih => exact divPos_valid ih _
  have h2 : ∀ n, (y.grow n).Valid := by
    intro n; induction n with
    | zero => exact h
    | succ n ih => exact mulPos_valid ih _
  rw [engValue]
  split
  · exact h1 _
  · exact h2 _

theorem valid_le_max {q : ℚ} (h : IsF32 q) (hb : |q| < (2 : ℚ) ^ (128 : ℤ)) : |q| ≤ FLT_MAX := by
  obtain ⟨M, k, hq, hM, hk⟩ := h
  have p2 : (0 : ℚ) < (2 : ℚ) ^ k := by positivity
  have habs : |q| = ((|M| : ℤ) : ℚ) * (2 : ℚ) ^ k := by
    rw [hq, abs_mul, abs_of_pos p2]; push_cast; rfl
  rw [FLT_MAX, pow2_eq, pow2_eq]
  by_cases hk' : 104 ≤ k
  · obtain ⟨n, hn⟩ : ∃ n : ℕ, k = 104 + (n : ℤ) := ⟨(k - 104).toNat, by omega⟩
    have e : |q| = ((|M| * 2 ^ n : ℤ) : ℚ) * (2 : ℚ) ^ (104 : ℤ) := by
      rw [habs, hn, zpow_add₀ (by norm_num)]; push_cast; rw [zpow_natCast]; ring
    have h128 : (2 : ℚ) ^ (128 : ℤ) = 2 ^ 24 * (2 : ℚ) ^ (104 : ℤ) := by norm_num
    rw [e] at hb ⊢
    rw [h128] at hb ⊢
    have h1 : ((|M| * 2 ^ n : ℤ) : ℚ) < 2 ^ 24 := lt_of_mul_lt_mul_right hb (by positivity)
    have h2 : |M| * 2 ^ n < 2 ^ 24 := by exact_mod_cast h1
    have h3 : |M| * 2 ^ n ≤ 2 ^ 24 - 1 := by omega
    have h4 : ((|M| * 2 ^ n : ℤ) : ℚ) ≤ 2 ^ 24 - 1 := by exact_mod_cast h3
    have := mul_le_mul_of_nonneg_right h4 (show (0 : ℚ) ≤ (2 : ℚ) ^ (104 : ℤ) by positivity)
    linarith
  · have h1 : (2 : ℚ) ^ k ≤ (2 : ℚ) ^ (103 : ℤ) := zpow_le_zpow_right₀ (by norm_num) (by omega)
    have h2 : ((|M| : ℤ) : ℚ) ≤ 2 ^ 24 := by exact_mod_cast hM
    rw [habs]
    calc ((|M| : ℤ) : ℚ) * (2 : ℚ) ^ k ≤ 2 ^ 24 * (2 : ℚ) ^ (103 : ℤ) := mul_le_mul h2 h1 p2.le (by norm_num)
      _ ≤ _ := by norm_num

theorem pow10_fin {p : Nat} (h : p ≤ 19) : ∃ t, round32 ((10 ^ p : Nat) : ℚ) = .fin t ∧ 0 < t := by
  have key : ∀ p < 20, (match round32 ((10 ^ p : Nat) : Rat) with | .fin t => decide (0 < t) | _ => false) = true := by decide +kernel
  have := key p (by omega)
  cases hr : round32 ((10 ^ p : Nat) : ℚ) with
  | nan => rw [hr] at this; simp at this
  | inf n => rw [hr] at this; simp at this
  | fin t => rw [hr] at this; exact ⟨t, rfl, by simpa using this⟩

theorem round32_sign {q : ℚ} (h : 0 ≤ q) : (∃ r, round32 q = .fin r ∧ 0 ≤ r) ∨ round32 q = .inf false := by
  by_cases h0 : q = 0
  · subst h0; exact .inl ⟨0, round32_zero, le_refl _⟩
  · rw [round32_eq h0]
    split
    · right; simp [h]
    · left
      refine ⟨_, rfl, ?_⟩
      have hu := ulp32_pos q
      have : (0 : ℤ) ≤ roundEven (q / ulp32 q) := roundEven_ge (by push_cast; positivity)
      have : (0 : ℚ) ≤ (roundEven (q / ulp32 q) : ℚ) := by exact_mod_cast this
      positivity

theorem scaled_eq {q : ℚ} {p : Nat} (h : p ≤ 19) : mulPow10 (.fin |q|) p = scaled q p ∧
    ((∃ s, scaled q p = .fin s ∧ IsF32 s ∧ 0 ≤ s) ∨ scaled q p = .inf false) := by
  obtain ⟨t, ht, hpos⟩ := pow10_fin h
  have e1 : mulPow10 (.fin |q|) p = round32 (|q| * t) := by simp only [mulPow10, pow10_tbl, ht, Flt.mulPos]
  have e2 : scaled q p = round32 (|q| * t) := by simp only [scaled, ht, rat_abs]
  refine ⟨by rw [e1, e2], ?_⟩
  rw [e2]
  rcases round32_sign (q := |q| * t) (by positivity) with ⟨r, hr, hr0⟩ | hr
  · exact .inl ⟨r, hr, (round32_fin hr).1, hr0⟩
  · exact .inr hr

theorem abs_flt (q : ℚ) : (if (Flt.fin q).lt (.fin 0) then (Flt.fin q).neg else Flt.fin q) = .fin |q| := by
  by_cases h : q < 0
  · simp [Flt.lt, h, Flt.neg, abs_of_neg h]
  · simp [Flt.lt, h, abs_of_nonneg (not_lt.1 h)]

theorem field_float {c : Conv} (ht : c.value.ty = .float ∨ c.value.ty = .eng) (t : List Byte) : fieldOf c.ph t = c.field c.fltPad t := by
  have hty : c.ph.type = c.value.ty := rfl
  have hc : is_centered_string c.ph = false := by
    rw [← Bool.not_eq_true]; intro h
    have := centered_str h
    rw [hty] at this
    rcases ht with ht | ht <;> rw [ht] at this <;> cases this
  have hw : c.ph.width.toNat = c.minWidth := by simp [Conv.ph]
  have hp : (if is_type_numeric c.ph.type && c.ph.flag_zero && !(c.ph.prec_specified && is_type_int c.ph.type) then (48 : Byte) else 32) =
      c.fltPad := by
    rw [hty]
    have hz : c.ph.flag_zero = decide (Flag.zero ∈ c.flags) := rfl
    rw [hz, Conv.fltPad]
    rcases ht with ht | ht <;> rw [ht] <;> by_cases hz : Flag.zero ∈ c.flags <;> simp [hz, is_type_numeric, is_type_int]
  simp only [fieldOf, padBefore, padAfter, hc, hp, hw, Conv.field]
  by_cases hl : c.left = true
  · have : c.ph.flag_minus = true := hl
    simp [hl, this]
  · have : c.ph.flag_minus = false := by simpa [Conv.ph] using hl
    simp [hl, this]

theorem field_special (c : Conv) (t : List Byte) : fieldOf { c.ph with type := .str, prec := 1 } t = c.field 32 t := by
  have hc : is_centered_string { c.ph with type := .str, prec := 1 } = false := by simp [is_centered_string]
  have hw : c.ph.width.toNat = c.minWidth := by simp [Conv.ph]
  simp only [fieldOf, padBefore, padAfter, hc, hw, Conv.field, is_type_numeric]
  by_cases hl : c.left = true
  · have : c.ph.flag_minus = true := hl
    simp [hl, this]
  · have : c.ph.flag_minus = false := by simpa [Conv.ph] using hl
    simp [hl, this]

section
variable {σ : Type} {K : Sink σ}

theorem signPad_eq (c : Conv) : (if c.signPad ≠ 0 then [c.signPad] else []) = c.plusSign := by
  rcases Option.eq_none_or_eq_some (c.flags.reverse.find? (fun f => f = .plus || f = .space)) with h | ⟨f, h⟩
  · have h1 : c.signPad = 0 := by simp only [Conv.signPad, h]
    have h2 : c.plusSign = [] := by simp only [Conv.plusSign, h]
    rw [h1, h2]; rfl
  · have h1 : c.signPad = f.char := by simp only [Conv.signPad, h]
    have h2 : c.plusSign = [f.char] := by simp only [Conv.plusSign, h]
    rw [h1, h2]; cases f <;> rfl

theorem sign_char_eq (c : Conv) (v : Flt) (hn : v.isNan = false) :
    (if determine_sign_char_of_float c.ph v ≠ 0 then [determine_sign_char_of_float c.ph v] else []) = c.sign (v.lt (.fin 0)) := by
  have hs : c.ph.sign_pad = c.signPad := rfl
  rw [determine_sign_char_of_float, Conv.sign, hs]
  by_cases h : v.lt (.fin 0) = true
  · simp [h]
  · simp only [h, Bool.false_eq_true, if_false, hn, Bool.not_false, if_true]
    exact signPad_eq c

theorem print_float_eq {c : Conv} (ht : c.value.ty = .float ∨ c.value.ty = .eng) (h0 : 0 ≤ c.ph.width) (h1 : c.ph.width < INT_MAX)
    {P : Nat} (hP : get_prec c.ph = P) (hP' : P ≤ 19) {post : Byte} {y : Flt} (hy : y.Valid) (o : OutInfo σ) :
    print_float K o c.ph y post = out_list K o (c.fltText P (if post ≠ 0 then [post] else []) y) := by
  cases y with
  | nan =>
    have hm : determine_float_msg c.ph .nan = some [78, 65, 78] := by simp [determine_float_msg, Flt.lt, Flt.isNan]
    simp only [print_float, hP, show ¬ P ≥ 20 by omega, if_false, hm]
    rw [print_float_special_eq o h0 h1 (by decide), field_special]
    have : determine_sign_char_of_float c.ph .nan = 0 := by simp [determine_sign_char_of_float, Flt.lt, Flt.isNan]
    rw [this]
    rfl
  | inf n =>
    have hm : determine_float_msg c.ph (.inf n) = some [73, 78, 70] := by
      cases n <;> simp [determine_float_msg, Flt.lt, Flt.isNan, Flt.neg]
    simp only [print_float, hP, show ¬ P ≥ 20 by omega, if_false, hm]
    rw [print_float_special_eq o h0 h1 (by decide), field_special, sign_char_eq c _ rfl]
    cases n <;> rfl
  | fin q =>
    have hle := valid_le_max hy.1 hy.2
    obtain ⟨e1, e2⟩ := scaled_eq (q := q) hP'
    have hmsg : determine_float_msg c.ph (.fin q) = if (Flt.fin (pow2 64)).le (scaled q P) then some [79, 86, 69, 82] else none := by
      simp only [determine_float_msg, abs_flt, Flt.isNan, Bool.false_eq_true, if_false, hP, e1]
      have : (Flt.fin FLT_MAX).lt (.fin |q|) = false := by simpa [Flt.lt] using hle
      rw [this]
      simp
    have hlt : (Flt.fin q).lt (.fin 0) = decide (q < 0) := rfl
    rcases e2 with ⟨s, hs, hf, hs0⟩ | hs
    · by_cases hbig : s < pow2 64
      · have hm : determine_float_msg c.ph (.fin q) = none := by
          rw [hmsg, hs, if_neg]; simp [Flt.le, hbig]
        simp only [print_float, hP, show ¬ P ≥ 20 by omega, if_false, hm]
        rw [print_float_normal_eq post o h0 h1 (by rw [hP]; exact hP') (s := s) (by rw [abs_flt, hP, e1, hs]) hf hs0 hbig, field_float ht,
          normalText, sign_char_eq c _ rfl, hP, hlt]
        simp only [Conv.fltText, hs, if_pos hbig]
        have e3 : (if post ≠ 0 ∧ nearest s ≠ 0 then [post] else []) = if nearest s = 0 then [] else (if post ≠ 0 then [post] else []) := by
          by_cases ha : post = 0 <;> by_cases hb : nearest s = 0 <;> simp [ha, hb]
        rw [e3]
      · have hm : determine_float_msg c.ph (.fin q) = some [79, 86, 69, 82] := by
          rw [hmsg, hs, if_pos]; simpa [Flt.le] using hbig
        simp only [print_float, hP, show ¬ P ≥ 20 by omega, if_false, hm]
        rw [print_float_special_eq o h0 h1 (by decide), field_special, sign_char_eq c _ rfl, hlt]
        simp only [Conv.fltText, hs, if_neg hbig]
    · have hm : determine_float_msg c.ph (.fin q) = some [79, 86, 69, 82] := by
        rw [hmsg, hs, if_pos]; rfl
      simp only [print_float, hP, show ¬ P ≥ 20 by omega, if_false, hm]
      rw [print_float_special_eq o h0 h1 (by decide), field_special, sign_char_eq c _ rfl, hlt]
      simp only [Conv.fltText, hs]

theorem get_prec_eq {c : Conv} (ht : c.value.ty = .float ∨ c.value.ty = .eng) (hp : ∀ p, c.prec = some p → 0 ≤ p.val ∧ p.val ≤ 255) :
    get_prec c.ph = c.places (if c.value.ty = .eng then 0 else 3) ∧ c.places (if c.value.ty = .eng then 0 else 3) ≤ 19 := by
  have hty : c.ph.type = c.value.ty := rfl
  have hs : c.ph.prec_specified = c.prec.isSome := rfl
  have hv : c.ph.prec = countVal c.prec := rfl
  cases h : c.prec with
  | none =>
    rw [h] at hs
    rcases ht with ht | ht <;> simp [get_prec, hs, hty, ht, Conv.places, h]
  | some p =>
    have := hp p h
    rw [h] at hs hv
    simp only [get_prec, hs, hv, Conv.places, h, countVal, Option.isSome_some, if_true]
    have e : (p.val % 256).toNat = p.val.toNat := by omega
    rw [e]
    split <;> omega

end

end CStr
