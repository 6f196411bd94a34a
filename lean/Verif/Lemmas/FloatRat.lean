import Mathlib.Algebra.Field.Rat
import Mathlib.Algebra.Order.Field.Rat
import Mathlib.Tactic.Ring
import Mathlib.Tactic.FieldSimp
import Mathlib.Tactic.Linarith
import Mathlib.Tactic.Positivity
import Verif.Lemmas.FloatVal
import Verif.Spec.FloatValue
/-! Helper lemmas: assembling the value of a floating point literal with exact arithmetic. -/
namespace CStr

theorem codeNum_acc (acc : Nat) (ds : List UInt8) : codeNum 10 acc ds = acc * 10 ^ ds.length + decNum ds := by
  induction ds generalizing acc with
  | nil => simp [codeNum_nil, decNum]
  | cons b t ih =>
    have e : decNum (b :: t) = (0 * 10 + codeVal 10 b) * 10 ^ t.length + decNum t := by
      rw [← ih]; rfl
    rw [codeNum_cons, ih, e, List.length_cons, pow_succ]
    ring

theorem decNum_append (a b : List UInt8) : decNum (a ++ b) = decNum a * 10 ^ b.length + decNum b := by
  rw [decNum, codeNum_append, codeNum_acc]
  rfl

theorem digitsNumber_eq {ds : List UInt8} (h : ∀ b ∈ ds, isDigit b = true) : digitsNumber ds = decNum ds := by
  have key : ∀ b : UInt8, isDigit b = true → codeVal 10 b = b.toNat - 48 := by
    apply forall_byte; decide +kernel
  have : ∀ (ds : List UInt8) (n : Nat), (∀ b ∈ ds, isDigit b = true) →
      ds.foldl (fun n b => 10 * n + (b.toNat - 48)) n = codeNum 10 n ds := by
    intro ds
    induction ds with
    | nil => intro n _; rfl
    | cons b t ih =>
      intro n h
      rw [List.foldl_cons, codeNum_cons, ih _ (fun x hx => h x (List.mem_cons_of_mem _ hx)), key b (h b (by simp)), Nat.mul_comm]
  exact this ds 0 h

theorem twoWords_iff {ds : List UInt8} (h : ∀ b ∈ ds, isDigit b = true) :
    TwoWords ds ↔ ∃ a b, ds = a ++ b ∧ decNum a < 2 ^ 64 ∧ decNum b < 2 ^ 64 := by
  constructor
  · rintro ⟨a, b, rfl, h1, h2⟩
    rw [digitsNumber_eq (fun x hx => h x (by simp [hx]))] at h1 h2
    exact ⟨a, b, rfl, h1, h2⟩
  · rintro ⟨a, b, rfl, h1, h2⟩
    rw [← digitsNumber_eq (fun x hx => h x (by simp [hx]))] at h1 h2
    exact ⟨a, b, rfl, h1, h2⟩

theorem decNum_lt (ds : List UInt8) (h : ∀ b ∈ ds, isDigit b = true) : decNum ds < 10 ^ ds.length := by
  induction ds with
  | nil => simp [decNum, codeNum_nil]
  | cons b t ih =>
    have hb : codeVal 10 b < 10 := codeVal_lt (.inl rfl) (by simpa [codeDigit] using h b (by simp))
    have := ih (fun x hx => h x (List.mem_cons_of_mem _ hx))
    rw [decNum, codeNum_cons, codeNum_acc, List.length_cons, pow_succ]
    nlinarith

/-- At most two pieces if the integral digits are less than 10^38. -/
theorem Chunks.two {cs : List (List UInt8)} (h : Chunks cs) (hd : ∀ b ∈ cs.flatten, isDigit b = true)
    (hlt : decNum cs.flatten < 10 ^ 38) : cs.length ≤ 2 := by
  cases h with
  | nil => simp
  | last _ _ => simp
  | more h1 h2 h3 h4 =>
    cases h4 with
    | last _ _ => simp
    | @more _ b' d' cs' k1 k2 k3 k4 =>
      exfalso
      rename_i c b d
      have e1 : ((c :: (b :: d) :: (b' :: d') :: cs').flatten) = (c ++ [b]) ++ (d ++ b' :: (d' ++ cs'.flatten)) := by simp
      have e2 : (b :: d) ++ [b'] = b :: (d ++ [b']) := rfl
      rw [e1] at hd hlt
      have hl : decNum ((b :: d) ++ [b']) < 10 ^ ((b :: d) ++ [b']).length := by
        apply decNum_lt
        intro x hx
        apply hd
        simp only [List.mem_append, List.mem_cons, List.not_mem_nil, or_false] at hx ⊢
        rcases hx with (hx | hx) | hx <;> simp [hx]
      have hlen : 19 ≤ (d ++ b' :: (d' ++ cs'.flatten)).length := by
        by_contra hc
        have : ((b :: d) ++ [b']).length ≤ 19 := by
          simp only [List.length_append, List.length_cons, List.length_nil] at hc ⊢
          omega
        have h6 : 10 ^ ((b :: d) ++ [b']).length ≤ 10 ^ 19 := Nat.pow_le_pow_right (n := 10) (by norm_num) this
        have h7 : (10 : Nat) ^ 19 < 18446744073709551616 := by norm_num
        exact absurd (lt_of_le_of_lt h6 h7) (by omega)
      rw [decNum_append] at hlt
      have := Nat.pow_le_pow_right (n := 10) (by norm_num) hlen
      have h5 : 18446744073709551616 * 10 ^ 19 ≤ decNum (c ++ [b]) * 10 ^ (d ++ b' :: (d' ++ cs'.flatten)).length :=
        Nat.mul_le_mul h3 this
      norm_num at h5 hlt
      omega

theorem decNum_le_left (a b : List UInt8) : decNum a ≤ decNum (a ++ b) := by
  rw [decNum_append]
  have := Nat.pow_pos (a := 10) (n := b.length) (by norm_num)
  nlinarith

theorem decNum_le_right (a b : List UInt8) : decNum b ≤ decNum (a ++ b) := by
  rw [decNum_append]; omega

/-- There are at most two pieces exactly if the digits can be cut into two numbers of 64 bits. -/
theorem Chunks.two_iff {cs : List (List UInt8)} (h : Chunks cs) :
    cs.length ≤ 2 ↔ ∃ a b, cs.flatten = a ++ b ∧ decNum a < 2 ^ 64 ∧ decNum b < 2 ^ 64 := by
  have e64 : (2 : Nat) ^ 64 = 18446744073709551616 := by norm_num
  rw [e64]
  have h0 : decNum ([] : List UInt8) < 18446744073709551616 := by decide
  constructor
  · intro hl
    cases h with
    | nil => exact ⟨[], [], rfl, h0, h0⟩
    | @last c h1 h2 => exact ⟨c, [], by simp, h2, h0⟩
    | @more c b d cs h1 h2 h3 h4 =>
      cases h4 with
      | last k1 k2 => exact ⟨c, b :: d, by simp, h2, k2⟩
      | more k1 k2 k3 k4 => simp only [List.length_cons] at hl; omega
  · rintro ⟨A, B, hf, hA, hB⟩
    cases h with
    | nil => simp
    | last _ _ => simp
    | @more c b d cs h1 h2 h3 h4 =>
      cases h4 with
      | last _ _ => simp
      | @more _ b' d' cs' k1 k2 k3 k4 =>
        exfalso
        rw [show ((c :: (b :: d) :: (b' :: d') :: cs').flatten) = (c ++ [b]) ++ (d ++ b' :: (d' ++ cs'.flatten)) by simp] at hf
        rcases List.append_eq_append_iff.1 hf with ⟨u, e1, -⟩ | ⟨u, e1, e2⟩
        · have := decNum_le_left (c ++ [b]) u
          rw [← e1] at this
          omega
        · by_cases hu : u = []
          · subst hu
            have := decNum_le_left (c ++ [b]) []
            simp only [List.append_nil] at e1 this
            rw [e1] at this h3
            omega
          · -- the second number contains the second piece and one more digit
            obtain ⟨w, hw⟩ : ∃ w, u = w ++ [b] := by
              obtain ⟨w, x, rfl⟩ : ∃ w x, u = w ++ [x] := ⟨u.dropLast, u.getLast hu, (List.dropLast_append_getLast hu).symm⟩
              rw [← List.append_assoc] at e1
              have := (List.append_inj' e1 rfl).2
              exact ⟨w, by rw [← this]⟩
            have e3 : B = w ++ (((b :: d) ++ [b']) ++ (d' ++ cs'.flatten)) := by rw [e2, hw]; simp
            have l1 := decNum_le_left ((b :: d) ++ [b']) (d' ++ cs'.flatten)
            have l2 := decNum_le_right w (((b :: d) ++ [b']) ++ (d' ++ cs'.flatten))
            rw [← e3] at l2
            omega

theorem intFold_two {cs : List (List UInt8)} (h : cs.length ≤ 2) :
    intFold exactOps cs 0 = (decNum cs.flatten : ℚ) := by
  match cs, h with
  | [], _ => simp [intFold, decNum, codeNum_nil]
  | [c], _ => simp [intFold, exactOps]
  | [c, d], _ =>
    simp only [intFold, exactOps, List.flatten_cons, List.flatten_nil, List.append_nil, List.length_nil, decNum_append]
    push_cast
    simp

theorem fracFold_exact (cs : List (List UInt8)) (p : Int) (r : ℚ) :
    fracFold exactOps cs p r = r + decNum cs.flatten * (10 : ℚ) ^ (p - cs.flatten.length) := by
  induction cs generalizing p r with
  | nil => simp [fracFold, decNum, codeNum_nil]
  | cons c cs ih =>
    rw [fracFold, ih]
    simp only [exactOps, List.flatten_cons, decNum_append, List.length_append]
    push_cast
    have h10 : (10 : ℚ) ≠ 0 := by norm_num
    have e : (p - ((c.length : Int) + cs.flatten.length)) = (p - c.length) - cs.flatten.length := by ring
    rw [e, zpow_sub₀ h10 (p - c.length) cs.flatten.length, zpow_natCast]
    field_simp
    ring

theorem intFold_ge (cs : List (List UInt8)) (r : ℚ) (hr : 0 ≤ r) : r + decNum cs.flatten ≤ intFold exactOps cs r := by
  induction cs generalizing r with
  | nil => simp [intFold, decNum, codeNum_nil]
  | cons c cs ih =>
    rw [intFold]
    have h1 : (1 : ℚ) ≤ 10 ^ cs.flatten.length := one_le_pow₀ (by norm_num)
    have h2 : (0 : ℚ) ≤ decNum c := by positivity
    have e : exactOps.mul (exactOps.add r (exactOps.ofULL (decNum c))) (exactOps.pow10 cs.flatten.length)
        = (r + decNum c) * 10 ^ cs.flatten.length := by simp [exactOps]
    rw [e]
    refine le_trans ?_ (ih _ (by positivity))
    rw [List.flatten_cons, decNum_append]
    push_cast
    nlinarith

/-- With three or more pieces the result is too large. -/
theorem intFold_three {c1 c2 c3 : List UInt8} {cs : List (List UInt8)} (h1 : 0 < decNum c1) (h3 : c3 ≠ []) :
    (decNum (c1 :: c2 :: c3 :: cs).flatten : ℚ) < intFold exactOps (c1 :: c2 :: c3 :: cs) 0 := by
  rw [intFold, intFold]
  have e : exactOps.mul (exactOps.add (exactOps.mul (exactOps.add 0 (exactOps.ofULL (decNum c1)))
      (exactOps.pow10 (c2 :: c3 :: cs).flatten.length)) (exactOps.ofULL (decNum c2))) (exactOps.pow10 (c3 :: cs).flatten.length)
        = ((decNum c1 : ℚ) * 10 ^ (c2 :: c3 :: cs).flatten.length + decNum c2) * 10 ^ (c3 :: cs).flatten.length := by
    simp only [exactOps, zpow_natCast]; ring
  rw [e]
  refine lt_of_lt_of_le ?_ (intFold_ge _ _ (by positivity))
  rw [List.flatten_cons, decNum_append, List.flatten_cons (l := c2), decNum_append]
  have hl : 1 ≤ (c3 :: cs).flatten.length := by
    have := List.length_pos_iff.2 h3
    simp only [List.flatten_cons, List.length_append]
    omega
  have h10 : (10 : ℚ) ^ 1 ≤ 10 ^ (c3 :: cs).flatten.length := pow_le_pow_right₀ (by norm_num) hl
  have hp : (0 : ℚ) < (decNum c1 : ℚ) * 10 ^ (c2 ++ (c3 :: cs).flatten).length := by
    have : (0 : ℚ) < decNum c1 := by exact_mod_cast h1
    positivity
  push_cast
  rw [← List.flatten_cons]
  rw [← List.flatten_cons] at hp
  nlinarith

end CStr
