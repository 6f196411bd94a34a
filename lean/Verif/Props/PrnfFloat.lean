import Verif.Lemmas.FltErr
import Verif.Props.Prnf
/-! Property C66: floating point numbers in the text formatter. -/
namespace CStr

theorem fixedText_facts (p n : Nat) : ∃ ip fp, IsFixed p ip fp ∧ fixedText p n = pointed ip fp ∧ decVal (ip ++ fp) = n := by
  obtain ⟨h1, h2, h3, h4⟩ := printBytes_facts (n / 10 ^ p)
  obtain ⟨g1, g2, -, -⟩ := printBytes_facts n
  have e := padded_digits p n
  refine ⟨printBytes 10 (n / 10 ^ p), lowDigits p n, ⟨?_, h3, ?_, length_lowDigits p n⟩, ?_, ?_⟩
  · rw [← e]
    intro b hb
    rw [List.mem_append, List.mem_replicate] at hb
    rcases hb with ⟨-, rfl⟩ | hb
    · decide
    · exact g1 b hb
  · intro h
    by_cases h0 : n / 10 ^ p = 0
    · rw [h0]; rfl
    · exact absurd h (h4 h0)
  · rw [fixedText, pointed]
    by_cases h0 : p = 0
    · subst h0; simp [lowDigits]
    · have : lowDigits p n ≠ [] := by
        intro h; have := length_lowDigits p n; rw [h] at this; exact h0 this.symm
      rw [if_neg h0, if_neg this]
  · rw [← e, decVal_zeros, g2]

/-- The text of a finite number: the digits, or `OVER`. -/
theorem fltText_fin (c : Conv) {p : Nat} (hp : p ≤ 19) {suffix : List Byte} {v : ℚ} (hv : IsF32 v) :
    (∃ ip fp, IsFixed p ip fp ∧ c.fltText p suffix (.fin v) =
        c.field c.fltPad (c.sign (v < 0) ++ pointed ip fp ++ if fixedValue ip fp = 0 then [] else suffix) ∧
        |fixedValue ip fp - (|v|)| ≤ 1 / 2 / 10 ^ p + |v| * relErr p) ∨
      c.fltText p suffix (.fin v) = c.field 32 (c.sign (v < 0) ++ [79, 86, 69, 82]) ∧ (2 : ℚ) ^ 64 ≤ |v| * 10 ^ p * (1 + relErr p) := by
  have h10 : (0 : ℚ) < 10 ^ p := by positivity
  rcases scaled_near hv hp with ⟨s, hs, hs0, hn⟩ | ⟨hs, hn⟩
  · by_cases hb : s < pow2 64
    · left
      obtain ⟨ip, fp, hf, ht, hd⟩ := fixedText_facts p (nearest s)
      have hval : fixedValue ip fp = (nearest s : ℚ) / 10 ^ p := by rw [fixedValue, hd, hf.places]
      refine ⟨ip, fp, hf, ?_, ?_⟩
      · simp only [Conv.fltText, hs, if_pos hb, ht]
        have : fixedValue ip fp = 0 ↔ nearest s = 0 := by
          rw [hval, div_eq_zero_iff]
          constructor
          · rintro (h | h)
            · exact_mod_cast h
            · exact absurd h h10.ne'
          · intro h; left; exact_mod_cast h
        simp only [this]
      · rw [hval]
        have h1 := abs_le.1 (nearest_near hs0)
        have h2 := abs_le.1 hn
        have e : (nearest s : ℚ) / 10 ^ p - |v| = ((nearest s : ℚ) - |v| * 10 ^ p) / 10 ^ p := by field_simp
        have e' : 1 / 2 / 10 ^ p + |v| * relErr p = (1 / 2 + |v| * 10 ^ p * relErr p) / 10 ^ p := by field_simp
        rw [e, e', abs_div, abs_of_pos h10]
        apply div_le_div_of_nonneg_right _ h10.le
        rw [abs_le]
        constructor <;> linarith
    · right
      refine ⟨by simp only [Conv.fltText, hs, if_neg hb], ?_⟩
      rw [pow2_64] at hb
      have h2 := abs_le.1 hn
      rw [mul_add, mul_one]
      linarith
  · exact .inr ⟨by simp only [Conv.fltText, hs], hn⟩

/-- C66. `%f` and `%F` of a finite number print its sign, its digits with as many places after the decimal point as the precision says (3 without
a precision, at most 19) and no unneeded zero in front, in a field of the given width. The printed number differs from the argument by at most half a
unit of the last place and one rounding of a `float`. A number whose digits do not fit into an `unsigned long long` is printed as `OVER`. -/
theorem C66_float {m : Mem} {fmt : Addr} {c : Conv} {x : Flt} {q : ℚ} (hv : c.value = .flt x) (hx : x.toFloat = .fin q) (more : List VArg)
    (hF : Format m fmt [.conv c]) (hlen : (c.output.length : Int) ≤ INT_MAX) :
    ∃ t, printed m fmt (c.args ++ more) = .ok ((t.length : Int), t) ∧
      ((∃ ip fp, IsFixed (c.places 3) ip fp ∧ t = c.field c.fltPad (c.sign (q < 0) ++ pointed ip fp) ∧
          |fixedValue ip fp - (|q|)| ≤ 1 / 2 / 10 ^ c.places 3 + |q| * relErr (c.places 3)) ∨
        t = c.field 32 (c.sign (q < 0) ++ [79, 86, 69, 82]) ∧ (2 : ℚ) ^ 64 ≤ |q| * 10 ^ c.places 3 * (1 + relErr (c.places 3))) := by
  have hok := hF.items.1.value
  simp only [hv] at hok
  have ht : c.value.ty = .float := by rw [hv]; rfl
  have hp : c.places 3 ≤ 19 := by
    have := (get_prec_eq (.inl ht) hok).2
    rw [ht] at this; exact this
  refine ⟨c.output, printed_conv more hF hlen, ?_⟩
  have e : c.output = c.fltText (c.places 3) [] (.fin q) := by simp only [Conv.output, hv, hx]
  rw [e]
  have hval := toFloat_valid x
  rw [hx] at hval
  rcases fltText_fin c (suffix := []) hp hval.1 with ⟨ip, fp, h1, h2, h3⟩ | h
  · left
    refine ⟨ip, fp, h1, ?_, h3⟩
    rw [h2]; simp
  · exact .inr h

/-- C66. NaN is printed as `NAN`, without a sign, infinity as `INF` with its sign; both are padded with spaces. -/
theorem C66_special {m : Mem} {fmt : Addr} {c : Conv} {x : Flt} (hv : c.value = .flt x ∨ ∃ j, c.value = .eng x j) (more : List VArg)
    (hF : Format m fmt [.conv c]) (hlen : (c.output.length : Int) ≤ INT_MAX) :
    (x.toFloat = .nan → printed m fmt (c.args ++ more) = .ok ((c.output.length : Int), c.field 32 [78, 65, 78])) ∧
    (∀ n, x.toFloat = .inf n → printed m fmt (c.args ++ more) = .ok ((c.output.length : Int), c.field 32 (c.sign n ++ [73, 78, 70]))) := by
  have hs : ∀ (y : Flt), (∀ q, y ≠ .fin q) → ∀ j, engValue y j = y := by
    intro y hy j
    have h1 : ∀ n, y.shrink n = y := by
      intro n; induction n with
      | zero => rfl
      | succ n ih =>
        rw [Flt.shrink, ih]
        cases y with
        | nan => rfl
        | inf n => rfl
        | fin q => exact absurd rfl (hy q)
    have h2 : ∀ n, y.grow n = y := by
      intro n; induction n with
      | zero => rfl
      | succ n ih =>
        rw [Flt.grow, ih]
        cases y with
        | nan => rfl
        | inf n => rfl
        | fin q => exact absurd rfl (hy q)
    rw [engValue, h1, h2]; simp
  constructor
  · intro hx
    rw [printed_conv more hF hlen]
    rcases hv with hv | ⟨j, hv⟩
    · simp only [Conv.output, hv, hx, Conv.fltText]
    · simp only [Conv.output, hv, hx, hs .nan (by simp), Conv.fltText]
  · intro n hx
    rw [printed_conv more hF hlen]
    rcases hv with hv | ⟨j, hv⟩
    · simp only [Conv.output, hv, hx, Conv.fltText]
    · simp only [Conv.output, hv, hx, hs (.inf n) (by simp), Conv.fltText]

/-- C66. Every number has exactly one unit in engineering notation. -/
theorem C66_unit_unique (y : Flt) : ∃ j, EngExp y j ∧ ∀ i, EngExp y i → i = j := by
  have huniq : ∀ i j, EngExp y i → EngExp y j → ¬ i < j := by
    intro i j hi hj hlt
    have h1 := hi.low
    have h2 := hj.high
    by_cases h0 : 0 ≤ i
    · have a := hi.below h0 (by omega)
      rw [engValue, if_pos h0] at a
      exact hj.down i.toNat (by omega) a
    · have b0 := hi.up 0 (by omega)
      by_cases hj0 : 0 < j
      · exact hj.down 0 (by omega) (below_mono (by norm_num) b0)
      · have a := hj.above (by omega) (by omega)
        have b := hi.up (-j).toNat (by omega)
        apply a
        rw [engValue]
        split
        · have : j = 0 := by omega
          subst this; exact b0
        · exact b
  have hex : ∃ j, EngExp y j := by
    by_cases hbig : y.Below 1000
    · by_cases hsmall : y.Below 1
      · have hd : ∃ t, t ≤ 8 ∧ (∀ i < t, (y.grow i).Below 1) ∧ (t < 8 → ¬ (y.grow t).Below 1) ∧ 1 ≤ t := by
          have key : ∀ k, 1 ≤ k → k ≤ 8 → (∃ t, t ≤ 8 ∧ (∀ i < t, (y.grow i).Below 1) ∧ (t < 8 → ¬ (y.grow t).Below 1) ∧ 1 ≤ t) ∨
              ∀ i < k, (y.grow i).Below 1 := by
            intro k h1 h8
            induction k with
            | zero => omega
            | succ k ih =>
              by_cases hk : k = 0
              · subst hk; right; intro i hi; have : i = 0 := by omega
                subst this; exact hsmall
              · rcases ih (by omega) (by omega) with h | h
                · exact .inl h
                · by_cases hb : (y.grow k).Below 1
                  · right; intro i hi
                    by_cases he : i = k
                    · subst he; exact hb
                    · exact h i (by omega)
                  · exact .inl ⟨k, by omega, h, fun _ => hb, by omega⟩
          rcases key 8 (by omega) (by omega) with h | h
          · exact h
          · exact ⟨8, by omega, h, fun h => absurd h (by omega), by omega⟩
        obtain ⟨t, ht, h1, h2, h3⟩ := hd
        refine ⟨-(t : Int), by omega, by omega, fun i hi => by omega, fun i hi => h1 i (by omega), fun h => by omega, fun _ hlt => ?_⟩
        rw [engValue, if_neg (by omega)]
        have e : (- -(t : Int)).toNat = t := by omega
        rw [e]; exact h2 (by omega)
      · exact ⟨0, by omega, by omega, fun i hi => by omega, fun i hi => by omega, fun _ _ => hbig, fun _ _ => hsmall⟩
    · have hd : ∃ t, t ≤ 8 ∧ (∀ i < t, ¬ (y.shrink i).Below 1000) ∧ (t < 8 → (y.shrink t).Below 1000) ∧ 1 ≤ t := by
        have key : ∀ k, 1 ≤ k → k ≤ 8 → (∃ t, t ≤ 8 ∧ (∀ i < t, ¬ (y.shrink i).Below 1000) ∧ (t < 8 → (y.shrink t).Below 1000) ∧ 1 ≤ t) ∨
            ∀ i < k, ¬ (y.shrink i).Below 1000 := by
          intro k h1 h8
          induction k with
          | zero => omega
          | succ k ih =>
            by_cases hk : k = 0
            · subst hk; right; intro i hi; have : i = 0 := by omega
              subst this; exact hbig
            · rcases ih (by omega) (by omega) with h | h
              · exact .inl h
              · by_cases hb : (y.shrink k).Below 1000
                · exact .inl ⟨k, by omega, h, fun _ => hb, by omega⟩
                · right; intro i hi
                  by_cases he : i = k
                  · subst he; exact hb
                  · exact h i (by omega)
        rcases key 8 (by omega) (by omega) with h | h
        · exact h
        · exact ⟨8, by omega, h, fun h => absurd h (by omega), by omega⟩
      obtain ⟨t, ht, h1, h2, h3⟩ := hd
      refine ⟨t, by omega, by omega, fun i hi => h1 i (by omega), fun i hi => by omega, fun _ hlt => ?_, fun h => by omega⟩
      rw [engValue, if_pos (by omega)]
      exact h2 (by omega)
  obtain ⟨j, hj⟩ := hex
  refine ⟨j, hj, fun i hi => ?_⟩
  have a := huniq i j hi hj
  have b := huniq j i hj hi
  omega

/-- C66. In its unit the magnitude of a number is at least 1 (unless there is no smaller unit) and below 1000 (unless there is no greater unit). -/
theorem C66_unit_range {x : Flt} {j : Int} {v : ℚ} (h : EngExp x.toFloat j) (hv : engValue x.toFloat j = .fin v) :
    (j ≠ -8 → 1 ≤ |v|) ∧ (j ≠ 8 → |v| < 1000) := by
  have hlow := h.low
  have hhigh := h.high
  have hval := toFloat_valid x
  obtain ⟨y, hy⟩ : ∃ y, x.toFloat = y := ⟨_, rfl⟩
  rw [hy] at h hv hval
  constructor
  · intro hne
    by_cases hj : 0 < j
    · obtain ⟨n, hn⟩ : ∃ n : ℕ, j.toNat = n + 1 := ⟨j.toNat - 1, by omega⟩
      have a := shrink_ge_one (h.down n (by omega))
      rw [engValue, if_pos (by omega), hn] at hv
      rw [hv] at a
      simpa [Flt.Below, rat_abs] using a
    · have a := h.above (by omega) (by omega)
      rw [hv] at a
      simpa [Flt.Below, rat_abs] using a
  · intro hne
    by_cases hj : 0 ≤ j
    · have a := h.below hj (by omega)
      rw [hv] at a
      simpa [Flt.Below, rat_abs] using a
    · obtain ⟨n, hn⟩ : ∃ n : ℕ, (-j).toNat = n + 1 := ⟨(-j).toNat - 1, by omega⟩
      have a := h.up n (by omega)
      have hg : (y.grow n).Valid := by
        have : ∀ n, (y.grow n).Valid := by
          intro n; induction n with
          | zero => exact hval
          | succ n ih => exact mulPos_valid ih _
        exact this n
      rw [engValue, if_neg hj, hn, Flt.grow] at hv
      cases hw : y.grow n with
      | nan => rw [hw] at a; exact a.elim
      | inf b => rw [hw] at a; exact a.elim
      | fin w =>
        rw [hw] at a hv hg
        simp only [Flt.Below, rat_abs] at a
        obtain ⟨r, hr, -, -, hnear⟩ := grow_step hg.1 a
        rw [hr] at hv
        injection hv with hv
        subst hv
        have h1 := hg.1.lt_one a
        have h2 : |w * 1000| = |w| * 1000 := by rw [abs_mul]; norm_num
        rw [h2] at hnear
        have h3 := abs_add_le (r - w * 1000) (w * 1000)
        rw [sub_add_cancel, h2] at h3
        have : |w| * 1000 + |w| * 1000 / 2 ^ 24 ≤ (1 - 1 / 2 ^ 24) * 1000 + (1 - 1 / 2 ^ 24) * 1000 / 2 ^ 24 := by linarith
        have h4 : (1 - 1 / 2 ^ 24 : ℚ) * 1000 + (1 - 1 / 2 ^ 24) * 1000 / 2 ^ 24 < 1000 := by norm_num
        linarith

/-- C66. `%e` and `%E` of a finite number print its sign, the digits of the number in its unit, and the SI prefix of the unit, which is omitted
if all digits are zero. The printed number times the unit differs from the argument by at most half a unit of the last place and a
relative error of `2^-19`. -/
theorem C66_eng {m : Mem} {fmt : Addr} {c : Conv} {x : Flt} {j : Int} {q : ℚ} (hv : c.value = .eng x j) (hx : x.toFloat = .fin q) (more : List VArg)
    (hF : Format m fmt [.conv c]) (hlen : (c.output.length : Int) ≤ INT_MAX) :
    ∃ t, printed m fmt (c.args ++ more) = .ok ((t.length : Int), t) ∧
      ((∃ ip fp, IsFixed (c.places 0) ip fp ∧
          t = c.field c.fltPad (c.sign (q < 0) ++ pointed ip fp ++ if fixedValue ip fp = 0 then [] else siPrefix j) ∧
          |fixedValue ip fp * (1000 : ℚ) ^ j - (|q|)| ≤ 1 / 2 / 10 ^ c.places 0 * (1000 : ℚ) ^ j + |q| / 2 ^ 19) ∨
        t = c.field 32 (c.sign (q < 0) ++ [79, 86, 69, 82]) ∧ (2 : ℚ) ^ 64 * (1000 : ℚ) ^ j ≤ |q| * 10 ^ c.places 0 * (1 + 1 / 2 ^ 19)) := by
  have hok := hF.items.1.value
  simp only [hv] at hok
  have ht : c.value.ty = .eng := by rw [hv]; rfl
  have hp : c.places 0 ≤ 19 := by
    have := (get_prec_eq (.inr ht) hok.2).2
    rw [ht] at this; exact this
  have hval := toFloat_valid x
  rw [hx] at hval
  have hj := hok.1
  rw [hx] at hj
  obtain ⟨v, hev, hvf, hvb, hnear⟩ := engValue_near hval hj
  refine ⟨c.output, printed_conv more hF hlen, ?_⟩
  have e : c.output = c.fltText (c.places 0) (siPrefix j) (.fin v) := by simp only [Conv.output, hv, hx, hev]
  have p1000 : (0 : ℚ) < (1000 : ℚ) ^ j := by positivity
  have hn := abs_le.1 hnear
  have hsgn : decide (v < 0) = decide (q < 0) := by
    by_cases hq : q < 0
    · have : v * (1000 : ℚ) ^ j < 0 := by
        rw [abs_of_neg hq] at hn; linarith
      have : v < 0 := by
        by_contra hc
        have := mul_nonneg (not_lt.1 hc) p1000.le
        linarith
      simp [hq, this]
    · have hq' := not_lt.1 hq
      have : 0 ≤ v * (1000 : ℚ) ^ j := by
        rw [abs_of_nonneg hq'] at hn; linarith
      have : ¬ v < 0 := by
        intro hc
        have := mul_neg_of_neg_of_pos hc p1000
        linarith
      simp [hq, this]
  have habs : |(|v| * (1000 : ℚ) ^ j) - (|q|)| ≤ |q| / 2 ^ 20 := by
    rw [← abs_of_pos p1000, ← abs_mul]
    exact (abs_abs_sub_abs_le_abs_sub _ _).trans hnear
  have hn' := abs_le.1 habs
  obtain ⟨r0, r1⟩ := relErr_bounds (c.places 0)
  have hq0 := abs_nonneg q
  have hrel : |v| * (1000 : ℚ) ^ j * relErr (c.places 0) ≤ |q| / 2 ^ 21 := by
    have h1 : |v| * (1000 : ℚ) ^ j ≤ 2 * |q| := by linarith
    calc |v| * (1000 : ℚ) ^ j * relErr (c.places 0) ≤ 2 * |q| * (3 / 2 ^ 24) := mul_le_mul h1 r1 r0.le (by positivity)
      _ ≤ _ := by linarith
  rw [e]
  rcases fltText_fin c (suffix := siPrefix j) hp hvf with ⟨ip, fp, h1, h2, h3⟩ | ⟨h1, h2⟩
  · left
    refine ⟨ip, fp, h1, by rw [h2, hsgn], ?_⟩
    have h4 : |fixedValue ip fp * (1000 : ℚ) ^ j - |v| * (1000 : ℚ) ^ j| ≤ 1 / 2 / 10 ^ c.places 0 * (1000 : ℚ) ^ j + |q| / 2 ^ 21 := by
      rw [← sub_mul, abs_mul, abs_of_pos p1000]
      have := mul_le_mul_of_nonneg_right h3 p1000.le
      rw [add_mul] at this
      have e2 : |v| * relErr (c.places 0) * (1000 : ℚ) ^ j = |v| * (1000 : ℚ) ^ j * relErr (c.places 0) := by ring
      rw [e2] at this
      linarith
    have h5 := abs_le.1 h4
    generalize 1 / 2 / 10 ^ c.places 0 * (1000 : ℚ) ^ j = A at *
    generalize fixedValue ip fp * (1000 : ℚ) ^ j = B at *
    generalize |v| * (1000 : ℚ) ^ j = D at *
    rw [abs_le]
    constructor <;> linarith
  · right
    refine ⟨by rw [h1, hsgn], ?_⟩
    have p10 : (0 : ℚ) < 10 ^ c.places 0 := by positivity
    have h3 := mul_le_mul_of_nonneg_right h2 p1000.le
    have e2 : |v| * 10 ^ c.places 0 * (1 + relErr (c.places 0)) * (1000 : ℚ) ^ j =
      (|v| * (1000 : ℚ) ^ j + |v| * (1000 : ℚ) ^ j * relErr (c.places 0)) * 10 ^ c.places 0 := by ring
    rw [e2] at h3
    refine h3.trans ?_
    have e3 : |q| * 10 ^ c.places 0 * (1 + 1 / 2 ^ 19) = (|q| * (1 + 1 / 2 ^ 19)) * 10 ^ c.places 0 := by ring
    rw [e3]
    apply mul_le_mul_of_nonneg_right _ p10.le
    linarith

/-- C66. An argument that is a `float` is not changed by its conversion to `double` and back. -/
theorem C66_float_argument {q : ℚ} (M k : ℤ) (hq : q = M * (2 : ℚ) ^ k) (hM : |M| ≤ 2 ^ 24) (hk : -149 ≤ k) (hb : |q| < 2 ^ 128) :
    (Flt.fin q).toFloat = .fin q := by
  apply round32_exact ⟨M, k, hq, hM, hk⟩
  have : (2 : ℚ) ^ (128 : ℤ) = 2 ^ 128 := by norm_num
  rw [this]; exact hb

/-- C66. Deviation from what one may expect: the digits are those of a `float` product, so an integer that a `float` represents exactly is not
printed exactly. `%f` of 16777215 is `16777214.976`. -/
theorem C66_product_deviation : printed (memAt 8000 [37, 102, 0]) 8000 [.dbl (.fin 16777215)] =
    .ok (12, [49, 54, 55, 55, 55, 50, 49, 52, 46, 57, 55, 54]) := by decide +kernel

/-- C66. A precision beyond 255 is taken modulo 256, not as 19: `%.256f` of 1.25 is `1`, `%.255f` is `1.2500000250510966784`. -/
theorem C66_precision_deviation :
    printed (memAt 8000 [37, 46, 50, 53, 54, 102, 0]) 8000 [.dbl (.fin (5 / 4))] = .ok (1, [49]) ∧
    printed (memAt 8000 [37, 46, 50, 53, 53, 102, 0]) 8000 [.dbl (.fin (5 / 4))] =
      .ok (21, [49, 46, 50, 53, 48, 48, 48, 48, 48, 50, 53, 48, 53, 49, 48, 57, 54, 54, 55, 56, 52]) := by decide +kernel

-- `%f` of 3.14159 is `3.142`, `%+08.1F` of 2.25 is `0000+2.3`
example : printed (memAt 8000 [37, 102, 0]) 8000 [.dbl (.fin (314159 / 100000))] = .ok (5, [51, 46, 49, 52, 50]) := by
  have hF : Format (memAt 8000 [37, 102, 0]) 8000 [.conv ⟨[], none, none, .none, 102, .flt (.fin (314159 / 100000))⟩] :=
    ⟨holds_memAt _ _ (by decide) (by decide), by decide, ⟨by simp [Value.HasLetter], by simp, by simp, by simp⟩, trivial⟩
  exact printed_is hF rfl (by decide +kernel) rfl (by decide)

example : printed (memAt 8000 [37, 43, 48, 56, 46, 49, 70, 0]) 8000 [.dbl (.fin (9 / 4))] = .ok (8, [48, 48, 48, 48, 43, 50, 46, 51]) := by
  have hF : Format (memAt 8000 [37, 43, 48, 56, 46, 49, 70, 0]) 8000
      [.conv ⟨[.plus, .zero], some (.digits [56]), some (.digits [49]), .none, 70, .flt (.fin (9 / 4))⟩] := by
    refine ⟨holds_memAt _ _ (by decide) (by decide), by decide, ⟨by simp [Value.HasLetter], ?_, ?_, ?_⟩, trivial⟩
    · simp only [Option.some.injEq, forall_eq']
      exact ⟨⟨by decide, by decide⟩, by decide, by simp⟩
    · simp only [Option.some.injEq, forall_eq']
      exact ⟨by decide, by decide⟩
    · simp only [Option.some.injEq, forall_eq']
      exact ⟨by decide, by decide⟩
  exact printed_is hF rfl (by decide +kernel) rfl (by decide)

/-- The unit of -0.0123 is a thousandth. -/
theorem exEng : EngExp (Flt.fin (-123 / 10000)).toFloat (-1) := by
  refine ⟨by omega, by omega, fun i hi => by omega, fun i hi => ?_, fun h => by omega, fun _ _ => ?_⟩
  · have : i = 0 := by omega
    subst this
    have : ((Flt.fin (-1)).lt ((Flt.fin (-123 / 10000)).toFloat.grow 0) && ((Flt.fin (-123 / 10000)).toFloat.grow 0).lt (.fin 1)) = true := by
      decide +kernel
    exact (below_iff _ 1).1 this
  · intro h
    have h1 := (below_iff _ 1).2 h
    have h2 : ((Flt.fin (-1)).lt (engValue (Flt.fin (-123 / 10000)).toFloat (-1)) &&
      (engValue (Flt.fin (-123 / 10000)).toFloat (-1)).lt (.fin 1)) = false := by decide +kernel
    rw [h2] at h1; cases h1

-- `%.2e` of -0.0123 is `-12.30m`
example : printed (memAt 8000 [37, 46, 50, 101, 0]) 8000 [.dbl (.fin (-123 / 10000))] = .ok (7, [45, 49, 50, 46, 51, 48, 109]) := by
  have hF : Format (memAt 8000 [37, 46, 50, 101, 0]) 8000
      [.conv ⟨[], none, some (.digits [50]), .none, 101, .eng (.fin (-123 / 10000)) (-1)⟩] := by
    refine ⟨holds_memAt _ _ (by decide) (by decide), by decide, ⟨by simp [Value.HasLetter], by simp, ?_, exEng, ?_⟩, trivial⟩
    · simp only [Option.some.injEq, forall_eq']
      exact ⟨by decide, by decide⟩
    · simp only [Option.some.injEq, forall_eq']
      exact ⟨by decide, by decide⟩
  exact printed_is hF rfl (by decide +kernel) rfl (by decide)

-- `%e` of 1e30 is `1000000Y`, `%.1f` of 1e20 `OVER`, `%+5e` of infinity ` +INF`, `%f` of NaN `NAN`, `%.0f` of -0.5 `-1`, `%e` of 0 `0`
example : printed (memAt 8000 [37, 101, 0]) 8000 [.dbl (.fin (10 ^ 30))] = .ok (8, [49, 48, 48, 48, 48, 48, 48, 89]) ∧
    printed (memAt 8000 [37, 46, 49, 102, 0]) 8000 [.dbl (.fin (10 ^ 20))] = .ok (4, [79, 86, 69, 82]) ∧
    printed (memAt 8000 [37, 43, 53, 101, 0]) 8000 [.dbl (.inf false)] = .ok (5, [32, 43, 73, 78, 70]) ∧
    printed (memAt 8000 [37, 102, 0]) 8000 [.dbl .nan] = .ok (3, [78, 65, 78]) ∧
    printed (memAt 8000 [37, 46, 48, 102, 0]) 8000 [.dbl (.fin (-1 / 2))] = .ok (2, [45, 49]) ∧
    printed (memAt 8000 [37, 101, 0]) 8000 [.dbl (.fin 0)] = .ok (1, [48]) := by decide +kernel

end CStr
