import Verif.Lemmas.IntText
import Verif.Props.Misc
/-!
  What the integer conversions do for every input.
-/
namespace CStr

/-! ### What the code does, for every input -/

theorem consume_unsigned_code {m : Mem} {v : View} {l l1 l2 ds rest : List Byte} {o : UInt32} {base L : Nat}
    (h : ViewOf m v l) (h1 : AfterSpaces o l l1) (h2 : AfterPrefix o l1 base l2) (h3 : l2 = ds ++ rest)
    (hds : ∀ b ∈ ds, codeDigit base b = true) (hrest : ∀ b t, rest = b :: t → codeDigit base b = false)
    (hL : L < 18446744073709551616) :
    (ds = [] → consume_unsigned m (some v) o L = .ok (EINVAL, none, some v)) ∧
    (ds ≠ [] → L < codeNum base 0 ds → consume_unsigned m (some v) o L = .ok (ERANGE, none, some v)) ∧
    (ds ≠ [] → codeNum base 0 ds ≤ L → consume_unsigned m (some v) o L =
      .ok (0, some (codeNum base 0 ds), some (v.part (l.length - rest.length) rest.length))) := by
  obtain ⟨p1, rfl, e1⟩ := consume_space_spec h h1
  obtain ⟨p2, w, rfl, e2, hw, hw2⟩ := consume_base_prefix_spec h.suffix h2
  subst h3
  obtain ⟨g1, g2⟩ := consume_digits_code h2.base hw hds hrest
  have hE : EINVAL ≠ 0 := by decide
  have hR : ERANGE ≠ 0 := by decide
  have hvalid : strview_is_valid v = true := is_valid_of h
  have hsv : srcView (some v) = v := rfl
  refine ⟨?_, ?_, ?_⟩
  · intro hd
    simp only [consume_unsigned, hvalid, if_true, hsv, e1, Res.bind_ok, e2, g1 hd, hE, if_false]
  · intro hd hlt
    obtain ⟨err, j, ⟨a1, a2, a3⟩, he⟩ := g2 hd
    simp only [consume_unsigned, hvalid, if_true, hsv, e1, Res.bind_ok, e2, he]
    rcases a3 with ⟨rfl, rfl⟩ | ⟨rfl, -, -⟩
    · rw [List.take_of_length_le (Nat.le_refl _)]
      simp only [gt_iff_lt, hlt, if_true]
    · simp only [hR, if_false]
  · intro hd hle
    obtain ⟨err, j, ⟨a1, a2, a3⟩, he⟩ := g2 hd
    simp only [consume_unsigned, hvalid, if_true, hsv, e1, Res.bind_ok, e2, he]
    rcases a3 with ⟨rfl, rfl⟩ | ⟨-, -, a4⟩
    · rw [List.take_of_length_le (Nat.le_refl _)]
      have : ¬ codeNum base 0 ds > L := by omega
      simp only [if_true, this, if_false, Option.map_some]
      rw [hw2 (by simp [hd]), View.part_part, View.part_part, List.drop_eq_nil_of_le (Nat.le_refl _),
        List.nil_append]
      have : p1.length + (p2.length + ds.length) = (p1 ++ (p2 ++ (ds ++ rest))).length - rest.length := by
        simp only [List.length_append]; omega
      rw [this]
    · have := codeNum_take_le base (by have := h2.base; omega) 0 (j + 1) ds
      omega

theorem castS64_eq (x y : Int) (h : x = y ∨ x = y + 18446744073709551616) (h1 : -9223372036854775808 ≤ y)
    (h2 : y ≤ 9223372036854775807) : castS 64 x = y := by
  have e : (((2 ^ 64 : Nat)) : Int) = 18446744073709551616 := by decide
  unfold castS Int.bmod
  rw [e]
  dsimp only
  split <;> omega

theorem apply_sign_eq (neg : Bool) (n : Nat) : apply_sign neg n =
    if -9223372036854775808 ≤ signedVal neg n ∧ signedVal neg n ≤ 9223372036854775807
    then some (signedVal neg n) else none := by
  unfold apply_sign signedVal
  cases neg
  · simp only [Bool.false_eq_true, if_false]
    by_cases h : n > 9223372036854775807
    · rw [if_pos h, if_neg (by omega)]
    · rw [if_neg h, if_pos (by omega), castS64_eq _ (n : Int) (Or.inl rfl) (by omega) (by omega)]
  · simp only [if_true]
    by_cases h : n > 9223372036854775808
    · rw [if_pos h, if_neg (by omega)]
    · rw [if_neg h, if_pos (by omega), castS64_eq _ (-(n : Int)) ?_ (by omega) (by omega)]
      unfold u64
      omega

theorem consume_signed_code {m : Mem} {v : View} {l l1 l2 l3 ds rest : List Byte} {o : UInt32} {base : Nat}
    {neg : Bool} {lo hi : Int} (h : ViewOf m v l) (h1 : AfterSpaces o l l1) (hs : AfterSign o l1 neg l2)
    (h2 : AfterPrefix o l2 base l3) (h3 : l3 = ds ++ rest)
    (hds : ∀ b ∈ ds, codeDigit base b = true) (hrest : ∀ b t, rest = b :: t → codeDigit base b = false)
    (hlo : -9223372036854775808 ≤ lo) (hhi : hi ≤ 9223372036854775807) :
    (ds = [] → consume_signed m (some v) o lo hi = .ok (EINVAL, none, some v)) ∧
    (ds ≠ [] → ¬ (lo ≤ signedVal neg (codeNum base 0 ds) ∧ signedVal neg (codeNum base 0 ds) ≤ hi) →
      consume_signed m (some v) o lo hi = .ok (ERANGE, none, some v)) ∧
    (ds ≠ [] → lo ≤ signedVal neg (codeNum base 0 ds) ∧ signedVal neg (codeNum base 0 ds) ≤ hi →
      consume_signed m (some v) o lo hi = .ok (0, some (signedVal neg (codeNum base 0 ds)),
        some (v.part (l.length - rest.length) rest.length))) := by
  obtain ⟨p1, rfl, e1⟩ := consume_space_spec h h1
  obtain ⟨p2, rfl, e2⟩ := consume_sign_spec h.suffix hs
  obtain ⟨p3, w, rfl, e3, hw, hw2⟩ := consume_base_prefix_spec h.suffix.suffix h2
  subst h3
  obtain ⟨g1, g2⟩ := consume_digits_code h2.base hw hds hrest
  have hE : EINVAL ≠ 0 := by decide
  have hR : ERANGE ≠ 0 := by decide
  have hvalid : strview_is_valid v = true := is_valid_of h
  have hsv : srcView (some v) = v := rfl
  have sgn : ∀ n : Nat, apply_sign neg n =
      if -9223372036854775808 ≤ signedVal neg n ∧ signedVal neg n ≤ 9223372036854775807
      then some (signedVal neg n) else none := by
    exact fun n => apply_sign_eq neg n
  refine ⟨?_, ?_, ?_⟩
  · intro hd
    simp only [consume_signed, hvalid, if_true, hsv, e1, Res.bind_ok, e2, e3, g1 hd, hE, if_false]
  · intro hd hlt
    obtain ⟨err, j, ⟨a1, a2, a3⟩, he⟩ := g2 hd
    simp only [consume_signed, hvalid, if_true, hsv, e1, Res.bind_ok, e2, e3, he]
    rcases a3 with ⟨rfl, rfl⟩ | ⟨rfl, -, -⟩
    · rw [List.take_of_length_le (Nat.le_refl _), sgn]
      by_cases hc : -9223372036854775808 ≤ signedVal neg (codeNum base 0 ds) ∧
          signedVal neg (codeNum base 0 ds) ≤ 9223372036854775807
      · simp only [hc, and_self, if_true, hlt, if_false]
      · simp only [hc, if_false, if_true]
    · simp only [hR, if_false]
  · intro hd hle
    obtain ⟨err, j, ⟨a1, a2, a3⟩, he⟩ := g2 hd
    simp only [consume_signed, hvalid, if_true, hsv, e1, Res.bind_ok, e2, e3, he]
    rcases a3 with ⟨rfl, rfl⟩ | ⟨-, -, a4⟩
    · rw [List.take_of_length_le (Nat.le_refl _), sgn]
      have hc : -9223372036854775808 ≤ signedVal neg (codeNum base 0 ds) ∧
          signedVal neg (codeNum base 0 ds) ≤ 9223372036854775807 := by omega
      simp only [if_true, hc, and_self, hle, Option.map_some]
      rw [hw2 (by simp [hd]), View.part_part, View.part_part, View.part_part,
        List.drop_eq_nil_of_le (Nat.le_refl _), List.nil_append]
      have : p1.length + (p2.length + (p3.length + ds.length)) =
          (p1 ++ (p2 ++ (p3 ++ (ds ++ rest)))).length - rest.length := by
        simp only [List.length_append]; omega
      rw [this]
    · have h5 := codeNum_take_le base (by have := h2.base; omega) 0 (j + 1) ds
      exfalso
      cases neg <;> simp only [signedVal, if_true, Bool.false_eq_true, if_false] at hle <;> omega

/-- The byte after the digits is not one of the two bytes that the code wrongly accepts as a binary digit. -/
def NoFakeBit (base : Nat) (rest : List UInt8) : Prop :=
  base = 2 → rest.head? ≠ some 0xB0 ∧ rest.head? ≠ some 0xB1

theorem asDigit_of_ne {base : Nat} (h : base ≠ 2) (b : Byte) : asDigit base b = b := by
  simp [asDigit, h]

theorem asDigit_code {base : Nat} (hbase : base = 10 ∨ base = 16 ∨ base = 2) (b : Byte) :
    codeDigit base b = codeDigit base (asDigit base b) ∧
    codeVal base b = codeVal base (asDigit base b) := by
  rcases hbase with rfl | rfl | rfl
  · rw [asDigit_of_ne (by decide)]; exact ⟨rfl, rfl⟩
  · rw [asDigit_of_ne (by decide)]; exact ⟨rfl, rfl⟩
  · revert b
    apply forall_byte
    decide +kernel

theorem asDigit_not_fake (b : Byte) : asDigit 2 b ≠ 0xB0 ∧ asDigit 2 b ≠ 0xB1 := by
  unfold asDigit
  split
  · decide
  · split
    · decide
    · next h1 h2 => simp_all

theorem codeNum_asDigit {base : Nat} (hbase : base = 10 ∨ base = 16 ∨ base = 2) (ds : List Byte) :
    ∀ acc, codeNum base acc (ds.map (asDigit base)) = codeNum base acc ds := by
  induction ds with
  | nil => intro acc; rfl
  | cons b t ih =>
    intro acc
    rw [List.map_cons, codeNum_cons, codeNum_cons, ih, (asDigit_code hbase b).2]

theorem DigitRunActual.code {base : Nat} (hbase : base = 10 ∨ base = 16 ∨ base = 2) {l ds rest : List Byte} {n : Nat}
    (h : DigitRunActual base l ds n rest) : (∀ b ∈ ds, codeDigit base b = true) ∧
      (∀ b t, rest = b :: t → codeDigit base b = false) ∧ codeNum base 0 ds = n := by
  obtain ⟨c1, c2⟩ := h.value.code hbase
  refine ⟨?_, ?_, ?_⟩
  · intro b hb
    rw [(asDigit_code hbase b).1]
    exact c1 _ (List.mem_map_of_mem hb)
  · intro b t e
    cases hc : codeDigit base b with
    | false => rfl
    | true =>
      rw [(asDigit_code hbase b).1] at hc
      refine absurd (isDigitOf_of_codeDigit hbase hc ?_) (h.longest b t e)
      rintro rfl
      exact asDigit_not_fake b
  · rw [← codeNum_asDigit hbase, c2]

theorem asDigit_digit {base : Nat} {b : Byte} (h : IsDigitOf base b) : asDigit base b = b := by
  obtain ⟨d, hd, -⟩ := h
  unfold asDigit
  split
  · next h => rw [h.2] at hd; simp [digitVal] at hd
  · split
    · next h => rw [h.2] at hd; simp [digitVal] at hd
    · rfl

theorem Numeral.digits {base : Nat} {ds : List Byte} {n : Nat} (h : Numeral base ds n) :
    ∀ b ∈ ds, IsDigitOf base b := by
  induction h with
  | nil => simp
  | snoc _ h2 h3 ih =>
    intro b hb
    rcases List.mem_append.mp hb with hb | hb
    · exact ih b hb
    · rw [List.mem_singleton.mp hb]; exact ⟨_, h2, h3⟩

theorem DigitRun.actual {base : Nat} {l ds rest : List Byte} {n : Nat} (h : DigitRun base l ds n rest)
    (hx : NoFakeBit base rest) : DigitRunActual base l ds n rest := by
  refine ⟨h.split, ?_, ?_⟩
  · have : ds.map (asDigit base) = ds := by
      conv => rhs; rw [← List.map_id ds]
      exact List.map_congr_left (fun b hb => asDigit_digit (h.value.digits b hb))
    rw [this]; exact h.value
  · intro b t e
    have : asDigit base b = b := by
      by_cases h2 : base = 2
      · have := hx h2
        rw [e] at this
        simp at this
        simp [asDigit, this]
      · exact asDigit_of_ne h2 b
    rw [this]; exact h.longest b t e

theorem value_u_cases {m : Mem} {v : View} {l l1 l2 ds rest : List Byte} {o : UInt32} {base n : Nat}
    (t : UTy) (dst : Option Nat) (h : ViewOf m v l) (h1 : AfterSpaces o l l1) (h2 : AfterPrefix o l1 base l2)
    (h3 : DigitRunActual base l2 ds n rest) :
    (ds = [] → strnum_value_u t m dst (some v) o = .ok (EINVAL, dst, some v)) ∧
    (ds ≠ [] → t.max < n → strnum_value_u t m dst (some v) o = .ok (ERANGE, dst, some v)) ∧
    (ds ≠ [] → n ≤ t.max → strnum_value_u t m dst (some v) o =
      .ok (0, dst.map (fun _ => n), some (v.part (l.length - rest.length) rest.length))) := by
  obtain ⟨c1, c3, c2⟩ := h3.code h2.base
  have key := fun L hL => consume_unsigned_code (L := L) h h1 h2 h3.split c1 c3 hL
  rw [c2] at key
  have hE : EINVAL ≠ 0 := by decide
  have hR : ERANGE ≠ 0 := by decide
  have hU : ∀ bits L, L = 2 ^ bits - 1 → L < 18446744073709551616 →
      (ds = [] → consume_u m dst (some v) o L bits = .ok (EINVAL, dst, some v)) ∧
      (ds ≠ [] → L < n → consume_u m dst (some v) o L bits = .ok (ERANGE, dst, some v)) ∧
      (ds ≠ [] → n ≤ L → consume_u m dst (some v) o L bits =
        .ok (0, dst.map (fun _ => n), some (v.part (l.length - rest.length) rest.length))) := by
    intro bits L hb hL
    obtain ⟨k1, k2, k3⟩ := key L hL
    refine ⟨fun a => ?_, fun a b => ?_, fun a b => ?_⟩
    · simp only [consume_u, k1 a, Res.bind_ok]
      cases dst <;> simp [hE]
    · simp only [consume_u, k2 a b, Res.bind_ok]
      cases dst <;> simp [hR]
    · simp only [consume_u, k3 a b, Res.bind_ok]
      have : castU bits n = n := Nat.mod_eq_of_lt (by have := Nat.two_pow_pos bits; omega)
      cases dst <;> simp [this]
  cases t with
  | uchar => exact hU 8 255 (by decide) (by decide)
  | ushort => exact hU 16 65535 (by decide) (by decide)
  | uint => exact hU 32 4294967295 (by decide) (by decide)
  | ulong => exact hU 64 18446744073709551615 (by decide) (by decide)
  | ullong =>
    obtain ⟨k1, k2, k3⟩ := key 18446744073709551615 (by decide)
    refine ⟨fun a => ?_, fun a b => ?_, fun a b => ?_⟩
    · simp only [strnum_value_u, strnum_consume_ullong, k1 a, Res.bind_ok]
    · simp only [strnum_value_u, strnum_consume_ullong, k2 a b, Res.bind_ok]
    · simp only [strnum_value_u, strnum_consume_ullong, k3 a b, Res.bind_ok]
      cases dst <;> simp

theorem value_s_cases {m : Mem} {v : View} {l l1 l2 l3 ds rest : List Byte} {o : UInt32} {neg : Bool} {base n : Nat}
    (t : STy) (dst : Option Int) (h : ViewOf m v l) (h1 : AfterSpaces o l l1) (hs : AfterSign o l1 neg l2)
    (h2 : AfterPrefix o l2 base l3) (h3 : DigitRunActual base l3 ds n rest) :
    (ds = [] → strnum_value_s t m dst (some v) o = .ok (EINVAL, dst, some v)) ∧
    (ds ≠ [] → ¬ t.InRange (signedVal neg n) → strnum_value_s t m dst (some v) o = .ok (ERANGE, dst, some v)) ∧
    (ds ≠ [] → t.InRange (signedVal neg n) → strnum_value_s t m dst (some v) o =
      .ok (0, dst.map (fun _ => signedVal neg n), some (v.part (l.length - rest.length) rest.length))) := by
  obtain ⟨c1, c3, c2⟩ := h3.code h2.base
  have key := fun lo hi hlo hhi =>
    consume_signed_code (lo := lo) (hi := hi) h h1 hs h2 h3.split c1 c3 hlo hhi
  rw [c2] at key
  have hE : EINVAL ≠ 0 := by decide
  have hR : ERANGE ≠ 0 := by decide
  have hS : ∀ (bits : Nat) (lo hi : Int), -9223372036854775808 ≤ lo → hi ≤ 9223372036854775807 →
      (∀ x, lo ≤ x ∧ x ≤ hi → castS bits x = x) →
      (ds = [] → consume_s m dst (some v) o lo hi bits = .ok (EINVAL, dst, some v)) ∧
      (ds ≠ [] → ¬ (lo ≤ signedVal neg n ∧ signedVal neg n ≤ hi) →
        consume_s m dst (some v) o lo hi bits = .ok (ERANGE, dst, some v)) ∧
      (ds ≠ [] → lo ≤ signedVal neg n ∧ signedVal neg n ≤ hi → consume_s m dst (some v) o lo hi bits =
        .ok (0, dst.map (fun _ => signedVal neg n), some (v.part (l.length - rest.length) rest.length))) := by
    intro bits lo hi h1 h2 h3
    obtain ⟨k1, k2, k3⟩ := key lo hi h1 h2
    refine ⟨fun a => ?_, fun a b => ?_, fun a b => ?_⟩
    · simp only [consume_s, k1 a, Res.bind_ok]
      cases dst <;> simp [hE]
    · simp only [consume_s, k2 a b, Res.bind_ok]
      cases dst <;> simp [hR]
    · simp only [consume_s, k3 a b, Res.bind_ok]
      cases dst <;> simp [h3 _ b]
  cases t with
  | char => exact hS 8 (-128) 127 (by decide) (by decide) (fun x hx => by simp only [castS, Int.bmod]; omega)
  | short => exact hS 16 (-32768) 32767 (by decide) (by decide) (fun x hx => by simp only [castS, Int.bmod]; omega)
  | int => exact hS 32 INT_MIN INT_MAX (by decide) (by decide) (fun x hx => by
      simp only [castS, Int.bmod, INT_MIN, INT_MAX] at *; omega)
  | long => exact hS 64 (-9223372036854775808) 9223372036854775807 (by decide) (by decide) (fun x hx => by
      simp only [castS, Int.bmod]; omega)
  | llong =>
    obtain ⟨k1, k2, k3⟩ := key (-9223372036854775808) 9223372036854775807 (by decide) (by decide)
    refine ⟨fun a => ?_, fun a b => ?_, fun a b => ?_⟩
    · simp only [strnum_value_s, strnum_consume_llong, k1 a, Res.bind_ok]
    · have b' : ¬ (-9223372036854775808 ≤ signedVal neg n ∧ signedVal neg n ≤ 9223372036854775807) := b
      simp only [strnum_value_s, strnum_consume_llong, k2 a b', Res.bind_ok]
    · have b' : -9223372036854775808 ≤ signedVal neg n ∧ signedVal neg n ≤ 9223372036854775807 := b
      simp only [strnum_value_s, strnum_consume_llong, k3 a b', Res.bind_ok]
      cases dst <;> simp

/-! ### Every text can be split in the specified way, in one way only -/

theorem AfterSpaces.exists (o : UInt32) (l : List Byte) : ∃ r, AfterSpaces o l r := by
  unfold AfterSpaces
  split
  · exact ⟨l, rfl⟩
  · induction l with
    | nil => exact ⟨[], 0, rfl, by simp⟩
    | cons b t ih =>
      by_cases hb : b = 32
      · subst hb
        obtain ⟨r, n, rfl, hr⟩ := ih
        exact ⟨r, n + 1, rfl, hr⟩
      · exact ⟨b :: t, 0, rfl, by simpa using hb⟩

theorem replicate_append_unique {c : Byte} : ∀ (n k : Nat) {r r' : List Byte},
    List.replicate n c ++ r = List.replicate k c ++ r' → r.head? ≠ some c → r'.head? ≠ some c → r = r'
  | 0, 0, _, _, h, _, _ => by simpa using h
  | 0, k + 1, r, r', h, h1, _ => by subst h; simp [List.replicate_succ] at h1
  | n + 1, 0, r, r', h, _, h2 => by subst h; simp [List.replicate_succ] at h2
  | n + 1, k + 1, r, r', h, h1, h2 => by
    simp only [List.replicate_succ, List.cons_append, List.cons.injEq, true_and] at h
    exact replicate_append_unique n k h h1 h2

theorem AfterSpaces.unique {o : UInt32} {l r r' : List Byte} (h : AfterSpaces o l r) (h' : AfterSpaces o l r') :
    r = r' := by
  unfold AfterSpaces at h h'
  split at h
  · next hf =>
    rw [if_pos hf] at h'
    rw [h, h']
  · next hf =>
    rw [if_neg hf] at h'
    obtain ⟨n, e, hr⟩ := h
    obtain ⟨k, e', hr'⟩ := h'
    exact replicate_append_unique n k (e.symm.trans e') hr hr'

theorem AfterSign.exists (o : UInt32) (l : List Byte) : ∃ neg r, AfterSign o l neg r := by
  cases hf : flag o STRNUM_NOSIGN with
  | true => exact ⟨false, l, .none l (.inl hf)⟩
  | false =>
    cases l with
    | nil => exact ⟨false, [], .none _ (.inr (by simp))⟩
    | cons b t =>
      by_cases h1 : b = 45
      · subst h1; exact ⟨true, t, .minus t hf⟩
      · by_cases h2 : b = 43
        · subst h2; exact ⟨false, t, .plus t hf⟩
        · exact ⟨false, b :: t, .none _ (.inr (by simp [h1, h2]))⟩

theorem AfterSign.unique {o : UInt32} {l r r' : List Byte} {neg neg' : Bool} (h : AfterSign o l neg r)
    (h' : AfterSign o l neg' r') : neg = neg' ∧ r = r' := by
  cases h with
  | minus r hf =>
    cases h' with
    | minus => exact ⟨rfl, rfl⟩
    | none _ h => simp [hf] at h
  | plus r hf =>
    cases h' with
    | plus => exact ⟨rfl, rfl⟩
    | none _ h => simp [hf] at h
  | none _ h =>
    cases h' with
    | minus r hf => simp [hf] at h
    | plus r hf => simp [hf] at h
    | none => exact ⟨rfl, rfl⟩

theorem AfterPrefix.exists (o : UInt32) (l : List Byte) : ∃ base r, AfterPrefix o l base r := by
  classical
  cases hf : flag o STRNUM_NOBX with
  | true => exact ⟨_, l, .none (.inl hf)⟩
  | false =>
    by_cases hb : flag o STRNUM_BASE_HEX = false ∧ ∃ r, BinPrefix l r
    · obtain ⟨h1, r, h2⟩ := hb; exact ⟨2, r, .bin hf h1 h2⟩
    · by_cases hx : flag o STRNUM_BASE_BIN = false ∧ ∃ r, HexPrefix l r
      · obtain ⟨h1, r, h2⟩ := hx; exact ⟨16, r, .hex hf h1 h2⟩
      · refine ⟨_, l, .none (.inr ⟨?_, ?_⟩)⟩
        · by_cases h1 : flag o STRNUM_BASE_HEX = true
          · exact .inl h1
          · exact .inr fun r h2 => hb ⟨by simpa using h1, r, h2⟩
        · by_cases h1 : flag o STRNUM_BASE_BIN = true
          · exact .inl h1
          · exact .inr fun r h2 => hx ⟨by simpa using h1, r, h2⟩

theorem BinPrefix.unique {l r r' : List Byte} (h : BinPrefix l r) (h' : BinPrefix l r') : r = r' := by
  rcases h with rfl | rfl <;> rcases h' with h' | h' <;> simp_all

theorem HexPrefix.unique {l r r' : List Byte} (h : HexPrefix l r) (h' : HexPrefix l r') : r = r' := by
  rcases h with rfl | rfl <;> rcases h' with h' | h' <;> simp_all

theorem BinPrefix.not_hex {l r r' : List Byte} (h : BinPrefix l r) (h' : HexPrefix l r') : False := by
  rcases h with rfl | rfl <;> rcases h' with h' | h' <;> simp_all

theorem AfterPrefix.unique {o : UInt32} {l r r' : List Byte} {base base' : Nat} (h : AfterPrefix o l base r)
    (h' : AfterPrefix o l base' r') : base = base' ∧ r = r' := by
  cases h with
  | bin h1 h2 h3 =>
    cases h' with
    | bin _ _ h3' => exact ⟨rfl, h3.unique h3'⟩
    | hex _ _ h3' => exact (h3.not_hex h3').elim
    | none h => exact absurd h3 (by simp [h1, h2] at h; exact h.1 r)
  | hex h1 h2 h3 =>
    cases h' with
    | bin _ _ h3' => exact (h3'.not_hex h3).elim
    | hex _ _ h3' => exact ⟨rfl, h3.unique h3'⟩
    | none h => exact absurd h3 (by simp [h1, h2] at h; exact h.2 r)
  | none h =>
    cases h' with
    | bin h1 h2 h3 => exact absurd h3 (by simp [h1, h2] at h; exact h.1 r')
    | hex h1 h2 h3 => exact absurd h3 (by simp [h1, h2] at h; exact h.2 r')
    | none => exact ⟨rfl, rfl⟩

theorem run_exists (p : Byte → Prop) [DecidablePred p] (l : List Byte) :
    ∃ ds rest, l = ds ++ rest ∧ (∀ b ∈ ds, p b) ∧ ∀ b t, rest = b :: t → ¬ p b := by
  induction l with
  | nil => exact ⟨[], [], rfl, by simp, by simp⟩
  | cons b t ih =>
    by_cases hb : p b
    · obtain ⟨ds, rest, rfl, h1, h2⟩ := ih
      refine ⟨b :: ds, rest, rfl, ?_, h2⟩
      intro x hx
      rcases List.mem_cons.mp hx with rfl | hx
      · exact hb
      · exact h1 x hx
    · refine ⟨[], b :: t, rfl, by simp, ?_⟩
      intro x t' e
      cases e
      exact hb

theorem run_unique {p : Byte → Prop} : ∀ {ds ds' rest rest' : List Byte}, ds ++ rest = ds' ++ rest' →
    (∀ b ∈ ds, p b) → (∀ b t, rest = b :: t → ¬ p b) → (∀ b ∈ ds', p b) → (∀ b t, rest' = b :: t → ¬ p b) →
    ds = ds' ∧ rest = rest'
  | [], [], _, _, e, _, _, _, _ => ⟨rfl, by simpa using e⟩
  | [], b :: ds', rest, rest', e, _, h2, h3, _ => by
    exact absurd (h3 b (by simp)) (h2 b (ds' ++ rest') (by simpa using e))
  | b :: ds, [], rest, rest', e, h1, _, _, h4 => by
    exact absurd (h1 b (by simp)) (h4 b (ds ++ rest) (by simpa using e.symm))
  | b :: ds, b' :: ds', rest, rest', e, h1, h2, h3, h4 => by
    simp only [List.cons_append, List.cons.injEq] at e
    obtain ⟨i1, i2⟩ := run_unique e.2 (fun x hx => h1 x (by simp [hx])) h2 (fun x hx => h3 x (by simp [hx])) h4
    exact ⟨by rw [e.1, i1], i2⟩

theorem Numeral.exists {base : Nat} : ∀ (ds : List Byte), (∀ b ∈ ds, IsDigitOf base b) → ∀ {pre : List Byte} {k : Nat},
    Numeral base pre k → ∃ n, Numeral base (pre ++ ds) n
  | [], _, pre, k, hp => ⟨k, by simpa using hp⟩
  | b :: ds, h, pre, k, hp => by
    obtain ⟨d, h1, h2⟩ := h b (by simp)
    obtain ⟨n, hn⟩ := Numeral.exists ds (fun x hx => h x (by simp [hx])) (hp.snoc h1 h2)
    exact ⟨n, by simpa using hn⟩

theorem Numeral.unique {base : Nat} (hbase : base = 10 ∨ base = 16 ∨ base = 2) {ds : List Byte} {n n' : Nat}
    (h : Numeral base ds n) (h' : Numeral base ds n') : n = n' :=
  (h.code hbase).2.symm.trans (h'.code hbase).2

theorem DigitRun.exists (base : Nat) (l : List Byte) : ∃ ds n rest, DigitRun base l ds n rest := by
  classical
  obtain ⟨ds, rest, h1, h2, h3⟩ := run_exists (IsDigitOf base) l
  obtain ⟨n, hn⟩ := Numeral.exists ds h2 Numeral.nil
  exact ⟨ds, n, rest, h1, hn, h3⟩

theorem DigitRun.unique {base : Nat} (hbase : base = 10 ∨ base = 16 ∨ base = 2) {l ds ds' rest rest' : List Byte}
    {n n' : Nat} (h : DigitRun base l ds n rest) (h' : DigitRun base l ds' n' rest') :
    ds = ds' ∧ n = n' ∧ rest = rest' := by
  obtain ⟨rfl, rfl⟩ := run_unique (h.split.symm.trans h'.split) h.value.digits h.longest h'.value.digits h'.longest
  exact ⟨rfl, h.value.unique hbase h'.value, rfl⟩

theorem DigitRunActual.exists (base : Nat) (l : List Byte) : ∃ ds n rest, DigitRunActual base l ds n rest := by
  classical
  obtain ⟨ds, rest, h1, h2, h3⟩ := run_exists (fun b => IsDigitOf base (asDigit base b)) l
  obtain ⟨n, hn⟩ := Numeral.exists (ds.map (asDigit base)) (by simpa using h2) Numeral.nil
  exact ⟨ds, n, rest, h1, hn, h3⟩

/-! ### All possible results -/

theorem consume_unsigned_cases {m : Mem} {src : Option View} (hsrc : ∀ v, src = some v → AnyView m v) (o : UInt32)
    {L : Nat} (hL : L < 18446744073709551616) :
    (∃ err, (err = EINVAL ∨ err = ERANGE) ∧ consume_unsigned m src o L = .ok (err, none, src)) ∨
    (∃ n w, n ≤ L ∧ AnyView m w ∧ consume_unsigned m src o L = .ok (0, some n, some w)) := by
  cases src with
  | none => exact .inl ⟨EINVAL, .inl rfl, rfl⟩
  | some v =>
    rcases hsrc v rfl with rfl | ⟨l, h⟩
    · exact .inl ⟨EINVAL, .inl rfl, rfl⟩
    · obtain ⟨l1, h1⟩ := AfterSpaces.exists o l
      obtain ⟨base, l2, h2⟩ := AfterPrefix.exists o l1
      obtain ⟨ds, rest, h3, h4, h5⟩ := run_exists (fun b => codeDigit base b = true) l2
      obtain ⟨k1, k2, k3⟩ := consume_unsigned_code h h1 h2 h3 h4 (fun b t e => by simpa using h5 b t e) hL
      by_cases hd : ds = []
      · exact .inl ⟨_, .inl rfl, k1 hd⟩
      · by_cases hn : codeNum base 0 ds ≤ L
        · refine .inr ⟨_, _, hn, .inr ⟨rest, ?_⟩, k3 hd hn⟩
          obtain ⟨p1, rfl, -⟩ := consume_space_spec h h1
          obtain ⟨p2, -, rfl, -⟩ := consume_base_prefix_spec h.suffix h2
          subst h3
          have h' : ViewOf m v ((p1 ++ p2 ++ ds) ++ rest) := by simpa using h
          have := h'.suffix
          have e : (p1 ++ (p2 ++ (ds ++ rest))).length - rest.length = (p1 ++ p2 ++ ds).length := by simp; omega
          rw [e]; exact this
        · exact .inl ⟨_, .inr rfl, k2 hd (by omega)⟩

theorem consume_signed_cases {m : Mem} {src : Option View} (hsrc : ∀ v, src = some v → AnyView m v) (o : UInt32)
    {lo hi : Int} (hlo : -9223372036854775808 ≤ lo) (hhi : hi ≤ 9223372036854775807) :
    (∃ err, (err = EINVAL ∨ err = ERANGE) ∧ consume_signed m src o lo hi = .ok (err, none, src)) ∨
    (∃ n w, lo ≤ n ∧ n ≤ hi ∧ AnyView m w ∧ consume_signed m src o lo hi = .ok (0, some n, some w)) := by
  cases src with
  | none => exact .inl ⟨EINVAL, .inl rfl, rfl⟩
  | some v =>
    rcases hsrc v rfl with rfl | ⟨l, h⟩
    · exact .inl ⟨EINVAL, .inl rfl, rfl⟩
    · obtain ⟨l1, h1⟩ := AfterSpaces.exists o l
      obtain ⟨neg, l2, hs⟩ := AfterSign.exists o l1
      obtain ⟨base, l3, h2⟩ := AfterPrefix.exists o l2
      obtain ⟨ds, rest, h3, h4, h5⟩ := run_exists (fun b => codeDigit base b = true) l3
      obtain ⟨k1, k2, k3⟩ := consume_signed_code h h1 hs h2 h3 h4 (fun b t e => by simpa using h5 b t e) hlo hhi
      by_cases hd : ds = []
      · exact .inl ⟨_, .inl rfl, k1 hd⟩
      · by_cases hn : lo ≤ signedVal neg (codeNum base 0 ds) ∧ signedVal neg (codeNum base 0 ds) ≤ hi
        · refine .inr ⟨_, _, hn.1, hn.2, .inr ⟨rest, ?_⟩, k3 hd hn⟩
          obtain ⟨p1, rfl, -⟩ := consume_space_spec h h1
          obtain ⟨p2, rfl, -⟩ := consume_sign_spec h.suffix hs
          obtain ⟨p3, -, rfl, -⟩ := consume_base_prefix_spec h.suffix.suffix h2
          subst h3
          have h' : ViewOf m v ((p1 ++ p2 ++ p3 ++ ds) ++ rest) := by simpa using h
          have := h'.suffix
          have e : (p1 ++ (p2 ++ (p3 ++ (ds ++ rest)))).length - rest.length = (p1 ++ p2 ++ p3 ++ ds).length := by
            simp; omega
          rw [e]; exact this
        · exact .inl ⟨_, .inr rfl, k2 hd hn⟩

end CStr
