import Verif.Spec.Num
import Verif.Lemmas.Strview
import Verif.Lemmas.Examples
import Verif.Props.SubTrim
import Verif.Props.Compare
/-! Helper lemmas for strnum.c. -/
namespace CStr

theorem forall_byte {P : UInt8 → Prop} (h : ∀ n : Fin 256, P (UInt8.ofFin n)) (b : UInt8) : P b := h b.toFin

/-! ### digits as the code sees them -/

/-- The digit test used for each base. -/
def codeDigit (base : Nat) (b : Byte) : Bool :=
  if base = 10 then isDigit b else if base = 16 then isXDigit b else isbdigit b

/-- The digit value used for each base. -/
def codeVal (base : Nat) (b : Byte) : Nat :=
  if base = 10 then (b &&& 0x0F).toNat else if base = 16 then xdigit_value b else (b &&& 1).toNat

def codeNum (base : Nat) (acc : Nat) (ds : List Byte) : Nat := ds.foldl (fun a b => a * base + codeVal base b) acc

theorem codeNum_nil (base acc : Nat) : codeNum base acc [] = acc := rfl
theorem codeNum_cons (base acc : Nat) (b : Byte) (ds : List Byte) :
    codeNum base acc (b :: ds) = codeNum base (acc * base + codeVal base b) ds := rfl
theorem codeNum_append (base acc : Nat) (l r : List Byte) :
    codeNum base acc (l ++ r) = codeNum base (codeNum base acc l) r := by
  simp [codeNum, List.foldl_append]

theorem codeNum_ge (base : Nat) (hb : 0 < base) (acc : Nat) (ds : List Byte) : acc ≤ codeNum base acc ds := by
  induction ds generalizing acc with
  | nil => exact Nat.le_refl _
  | cons b ds ih =>
    rw [codeNum_cons]
    exact Nat.le_trans (Nat.le_trans (Nat.le_mul_of_pos_right acc hb) (Nat.le_add_right _ _)) (ih _)

theorem codeNum_take_le (base : Nat) (hb : 0 < base) (acc k : Nat) (ds : List Byte) :
    codeNum base acc (ds.take k) ≤ codeNum base acc ds := by
  conv => rhs; rw [← List.take_append_drop k ds, codeNum_append]
  exact codeNum_ge base hb _ _

theorem isDigit_val : ∀ b : Byte, isDigit b = true → (b &&& 0x0F).toNat < 10 ∧
    digitVal b = some (b &&& 0x0F).toNat := by
  apply forall_byte; decide +kernel

theorem isXDigit_val : ∀ b : Byte, isXDigit b = true → xdigit_value b < 16 ∧
    digitVal b = some (xdigit_value b) := by
  apply forall_byte; decide +kernel

theorem isbdigit_val : ∀ b : Byte, isbdigit b = true → (b = 48 ∨ b = 49 ∨ b = 0xB0 ∨ b = 0xB1) ∧
    (b = 48 ∨ b = 49 → digitVal b = some (b &&& 1).toNat) ∧ (b &&& 1).toNat < 2 := by
  apply forall_byte; decide +kernel

theorem digitVal_dec : ∀ b : Byte, (∀ d, digitVal b = some d → d < 10 → isDigit b = true) := by
  apply forall_byte
  have : ∀ n : Fin 256, (match digitVal (UInt8.ofFin n) with
    | some d => decide (d < 10 → isDigit (UInt8.ofFin n) = true) | none => true) = true := by decide +kernel
  intro n d hd hlt
  have := this n
  rw [hd] at this
  simpa [hlt] using this

theorem digitVal_hex : ∀ b : Byte, (∀ d, digitVal b = some d → isXDigit b = true) := by
  apply forall_byte
  have : ∀ n : Fin 256, (match digitVal (UInt8.ofFin n) with
    | some _ => isXDigit (UInt8.ofFin n) | none => true) = true := by decide +kernel
  intro n d hd
  have := this n
  rw [hd] at this
  simpa using this

theorem digitVal_bin : ∀ b : Byte, (∀ d, digitVal b = some d → d < 2 → b = 48 ∨ b = 49) := by
  apply forall_byte
  have : ∀ n : Fin 256, (match digitVal (UInt8.ofFin n) with
    | some d => decide (d < 2 → (UInt8.ofFin n = 48 ∨ UInt8.ofFin n = 49)) | none => true) = true := by
    decide +kernel
  intro n d hd hlt
  have := this n
  rw [hd] at this
  simpa [hlt] using this

theorem codeVal_lt {base : Nat} (hbase : base = 10 ∨ base = 16 ∨ base = 2) {b : Byte}
    (h : codeDigit base b = true) : codeVal base b < base := by
  rcases hbase with rfl | rfl | rfl
  · exact (isDigit_val b h).1
  · exact (isXDigit_val b h).1
  · exact (isbdigit_val b h).2.2

theorem codeDigit_of_isDigitOf {base : Nat} (hbase : base = 10 ∨ base = 16 ∨ base = 2) {b : Byte} {d : Nat}
    (h : digitVal b = some d) (hd : d < base) : codeDigit base b = true ∧ codeVal base b = d := by
  rcases hbase with rfl | rfl | rfl
  · have h1 := digitVal_dec b d h hd
    refine ⟨h1, ?_⟩
    have := (isDigit_val b h1).2
    rw [h] at this
    exact (Option.some.inj this).symm
  · have h1 := digitVal_hex b d h
    refine ⟨h1, ?_⟩
    have := (isXDigit_val b h1).2
    rw [h] at this
    exact (Option.some.inj this).symm
  · have h1 := digitVal_bin b d h hd
    have h2 : isbdigit b = true := by rcases h1 with rfl | rfl <;> rfl
    refine ⟨h2, ?_⟩
    have := (isbdigit_val b h2).2.1 h1
    rw [h] at this
    exact (Option.some.inj this).symm

/-- A code digit is a digit of the base, except for the bytes 0xB0 and 0xB1 in base 2. -/
theorem isDigitOf_of_codeDigit {base : Nat} (hbase : base = 10 ∨ base = 16 ∨ base = 2) {b : Byte}
    (h : codeDigit base b = true) (hx : base = 2 → b ≠ 0xB0 ∧ b ≠ 0xB1) : IsDigitOf base b := by
  rcases hbase with rfl | rfl | rfl
  · exact ⟨_, (isDigit_val b h).2, (isDigit_val b h).1⟩
  · exact ⟨_, (isXDigit_val b h).2, (isXDigit_val b h).1⟩
  · obtain ⟨h1, h2, h3⟩ := isbdigit_val b h
    have hx := hx rfl
    have : b = 48 ∨ b = 49 := by
      rcases h1 with h1 | h1 | h1 | h1
      · exact .inl h1
      · exact .inr h1
      · exact absurd h1 hx.1
      · exact absurd h1 hx.2
    exact ⟨_, h2 this, h3⟩

theorem Numeral.code {base : Nat} (hbase : base = 10 ∨ base = 16 ∨ base = 2) {ds : List Byte} {n : Nat}
    (h : Numeral base ds n) : (∀ b ∈ ds, codeDigit base b = true) ∧ codeNum base 0 ds = n := by
  induction h with
  | nil => simp [codeNum_nil]
  | snoc _ h1 h2 ih =>
    obtain ⟨e1, e2⟩ := codeDigit_of_isDigitOf hbase h1 h2
    refine ⟨?_, ?_⟩
    · intro b hb
      rcases List.mem_append.1 hb with hb | hb
      · exact ih.1 b hb
      · rw [List.mem_singleton.1 hb]; exact e1
    · rw [codeNum_append, ih.2, codeNum_cons, codeNum_nil, e2]

/-! ### popping one character -/

theorem first_is_cons {m : Mem} {a : Addr} {b : Byte} {l : List Byte} (p : Byte → Bool) (h : Holds m a (b :: l)) :
    first_is m p ⟨a, (b :: l).length⟩ = .ok (p b) := by
  have hne : ((b :: l).length : Int) ≠ 0 := by simp only [List.length_cons]; omega
  simp only [first_is, hne, ne_eq, not_false_eq_true, if_true, h.load_head, Res.bind_ok]

theorem first_is_nil (m : Mem) (a : Addr) (p : Byte → Bool) : first_is m p ⟨a, ([] : List Byte).length⟩ = .ok false := by
  simp [first_is]

/-! ### decimal -/

theorem dec_loop_spec {m : Mem} {limit M : Nat} {wrap : Nat → Nat} (hwrap : ∀ x, x < M → wrap x = x)
    (hlim : ∀ x d, x < limit → d < 10 → x * 10 + d < M) (rest : List Byte)
    (hrest : ∀ b t, rest = b :: t → isDigit b = false) (ds : List Byte) {a : Addr} {A k : Nat}
    (h : Holds m a (ds ++ rest)) (hds : ∀ b ∈ ds, isDigit b = true) (hA : A < M) (hk : ds.length < k) :
    ∃ j, j ≤ ds.length ∧ codeNum 10 A (ds.take j) < M ∧
      dec_loop m limit wrap k ⟨a, (ds ++ rest).length⟩ A
        = .ok (⟨a + j, (ds.drop j ++ rest).length⟩, codeNum 10 A (ds.take j)) := by
  induction ds generalizing a A k with
  | nil =>
    refine ⟨0, Nat.le_refl _, hA, ?_⟩
    cases k with
    | zero => simp at hk
    | succ k =>
      cases rest with
      | nil => simp [dec_loop, codeNum_nil]
      | cons b t =>
        have hne : (([] ++ b :: t : List Byte).length : Int) ≠ 0 := by simp; omega
        have h' : Holds m a (b :: t) := h
        simp only [dec_loop, hne, ne_eq, not_false_eq_true, if_true, h'.load_head, Res.bind_ok,
          hrest b t rfl, Bool.false_eq_true, false_and, if_false]
        simp [codeNum_nil]
  | cons b ds ih =>
    cases k with
    | zero => simp at hk
    | succ k =>
      have hd := hds b (by simp)
      have h' : Holds m a (b :: (ds ++ rest)) := h
      have hne : ((b :: ds ++ rest : List Byte).length : Int) ≠ 0 := by simp; omega
      by_cases hlt : A < limit
      · have hv := isDigit_val b hd
        have hstep := hlim A _ hlt hv.1
        obtain ⟨j, j1, j2, j3⟩ := ih (a := a + 1) (A := A * 10 + (b &&& 0x0F).toNat) (k := k)
          (Holds.cons_iff.1 h').2 (fun x hx => hds x (by simp [hx])) hstep (by simp at hk; omega)
        refine ⟨j + 1, by simp; omega, ?_, ?_⟩
        · rw [List.take_succ_cons, codeNum_cons]; exact j2
        · simp only [dec_loop, hne, ne_eq, not_false_eq_true, if_true, h'.load_head, Res.bind_ok, hd, hlt,
            and_self]
          rw [show (b :: ds ++ rest : List Byte) = b :: (ds ++ rest) from rfl, pop_first_cons h']
          simp only [Res.bind_ok]
          rw [hwrap (A * 10) (by omega), hwrap _ hstep, j3]
          have e : a + 1 + (j : Int) = a + ((j + 1 : Nat) : Int) := by omega
          rw [e]; rfl
      · refine ⟨0, by simp, hA, ?_⟩
        simp only [dec_loop, hne, ne_eq, not_false_eq_true, if_true, h'.load_head, Res.bind_ok, hlt, and_false,
          if_false]
        simp [codeNum_nil]

/-- Outcome of reading the digits `ds` with initial value `A`: `j` of them are consumed, all unless the value
would not fit 64 bits. -/
def DigitsOut (base A : Nat) (ds : List Byte) (err : Int) (j : Nat) : Prop :=
  j ≤ ds.length ∧ codeNum base A (ds.take j) < 18446744073709551616 ∧
    ((err = 0 ∧ j = ds.length) ∨
     (err = ERANGE ∧ j < ds.length ∧ 18446744073709551616 ≤ codeNum base A (ds.take (j + 1))))

theorem DigitsOut.cons {base A : Nat} {b : Byte} {ds : List Byte} {err : Int} {j : Nat}
    (h : DigitsOut base (A * base + codeVal base b) ds err j) : DigitsOut base A (b :: ds) err (j + 1) := by
  obtain ⟨h1, h2, h3⟩ := h
  refine ⟨by simp; omega, by rw [List.take_succ_cons, codeNum_cons]; exact h2, ?_⟩
  rcases h3 with ⟨e, h3⟩ | ⟨e, h3, h4⟩
  · exact .inl ⟨e, by simp [h3]⟩
  · refine .inr ⟨e, by simp; omega, ?_⟩
    rw [List.take_succ_cons, codeNum_cons]; exact h4

theorem dec_ull_stop {m : Mem} {a : Addr} {l : List Byte} {res k : Nat} (h : Holds m a l) (hk : 0 < k) :
    dec_ull_loop m k ERANGE ⟨a, l.length⟩ res = .ok (ERANGE, ⟨a, l.length⟩, res) := by
  obtain ⟨k, rfl⟩ : ∃ k', k = k' + 1 := ⟨k - 1, by omega⟩
  cases l with
  | nil => simp [dec_ull_loop]
  | cons b t =>
    have hne : ((b :: t : List Byte).length : Int) ≠ 0 := by simp; omega
    have : ERANGE ≠ 0 := by decide
    simp only [dec_ull_loop, hne, ne_eq, not_false_eq_true, if_true, h.load_head, Res.bind_ok, this, and_false,
      if_false]

theorem dec_ull_loop_spec {m : Mem} (rest : List Byte)
    (hrest : ∀ b t, rest = b :: t → isDigit b = false) (ds : List Byte) {a : Addr} {A k : Nat}
    (h : Holds m a (ds ++ rest)) (hds : ∀ b ∈ ds, isDigit b = true) (hA : A < 18446744073709551616)
    (hk : ds.length + 1 < k) :
    ∃ err j, DigitsOut 10 A ds err j ∧
      dec_ull_loop m k 0 ⟨a, (ds ++ rest).length⟩ A
        = .ok (err, ⟨a + j, (ds.drop j ++ rest).length⟩, codeNum 10 A (ds.take j)) := by
  induction ds generalizing a A k with
  | nil =>
    refine ⟨0, 0, ⟨Nat.le_refl _, hA, .inl ⟨rfl, rfl⟩⟩, ?_⟩
    cases k with
    | zero => simp at hk
    | succ k =>
      cases rest with
      | nil => simp [dec_ull_loop, codeNum_nil]
      | cons b t =>
        have hne : (([] ++ b :: t : List Byte).length : Int) ≠ 0 := by simp; omega
        have h' : Holds m a (b :: t) := h
        simp only [dec_ull_loop, hne, ne_eq, not_false_eq_true, if_true, h'.load_head, Res.bind_ok,
          hrest b t rfl, Bool.false_eq_true, false_and, if_false]
        simp [codeNum_nil]
  | cons b ds ih =>
    cases k with
    | zero => simp at hk
    | succ k =>
      have hd := hds b (by simp)
      have hv := (isDigit_val b hd).1
      have h' : Holds m a (b :: (ds ++ rest)) := h
      have hne : ((b :: (ds ++ rest) : List Byte).length : Int) ≠ 0 := by simp; omega
      have hcv : codeVal 10 b = (b &&& 0x0F).toNat := rfl
      have hover : 18446744073709551616 ≤ A * 10 + (b &&& 0x0F).toNat →
          DigitsOut 10 A (b :: ds) ERANGE 0 := by
        intro hov
        refine ⟨by simp, hA, .inr ⟨rfl, by simp, ?_⟩⟩
        simp only [Nat.zero_add, List.take_succ_cons, List.take_zero, codeNum_cons, codeNum_nil, hcv]
        exact hov
      rw [show (b :: ds ++ rest : List Byte) = b :: (ds ++ rest) from rfl]
      simp only [dec_ull_loop, hne, ne_eq, not_false_eq_true, if_true, h'.load_head, Res.bind_ok, hd, and_self]
      by_cases hbig : A > 1844674407370955161
      · refine ⟨ERANGE, 0, hover (by omega), ?_⟩
        simp only [hbig, if_true]
        rw [dec_ull_stop h' (by simp at hk; omega)]
        simp [codeNum_nil]
      · simp only [hbig, if_false]
        have hw : u64 (A * 10) = A * 10 := Nat.mod_eq_of_lt (by omega)
        rw [hw]
        by_cases hov : 18446744073709551616 ≤ A * 10 + (b &&& 0x0F).toNat
        · have hlt : u64 (A * 10 + (b &&& 0x0F).toNat) < A * 10 := by unfold u64; omega
          refine ⟨ERANGE, 0, hover hov, ?_⟩
          simp only [hlt, if_true]
          rw [dec_ull_stop h' (by simp at hk; omega)]
          simp [codeNum_nil]
        · have hw2 : u64 (A * 10 + (b &&& 0x0F).toNat) = A * 10 + (b &&& 0x0F).toNat :=
            Nat.mod_eq_of_lt (by omega)
          have hlt : ¬ (A * 10 + (b &&& 0x0F).toNat < A * 10) := by omega
          obtain ⟨err, j, j1, j2⟩ := ih (a := a + 1) (A := A * 10 + (b &&& 0x0F).toNat) (k := k)
            (Holds.cons_iff.1 h').2 (fun x hx => hds x (by simp [hx])) (by omega) (by simp at hk; omega)
          refine ⟨err, j + 1, DigitsOut.cons j1, ?_⟩
          rw [hw2]
          simp only [hlt, if_false]
          rw [pop_first_cons h']
          simp only [Res.bind_ok]
          rw [j2]
          have e : a + 1 + (j : Int) = a + ((j + 1 : Nat) : Int) := by omega
          rw [e]; rfl

/-! ### hexadecimal and binary -/

theorem upper_nibble_iff {i : Nat} (hi : i < 18446744073709551616) :
    upper_nibble_ull_is_zero i = true ↔ i < 1152921504606846976 := by
  have hmask : (0xF <<< 60 : Nat) >>> 60 = 2 ^ 4 - 1 := by decide
  simp only [upper_nibble_ull_is_zero, beq_iff_eq]
  constructor
  · intro h
    have h2 : (i &&& (0xF <<< 60)) >>> 60 = 0 := by rw [h]; rfl
    rw [Nat.shiftRight_and_distrib, hmask, Nat.and_two_pow_sub_one_eq_mod, Nat.shiftRight_eq_div_pow] at h2
    omega
  · intro h
    apply Nat.eq_of_testBit_eq
    intro k
    rw [Nat.testBit_and, Nat.testBit_shiftLeft, Nat.zero_testBit]
    by_cases hk : 60 ≤ k
    · have : i.testBit k = false :=
        Nat.testBit_lt_two_pow (Nat.lt_of_lt_of_le h (Nat.pow_le_pow_right (by omega) hk : 2 ^ 60 ≤ 2 ^ k))
      simp [this]
    · simp [hk]

theorem upper_bit_iff {i : Nat} (hi : i < 18446744073709551616) :
    upper_bit_ull_is_zero i = true ↔ i < 9223372036854775808 := by
  have hmask : (1 <<< 63 : Nat) >>> 63 = 2 ^ 1 - 1 := by decide
  simp only [upper_bit_ull_is_zero, beq_iff_eq]
  constructor
  · intro h
    have h2 : (i &&& (1 <<< 63)) >>> 63 = 0 := by rw [h]; rfl
    rw [Nat.shiftRight_and_distrib, hmask, Nat.and_two_pow_sub_one_eq_mod, Nat.shiftRight_eq_div_pow] at h2
    omega
  · intro h
    apply Nat.eq_of_testBit_eq
    intro k
    rw [Nat.testBit_and, Nat.testBit_shiftLeft, Nat.zero_testBit]
    by_cases hk : 63 ≤ k
    · have : i.testBit k = false :=
        Nat.testBit_lt_two_pow (Nat.lt_of_lt_of_le h (Nat.pow_le_pow_right (by omega) hk : 2 ^ 63 ≤ 2 ^ k))
      simp [this]
    · simp [hk]

theorem hex_stop {m : Mem} {a : Addr} {l : List Byte} {res k : Nat} (h : Holds m a l) (hk : 0 < k) :
    hex_loop m k ERANGE ⟨a, l.length⟩ res = .ok (ERANGE, ⟨a, l.length⟩, res) := by
  obtain ⟨k, rfl⟩ : ∃ k', k = k' + 1 := ⟨k - 1, by omega⟩
  cases l with
  | nil => simp [hex_loop]
  | cons b t =>
    have hne : ((b :: t : List Byte).length : Int) ≠ 0 := by simp; omega
    have : ERANGE ≠ 0 := by decide
    simp only [hex_loop, hne, ne_eq, not_false_eq_true, if_true, h.load_head, Res.bind_ok, this, and_false,
      if_false]

theorem hex_loop_spec {m : Mem} (rest : List Byte)
    (hrest : ∀ b t, rest = b :: t → isXDigit b = false) (ds : List Byte) {a : Addr} {A k : Nat}
    (h : Holds m a (ds ++ rest)) (hds : ∀ b ∈ ds, isXDigit b = true) (hA : A < 18446744073709551616)
    (hk : ds.length + 1 < k) :
    ∃ err j, DigitsOut 16 A ds err j ∧
      hex_loop m k 0 ⟨a, (ds ++ rest).length⟩ A
        = .ok (err, ⟨a + j, (ds.drop j ++ rest).length⟩, codeNum 16 A (ds.take j)) := by
  induction ds generalizing a A k with
  | nil =>
    refine ⟨0, 0, ⟨Nat.le_refl _, hA, .inl ⟨rfl, rfl⟩⟩, ?_⟩
    cases k with
    | zero => simp at hk
    | succ k =>
      cases rest with
      | nil => simp [hex_loop, codeNum_nil]
      | cons b t =>
        have hne : (([] ++ b :: t : List Byte).length : Int) ≠ 0 := by simp; omega
        have h' : Holds m a (b :: t) := h
        simp only [hex_loop, hne, ne_eq, not_false_eq_true, if_true, h'.load_head, Res.bind_ok,
          hrest b t rfl, Bool.false_eq_true, false_and, if_false]
        simp [codeNum_nil]
  | cons b ds ih =>
    cases k with
    | zero => simp at hk
    | succ k =>
      have hd := hds b (by simp)
      have hv := (isXDigit_val b hd).1
      have h' : Holds m a (b :: (ds ++ rest)) := h
      have hne : ((b :: (ds ++ rest) : List Byte).length : Int) ≠ 0 := by simp; omega
      have hcv : codeVal 16 b = xdigit_value b := rfl
      rw [show (b :: ds ++ rest : List Byte) = b :: (ds ++ rest) from rfl]
      simp only [hex_loop, hne, ne_eq, not_false_eq_true, if_true, h'.load_head, Res.bind_ok, hd, and_self]
      by_cases hz : upper_nibble_ull_is_zero A = true
      · have hlt := (upper_nibble_iff hA).1 hz
        have e1 : u64 (A <<< 4) = A * 16 := by
          rw [Nat.shiftLeft_eq]; exact Nat.mod_eq_of_lt (by omega)
        have e2 : u64 (A * 16 + xdigit_value b) = A * 16 + xdigit_value b := Nat.mod_eq_of_lt (by omega)
        obtain ⟨err, j, j1, j2⟩ := ih (a := a + 1) (A := A * 16 + xdigit_value b) (k := k)
          (Holds.cons_iff.1 h').2 (fun x hx => hds x (by simp [hx])) (by omega) (by simp at hk; omega)
        refine ⟨err, j + 1, DigitsOut.cons j1, ?_⟩
        simp only [hz, Bool.not_true, Bool.false_eq_true, if_false]
        rw [pop_first_cons h']
        simp only [Res.bind_ok]
        rw [e1, e2, j2]
        have e : a + 1 + (j : Int) = a + ((j + 1 : Nat) : Int) := by omega
        rw [e]; rfl
      · have hge : ¬ A < 1152921504606846976 := fun hlt => hz ((upper_nibble_iff hA).2 hlt)
        have hz' : upper_nibble_ull_is_zero A = false := by simpa using hz
        refine ⟨ERANGE, 0, ⟨by simp, hA, .inr ⟨rfl, by simp, ?_⟩⟩, ?_⟩
        · simp only [Nat.zero_add, List.take_succ_cons, List.take_zero, codeNum_cons, codeNum_nil]
          omega
        · simp only [hz', Bool.not_false, if_true]
          rw [hex_stop h' (by simp at hk; omega)]
          simp [codeNum_nil]

theorem bin_stop {m : Mem} {a : Addr} {l : List Byte} {res k : Nat} (h : Holds m a l) (hk : 0 < k) :
    bin_loop m k ERANGE ⟨a, l.length⟩ res = .ok (ERANGE, ⟨a, l.length⟩, res) := by
  obtain ⟨k, rfl⟩ : ∃ k', k = k' + 1 := ⟨k - 1, by omega⟩
  cases l with
  | nil => simp [bin_loop]
  | cons b t =>
    have hne : ((b :: t : List Byte).length : Int) ≠ 0 := by simp; omega
    have : ERANGE ≠ 0 := by decide
    simp only [bin_loop, hne, ne_eq, not_false_eq_true, if_true, h.load_head, Res.bind_ok, this, and_false,
      if_false]

theorem bin_loop_spec {m : Mem} (rest : List Byte)
    (hrest : ∀ b t, rest = b :: t → isbdigit b = false) (ds : List Byte) {a : Addr} {A k : Nat}
    (h : Holds m a (ds ++ rest)) (hds : ∀ b ∈ ds, isbdigit b = true) (hA : A < 18446744073709551616)
    (hk : ds.length + 1 < k) :
    ∃ err j, DigitsOut 2 A ds err j ∧
      bin_loop m k 0 ⟨a, (ds ++ rest).length⟩ A
        = .ok (err, ⟨a + j, (ds.drop j ++ rest).length⟩, codeNum 2 A (ds.take j)) := by
  induction ds generalizing a A k with
  | nil =>
    refine ⟨0, 0, ⟨Nat.le_refl _, hA, .inl ⟨rfl, rfl⟩⟩, ?_⟩
    cases k with
    | zero => simp at hk
    | succ k =>
      cases rest with
      | nil => simp [bin_loop, codeNum_nil]
      | cons b t =>
        have hne : (([] ++ b :: t : List Byte).length : Int) ≠ 0 := by simp; omega
        have h' : Holds m a (b :: t) := h
        simp only [bin_loop, hne, ne_eq, not_false_eq_true, if_true, h'.load_head, Res.bind_ok,
          hrest b t rfl, Bool.false_eq_true, false_and, if_false]
        simp [codeNum_nil]
  | cons b ds ih =>
    cases k with
    | zero => simp at hk
    | succ k =>
      have hd := hds b (by simp)
      have hv := (isbdigit_val b hd).2.2
      have h' : Holds m a (b :: (ds ++ rest)) := h
      have hne : ((b :: (ds ++ rest) : List Byte).length : Int) ≠ 0 := by simp; omega
      rw [show (b :: ds ++ rest : List Byte) = b :: (ds ++ rest) from rfl]
      simp only [bin_loop, hne, ne_eq, not_false_eq_true, if_true, h'.load_head, Res.bind_ok, hd, and_self]
      by_cases hz : upper_bit_ull_is_zero A = true
      · have hlt := (upper_bit_iff hA).1 hz
        have e1 : u64 (A <<< 1) ||| (b &&& 1).toNat = A * 2 + (b &&& 1).toNat := by
          rw [show u64 (A <<< 1) = A <<< 1 from Nat.mod_eq_of_lt (by rw [Nat.shiftLeft_eq]; omega),
            ← Nat.shiftLeft_add_eq_or_of_lt (by simpa using hv), Nat.shiftLeft_eq]
        obtain ⟨err, j, j1, j2⟩ := ih (a := a + 1) (A := A * 2 + (b &&& 1).toNat) (k := k)
          (Holds.cons_iff.1 h').2 (fun x hx => hds x (by simp [hx])) (by omega) (by simp at hk; omega)
        refine ⟨err, j + 1, DigitsOut.cons j1, ?_⟩
        simp only [hz, Bool.not_true, Bool.false_eq_true, if_false]
        rw [pop_first_cons h']
        simp only [Res.bind_ok]
        rw [e1, j2]
        have e : a + 1 + (j : Int) = a + ((j + 1 : Nat) : Int) := by omega
        rw [e]; rfl
      · have hge : ¬ A < 9223372036854775808 := fun hlt => hz ((upper_bit_iff hA).2 hlt)
        have hz' : upper_bit_ull_is_zero A = false := by simpa using hz
        refine ⟨ERANGE, 0, ⟨by simp, hA, .inr ⟨rfl, by simp, ?_⟩⟩, ?_⟩
        · simp only [Nat.zero_add, List.take_succ_cons, List.take_zero, codeNum_cons, codeNum_nil]
          omega
        · simp only [hz', Bool.not_false, if_true]
          rw [bin_stop h' (by simp at hk; omega)]
          simp [codeNum_nil]

/-! ### literals -/

/-- Literals are C strings in every memory. -/
theorem lit_cstring (m : Mem) (off : Nat) (l : List Byte) (hn : (0 : Byte) ∉ l) (hm : (l.length : Int) ≤ INT_MAX)
    (h : (litSeg.drop off).take (l.length + 1) = l ++ [0]) : CString m (litBase + off) l := by
  refine { pos := by simp [litBase]; omega, max := hm, noNul := hn, holds := ?_ }
  intro i hi
  have h0 : ¬ (litBase + (off : Int) + i ≤ 0) := by simp only [litBase]; omega
  have h1 : litBase ≤ litBase + (off : Int) + i := by omega
  have h2 : (litBase + (off : Int) + i - litBase).toNat = off + i := by omega
  rw [rd, if_neg h0, if_pos h1, h2]
  have : (l ++ [0])[i]? = litSeg[off + i]? := by
    rw [← h, List.getElem?_take, List.getElem?_drop]
    simp at hi
    simp [hi]
  rw [← this, List.getElem?_eq_getElem]

theorem litZero_cstring (m : Mem) : CString m litZero [48] := lit_cstring m 3 _ (by decide) (by decide) (by decide)
theorem litSpace_cstring (m : Mem) : CString m litSpace [32] := lit_cstring m 5 _ (by decide) (by decide) (by decide)
theorem lit0b_cstring (m : Mem) : CString m lit0b [48, 98] := lit_cstring m 7 _ (by decide) (by decide) (by decide)
theorem lit0x_cstring (m : Mem) : CString m lit0x [48, 120] :=
  lit_cstring m 10 _ (by decide) (by decide) (by decide)
theorem litInfinty_cstring (m : Mem) : CString m litInfinty [105, 110, 102, 105, 110, 116, 121] :=
  lit_cstring m 13 _ (by decide) (by decide) (by decide)
theorem litInf_cstring (m : Mem) : CString m litInf [105, 110, 102] :=
  lit_cstring m 21 _ (by decide) (by decide) (by decide)
theorem litNan_cstring (m : Mem) : CString m litNan [110, 97, 110] :=
  lit_cstring m 25 _ (by decide) (by decide) (by decide)
theorem litE_cstring (m : Mem) : CString m litE [69] := lit_cstring m 29 _ (by decide) (by decide) (by decide)

theorem trim_start_lit {m : Mem} {p : Addr} {c : Byte} (hp : CString m p [c]) {v : View} {l : List Byte}
    (h : Denotes m v l) : ∃ n rest, l = List.replicate n c ++ rest ∧ rest.head? ≠ some c ∧
      strview_trim_start_cstr m v p = .ok (v.part n rest.length) ∧ Denotes m (v.part n rest.length) rest := by
  obtain ⟨pre, rest, e, h1, h2, h3, h4⟩ := C06_trim_start h hp.viewOf.toDenotes
  have hpre : pre = List.replicate pre.length c := List.eq_replicate_iff.2 ⟨rfl, by simpa using h1⟩
  refine ⟨pre.length, rest, by rw [← hpre]; exact e, ?_, ?_, h4⟩
  · intro hh; exact h2 c hh (by simp)
  · simp only [strview_trim_start_cstr, cstr_eq hp, Res.bind_ok, h3]

/-! ### consume_digits -/

theorem codeNum_zeros (base : Nat) (n : Nat) (h : codeVal base 48 = 0) :
    codeNum base 0 (List.replicate n 48) = 0 := by
  induction n with
  | zero => rfl
  | succ n ih => rw [List.replicate_succ, codeNum_cons, h]; simpa using ih

theorem codeNum_prefix_zeros (base n : Nat) (ds : List Byte) (h : codeVal base 48 = 0) :
    codeNum base 0 (List.replicate n 48 ++ ds) = codeNum base 0 ds := by
  rw [codeNum_append, codeNum_zeros base n h]

/-- Skipping leading zeros does not change the outcome. -/
theorem DigitsOut.zeros {base n : Nat} {ds : List Byte} {err : Int} {j : Nat} (hz : codeVal base 48 = 0)
    (h : DigitsOut base 0 ds err j) : DigitsOut base 0 (List.replicate n 48 ++ ds) err (n + j) := by
  have ht : ∀ k, codeNum base 0 ((List.replicate n 48 ++ ds).take (n + k)) = codeNum base 0 (ds.take k) := by
    intro k
    rw [List.take_append, List.take_of_length_le (by rw [List.length_replicate]; omega), List.length_replicate,
      codeNum_prefix_zeros base n _ hz]
    congr 2; omega
  obtain ⟨h1, h2, h3⟩ := h
  refine ⟨by simp; omega, by rw [ht]; exact h2, ?_⟩
  rcases h3 with ⟨e, h3⟩ | ⟨e, h3, h4⟩
  · exact .inl ⟨e, by simp [h3]⟩
  · exact .inr ⟨e, by simp; omega, by rw [Nat.add_assoc, ht]; exact h4⟩

/-- Leading zeros of `ds ++ rest` are in `ds`. -/
theorem zeros_split {base : Nat} (hz : codeDigit base 48 = true) {ds rest l' : List Byte} {n : Nat}
    (hrest : ∀ b t, rest = b :: t → codeDigit base b = false)
    (h : ds ++ rest = List.replicate n 48 ++ l') :
    ∃ ds', ds = List.replicate n 48 ++ ds' ∧ l' = ds' ++ rest := by
  induction n generalizing ds with
  | zero => exact ⟨ds, rfl, by simpa using h.symm⟩
  | succ n ih =>
    cases ds with
    | nil =>
      rw [List.nil_append, List.replicate_succ, List.cons_append] at h
      rw [hrest _ _ h] at hz; simp at hz
    | cons b ds =>
      rw [List.replicate_succ, List.cons_append, List.cons_append, List.cons.injEq] at h
      obtain ⟨ds', rfl, e⟩ := ih h.2
      exact ⟨ds', by rw [h.1, List.replicate_succ, List.cons_append], e⟩

/-- `consume_digits` on `ds ++ rest`, in terms of the code's digit test. -/
theorem consume_digits_code {m : Mem} {v : View} {base : Nat} (hbase : base = 10 ∨ base = 16 ∨ base = 2)
    {ds rest : List Byte} (h : Denotes m v (ds ++ rest)) (hds : ∀ b ∈ ds, codeDigit base b = true)
    (hrest : ∀ b t, rest = b :: t → codeDigit base b = false) :
    (ds = [] → consume_digits m v base = .ok (EINVAL, 0, v)) ∧
    (ds ≠ [] → ∃ err j, DigitsOut base 0 ds err j ∧
      consume_digits m v base = .ok (err, codeNum base 0 (ds.take j), v.part j (ds.drop j ++ rest).length)) := by
  have hv : v = ⟨v.data, (ds ++ rest).length⟩ := by rw [← h.size]
  have hz : codeDigit base 48 = true := by rcases hbase with rfl | rfl | rfl <;> decide
  have hz0 : codeVal base 48 = 0 := by rcases hbase with rfl | rfl | rfl <;> decide
  constructor
  · rintro rfl
    have hf : first_is m (codeDigit base) v = .ok false := by
      rw [hv]
      cases rest with
      | nil => exact first_is_nil m _ _
      | cons b t =>
        rw [List.nil_append, first_is_cons _ h.holds, hrest b t rfl]
    rcases hbase with rfl | rfl | rfl
    · have hf' : first_is m isDigit v = .ok false := hf
      simp only [consume_digits, if_true, consume_decimal_digits, hf', Res.bind_ok, Bool.false_eq_true, if_false]
    · have hf' : first_is m isXDigit v = .ok false := hf
      simp [consume_digits, consume_hex_digits, hf']
    · have hf' : first_is m isbdigit v = .ok false := hf
      simp [consume_digits, consume_bin_digits, hf']
  · intro hne
    have hf : first_is m (codeDigit base) v = .ok true := by
      rw [hv]
      cases ds with
      | nil => simp at hne
      | cons b t =>
        have h' : Holds m v.data (b :: (t ++ rest)) := h.holds
        rw [List.cons_append, first_is_cons _ h', hds b (by simp)]
    obtain ⟨n, l', e, -, ht, hl'⟩ := trim_start_lit (litZero_cstring m) h
    obtain ⟨ds', rfl, rfl⟩ := zeros_split hz hrest e
    have hds' : ∀ b ∈ ds', codeDigit base b = true := fun b hb => hds b (by simp [hb])
    have hsize : (v.part n (ds' ++ rest).length).size.toNat = (ds' ++ rest).length := by
      simp only [View.part]; omega
    have fin : ∀ err j, DigitsOut base 0 ds' err j →
        consume_digits m v base = .ok (err, codeNum base 0 (ds'.take j),
          ⟨v.data + n + j, (ds'.drop j ++ rest).length⟩) →
        ∃ err j, DigitsOut base 0 (List.replicate n 48 ++ ds') err j ∧
          consume_digits m v base = .ok (err, codeNum base 0 ((List.replicate n 48 ++ ds').take j),
            v.part j ((List.replicate n 48 ++ ds').drop j ++ rest).length) := by
      intro err j h1 h2
      refine ⟨err, n + j, h1.zeros hz0, ?_⟩
      rw [h2]
      have e1 : (List.replicate n (48 : Byte) ++ ds').take (n + j) = List.replicate n 48 ++ ds'.take j := by
        rw [List.take_append, List.take_of_length_le (by rw [List.length_replicate]; omega), List.length_replicate,
          Nat.add_sub_cancel_left]
      have e2 : (List.replicate n (48 : Byte) ++ ds').drop (n + j) = ds'.drop j := by
        rw [List.drop_append, List.drop_eq_nil_of_le (by rw [List.length_replicate]; omega), List.length_replicate,
          Nat.add_sub_cancel_left, List.nil_append]
      rw [e1, e2, codeNum_prefix_zeros base n _ hz0]
      simp only [View.part]
      rw [show v.data + (n : Int) + j = v.data + ((n + j : Nat) : Int) by omega]
    rcases hbase with rfl | rfl | rfl
    · have hf' : first_is m isDigit v = .ok true := hf
      simp only [View.part] at ht hl' hsize
      obtain ⟨j1, a1, a2, a3⟩ := dec_loop_spec (m := m) (limit := 429496720) (M := 4294967296) (wrap := u32)
        (fun x hx => Nat.mod_eq_of_lt hx) (fun x d h1 h2 => by omega) rest hrest ds' (A := 0)
        (k := (ds' ++ rest).length + 1) hl'.holds hds' (by omega) (by simp; omega)
      have H1 : Holds m (v.data + n + j1) (ds'.drop j1 ++ rest) := by
        have := hl'.holds.drop j1 (by simp; omega)
        rwa [List.drop_append_of_le_length a1] at this
      obtain ⟨j2, b1, b2, b3⟩ := dec_loop_spec (m := m) (limit := 1844674407370955152) (M := 18446744073709551616)
        (wrap := u64) (fun x hx => Nat.mod_eq_of_lt hx) (fun x d h1 h2 => by omega) rest hrest (ds'.drop j1)
        (A := codeNum 10 0 (ds'.take j1)) (k := (ds'.drop j1 ++ rest).length + 1) H1
        (fun b hb => hds' b (List.mem_of_mem_drop hb)) (by omega) (by simp; omega)
      have H2 : Holds m (v.data + n + j1 + j2) ((ds'.drop j1).drop j2 ++ rest) := by
        have := H1.drop j2 (by simp at b1 ⊢; omega)
        rwa [List.drop_append_of_le_length b1] at this
      obtain ⟨err, j3, c1, c2⟩ := dec_ull_loop_spec rest hrest ((ds'.drop j1).drop j2)
        (A := codeNum 10 (codeNum 10 0 (ds'.take j1)) ((ds'.drop j1).take j2))
        (k := ((ds'.drop j1).drop j2 ++ rest).length + 2) H2
        (fun b hb => hds' b (List.mem_of_mem_drop (List.mem_of_mem_drop hb))) (by omega) (by simp; omega)
      have tk : ∀ i, codeNum 10 (codeNum 10 (codeNum 10 0 (ds'.take j1)) ((ds'.drop j1).take j2))
          (((ds'.drop j1).drop j2).take i) = codeNum 10 0 (ds'.take (j1 + j2 + i)) := by
        intro i
        rw [← codeNum_append, ← codeNum_append, ← List.append_assoc, ← List.take_add, List.drop_drop,
          ← List.take_add]
      refine fin err (j1 + j2 + j3) ?_ ?_
      · obtain ⟨d1, d2, d3⟩ := c1
        rw [tk] at d2
        rw [List.length_drop, List.length_drop] at d1
        rw [List.length_drop] at b1
        refine ⟨by omega, d2, ?_⟩
        rw [tk, List.length_drop, List.length_drop] at d3
        rcases d3 with ⟨d, d3⟩ | ⟨d, d3, d4⟩
        · exact .inl ⟨d, by omega⟩
        · exact .inr ⟨d, by omega, d4⟩
      · have e1 : (((ds' ++ rest).length : Nat) : Int).toNat = (ds' ++ rest).length := by omega
        have e2 : (((ds'.drop j1 ++ rest).length : Nat) : Int).toNat = (ds'.drop j1 ++ rest).length := by omega
        have e3 : ((((ds'.drop j1).drop j2 ++ rest).length : Nat) : Int).toNat =
          ((ds'.drop j1).drop j2 ++ rest).length := by omega
        dsimp only at a3
        simp only [consume_digits, if_true, consume_decimal_digits, hf', Res.bind_ok, ht, e1, a3, e2, b3, e3, c2]
        rw [tk, List.drop_drop, List.drop_drop, ← Nat.add_assoc]
        rw [show v.data + (n : Int) + j1 + j2 + j3 = v.data + n + ((j1 + j2 + j3 : Nat) : Int) by omega]
    · have hf' : first_is m isXDigit v = .ok true := hf
      obtain ⟨err, j, c1, c2⟩ := hex_loop_spec rest hrest ds' (A := 0)
        (k := (ds' ++ rest).length + 2) hl'.holds hds' (by omega) (by simp; omega)
      refine fin err j c1 ?_
      simp only [View.part] at *
      simp [consume_digits, consume_hex_digits, hf', ht]
      simp at c2
      rw [show (↑ds'.length + ↑rest.length : Int).toNat = ds'.length + rest.length by omega, c2]
      simp
    · have hf' : first_is m isbdigit v = .ok true := hf
      obtain ⟨err, j, c1, c2⟩ := bin_loop_spec rest hrest ds' (A := 0)
        (k := (ds' ++ rest).length + 2) hl'.holds hds' (by omega) (by simp; omega)
      refine fin err j c1 ?_
      simp only [View.part] at *
      simp [consume_digits, consume_bin_digits, hf', ht]
      simp at c2
      rw [show (↑ds'.length + ↑rest.length : Int).toNat = ds'.length + rest.length by omega, c2]
      simp

end CStr
