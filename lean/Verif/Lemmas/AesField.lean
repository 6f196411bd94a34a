import Verif.Model.Aes
import Verif.Spec.Aes
/-
  Helper lemmas for Props/Aes.lean.
-/
namespace CStr

/-! ### Bytes -/

theorem byte_all {P : Byte → Prop} (h : ∀ x : Fin 256, P (UInt8.ofNat x)) (x : Byte) : P x := by
  have := h ⟨x.toNat, x.toNat_lt⟩
  rwa [UInt8.ofNat_toNat] at this

theorem xor_left_comm (a b c : Byte) : a ^^^ (b ^^^ c) = b ^^^ (a ^^^ c) := by
  rw [← UInt8.xor_assoc, UInt8.xor_comm a b, UInt8.xor_assoc]

theorem xor_cancel (a b : Byte) : a ^^^ (a ^^^ b) = b := by
  rw [← UInt8.xor_assoc, UInt8.xor_self, UInt8.zero_xor]

/-- Normalises sums in GF(2^8): associativity, commutativity and cancellation of equal terms. -/
macro "xor_ac" : tactic =>
  `(tactic| simp only [UInt8.xor_assoc, UInt8.xor_comm, xor_left_comm, UInt8.xor_self, xor_cancel, UInt8.xor_zero, UInt8.zero_xor])

theorem and80 (x : Byte) : x &&& 0x80 = 0 ∨ x &&& 0x80 = 0x80 :=
  byte_all (P := fun x => x &&& 0x80 = 0 ∨ x &&& 0x80 = 0x80) (by decide +kernel) x

theorem and_xor (a b c : Byte) : (a ^^^ b) &&& c = (a &&& c) ^^^ (b &&& c) :=
  UInt8.toBitVec_inj.1 (by
    simp only [UInt8.toBitVec_and, UInt8.toBitVec_xor]
    ext i hi
    simp only [BitVec.getElem_and, BitVec.getElem_xor, Bool.and_xor_distrib_right])

/-! ### The field multiplication -/

/-- A map that respects sums. -/
def Additive (f : Byte → Byte) : Prop := ∀ a b, f (a ^^^ b) = f a ^^^ f b

theorem Additive.zero {f} (h : Additive f) : f 0 = 0 := by
  have := h 0 0
  rw [UInt8.xor_self, UInt8.xor_self] at this
  exact this

theorem byte_bits (x : Byte) : x = (x &&& 1) ^^^ (x &&& 2) ^^^ (x &&& 4) ^^^ (x &&& 8) ^^^ (x &&& 16) ^^^ (x &&& 32) ^^^ (x &&& 64) ^^^ (x &&& 128) :=
  byte_all (P := fun x => x = (x &&& 1) ^^^ (x &&& 2) ^^^ (x &&& 4) ^^^ (x &&& 8) ^^^ (x &&& 16) ^^^ (x &&& 32) ^^^ (x &&& 64) ^^^ (x &&& 128))
    (by decide +kernel) x

theorem and_bit (x : Byte) : (x &&& 1 = 0 ∨ x &&& 1 = 1) ∧ (x &&& 2 = 0 ∨ x &&& 2 = 2) ∧ (x &&& 4 = 0 ∨ x &&& 4 = 4) ∧ (x &&& 8 = 0 ∨ x &&& 8 = 8)
    ∧ (x &&& 16 = 0 ∨ x &&& 16 = 16) ∧ (x &&& 32 = 0 ∨ x &&& 32 = 32) ∧ (x &&& 64 = 0 ∨ x &&& 64 = 64) ∧ (x &&& 128 = 0 ∨ x &&& 128 = 128) :=
  byte_all (P := fun x => (x &&& 1 = 0 ∨ x &&& 1 = 1) ∧ (x &&& 2 = 0 ∨ x &&& 2 = 2) ∧ (x &&& 4 = 0 ∨ x &&& 4 = 4) ∧ (x &&& 8 = 0 ∨ x &&& 8 = 8)
    ∧ (x &&& 16 = 0 ∨ x &&& 16 = 16) ∧ (x &&& 32 = 0 ∨ x &&& 32 = 32) ∧ (x &&& 64 = 0 ∨ x &&& 64 = 64) ∧ (x &&& 128 = 0 ∨ x &&& 128 = 128))
    (by decide +kernel) x

/-- The powers of `x`. -/
def basis : List Byte := [1, 2, 4, 8, 16, 32, 64, 128]

/-- Maps that respect sums and agree on the powers of `x` agree. -/
theorem Additive.ext {f g} (hf : Additive f) (hg : Additive g) (h : ∀ b ∈ basis, f b = g b) (x : Byte) : f x = g x := by
  have key : ∀ y b : Byte, (y = 0 ∨ y = b) → b ∈ basis → f y = g y := by
    rintro y b (rfl | rfl) hb
    · rw [hf.zero, hg.zero]
    · exact h _ hb
  obtain ⟨h0, h1, h2, h3, h4, h5, h6, h7⟩ := and_bit x
  rw [byte_bits x]
  simp only [hf _ _, hg _ _]
  rw [key _ _ h0 (by decide), key _ _ h1 (by decide), key _ _ h2 (by decide), key _ _ h3 (by decide), key _ _ h4 (by decide),
    key _ _ h5 (by decide), key _ _ h6 (by decide), key _ _ h7 (by decide)]

theorem gf256dbl_eq (b r : Byte) : gf256dbl b r = (b <<< 1) ^^^ (if b &&& 0x80 ≠ 0 then r else 0) := by
  unfold gf256dbl; split <;> simp

theorem gf256dbl_xor (a b r : Byte) : gf256dbl (a ^^^ b) r = gf256dbl a r ^^^ gf256dbl b r := by
  have hs : (a ^^^ b) <<< (1:UInt8) = (a <<< 1) ^^^ (b <<< 1) := UInt8.shiftLeft_xor ..
  simp only [gf256dbl_eq, hs, and_xor]
  rcases and80 a with h | h <;> rcases and80 b with h' | h' <;> simp only [h, h'] <;> simp <;> xor_ac

theorem gf256mul_loop_xor (red : Byte) (n : Nat) (a b b' r r' : Byte) :
    gf256mul_loop red n a (b ^^^ b') (r ^^^ r') = gf256mul_loop red n a b r ^^^ gf256mul_loop red n a b' r' := by
  induction n generalizing a b b' r r' with
  | zero => unfold gf256mul_loop; split <;> xor_ac
  | succ n ih =>
    unfold gf256mul_loop
    rw [gf256dbl_xor]
    by_cases h : a &&& 1 ≠ 0
    · simp only [if_pos h]
      have : r ^^^ r' ^^^ (b ^^^ b') = (r ^^^ b) ^^^ (r' ^^^ b') := by xor_ac
      rw [this, ih]
      split <;> rfl
    · simp only [if_neg h]
      rw [ih]
      split <;> rfl

theorem gf256mul_xor (a red : Byte) : Additive (gf256mul a · red) := fun b b' => by
  have := gf256mul_loop_xor red 7 a b b' 0 0
  rwa [UInt8.xor_self] at this

/-- The bound of the loop in `gf256mul` is never reached early: any larger bound gives the same result. -/
theorem gf256mul_loop_enough (red a b r : Byte) (k : Nat) : gf256mul_loop red (7 + k) a b r = gf256mul_loop red 7 a b r := by
  have key : ∀ (n : Nat) (a b r : Byte), a.toNat < 2 ^ (n + 1) → gf256mul_loop red (n + k) a b r = gf256mul_loop red n a b r := by
    intro n
    induction n with
    | zero =>
      intro a b r h
      have h2 : a &&& 0xFE = 0 := by
        have : a = 0 ∨ a = 1 := by
          have : a.toNat = 0 ∨ a.toNat = 1 := by omega
          rcases this with h | h
          · exact .inl (UInt8.toNat_inj.1 h)
          · exact .inr (UInt8.toNat_inj.1 h)
        rcases this with rfl | rfl <;> decide
      cases k with
      | zero => rfl
      | succ k => 
        rw [show 0 + (k + 1) = k + 1 by omega]
        simp only [gf256mul_loop, h2]
        simp
    | succ n ih =>
      intro a b r h
      rw [show n + 1 + k = (n + k) + 1 by omega]
      unfold gf256mul_loop
      rw [ih]
      rw [UInt8.toNat_shiftRight]
      simp [Nat.shiftRight_eq_div_pow]
      omega
  exact key 7 a b r (by have := a.toNat_lt; omega)

namespace Fips

theorem polyMul_xor (a b b' : Nat) : polyMul a (b ^^^ b') = polyMul a b ^^^ polyMul a b' := by
  have key : ∀ (l : List Nat) (p p' : Nat),
      l.foldl (fun p i => if (b ^^^ b').testBit i then p ^^^ (a <<< i) else p) (p ^^^ p') =
      l.foldl (fun p i => if b.testBit i then p ^^^ (a <<< i) else p) p ^^^
      l.foldl (fun p i => if b'.testBit i then p ^^^ (a <<< i) else p) p' := by
    intro l
    induction l with
    | nil => intros; rfl
    | cons i l ih =>
      intro p p'
      simp only [List.foldl_cons]
      rw [← ih, Nat.testBit_xor]
      congr 1
      cases b.testBit i <;> cases b'.testBit i <;> simp
      · ac_rfl
      · ac_rfl
      · rw [show (p ^^^ a <<< i) ^^^ (p' ^^^ a <<< i) = (p ^^^ p') ^^^ ((a <<< i) ^^^ (a <<< i)) by ac_rfl, Nat.xor_self, Nat.xor_zero]
  exact key _ 0 0

theorem polyMul_xor_left (a a' b : Nat) : polyMul (a ^^^ a') b = polyMul a b ^^^ polyMul a' b := by
  have key : ∀ (l : List Nat) (p p' : Nat),
      l.foldl (fun p i => if b.testBit i then p ^^^ ((a ^^^ a') <<< i) else p) (p ^^^ p') =
      l.foldl (fun p i => if b.testBit i then p ^^^ (a <<< i) else p) p ^^^
      l.foldl (fun p i => if b.testBit i then p ^^^ (a' <<< i) else p) p' := by
    intro l
    induction l with
    | nil => intros; rfl
    | cons i l ih =>
      intro p p'
      simp only [List.foldl_cons]
      rw [← ih]
      congr 1
      split
      · rw [Nat.shiftLeft_xor_distrib]; ac_rfl
      · rfl
  exact key _ 0 0

theorem polyMod_xor (a b : Nat) : polyMod (a ^^^ b) = polyMod a ^^^ polyMod b := by
  have key : ∀ (l : List Nat) (p p' : Nat),
      l.foldl (fun p i => if p.testBit i then p ^^^ (0x11b <<< (i - 8)) else p) (p ^^^ p') =
      l.foldl (fun p i => if p.testBit i then p ^^^ (0x11b <<< (i - 8)) else p) p ^^^
      l.foldl (fun p i => if p.testBit i then p ^^^ (0x11b <<< (i - 8)) else p) p' := by
    intro l
    induction l with
    | nil => intros; rfl
    | cons i l ih =>
      intro p p'
      simp only [List.foldl_cons]
      rw [← ih, Nat.testBit_xor]
      congr 1
      generalize 0x11b <<< (i - 8) = c
      cases p.testBit i <;> cases p'.testBit i <;> simp
      · ac_rfl
      · ac_rfl
      · rw [show (p ^^^ c) ^^^ (p' ^^^ c) = (p ^^^ p') ^^^ (c ^^^ c) by ac_rfl, Nat.xor_self, Nat.xor_zero]
  exact key _ a b

theorem mul_xor (a : Byte) : Additive (mul a ·) := fun b b' => by
  simp only [mul, UInt8.toNat_xor, polyMul_xor, polyMod_xor, UInt8.ofNat_xor]

theorem mul_xor_left (b : Byte) : Additive (mul · b) := fun a a' => by
  simp only [mul, UInt8.toNat_xor, polyMul_xor_left, polyMod_xor, UInt8.ofNat_xor]

theorem mul_add (a b c : Byte) : mul a (b ^^^ c) = mul a b ^^^ mul a c := mul_xor a b c

theorem add_mul (a b c : Byte) : mul (a ^^^ b) c = mul a c ^^^ mul b c := mul_xor_left c a b

theorem mul_one (a : Byte) : mul a 1 = a := byte_all (P := fun a => mul a 1 = a) (by decide +kernel) a

theorem one_mul (a : Byte) : mul 1 a = a := byte_all (P := fun a => mul 1 a = a) (by decide +kernel) a

theorem mul_assoc (a b c : Byte) : mul (mul a b) c = mul a (mul b c) := by
  have h : ∀ a ∈ basis, ∀ b ∈ basis, ∀ c ∈ basis, mul (mul a b) c = mul a (mul b c) := by decide +kernel
  refine Additive.ext (f := fun a => mul (mul a b) c) (g := fun a => mul a (mul b c)) ?_ (mul_xor_left _) (fun a ha => ?_) a
  · exact fun x y => by simp only [add_mul]
  refine Additive.ext (f := fun b => mul (mul a b) c) (g := fun b => mul a (mul b c)) ?_ ?_ (fun b hb => ?_) b
  · exact fun x y => by simp only [mul_add, add_mul]
  · exact fun x y => by simp only [mul_add, add_mul]
  refine Additive.ext (f := fun c => mul (mul a b) c) (g := fun c => mul a (mul b c)) (mul_xor _) ?_ (fun c hc => h a ha b hb c hc) c
  exact fun x y => by simp only [mul_add]

theorem mul_comm (a b : Byte) : mul a b = mul b a := by
  have h : ∀ a ∈ basis, ∀ b ∈ basis, mul a b = mul b a := by decide +kernel
  refine Additive.ext (f := fun a => mul a b) (g := fun a => mul b a) (mul_xor_left _) (mul_xor _) (fun a ha => ?_) a
  exact Additive.ext (f := fun b => mul a b) (g := fun b => mul b a) (mul_xor _) (mul_xor_left _) (fun b hb => h a ha b hb) b

end Fips

/-- `gf256mul` with the reducer 0x1b multiplies in the field. -/
theorem gf256mul_eq (a b : Byte) : gf256mul a b 0x1b = Fips.mul a b := by
  refine Additive.ext (f := fun b => gf256mul a b 0x1b) (g := fun b => Fips.mul a b) (gf256mul_xor _ _) (Fips.mul_xor _) ?_ b
  have h : ∀ b ∈ basis, ∀ x : Fin 256, gf256mul (UInt8.ofNat x) b 0x1b = Fips.mul (UInt8.ofNat x) b := by decide +kernel
  exact fun b hb => byte_all (P := fun a => gf256mul a b 0x1b = Fips.mul a b) (h b hb) a

end CStr
