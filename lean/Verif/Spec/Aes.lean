import Verif.C.Basic
/-
  The block cipher AES as FIPS 197 (Advanced Encryption Standard, 2001) defines it. Nothing of the model is used here.
  Section numbers are those of FIPS 197.
-/
namespace CStr.Fips

/-- Sum of two bytes read as polynomials over GF(2), section 4.1. -/
abbrev add (a b : Byte) : Byte := a ^^^ b

/-- Product of two polynomials over GF(2) whose coefficients are the bits of `a` and `b`: for each power `x^i` in `b`, add `a * x^i`. -/
def polyMul (a b : Nat) : Nat := (List.range 8).foldl (fun p i => if b.testBit i then p ^^^ (a <<< i) else p) 0

/-- Remainder of a polynomial of degree below 15 modulo `x^8 + x^4 + x^3 + x + 1` (0x11b), section 4.2: long division, from `x^14` down to `x^8`. -/
def polyMod (p : Nat) : Nat :=
  [14, 13, 12, 11, 10, 9, 8].foldl (fun p i => if p.testBit i then p ^^^ (0x11b <<< (i - 8)) else p) p

/-- Multiplication in GF(2^8), section 4.2. -/
def mul (a b : Byte) : Byte := UInt8.ofNat (polyMod (polyMul a.toNat b.toNat))

/-- Powers in GF(2^8). -/
def pow (a : Byte) : Nat → Byte
  | 0 => 1
  | n + 1 => mul a (pow a n)

/-- `y` is the multiplicative inverse of `x`, the element 0 being mapped to itself, section 5.1.1 step 1. -/
def IsInverse (x y : Byte) : Prop := (x = 0 ∧ y = 0) ∨ mul x y = 1

/-- The affine transformation of section 5.1.1 step 2: bit `i` of the result is
`b_i + b_{i+4} + b_{i+5} + b_{i+6} + b_{i+7} + c_i` (subscripts modulo 8), `c = 0x63`. -/
def affine (b : Byte) : Byte :=
  let bit (i : Nat) : Bool := b.toNat.testBit (i % 8)
  UInt8.ofNat ((List.range 8).foldl (fun r i =>
    if bit i ^^ bit (i + 4) ^^ bit (i + 5) ^^ bit (i + 6) ^^ bit (i + 7) ^^ (0x63 : Nat).testBit i then r + 2 ^ i else r) 0)

/-- `f` is the S-box of section 5.1.1. -/
def IsSbox (f : Byte → Byte) : Prop := ∀ x, ∃ y, IsInverse x y ∧ f x = affine y

/-- The State of section 3.4: `s r c` is the byte in row `r` and column `c`. Row and column numbers are added modulo 4. -/
abbrev State := Fin 4 → Fin 4 → Byte

/-- A word of section 3.5: four bytes, a column. -/
abbrev Word := Fin 4 → Byte

variable (S : Byte → Byte)

/-- Section 5.1.1. -/
def subBytes (s : State) : State := fun r c => S (s r c)

/-- Section 5.1.2: row `r` is shifted left by `r` positions. -/
def shiftRows (s : State) : State := fun r c => s r (c + r)

/-- Section 5.1.3: each column is multiplied by `{03}x^3 + {01}x^2 + {01}x + {02}`. -/
def mixColumns (s : State) : State := fun r c =>
  add (add (mul 2 (s r c)) (mul 3 (s (r + 1) c))) (add (s (r + 2) c) (s (r + 3) c))

/-- Section 5.1.4: the four words of the round key are added to the columns. -/
def addRoundKey (s : State) (w : Fin 4 → Word) : State := fun r c => add (s r c) (w c r)

/-- The words `4i` to `4i + 3` of the key schedule. -/
def roundKey (w : Nat → Word) (i : Nat) : Fin 4 → Word := fun c => w (4 * i + c)

/-- Section 5.1: `Cipher` with `Nr` rounds and the key schedule `w`. -/
def cipher (Nr : Nat) (w : Nat → Word) (s : State) : State :=
  let s := addRoundKey s (roundKey w 0)
  let s := (List.range (Nr - 1)).foldl
    (fun s i => addRoundKey (mixColumns (shiftRows (subBytes S s))) (roundKey w (i + 1))) s
  addRoundKey (shiftRows (subBytes S s)) (roundKey w Nr)

/-- Section 5.2: RotWord. -/
def rotWord (w : Word) : Word := fun i => w (i + 1)

/-- Section 5.2: SubWord. -/
def subWord (w : Word) : Word := fun i => S (w i)

/-- Section 5.2: `Rcon[i] = [x^(i-1), 0, 0, 0]`. -/
def rcon (i : Nat) : Word := fun j => if j = 0 then pow 2 (i - 1) else 0

/-- `w` is the expansion of the `Nk` words `key`, section 5.2: the pseudo code of figure 11, whose loop ends with word `4 * (Nr + 1) - 1`. -/
def IsExpansion (Nk Nr : Nat) (key w : Nat → Word) : Prop :=
  (∀ i, i < Nk → w i = key i) ∧
  ∀ i, Nk ≤ i → i < 4 * (Nr + 1) →
    w i = fun j => add (w (i - Nk) j)
      (if i % Nk = 0 then add (subWord S (rotWord (w (i - 1))) j) (rcon (i / Nk) j)
       else if 6 < Nk ∧ i % Nk = 4 then subWord S (w (i - 1)) j
       else w (i - 1) j)

/-- `Nr` as a function of `Nk`, figure 4. -/
def rounds (Nk : Nat) : Nat := Nk + 6

/-- The key lengths of section 5: 128, 192 and 256 bits. -/
def IsKeyLength (Nk : Nat) : Prop := Nk = 4 ∨ Nk = 6 ∨ Nk = 8

/-- The 16 bytes `l` are copied into the State `s`, and out of it, in the order of section 3.4: `s[r, c] = in[r + 4c]`. -/
def IsState (l : List Byte) (s : State) : Prop :=
  l.length = 16 ∧ ∀ r c : Fin 4, l[r.val + 4 * c.val]? = some (s r c)

/-- The bytes `l` are the cipher key whose words are `key`, section 5.2: word `i` is `(l[4i], l[4i+1], l[4i+2], l[4i+3])`. -/
def IsKey (Nk : Nat) (l : List Byte) (key : Nat → Word) : Prop :=
  l.length = 4 * Nk ∧ ∀ i, i < Nk → ∀ j : Fin 4, l[4 * i + j.val]? = some (key i j)

/-- The bytes `c` are the encryption of the bytes `p` under the key `k` of `4 * Nk` bytes, for the cipher of FIPS 197. -/
def Encrypts (Nk : Nat) (k p c : List Byte) : Prop :=
  ∃ (S : Byte → Byte) (key w : Nat → Word) (s : State),
    IsSbox S ∧ IsKey Nk k key ∧ IsExpansion S Nk (rounds Nk) key w ∧ IsState p s ∧ IsState c (cipher S (rounds Nk) w s)

end CStr.Fips
