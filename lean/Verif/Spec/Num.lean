import Verif.Model.Strnum
import Verif.Spec.View
/-
  Specification of integer literals: which text denotes which number. Uses only the option constants of strnum.h.
-/
namespace CStr

/-- The value of a digit character: `0`-`9`, `a`-`f`, `A`-`F`. -/
def digitVal (b : UInt8) : Option Nat :=
  if 48 ≤ b ∧ b ≤ 57 then some (b.toNat - 48)
  else if 65 ≤ b ∧ b ≤ 70 then some (b.toNat - 55)
  else if 97 ≤ b ∧ b ≤ 102 then some (b.toNat - 87)
  else none

/-- `b` is a digit of the base. -/
def IsDigitOf (base : Nat) (b : UInt8) : Prop := ∃ d, digitVal b = some d ∧ d < base

/-- `ds` is a (possibly empty) sequence of digits of the base and `n` its value in positional notation. -/
inductive Numeral (base : Nat) : List UInt8 → Nat → Prop
  | nil : Numeral base [] 0
  | snoc {ds : List UInt8} {n d : Nat} {b : UInt8} :
      Numeral base ds n → digitVal b = some d → d < base → Numeral base (ds ++ [b]) (n * base + d)

/-- `r` is what follows the optional leading spaces of `l`. -/
def AfterSpaces (o : UInt32) (l r : List UInt8) : Prop :=
  if flag o STRNUM_NOSPACE then r = l
  else ∃ n, l = List.replicate n 32 ++ r ∧ r.head? ≠ some 32

/-- `r` is what follows the optional sign of `l`; `neg` tells if it was a minus. -/
inductive AfterSign (o : UInt32) : (l : List UInt8) → (neg : Bool) → (r : List UInt8) → Prop
  | minus (r : List UInt8) : flag o STRNUM_NOSIGN = false → AfterSign o (45 :: r) true r
  | plus (r : List UInt8) : flag o STRNUM_NOSIGN = false → AfterSign o (43 :: r) false r
  | none (l : List UInt8) :
      flag o STRNUM_NOSIGN = true ∨ (l.head? ≠ some 45 ∧ l.head? ≠ some 43) → AfterSign o l false l

/-- `l` starts with the binary prefix `0b`/`0B`, respectively the hexadecimal prefix `0x`/`0X`. -/
def BinPrefix (l r : List UInt8) : Prop := l = 48 :: 98 :: r ∨ l = 48 :: 66 :: r
def HexPrefix (l r : List UInt8) : Prop := l = 48 :: 120 :: r ∨ l = 48 :: 88 :: r

/-- The base selected by the options alone. -/
def optionBase (o : UInt32) : Nat :=
  if flag o STRNUM_BASE_BIN then 2 else if flag o STRNUM_BASE_HEX then 16 else 10

/-- The base of the literal `l` and the text `r` after an optional base prefix. -/
inductive AfterPrefix (o : UInt32) : (l : List UInt8) → (base : Nat) → (r : List UInt8) → Prop
  | bin {l r : List UInt8} : flag o STRNUM_NOBX = false → flag o STRNUM_BASE_HEX = false → BinPrefix l r →
      AfterPrefix o l 2 r
  | hex {l r : List UInt8} : flag o STRNUM_NOBX = false → flag o STRNUM_BASE_BIN = false → HexPrefix l r →
      AfterPrefix o l 16 r
  | none {l : List UInt8} :
      flag o STRNUM_NOBX = true ∨
        ((flag o STRNUM_BASE_HEX = true ∨ ∀ r, ¬ BinPrefix l r) ∧
         (flag o STRNUM_BASE_BIN = true ∨ ∀ r, ¬ HexPrefix l r)) →
      AfterPrefix o l (optionBase o) l

/-- `l` is `ds ++ rest` where `ds` is the longest run of digits of the base, with value `n`. -/
structure DigitRun (base : Nat) (l ds : List UInt8) (n : Nat) (rest : List UInt8) : Prop where
  split : l = ds ++ rest
  value : Numeral base ds n
  longest : ∀ b t, rest = b :: t → ¬ IsDigitOf base b

/-- The library takes the bytes 0xB0 and 0xB1 for the binary digits 0 and 1 (a deviation, see C26). This maps them to
the digits they are taken for, in base 2 only. -/
def asDigit (base : Nat) (b : UInt8) : UInt8 :=
  if base = 2 ∧ b = 0xB0 then 48 else if base = 2 ∧ b = 0xB1 then 49 else b

/-- As `DigitRun`, with the bytes 0xB0 and 0xB1 counted as binary digits: what the library really reads. For every base
other than 2 this is the same as `DigitRun`. -/
structure DigitRunActual (base : Nat) (l ds : List UInt8) (n : Nat) (rest : List UInt8) : Prop where
  split : l = ds ++ rest
  value : Numeral base (ds.map (asDigit base)) n
  longest : ∀ b t, rest = b :: t → ¬ IsDigitOf base (asDigit base b)

/-- The text `l` read as an unsigned literal: spaces, base prefix, digits `ds` with value `n`, `rest`. -/
structure UnsignedText (o : UInt32) (l : List UInt8) (base : Nat) (ds : List UInt8) (n : Nat)
    (rest : List UInt8) : Prop where
  parts : ∃ l1 l2, AfterSpaces o l l1 ∧ AfterPrefix o l1 base l2 ∧ DigitRun base l2 ds n rest

/-- The text `l` read as a signed literal: spaces, sign, base prefix, digits `ds` with value `n`, `rest`. -/
structure SignedText (o : UInt32) (l : List UInt8) (neg : Bool) (base : Nat) (ds : List UInt8) (n : Nat)
    (rest : List UInt8) : Prop where
  parts : ∃ l1 l2 l3, AfterSpaces o l l1 ∧ AfterSign o l1 neg l2 ∧ AfterPrefix o l2 base l3 ∧
    DigitRun base l3 ds n rest

/-- Signed value of a literal. -/
def signedVal (neg : Bool) (n : Nat) : Int := if neg then -(n : Int) else n

/-- Largest value of each unsigned type (LP64). -/
def UTy.max : UTy → Nat
  | .uchar => 2 ^ 8 - 1
  | .ushort => 2 ^ 16 - 1
  | .uint => 2 ^ 32 - 1
  | .ulong => 2 ^ 64 - 1
  | .ullong => 2 ^ 64 - 1

/-- Width of each signed type (LP64); its range is -2^(w-1) .. 2^(w-1)-1. -/
def STy.bits : STy → Nat
  | .char => 8
  | .short => 16
  | .int => 32
  | .long => 64
  | .llong => 64

/-- The value is representable in the signed type. -/
def STy.InRange (t : STy) (x : Int) : Prop := -(2 ^ (t.bits - 1)) ≤ x ∧ x ≤ 2 ^ (t.bits - 1) - 1

/-- What a conversion of text `l` (in view `v`) to the unsigned type `t` has to return, as `(error, *dst, *src)`, when
the digits are `ds` with value `n` and are followed by `rest`. -/
def unsignedOutcome (t : UTy) (dst : Option Nat) (v : View) (l ds : List UInt8) (n : Nat) (rest : List UInt8) :
    Res (Int × Option Nat × Option View) :=
  if ds = [] then .ok (EINVAL, dst, some v)
  else if t.max < n then .ok (ERANGE, dst, some v)
  else .ok (0, dst.map (fun _ => n), some (v.part (l.length - rest.length) rest.length))

open Classical in
/-- The same for a signed type. -/
noncomputable def signedOutcome (t : STy) (dst : Option Int) (v : View) (l : List UInt8) (neg : Bool) (ds : List UInt8)
    (n : Nat) (rest : List UInt8) : Res (Int × Option Int × Option View) :=
  if ds = [] then .ok (EINVAL, dst, some v)
  else if ¬ t.InRange (signedVal neg n) then .ok (ERANGE, dst, some v)
  else .ok (0, dst.map (fun _ => signedVal neg n), some (v.part (l.length - rest.length) rest.length))

/-- The text of `n` in the base (lower case digits, no leading zeros), by Lean's own number printer. -/
def printBytes (base n : Nat) : List UInt8 := (Nat.toDigits base n).map fun c => UInt8.ofNat c.toNat

/-- The decimal text of a signed number. -/
def printSigned (x : Int) : List UInt8 := if x < 0 then 45 :: printBytes 10 x.natAbs else printBytes 10 x.natAbs

end CStr
