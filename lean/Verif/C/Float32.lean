import Verif.C.Basic
/-
  IEEE 754 binary32 arithmetic as far as test/prnf.c needs it: every operation is the exact operation on rational
  numbers followed by rounding to the nearest representable number, ties to even (C11 annex F, FLT_EVAL_METHOD 0).
  The sign of a zero is not represented: prnf.c only looks at it through comparisons, which ignore it.
-/
namespace CStr

/-- A floating point value. -/
inductive Flt where
  | nan
  | inf (neg : Bool)
  | fin (q : Rat)
  deriving DecidableEq

/-- `2^e`. -/
def pow2 (e : Int) : Rat := if 0 ≤ e then ((2 ^ e.toNat : Nat) : Rat) else 1 / ((2 ^ (-e).toNat : Nat) : Rat)

/-- The exponent `e` with `2^e ≤ |q| < 2^(e+1)`, for `q ≠ 0`. -/
def ilog2 (q : Rat) : Int :=
  let e : Int := (q.num.natAbs.log2 : Int) - q.den.log2
  if q.abs < pow2 e then e - 1 else e

/-- Nearest integer, ties to even. -/
def roundEven (q : Rat) : Int :=
  let d := q - (q.floor : Rat)
  if d < 1 / 2 then q.floor
  else if 1 / 2 < d then q.floor + 1
  else if q.floor % 2 = 0 then q.floor else q.floor + 1

/-- Rounding to binary32: 24 bit significand, least exponent -149, largest number below `2^128`. -/
def round32 (q : Rat) : Flt :=
  if q = 0 then .fin 0
  else
    let u := pow2 (max (ilog2 q - 23) (-149))
    let r := (roundEven (q / u) : Rat) * u
    if pow2 128 ≤ r.abs then .inf (q < 0) else .fin r

namespace Flt

/-- Conversion of a `double` to `float`. -/
def toFloat : Flt → Flt
  | fin q => round32 q
  | x => x

/-- `x < y`; false if one of them is NaN. -/
def lt : Flt → Flt → Bool
  | fin x, fin y => x < y
  | fin _, inf n => !n
  | inf n, fin _ => n
  | inf m, inf n => m && !n
  | _, _ => false

/-- `x <= y`; false if one of them is NaN. -/
def le : Flt → Flt → Bool
  | fin x, fin y => x ≤ y
  | fin _, inf n => !n
  | inf n, fin _ => n
  | inf m, inf n => m || !n
  | _, _ => false

/-- `x != x`. -/
def isNan : Flt → Bool
  | nan => true
  | _ => false

/-- `-x`. -/
def neg : Flt → Flt
  | fin q => fin (-q)
  | inf n => inf (!n)
  | nan => nan

/-- `x * y` for a finite positive number `y`. -/
def mulPos (x : Flt) (y : Rat) : Flt :=
  match x with
  | fin q => round32 (q * y)
  | x => x

/-- `x / y` for a finite positive number `y`. -/
def divPos (x : Flt) (y : Rat) : Flt :=
  match x with
  | fin q => round32 (q / y)
  | x => x

/-- `x - y` for a finite number `y`. -/
def subFin (x : Flt) (y : Rat) : Flt :=
  match x with
  | fin q => round32 (q - y)
  | x => x

end Flt
end CStr
