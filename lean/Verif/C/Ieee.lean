import Verif.C.Float32
/-
  IEEE 754 arithmetic of any binary format: every operation is the exact operation on rational numbers followed by
  rounding to the nearest representable number, ties to even (C11 annex F, FLT_EVAL_METHOD 0). The sign of a zero is
  not represented.
-/
namespace CStr

/-- A binary floating point format: `prec` bits of significand, the least positive number is `2^emin`, all finite
numbers are below `2^emax`. -/
structure FFmt where
  prec : Nat
  emin : Int
  emax : Int
  deriving DecidableEq

/-- The usual formats of `float`, `double` and `long double` (x87, or binary128). -/
def binary32 : FFmt := ⟨24, -149, 128⟩
def binary64 : FFmt := ⟨53, -1074, 1024⟩
def extended80 : FFmt := ⟨64, -16445, 16384⟩
def binary128 : FFmt := ⟨113, -16494, 16384⟩

/-- Rounding to the format. -/
def FFmt.round (F : FFmt) (q : Rat) : Flt :=
  if q = 0 then .fin 0
  else
    let u := pow2 (max (ilog2 q - (F.prec - 1)) F.emin)
    let r := (roundEven (q / u) : Rat) * u
    if pow2 F.emax ≤ r.abs then .inf (q < 0) else .fin r

/-- `x + y` -/
def FFmt.add (F : FFmt) : Flt → Flt → Flt
  | .fin x, .fin y => F.round (x + y)
  | .inf a, .inf b => if a = b then .inf a else .nan
  | .inf a, .fin _ => .inf a
  | .fin _, .inf b => .inf b
  | _, _ => .nan

/-- `x * y` -/
def FFmt.mul (F : FFmt) : Flt → Flt → Flt
  | .fin x, .fin y => F.round (x * y)
  | .inf a, .inf b => .inf (a != b)
  | .inf a, .fin y => if y = 0 then .nan else .inf (a != decide (y < 0))
  | .fin x, .inf b => if x = 0 then .nan else .inf (b != decide (x < 0))
  | _, _ => .nan

end CStr
