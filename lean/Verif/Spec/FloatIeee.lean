import Verif.Spec.FloatValue
import Verif.C.Ieee
/-
  Specification of the floating point conversions with IEEE 754 arithmetic (C69, C70).
-/
namespace CStr

/-- IEEE arithmetic of the format `F`, and `pow` for `powfunc(10, n)` (strnum.c lines 549-571). -/
def ieeeOps (F : FFmt) (pow : Int → Flt) : FloatOps Flt where
  zero := .fin 0
  ofULL n := F.round n
  add := F.add
  mul := F.mul
  pow10 := pow
  neg := Flt.neg
  inf := .inf false
  nan := .nan
  isPosInf x := x = .inf false
  isNan := Flt.isNan

/-- Numbers of the format `F`. -/
def FFmt.Number (F : FFmt) (x : ℚ) : Prop := ∃ (M k : ℤ), x = M * (2 : ℚ) ^ k ∧ |M| ≤ 2 ^ F.prec ∧ F.emin ≤ k

/-- The least positive number with full precision. -/
def FFmt.minNormal (F : FFmt) : ℚ := (2 : ℚ) ^ (F.emin + F.prec - 1)

/-- The greatest number. -/
def FFmt.max (F : FFmt) : ℚ := (2 : ℚ) ^ F.emax - (2 : ℚ) ^ (F.emax - F.prec)

/-- Half a unit in the last place, relative to the number: the greatest relative error of a rounding. -/
def FFmt.eps (F : FFmt) : ℚ := 1 / 2 ^ F.prec

/-- The formats considered: at least `float`. -/
structure FFmt.Std (F : FFmt) : Prop where
  prec : 24 ≤ F.prec
  emax : 128 ≤ F.emax
  emin : F.emin + F.prec ≤ -1
  emin_ge : - 2 ^ 20 ≤ F.emin

/-- What is assumed of the library function `pow(10, n)`: the zeroth power is 1 (C11 annex F), powers within the normal
range have a relative error of at most one unit in the last place, great powers overflow, small ones do not exceed the
least normal number. Powers of the format are numbers of the format. -/
structure Pow10 (F : FFmt) (pow : Int → Flt) : Prop where
  one : pow 0 = .fin 1
  normal : ∀ n : Int, F.minNormal ≤ (10 : ℚ) ^ n → (10 : ℚ) ^ n < (2 : ℚ) ^ F.emax →
    ∃ x, pow n = .fin x ∧ F.Number x ∧ |x - (10 : ℚ) ^ n| ≤ (10 : ℚ) ^ n * (2 * F.eps)
  over : ∀ n : Int, (2 : ℚ) ^ F.emax ≤ (10 : ℚ) ^ n → pow n = .inf false
  small : ∀ n : Int, (10 : ℚ) ^ n < F.minNormal → ∃ x, pow n = .fin x ∧ F.Number x ∧ 0 ≤ x ∧ x ≤ F.minNormal

/-- `10^n` -/
def pow10Rat (n : Int) : Rat := if 0 ≤ n then ((10 ^ n.toNat : Nat) : Rat) else 1 / ((10 ^ (-n).toNat : Nat) : Rat)

/-- The correctly rounded power. -/
def exactPow10 (F : FFmt) (n : Int) : Flt := F.round (pow10Rat n)

/-- `x` is `v` up to at most `k` roundings. -/
def FFmt.Near (F : FFmt) (k : Nat) (x v : ℚ) : Prop := v * (1 - F.eps) ^ k ≤ x ∧ x ≤ v * (1 + F.eps) ^ k

/-- The number of roundings that the conversion of a literal with the fractional digits `f` needs: 11 for the first 19
fractional digits and one for each further 19. -/
def roundings (f : List UInt8) : Nat := 11 + f.length / 19

/-- The digits before and after the point are in the range of the type: the integral digits can be cut into two numbers
of 64 bits (which is so for all numbers less than 10^38, and for 64 bits followed by any number of zeros), and the number
they write does not exceed the greatest number, also after the rounding errors. -/
def FFmt.Fits (F : FFmt) (i f : List UInt8) : Prop := TwoWords i ∧ literalValue i f 0 * (1 + F.eps) ^ roundings f ≤ F.max

end CStr
