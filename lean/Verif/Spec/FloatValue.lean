import Mathlib.Algebra.Field.Rat
import Verif.Spec.Float
import Verif.Model.Strnum
/-
  Specification of the value of a floating point literal (C30): exact rational numbers.
-/
namespace CStr

/-- The number written by a list of decimal digits. -/
def digitsNumber (ds : List UInt8) : Nat := ds.foldl (fun n b => 10 * n + (b.toNat - 48)) 0

/-- The exact value of the literal `i . f e exp`. -/
def literalValue (i f : List UInt8) (exp : Int) : ℚ :=
  (digitsNumber i + digitsNumber f / 10 ^ f.length) * (10 : ℚ) ^ exp

/-- The digits can be cut into two numbers of 64 bits each. -/
def TwoWords (ds : List UInt8) : Prop := ∃ a b, ds = a ++ b ∧ digitsNumber a < 2 ^ 64 ∧ digitsNumber b < 2 ^ 64

/-- Exact arithmetic: the floating operations without rounding, overflow or special values. -/
def exactOps : FloatOps ℚ where
  zero := 0
  ofULL n := n
  add := (· + ·)
  mul := (· * ·)
  pow10 e := (10 : ℚ) ^ e
  neg := (- ·)
  inf := 0
  nan := 0
  isPosInf _ := false
  isNan _ := false

end CStr
