import Verif.Spec.Num
import Verif.C.Basic
/-
  Specification of floating point literals: the grammar of C29 and the exact value of C30.
-/
namespace CStr

/-- `l` is `ds ++ rest` where `ds` is the longest run of decimal digits. -/
structure DecRun (l ds rest : List UInt8) : Prop where
  split : l = ds ++ rest
  digits : ∀ b ∈ ds, IsDigitOf 10 b
  longest : ∀ b t, rest = b :: t → ¬ IsDigitOf 10 b

/-- The optional point and fractional digits: `. digits`, `.`, or nothing. -/
inductive AfterPoint : (l f rest : List UInt8) → Prop
  | point {r f rest : List UInt8} : DecRun r f rest → AfterPoint (46 :: r) f rest
  | none {l : List UInt8} : l.head? ≠ some 46 → AfterPoint l [] l

/-- The optional exponent `e [sign] digits` with value `e`. Anything else is not an exponent and is left alone. -/
inductive AfterExponent (o : UInt32) : (l : List UInt8) → (e : Int) → (rest : List UInt8) → Prop
  | exp {c : UInt8} {r r1 ds rest : List UInt8} {neg : Bool} {n : Nat} : flag o STRNUM_NOEXP = false →
      c = 101 ∨ c = 69 → AfterSign 0 r neg r1 → DigitRun 10 r1 ds n rest → ds ≠ [] →
      AfterExponent o (c :: r) (signedVal neg n) rest
  | none {l : List UInt8} :
      flag o STRNUM_NOEXP = true ∨
        (∀ c r neg r1, l = c :: r → c = 101 ∨ c = 69 → AfterSign 0 r neg r1 →
          ∀ b t, r1 = b :: t → ¬ IsDigitOf 10 b) →
      AfterExponent o l 0 l

/-- `l` is a word that is equal to `word` apart from case, followed by `r`. -/
def StartsWithWord (word l r : List UInt8) : Prop := ∃ q, l = q ++ r ∧ q.map toUpper = word

/-- "INF", "INFINITY", "NAN" -/
def wordInf : List UInt8 := [73, 78, 70]
def wordInfinity : List UInt8 := [73, 78, 70, 73, 78, 73, 84, 89]
def wordNan : List UInt8 := [78, 65, 78]
/-- "INFINTY": not a word of the grammar, but recognised by the library. -/
def wordInfinty : List UInt8 := [73, 78, 70, 73, 78, 84, 89]

/-- An unsigned floating point literal. -/
inductive FloatLit where
  | inf
  | nan
  /-- integral digits, fractional digits, exponent -/
  | num (i f : List UInt8) (e : Int)
  deriving DecidableEq

/-- The text `l` is the longest unsigned literal `lit` followed by `rest`. -/
inductive FloatBody (o : UInt32) : (l : List UInt8) → (lit : FloatLit) → (rest : List UInt8) → Prop
  | infinity {l r : List UInt8} : StartsWithWord wordInfinity l r → FloatBody o l .inf r
  | inf {l r : List UInt8} : StartsWithWord wordInf l r → (∀ r', ¬ StartsWithWord wordInfinity l r') →
      FloatBody o l .inf r
  | nan {l r : List UInt8} : StartsWithWord wordNan l r → FloatBody o l .nan r
  | num {l l1 l2 i f rest : List UInt8} {e : Int} : DecRun l i l1 → AfterPoint l1 f l2 → i ≠ [] ∨ f ≠ [] →
      AfterExponent o l2 e rest → FloatBody o l (.num i f e) rest

/-- The text `l` is spaces, a sign, the longest unsigned literal and `rest`. -/
structure FloatText (o : UInt32) (l : List UInt8) (neg : Bool) (lit : FloatLit) (rest : List UInt8) : Prop where
  parts : ∃ l1 l2, AfterSpaces o l l1 ∧ AfterSign o l1 neg l2 ∧ FloatBody o l2 lit rest

/-- What is stored for a value: NAN for a NaN, otherwise the value with its sign. -/
def storedValue {F : Type} (ops : FloatOps F) (neg : Bool) (val : F) : F :=
  if ops.isNan val then ops.nan else if neg then ops.neg val else val

end CStr
