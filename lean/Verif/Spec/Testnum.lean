import Verif.Spec.Num
import Verif.Spec.Float
/-!
  What the example program `testnum` has to report for a line of text and a type, as (error, value, remaining text).
-/
namespace CStr

/-- The report `r` is that of the conversion `call`, which gets the previous value of its destination: the same error, the remaining text up to a NUL, and the stored value, or `zero` if nothing was stored. -/
def CallReport {T : Type} (m : Mem) (zero : T) (call : T → Res (Int × Option T × Option View)) (r : Int × T × List Byte) : Prop :=
  ∀ x, ∃ d w t, call x = .ok (r.1, d, some w) ∧ Denotes m w t ∧ r.2.2 = t.takeWhile (· ≠ 0) ∧ (r.1 = 0 → d = some r.2.1) ∧ (r.1 ≠ 0 → r.2.1 = zero ∧ d = some x)

/-- What is reported for the unsigned type `t` and the line `l`: an error, the value 0 and the whole line, or the value of the literal and the text behind it. -/
inductive UReport (t : UTy) (o : UInt32) (l : List Byte) : Int × Nat × List Byte → Prop
  | none {base n : Nat} {rest : List Byte} : UnsignedText o l base [] n rest → UReport t o l (EINVAL, 0, l)
  | range {base n : Nat} {ds rest : List Byte} : UnsignedText o l base ds n rest → ds ≠ [] → t.max < n → UReport t o l (ERANGE, 0, l)
  | value {base n : Nat} {ds rest : List Byte} : UnsignedText o l base ds n rest → ds ≠ [] → n ≤ t.max → UReport t o l (0, n, rest)

/-- The same for a signed type. -/
inductive SReport (t : STy) (o : UInt32) (l : List Byte) : Int × Int × List Byte → Prop
  | none {neg : Bool} {base n : Nat} {rest : List Byte} : SignedText o l neg base [] n rest → SReport t o l (EINVAL, 0, l)
  | range {neg : Bool} {base n : Nat} {ds rest : List Byte} : SignedText o l neg base ds n rest → ds ≠ [] → ¬ t.InRange (signedVal neg n) → SReport t o l (ERANGE, 0, l)
  | value {neg : Bool} {base n : Nat} {ds rest : List Byte} : SignedText o l neg base ds n rest → ds ≠ [] → t.InRange (signedVal neg n) → SReport t o l (0, signedVal neg n, rest)

/-- The same for a floating type. For infinity the text behind the literal is exact unless the word is "infinity" or "infinty" (the deviations of C29). What value a number has is the subject of C30 and C69. -/
inductive FReport {F : Type} (ops : FloatOps F) (o : UInt32) (l : List Byte) : Int × F × List Byte → Prop
  | none : (∀ neg lit rest, ¬ FloatText o l neg lit rest) → FReport ops o l (EINVAL, ops.zero, l)
  | range {neg : Bool} {i f rest : List Byte} {e : Int} : FloatText o l neg (.num i f e) rest → FReport ops o l (ERANGE, ops.zero, l)
  | num {neg : Bool} {i f rest : List Byte} {e : Int} (x : F) : FloatText o l neg (.num i f e) rest → INT_MIN ≤ e ∧ e ≤ INT_MAX → ops.isPosInf x = false →
      FReport ops o l (0, storedValue ops neg x, rest)
  | nan {neg : Bool} {rest : List Byte} : FloatText o l neg .nan rest → FReport ops o l (0, storedValue ops neg ops.nan, rest)
  | inf {neg : Bool} {rest t : List Byte} : FloatText o l neg .inf rest →
      ((∀ l1 l2, AfterSpaces o l l1 → AfterSign o l1 neg l2 → ∀ r, ¬ StartsWithWord wordInfinity l2 r ∧ ¬ StartsWithWord wordInfinty l2 r) → t = rest) →
      FReport ops o l (0, storedValue ops neg ops.inf, t)

end CStr
