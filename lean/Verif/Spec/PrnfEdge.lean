import Verif.Spec.PrnfForm
/-
  Arguments and precisions for which the behaviour of the bundled formatter is not defined.
-/
namespace CStr

/-- The digit count of `%x` is one for which the code is defined: modulo 64 it is between 1 and 16, and nothing that is computed with it overflows. -/
structure Conv.HexCount (c : Conv) : Prop where
  low : 1 ≤ c.digitCount 2 % 64
  high : c.digitCount 2 % 64 ≤ 16
  offset : INT_MIN ≤ c.digitCount 2 * 4 ∧ c.digitCount 2 * 4 ≤ INT_MAX
  pad : c.minWidth - c.digitCount 2 ≤ INT_MAX

/-- What `%x` prints then: the digit count modulo 64 is the number of digits, but the padding is that of as many as the digit count says. -/
def Conv.hexOutput (c : Conv) (v : Nat) : List Byte :=
  let digits := Conv.hexDigits (c.digitCount 2 % 64).toNat v
  let fill := (c.minWidth - c.digitCount 2).toNat
  if c.left then digits ++ List.replicate fill 32 else List.replicate fill c.intPad ++ digits

/-- The number, the digit count, the precision or the string is one for which the code does something undefined. -/
inductive Conv.Undefined (m : Mem) (c : Conv) : Prop
  /-- `%lld` of the most negative number, which is negated -/
  | llongMin (hv : c.value = .dec (-(2 ^ 63)))
  /-- `%x` with another digit count -/
  | hexCount {v : Nat} (hv : c.value = .hex v) (hn : ¬ c.HexCount)
  /-- `%o` with a digit count that is not between 1 and 64 -/
  | binCount {v : Nat} (hv : c.value = .bin v) (hn : ¬ (1 ≤ c.digitCount 8 ∧ c.digitCount 8 ≤ 64))
  /-- `%s` with a negative precision -/
  | negPrec {a : Addr} {l : List Byte} {p : Count} (hv : c.value = .str a l) (hp : c.prec = some p) (hn : p.val < 0)
  /-- `%s` of characters without a terminator, up to the end of the memory; also if the precision says how many there are -/
  | noEnd {a : Addr} {l t : List Byte} (hv : c.value = .str a l) (ha : a ≠ 0) (ht : Holds m a t) (h0 : (0 : Byte) ∉ t)
      (hend : load m (a + t.length) = .ub .badRead)

end CStr
