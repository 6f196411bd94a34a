import Verif.Spec.Prnf
/-
  What can be wrong with a format string and its arguments, for C67.
-/
namespace CStr

/-- What is written before the type letter of a placeholder. -/
def Conv.stem (c : Conv) : List Byte :=
  37 :: c.flags.map Flag.char ++ (match c.width with | some w => w.text | none => []) ++
    (match c.prec with | some p => 46 :: p.text | none => []) ++ c.len.text

/-- Digits of a number that does not fit into an `int`. -/
def TooGreat (ds : List Byte) : Prop := (∀ b ∈ ds, isDigit b = true) ∧ INT_MAX < (decVal ds : Int)

/-- A format string that ends before the type letter of the placeholder it starts with. -/
inductive Unfinished : List Byte → Prop
  | intro (c : Conv) (numbers : c.Numbers) : Unfinished c.stem

/-- A format string that starts with a number which is too great. -/
inductive Overlong : List Byte → Prop
  /-- the width of a placeholder -/
  | width (flags : List Flag) (ds rest : List Byte) (great : TooGreat ds) (first : ds.head? ≠ some 48) :
      Overlong (37 :: flags.map Flag.char ++ ds ++ rest)
  /-- the precision of a placeholder, which follows the flags and the width -/
  | prec (c : Conv) (numbers : c.Numbers) (none : c.prec = none) (len : c.len = .none) (ds rest : List Byte) (great : TooGreat ds) :
      Overlong (c.stem ++ 46 :: ds ++ rest)
  /-- a column -/
  | column (ds rest : List Byte) (great : TooGreat ds) : Overlong (11 :: ds ++ rest)

/-- A format string that starts with a mistake. -/
def Malformed (u : List Byte) : Prop := Unfinished u ∨ Overlong u

/-- The format string `u` starts with a complete placeholder, but the arguments `va` do not start with what it needs: there are too few of them,
they are of another type, or they are among the exceptions listed with `Conv.Ok`. -/
def BadArgs (m : Mem) (va : List VArg) (u : List Byte) : Prop :=
  ∃ c : Conv, ∃ rest, u = c.text ++ rest ∧ c.Numbers ∧ c.Ends ∧
    ∀ c' : Conv, c'.text = c.text → ∀ more, va = c'.args ++ more → ¬ c'.Ok m

end CStr
