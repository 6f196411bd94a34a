/-
  Specifications on byte lists, independent of the model: occurrences, delimiters, tokens, lines.
-/
namespace CStr

/-- An index counted from the end when negative, as documented for `strview_sub`. -/
def fromEnd (n i : Int) : Int := if i < 0 then n + i else i

/-- `needle` occurs in `hay` at offset `i`, bytes compared after applying `fold`. -/
def OccursAt (fold : UInt8 → UInt8) (needle hay : List UInt8) (i : Nat) : Prop :=
  ∃ pre mid post, hay = pre ++ mid ++ post ∧ pre.length = i ∧ mid.map fold = needle.map fold

/-- `l` can be split as `pre ++ d :: post` at a delimiter `d`; with `excl` the delimiter must not be inside
double quotes, counting the quotes from the start. -/
def SplitsFwd (excl : Bool) (ds l pre : List UInt8) (d : UInt8) (post : List UInt8) : Prop :=
  l = pre ++ d :: post ∧ d ∈ ds ∧ (excl = true → (pre ++ [d]).count 34 % 2 = 0)

/-- As `SplitsFwd`, counting the quotes from the end. -/
def SplitsBwd (excl : Bool) (ds l pre : List UInt8) (d : UInt8) (post : List UInt8) : Prop :=
  l = pre ++ d :: post ∧ d ∈ ds ∧ (excl = true → (d :: post).count 34 % 2 = 0)

/-- `l` is `mid` in `k` layers of the byte `q`. -/
inductive Layers (q : UInt8) (mid : List UInt8) : Nat → List UInt8 → Prop
  | zero : Layers q mid 0 mid
  | succ {k : Nat} {l : List UInt8} : Layers q mid k l → Layers q mid (k + 1) (q :: (l ++ [q]))

/-- `toks` are the tokens of `l`: separated by single delimiters, none of them containing a delimiter. -/
inductive Tokens (ds : List UInt8) : List UInt8 → List (List UInt8) → Prop
  | last (t : List UInt8) : (∀ x ∈ t, x ∉ ds) → Tokens ds t [t]
  | more (t : List UInt8) (d : UInt8) (rest : List UInt8) (toks : List (List UInt8)) :
      (∀ x ∈ t, x ∉ ds) → d ∈ ds → Tokens ds rest toks → Tokens ds (t ++ d :: rest) (t :: toks)

/-- `t` contains no delimiter outside double quotes: before every delimiter in it is an odd number of quotes. -/
def AllQuoted (ds t : List UInt8) : Prop := ∀ pre x post, t = pre ++ x :: post → x ∈ ds → (pre ++ [x]).count 34 % 2 = 1

/-- `toks` are the tokens of `l` if delimiters between double quotes do not count: separated by single delimiters that
are outside quotes, none of them containing a delimiter outside quotes. -/
inductive QuotedTokens (ds : List UInt8) : List UInt8 → List (List UInt8) → Prop
  | last (t : List UInt8) : AllQuoted ds t → QuotedTokens ds t [t]
  | more (t : List UInt8) (d : UInt8) (rest : List UInt8) (toks : List (List UInt8)) : AllQuoted ds t → d ∈ ds →
      (t ++ [d]).count 34 % 2 = 0 → QuotedTokens ds rest toks → QuotedTokens ds (t ++ d :: rest) (t :: toks)

/-- The number of delimiters in `l` that have an even number of quotes before them (themselves included), if `q` quotes
precede `l`. -/
def openDelims (ds : List UInt8) : Nat → List UInt8 → Nat
  | _, [] => 0
  | q, b :: l =>
    let q' := if b = 34 then q + 1 else q
    (if b ∈ ds ∧ q' % 2 = 0 then 1 else 0) + openDelims ds q' l

end CStr
