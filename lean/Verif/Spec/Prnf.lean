import Verif.Model.Prnf
import Verif.Spec.Num
import Verif.Spec.Buf
/-
  Specification of the text formatter, after the documentation in test/prnf.h lines 22-110 and 239-270.

  A call is described by a list of items: literal characters, `%%`, placeholders together with the arguments they
  consume, and column alignments. An item has a notation (the characters in the format string), arguments, and an
  output. Only the argument type of the model is used.
-/
namespace CStr

/-- The value of a sequence of decimal digits. -/
def decVal (ds : List Byte) : Nat := ds.foldl (fun n b => n * 10 + (b.toNat - 48)) 0

/-- A hexadecimal or binary digit: its value. -/
def digitOf (b : Byte) : Nat := if b < 65 then b.toNat - 48 else b.toNat - 55

/-- The value of a sequence of digits in base `base`. -/
def baseVal (base : Nat) (ds : List Byte) : Nat := ds.foldl (fun n b => n * base + digitOf b) 0

/-- prnf.h lines 31-47: the flags; the last two are accepted and ignored. -/
inductive Flag where
  | zero | minus | plus | space | hash | quote
  deriving DecidableEq

/-- The character of a flag. -/
def Flag.char : Flag → Byte
  | zero => 48
  | minus => 45
  | plus => 43
  | space => 32
  | hash => 35
  | quote => 39

/-- A width or a precision: written as digits, or `*` with the value as an `int` argument. -/
inductive Count where
  | digits (ds : List Byte)
  | star (v : Int)

namespace Count

/-- In the format string. -/
def text : Count → List Byte
  | digits ds => ds
  | star _ => [42]

/-- In the argument list. -/
def args : Count → List VArg
  | digits _ => []
  | star v => [.int v]

/-- The number. -/
def val : Count → Int
  | digits ds => decVal ds
  | star v => v

/-- A number that an `int` can hold. -/
def Ok : Count → Prop
  | digits ds => (∀ b ∈ ds, isDigit b = true) ∧ (decVal ds : Int) ≤ INT_MAX
  | star v => INT_MIN ≤ v ∧ v ≤ INT_MAX

end Count

/-- prnf.h lines 74-86: the length modifiers. -/
inductive LenMod where
  | none | hh | h | l | ll | z | t
  deriving DecidableEq

namespace LenMod

/-- In the format string. -/
def text : LenMod → List Byte
  | none => []
  | hh => [104, 104]
  | h => [104]
  | l => [108]
  | ll => [108, 108]
  | z => [122]
  | t => [116]

/-- The size of the argument before promotion. -/
def bytes : LenMod → Nat
  | hh => 1
  | h => 2
  | none => 4
  | _ => 8

end LenMod

/-- The argument of a placeholder: signed and unsigned decimal integers, integers in hexadecimal and binary, a character,
a string at an address (NULL, or the characters `l` and a terminator), a `double` to be printed as it is or in engineering
notation with the unit `1000^j`, or nothing for a letter that is not supported. -/
inductive Value where
  | dec (v : Int)
  | udec (v : Nat)
  | hex (v : Nat)
  | bin (v : Nat)
  | chr (v : Int)
  | str (a : Addr) (l : List Byte)
  | flt (x : Flt)
  | eng (x : Flt) (j : Int)
  | other

/-- The supported type letters `d i u x X o s S c f F e E`. -/
def typeLetters : List Byte := [100, 105, 117, 120, 88, 111, 115, 83, 99, 102, 70, 101, 69]

/-- prnf.h lines 93-110: the letters of a type. -/
def Value.HasLetter (v : Value) (c : Byte) : Prop :=
  match v with
  | dec _ => c ∈ [100, 105]
  | udec _ => c = 117
  | hex _ => c ∈ [120, 88]
  | bin _ => c = 111
  | chr _ => c = 99
  | str _ _ => c ∈ [115, 83]
  | flt _ => c ∈ [102, 70]
  | eng _ _ => c ∈ [101, 69]
  | other => c ∉ typeLetters

/-- The argument as it is passed. -/
def Value.args (len : LenMod) : Value → List VArg
  | dec v => [if len.bytes = 8 then .llong v else .int v]
  | udec v => [if len.bytes = 8 then .llong v else .int v]
  | hex v => [if len.bytes = 8 then .llong v else .int v]
  | bin v => [if len.bytes = 8 then .llong v else .int v]
  | chr v => [.int v]
  | str a _ => [.ptr a]
  | flt x => [.dbl x]
  | eng x _ => [.dbl x]
  | other => []

/-! ### Floating point numbers -/

/-- Finite and of a magnitude below `b`. -/
def Flt.Below (y : Flt) (b : Rat) : Prop :=
  match y with
  | .fin q => q.abs < b
  | _ => False

/-- Divided by 1000 `n` times, as `float` arithmetic does it. -/
def Flt.shrink (y : Flt) : Nat → Flt
  | 0 => y
  | n + 1 => (y.shrink n).divPos 1000

/-- Multiplied by 1000 `n` times, as `float` arithmetic does it. -/
def Flt.grow (y : Flt) : Nat → Flt
  | 0 => y
  | n + 1 => (y.grow n).mulPos 1000

/-- `y` in the unit `1000^j`. -/
def engValue (y : Flt) (j : Int) : Flt := if 0 ≤ j then y.shrink j.toNat else y.grow (-j).toNat

/-- `1000^j` is the unit for `y` in engineering notation: from `1000^-8` to `1000^8` the unit in which the magnitude is at least 1 and
below 1000. A number that is too great for all of them gets the greatest one, a number that is too small (or zero) the smallest. -/
structure EngExp (y : Flt) (j : Int) : Prop where
  low : -8 ≤ j
  high : j ≤ 8
  down : ∀ i : Nat, (i : Int) < j → ¬ (y.shrink i).Below 1000
  up : ∀ i : Nat, (i : Int) < -j → (y.grow i).Below 1
  below : 0 ≤ j → j < 8 → (engValue y j).Below 1000
  above : j ≤ 0 → -8 < j → ¬ (engValue y j).Below 1

/-- prnf.h line 108: the SI prefixes `y z a f p n u m - k M G T P E Z Y`. -/
def siPrefix : Int → List Byte
  | -8 => [121]
  | -7 => [122]
  | -6 => [97]
  | -5 => [102]
  | -4 => [112]
  | -3 => [110]
  | -2 => [117]
  | -1 => [109]
  | 1 => [107]
  | 2 => [77]
  | 3 => [71]
  | 4 => [84]
  | 5 => [80]
  | 6 => [69]
  | 7 => [90]
  | 8 => [89]
  | _ => []

/-- The nearest integer to a number that is not negative, halves up. -/
def nearest (q : Rat) : Nat := (q + 1 / 2).floor.toNat

/-- `|y| * 10^p` as `float` arithmetic computes it. -/
def scaled (q : Rat) (p : Nat) : Flt :=
  match round32 ((10 ^ p : Nat) : Rat) with
  | .fin t => round32 (q.abs * t)
  | y => y

/-- The `p` lowest decimal digits. -/
def lowDigits (p n : Nat) : List Byte := (List.range p).reverse.map fun i => UInt8.ofNat (48 + n / 10 ^ i % 10)

/-- `n / 10^p` with `p` digits after the decimal point. -/
def fixedText (p n : Nat) : List Byte := printBytes 10 (n / 10 ^ p) ++ if p = 0 then [] else 46 :: lowDigits p n

/-- A placeholder `%[flags][width][.precision][length]type` with its argument. -/
structure Conv where
  flags : List Flag
  width : Option Count
  prec : Option Count
  len : LenMod
  letter : Byte
  value : Value

namespace Conv

/-- In the format string. -/
def text (c : Conv) : List Byte :=
  37 :: c.flags.map Flag.char ++ (match c.width with | some w => w.text | none => []) ++
    (match c.prec with | some p => 46 :: p.text | none => []) ++ c.len.text ++ [c.letter]

/-- In the argument list. -/
def args (c : Conv) : List VArg :=
  (match c.width with | some w => w.args | none => []) ++ (match c.prec with | some p => p.args | none => []) ++
    c.value.args c.len

/-- The minimum number of characters. -/
def minWidth (c : Conv) : Nat :=
  match c.width with
  | some w => w.val.natAbs
  | none => 0

/-- Left aligned: the flag `-` or a negative width argument. -/
def left (c : Conv) : Bool :=
  Flag.minus ∈ c.flags || (match c.width with | some (.star v) => decide (v < 0) | _ => false)

/-- What stands before a number that is not negative: the last of the flags `+` and space. -/
def plusSign (c : Conv) : List Byte :=
  match c.flags.reverse.find? (fun f => f = .plus || f = .space) with
  | some f => [f.char]
  | none => []

/-- A text with padding to the minimum width: spaces on the right if left aligned, otherwise `pad` on the left. -/
def field (c : Conv) (pad : Byte) (t : List Byte) : List Byte :=
  if c.left then t ++ List.replicate (c.minWidth - t.length) 32
  else List.replicate (c.minWidth - t.length) pad ++ t

/-- The character that fills an integer field: `0` with the flag `0`, which a precision disables. -/
def intPad (c : Conv) : Byte := if Flag.zero ∈ c.flags ∧ c.prec.isNone then 48 else 32

/-- `n` in base 10, with zeros in front up to as many digits as the precision says. -/
def decDigits (c : Conv) (n : Nat) : List Byte :=
  let ds := printBytes 10 n
  (match c.prec with | some p => List.replicate (p.val.toNat - ds.length) 48 | none => []) ++ ds

/-- The number of digits of a binary or hexadecimal number: the precision, or as the size of the argument requires. -/
def digitCount (c : Conv) (perByte : Nat) : Int :=
  match c.prec with
  | some p => p.val
  | none => (c.len.bytes * perByte : Nat)

/-- The `n` lowest hexadecimal digits, in upper case. -/
def hexDigits (n v : Nat) : List Byte :=
  (List.range n).reverse.map fun i =>
    let d := v / 16 ^ i % 16
    if d < 10 then UInt8.ofNat (48 + d) else UInt8.ofNat (55 + d)

/-- The `n` lowest binary digits. -/
def binDigits (n v : Nat) : List Byte :=
  (List.range n).reverse.map fun i => UInt8.ofNat (48 + v / 2 ^ i % 2)

/-- prnf.h lines 66-70: a string is centred if a width is given and the precision is written as 0. -/
def centred (c : Conv) : Prop :=
  c.minWidth ≠ 0 ∧ match c.prec with
    | some (.digits ds) => decVal ds = 0
    | _ => False

instance (c : Conv) : Decidable c.centred := by
  unfold centred
  match c.prec with
  | some (.digits ds) => exact inferInstance
  | some (.star _) => exact inferInstance
  | none => exact inferInstance

/-- The text between equal amounts of space, one more on the right if the amount is odd. -/
def centre (c : Conv) (l : List Byte) : List Byte :=
  let k := c.minWidth - l.length
  List.replicate (k / 2) 32 ++ l ++ List.replicate (k - k / 2) 32

/-- The part of a string that is printed: at most as many characters as the precision says. -/
def cut (c : Conv) (l : List Byte) : List Byte :=
  match c.prec with
  | some p => l.take p.val.toNat
  | none => l

/-- The character that fills the field of a floating point number. -/
def fltPad (c : Conv) : Byte := if Flag.zero ∈ c.flags then 48 else 32

/-- The sign of a number. -/
def sign (c : Conv) (neg : Bool) : List Byte := if neg then [45] else c.plusSign

/-- The number of digits after the decimal point: at most 19. -/
def places (c : Conv) (default : Nat) : Nat :=
  match c.prec with
  | some p => min 19 p.val.toNat
  | none => default

/-- A floating point number with `p` digits after the decimal point and a suffix, which zero does not get. The digits have to fit into an
`unsigned long long`. -/
def fltText (c : Conv) (p : Nat) (suffix : List Byte) : Flt → List Byte
  | .nan => c.field 32 [78, 65, 78]
  | .inf neg => c.field 32 (c.sign neg ++ [73, 78, 70])
  | .fin q =>
    match scaled q p with
    | .fin s =>
      if s < pow2 64 then
        c.field c.fltPad (c.sign (q < 0) ++ fixedText p (nearest s) ++ if nearest s = 0 then [] else suffix)
      else c.field 32 (c.sign (q < 0) ++ [79, 86, 69, 82])
    | _ => c.field 32 (c.sign (q < 0) ++ [79, 86, 69, 82])

/-- The output of a placeholder. -/
def output (c : Conv) : List Byte :=
  match c.value with
  | .dec v => c.field c.intPad ((if v < 0 then [45] else c.plusSign) ++ c.decDigits v.natAbs)
  | .udec v => c.field c.intPad (c.decDigits v)
  | .hex v => c.field c.intPad (hexDigits (c.digitCount 2).toNat v)
  | .bin v => c.field c.intPad (binDigits (c.digitCount 8).toNat v)
  | .chr v => [UInt8.ofNat (v % 256).toNat]
  | .str _ l =>
    if c.centred then c.centre l
    else c.field 32 (c.cut l)
  | .flt x => c.fltText (c.places 3) [] x.toFloat
  | .eng x j => c.fltText (c.places 0) (siPrefix j) (engValue x.toFloat j)
  | .other => []

/-- Another character in the place of the type letter ends the placeholder: the notation cannot be read on with it. (After what is written
before it, it is not one more flag, `*`, digit, `.` or length modifier, and the whole is not `%%`.) -/
structure Ends (c : Conv) : Prop where
  len : c.len = .none → c.letter ∉ [104, 108, 116, 122]
  len_h : c.len = .h → c.letter ≠ 104
  len_l : c.len = .l → c.letter ≠ 108
  prec : c.len = .none → c.prec = none → c.letter ≠ 46
  prec_digits : c.len = .none → ∀ ds, c.prec = some (.digits ds) → isDigit c.letter = false
  prec_star : c.len = .none → c.prec = some (.digits []) → c.letter ≠ 42
  width_digits : c.len = .none → c.prec = none → ∀ ds, c.width = some (.digits ds) → isDigit c.letter = false
  width : c.len = .none → c.prec = none → c.width = none →
    isDigit c.letter = false ∧ c.letter ≠ 42 ∧ ∀ f : Flag, c.letter ≠ f.char
  percent : c.len = .none → c.prec = none → c.width = none → c.flags = [] → c.letter ≠ 37

/-- The numbers that are written in the placeholder fit into an `int`. A width does not start with `0`, which is a flag. -/
structure Numbers (c : Conv) : Prop where
  width : ∀ w, c.width = some w → w.Ok ∧ ∀ ds, w = .digits ds → ds ≠ [] ∧ ds.head? ≠ some 48
  prec : ∀ p, c.prec = some p → p.Ok

/-- The placeholder is one the documentation describes and its argument has the size announced by the length modifier. (All that is said about a number
is that it is one of the type, nothing is said about strings and precisions.) -/
structure Typed (c : Conv) : Prop where
  letter : c.value.HasLetter c.letter
  width : ∀ w, c.width = some w → w.Ok ∧ (w.val.natAbs : Int) < INT_MAX ∧
    ∀ ds, w = .digits ds → ds ≠ [] ∧ ds.head? ≠ some 48
  prec : ∀ p, c.prec = some p → p.Ok
  value : match c.value with
    | .dec v => if c.len.bytes = 8 then -(2 ^ 63) ≤ v ∧ v < 2 ^ 63 else -(2 ^ 31) ≤ v ∧ v < 2 ^ 31
    | .udec v | .hex v | .bin v => if c.len.bytes = 8 then v < 2 ^ 64 else v < 2 ^ 32
    | .other => c.Ends
    | _ => True

/-- The placeholder is one the documentation describes, its argument has the size announced by the length modifier, and
strings are in memory `m`. The exceptions are listed with the theorems: the most negative `long long`, a width of
`INT_MAX` or more, hexadecimal and binary digit counts that are 0 or more than the type has, negative
precisions for strings, and precisions above 255 for floating point numbers. -/
structure Ok (m : Mem) (c : Conv) : Prop where
  letter : c.value.HasLetter c.letter
  width : ∀ w, c.width = some w → w.Ok ∧ (w.val.natAbs : Int) < INT_MAX ∧
    ∀ ds, w = .digits ds → ds ≠ [] ∧ ds.head? ≠ some 48
  prec : ∀ p, c.prec = some p → p.Ok
  value : match c.value with
    | .dec v => if c.len.bytes = 8 then -(2 ^ 63) < v ∧ v < 2 ^ 63 else -(2 ^ 31) ≤ v ∧ v < 2 ^ 31
    | .udec v => if c.len.bytes = 8 then v < 2 ^ 64 else v < 2 ^ 32
    | .hex v => (if c.len.bytes = 8 then v < 2 ^ 64 else v < 2 ^ 32) ∧ 1 ≤ c.digitCount 2 ∧ c.digitCount 2 ≤ 16
    | .bin v => (if c.len.bytes = 8 then v < 2 ^ 64 else v < 2 ^ 32) ∧ 1 ≤ c.digitCount 8 ∧ c.digitCount 8 ≤ 64
    | .chr _ => True
    | .str a l => (a = 0 ∧ l = [] ∨ CString m a l) ∧ ∀ p, c.prec = some p → 0 ≤ p.val
    | .flt _ => ∀ p, c.prec = some p → 0 ≤ p.val ∧ p.val ≤ 255
    | .eng x j => EngExp x.toFloat j ∧ ∀ p, c.prec = some p → 0 ≤ p.val ∧ p.val ≤ 255
    | .other => c.Ends

end Conv

/-- The digits a decimal placeholder prints for `n`: at least as many as the precision says, and no zero in front that is
not needed. -/
structure IsDecimal (c : Conv) (n : Nat) (ds : List Byte) : Prop where
  digits : ∀ b ∈ ds, isDigit b = true
  value : decVal ds = n
  nonempty : ds ≠ []
  prec : ∀ p, c.prec = some p → p.val ≤ ds.length
  needed : ds.head? = some 48 → ds = [48] ∨ ∃ p, c.prec = some p ∧ p.val = ds.length

/-- Decimal digits with `p` places after the decimal point: `ip` before it, with no zero in front that is not needed, and `fp` after it. -/
structure IsFixed (p : Nat) (ip fp : List Byte) : Prop where
  digits : ∀ b ∈ ip ++ fp, isDigit b = true
  nonempty : ip ≠ []
  needed : ip.head? = some 48 → ip = [48]
  places : fp.length = p

/-- The digits with the decimal point between them, which is omitted if nothing follows it. -/
def pointed (ip fp : List Byte) : List Byte := if fp = [] then ip else ip ++ 46 :: fp

/-- The number that `ip.fp` denotes. -/
def fixedValue (ip fp : List Byte) : Rat := (decVal (ip ++ fp) : Rat) / 10 ^ fp.length

/-- How accurate a number is with `p` digits after the decimal point, apart from the last digit: one rounding of a `float`. (With more than
10 digits, which is more than the documentation allows, three.) -/
def relErr (p : Nat) : Rat := if p ≤ 10 then 1 / 2 ^ 24 else 3 / 2 ^ 24

/-- One piece of a format string with its arguments. -/
inductive FmtItem where
  /-- a character that stands for itself -/
  | lit (b : Byte)
  /-- `%%` -/
  | percent
  /-- a placeholder -/
  | conv (c : Conv)
  /-- `\v` without a column number -/
  | vtab
  /-- `\v<column><pad character>` -/
  | align (ds : List Byte) (pad : Byte)
  /-- `\v<column>` without a printable pad character -/
  | alignNone (ds : List Byte)

namespace FmtItem

/-- In the format string. -/
def text : FmtItem → List Byte
  | lit b => [b]
  | percent => [37, 37]
  | conv c => c.text
  | vtab => [11]
  | align ds pad => 11 :: ds ++ [pad]
  | alignNone ds => 11 :: ds

/-- In the argument list. -/
def args : FmtItem → List VArg
  | conv c => c.args
  | _ => []

/-- The output when `col` is the current column. -/
def output (col : Nat) : FmtItem → List Byte
  | lit b => [b]
  | percent => [37]
  | conv c => c.output
  | vtab => [11]
  | align ds pad => List.replicate (decVal ds - col) pad
  | alignNone _ => []

/-- A nonempty column number. -/
def IsCol (ds : List Byte) : Prop := ds ≠ [] ∧ (∀ b ∈ ds, isDigit b = true) ∧ (decVal ds : Int) ≤ INT_MAX

/-- A character that can be used for padding or counts as a column: printable ASCII (and DEL). -/
def Printable (b : Byte) : Prop := 32 ≤ b ∧ b < 128

instance (b : Byte) : Decidable (Printable b) := inferInstanceAs (Decidable (_ ∧ _))

/-- The item is well-formed in front of the character `next` of the format string (the terminator at its end). -/
def Ok (m : Mem) (next : Byte) : FmtItem → Prop
  | lit b => b ≠ 0 ∧ b ≠ 37 ∧ b ≠ 11
  | percent => True
  | conv c => c.Ok m
  | vtab => isDigit next = false
  | align ds pad => IsCol ds ∧ Printable pad ∧ isDigit pad = false
  | alignNone ds => IsCol ds ∧ ¬ Printable next

end FmtItem

/-- The format string of a list of items. -/
def formatText (is : List FmtItem) : List Byte := is.flatMap FmtItem.text

/-- The argument list of a list of items. -/
def formatArgs (is : List FmtItem) : List VArg := is.flatMap FmtItem.args

/-- The column reached by an output: the printable characters since the last line ending. -/
def column (done : List Byte) : Nat :=
  ((done.reverse.takeWhile fun b => b ≠ 13 ∧ b ≠ 10).filter fun b => decide (FmtItem.Printable b)).length

/-- What is printed in all, `done` being printed already. -/
def formatOutputFrom : List Byte → List FmtItem → List Byte
  | done, [] => done
  | done, i :: is => formatOutputFrom (done ++ i.output (column done)) is

/-- The output of a list of items. -/
def formatOutput (is : List FmtItem) : List Byte := formatOutputFrom [] is

/-- All items are well-formed. -/
def ItemsOk (m : Mem) : List FmtItem → Prop
  | [] => True
  | i :: is => i.Ok m ((formatText is ++ [0]).headD 0) ∧ ItemsOk m is

/-- All items are well-formed in front of the rest `u` of the format string (with its terminator). -/
def ItemsBefore (m : Mem) (u : List Byte) : List FmtItem → Prop
  | [] => True
  | i :: is => i.Ok m ((formatText is ++ u).headD 0) ∧ ItemsBefore m u is

/-- The format string of the items is at `fmt`, their string arguments are in memory, and everything is well-formed. -/
structure Format (m : Mem) (fmt : Addr) (is : List FmtItem) : Prop where
  text : Holds m fmt (formatText is ++ [0])
  size : (formatText is).length < 2 ^ 64
  items : ItemsOk m is

/-- A `Format` that does not depend on the `n` bytes from `p`: neither the format string nor a string argument is there. -/
def FormatApart (m : Mem) (p : Addr) (n : Nat) (fmt : Addr) (is : List FmtItem) : Prop :=
  ∀ m' : Mem, (∀ a, ¬ InRange p n a → (m a).isSome → m' a = m a) → Format m' fmt is

end CStr
