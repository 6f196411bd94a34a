import Verif.Spec.Combine
import Verif.Spec.Lines
/-
  Reading `name = value` lines with the functions of the library, and what that means.
-/
namespace CStr

/-- docs/strview-api.md, `strview_split_line`, `strview_split_first_delim` and `strview_trim`:
`while(strview_is_valid(line = strview_split_line(&text, NULL))) {name = strview_split_first_delim(&line, eq, false);
if(strview_is_valid(line)) use(strview_trim(name, blanks), strview_trim(line, blanks));}`
The result are the contents of the views that are used. -/
def readSettings (m : Mem) (eq : Addr) (blanks : View) : Nat → View → Res (List (List Byte × List Byte))
  | 0, _ => .fuel
  | k + 1, text => do
    match ← strview_split_line m (some text) none with
    | (line, some text, _) =>
      if strview_is_valid line then do
        match ← strview_split_first_delim m (some line) eq false with
        | (name, some line) =>
          if strview_is_valid line then do
            let n ← strview_trim_strview m name blanks
            let v ← strview_trim_strview m line blanks
            let a ← readBytes m n.data n.size.toNat
            let b ← readBytes m v.data v.size.toNat
            let xs ← readSettings m eq blanks k text
            .ok ((a, b) :: xs)
          else readSettings m eq blanks k text
        | _ => .env .other
      else .ok []
    | _ => .env .other

/-- `l` without the characters `cs` at its ends. -/
def trimmed (cs l : List Byte) : List Byte := ((l.dropWhile (· ∈ cs)).reverse.dropWhile (· ∈ cs)).reverse

/-- The name and the value of a line with the character `d`: what is before the first `d` and what is behind it, without blanks. -/
def settingOf (d : Byte) (cs l : List Byte) : Option (List Byte × List Byte) :=
  if d ∈ l then some (trimmed cs (l.takeWhile (· ≠ d)), trimmed cs ((l.dropWhile (· ≠ d)).drop 1)) else none

end CStr
