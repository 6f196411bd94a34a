import Verif.Model.Strview
import Verif.Spec.View
import Verif.Spec.Lines
/-
  Any sequence of calls of view functions: a program that holds views and an `eol` variable, and calls functions on them.
-/
namespace CStr

/-- One call. `i` and `j` say which of the views held are used, the first view held being 0; a source that is changed is changed in place,
a view that is returned is held from then on (and a character that is returned is dropped). -/
inductive VOp where
  /-- `strview_sub(v[i], b, e)` -/
  | sub (i : Nat) (b e : Int)
  /-- `strview_trim(v[i], v[j])` and so on -/
  | trim (i j : Nat)
  | trimStart (i j : Nat)
  | trimEnd (i j : Nat)
  | findFirst (i j : Nat)
  | findFirstNocase (i j : Nat)
  | findLast (i j : Nat)
  | findLastNocase (i j : Nat)
  /-- `strview_split_first_delim(&v[i], delims, excl)` -/
  | splitFirst (i : Nat) (delims : Addr) (excl : Bool)
  | splitLast (i : Nat) (delims : Addr) (excl : Bool)
  /-- `strview_split_index(&v[i], n)` -/
  | splitIndex (i : Nat) (n : Int)
  /-- `strview_split_left(&v[i], v[j])` -/
  | splitLeft (i j : Nat)
  | splitRight (i j : Nat)
  /-- `strview_pop_first_char(&v[i])` -/
  | pop (i : Nat)
  /-- `strview_split_line(&v[i], &eol)` -/
  | splitLine (i : Nat)
  /-- `strview_split_line(&v[i], NULL)` -/
  | splitLineNull (i : Nat)
  /-- `strview_dequote(v[i])` -/
  | dequote (i : Nat)

/-- View `i`; a view that is not held is the invalid view. -/
def viewAt (vs : List View) (i : Nat) : View := vs.getD i .invalid

/-- A call that returns a view. -/
def keep (vs : List View) (eol : Byte) (r : Res View) : Res (List View × Byte) := do
  let u ← r
  .ok (vs ++ [u], eol)

/-- A call that changes view `i` and returns a view. -/
def keepSplit (vs : List View) (eol : Byte) (i : Nat) (r : Res (View × Option View)) : Res (List View × Byte) := do
  match ← r with
  | (u, some s) => .ok (vs.set i s ++ [u], eol)
  | (_, none) => .env .other

/-- The call. -/
def VOp.run (m : Mem) (vs : List View) (eol : Byte) : VOp → Res (List View × Byte)
  | sub i b e => keep vs eol (strview_sub (viewAt vs i) b e)
  | trim i j => keep vs eol (strview_trim_strview m (viewAt vs i) (viewAt vs j))
  | trimStart i j => keep vs eol (strview_trim_start_strview m (viewAt vs i) (viewAt vs j))
  | trimEnd i j => keep vs eol (strview_trim_end_strview m (viewAt vs i) (viewAt vs j))
  | findFirst i j => keep vs eol (strview_find_first_strview m (viewAt vs i) (viewAt vs j))
  | findFirstNocase i j => keep vs eol (strview_find_first_nocase_strview m (viewAt vs i) (viewAt vs j))
  | findLast i j => keep vs eol (strview_find_last_strview m (viewAt vs i) (viewAt vs j))
  | findLastNocase i j => keep vs eol (strview_find_last_nocase_strview m (viewAt vs i) (viewAt vs j))
  | splitFirst i delims excl => keepSplit vs eol i (strview_split_first_delim m (some (viewAt vs i)) delims excl)
  | splitLast i delims excl => keepSplit vs eol i (strview_split_last_delim m (some (viewAt vs i)) delims excl)
  | splitIndex i n => keepSplit vs eol i (strview_split_index (some (viewAt vs i)) n)
  | splitLeft i j => keepSplit vs eol i (strview_split_left (some (viewAt vs i)) (viewAt vs j))
  | splitRight i j => keepSplit vs eol i (strview_split_right (some (viewAt vs i)) (viewAt vs j))
  | pop i => do
    match ← strview_pop_first_char m (some (viewAt vs i)) with
    | (_, some s) => .ok (vs.set i s, eol)
    | (_, none) => .env .other
  | splitLine i => do
    match ← strview_split_line m (some (viewAt vs i)) (some eol) with
    | (u, some s, some eol) => .ok (vs.set i s ++ [u], eol)
    | _ => .env .other
  | splitLineNull i => do
    match ← strview_split_line m (some (viewAt vs i)) none with
    | (u, some s, _) => .ok (vs.set i s ++ [u], eol)
    | _ => .env .other
  | dequote i => keep vs eol (strview_dequote m (viewAt vs i))

/-- All calls, one after the other. -/
def runViews (m : Mem) : List VOp → List View → Byte → Res (List View × Byte)
  | [], vs, eol => .ok (vs, eol)
  | op :: ops, vs, eol => do
    let (vs, eol) ← op.run m vs eol
    runViews m ops vs eol

/-- What the language requires of the arguments: an index is an `int`, and delimiters are NULL or a C string. -/
def VOp.Ok (m : Mem) : VOp → Prop
  | sub _ b e => (INT_MIN ≤ b ∧ b ≤ INT_MAX) ∧ INT_MIN ≤ e ∧ e ≤ INT_MAX
  | splitFirst _ delims _ => delims = 0 ∨ ∃ ds, CString m delims ds
  | splitLast _ delims _ => delims = 0 ∨ ∃ ds, CString m delims ds
  | splitIndex _ n => INT_MIN ≤ n ∧ n ≤ INT_MAX
  | _ => True

/-- `v` is invalid, or views bytes `l` that are a part of one of the texts. -/
def PartOf (texts : List (View × List Byte)) (v : View) : Prop :=
  v = .invalid ∨ ∃ t ∈ texts, ∃ i n : Nat, i + n ≤ t.2.length ∧ v = ⟨t.1.data + i, n⟩

end CStr
