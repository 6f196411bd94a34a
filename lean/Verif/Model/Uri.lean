import Verif.Model.Print
/-
  Model of /repo/examples/parse-uri/parse-uri.c.
-/
namespace CStr

/-- parse-uri.c lines 59-66: `struct uri_struct`. -/
structure Uri where
  scheme : View
  host : View
  path : View
  user : View
  port : View
  deriving DecidableEq

/-- The string literals of parse-uri.c. -/
def litColon : Addr := litBase + 32
def litSlash : Addr := litBase + 34
def litAt : Addr := litBase + 43
def litColonSlashSlash : Addr := litBase + 49

/-- `strview_split_first_delim(&uri, delims, false)` for a local variable `uri`: the result and the new value of `uri`. -/
def splitLocal (m : Mem) (uri : View) (delims : Addr) : Res (View × View) := do
  let (r, u) ← strview_split_first_delim m (some uri) delims false
  match u with
  | some u => .ok (r, u)
  | none => .ok (r, uri)

/-- parse-uri.c lines 147-151: the scheme. Returns `result.scheme` and the new `uri`. -/
def parse_scheme (m : Mem) (uri : View) : Res (View × View) := do
  let f ← strview_find_first_cstr m uri litColonSlashSlash
  if strview_is_valid f then
    let (scheme, uri) ← splitLocal m uri litColon
    let uri ← strview_sub uri 2 INT_MAX
    .ok (scheme, uri)
  else .ok (.invalid, uri)

/-- parse-uri.c lines 142-190: `parse_uri`. `isdigit(uri.data[0])` is false for bytes above 127 (strictly, a negative `char` argument is undefined). -/
def parse_uri (m : Mem) (uri : View) : Res Uri := do
  let (scheme, uri) ← parse_scheme m uri
  let (user, uri) ← splitLocal m uri litAt
  let (user, uri) := if !strview_is_valid uri then strview_swap user uri else (user, uri)
  let f ← strview_find_first_cstr m uri litColon
  if !strview_is_valid f then
    let (tmp, uri) ← splitLocal m uri litSlash
    if strview_is_valid uri then
      .ok { scheme := scheme, host := tmp, path := uri, user := user, port := .invalid }
    else
      .ok { scheme := scheme, host := tmp, path := .invalid, user := user, port := .invalid }
  else
    let (tmp, uri) ← splitLocal m uri litColon
    let (tmp, uri) := if !strview_is_valid uri then strview_swap tmp uri else (tmp, uri)
    let digit ← (if uri.size ≠ 0 then do
      let c ← load m uri.data
      .ok (isDigit c)
      else .ok false)
    if digit then
      let (port, uri) ← splitLocal m uri litSlash
      .ok { scheme := scheme, host := tmp, path := if strview_is_valid uri then uri else .invalid, user := user, port := port }
    else
      .ok { scheme := tmp, host := .invalid, path := if uri.size ≠ 0 then uri else .invalid, user := user, port := .invalid }

/-- parse-uri.c lines 194-203: one `if` of `show_uri`: the line for component `v`, with the text `label` before it and `"` and a line end after it. -/
def show_component (m : Mem) (label : List Byte) (v : View) : Res (List Byte) :=
  if strview_is_valid v then do
    let t ← pri_str m v
    .ok (label ++ t ++ [34, 10])
  else .ok []

/-- parse-uri.c lines 192-205: `show_uri`. The result is what is printed: `scheme = "..."` and so on. -/
def show_uri (m : Mem) (uri : Uri) : Res (List Byte) := do
  let t1 ← show_component m [115, 99, 104, 101, 109, 101, 32, 61, 32, 34] uri.scheme
  let t2 ← show_component m [104, 111, 115, 116, 32, 32, 32, 61, 32, 34] uri.host
  let t3 ← show_component m [112, 97, 116, 104, 32, 32, 32, 61, 32, 34] uri.path
  let t4 ← show_component m [117, 115, 101, 114, 32, 32, 32, 61, 32, 34] uri.user
  let t5 ← show_component m [112, 111, 114, 116, 32, 32, 32, 61, 32, 34] uri.port
  .ok (t1 ++ t2 ++ t3 ++ t4 ++ t5 ++ [10])

/-- parse-uri.c line 124: `main` with an argument. -/
def uri_main (m : Mem) (arg : Addr) : Res (List Byte) := do
  let v ← cstr m arg
  let u ← parse_uri m v
  show_uri m u

/-- parse-uri.c lines 127-132: the loop of `main` without an argument, for any list of demo strings. The line after the loop is left out. -/
def uri_demo (m : Mem) : List Addr → Res (List Byte)
  | [] => .ok []
  | a :: demo_string => do
    let n ← strlen m a 2147483648
    let t ← readBytes m a n.toNat
    let u ← uri_main m a
    let rest ← uri_demo m demo_string
    .ok ([91] ++ t ++ [93, 10] ++ u ++ rest)

end CStr
