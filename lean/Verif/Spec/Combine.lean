import Verif.Model.Print
import Verif.Model.Strnum
import Verif.Model.StrbufPrnf
import Verif.Spec.Buf
import Verif.Spec.Num
/-
  Programs of a user that combine calls of the library as the documentation shows, written with the modelled functions only,
  and what is needed to state what they do.
-/
namespace CStr

/-- docs/strbuf-api.md, `strbuf_assign`: `strbuf_assign(&buf, strview_trim(strbuf_view(&buf), chars));` -/
def trimBuffer (cfg : Cfg) (s : St) (buf : Addr) (chars : View) : BufRes := do
  let v ← strbuf_view s.mem (some buf)
  let t ← strview_trim_strview s.mem v chars
  strbuf_assign cfg s (some buf) t

/-- docs/strview-api.md, `strview_find_first` ("a position reference for further parsing"):
`left = strview_split_left(&src, strview_find_first(src, needle)); if(strview_is_valid(left)) strview_split_index(&src, needle.size);`
The result is `left` and what remains in `src`. -/
def cutAtFirst (m : Mem) (src needle : View) : Res (View × Option View) := do
  let pos ← strview_find_first_strview m src needle
  let (left, src) ← strview_split_left (some src) pos
  if strview_is_valid left then do
    let (_, src) ← strview_split_index src needle.size
    .ok (left, src)
  else .ok (left, src)

/-- docs/strview-api.md, `strview_find_first` ("or modification with strbuf.h functions"):
`strbuf_insert_after(&buf, strview_find_first(strbuf_view(&buf), needle), v);` -/
def insertAfterFirst (cfg : Cfg) (s : St) (buf : Addr) (needle v : View) : BufRes := do
  let view ← strbuf_view s.mem (some buf)
  let pos ← strview_find_first_strview s.mem view needle
  strbuf_insert_after_strview cfg s (some buf) pos v

/-- docs/strview-api.md, `strview_split_line`: `while(strview_is_valid(line = strview_split_line(&view, &eol))) use(line);`
The result are the lines, what remains in `view`, and `eol`. -/
def takeLines (m : Mem) : Nat → View → Byte → Res (List (List Byte) × View × Byte)
  | 0, _, _ => .fuel
  | k + 1, view, eol => do
    match ← strview_split_line m (some view) (some eol) with
    | (line, some view, some eol) =>
      if strview_is_valid line then do
        let l ← readBytes m line.data line.size.toNat
        let (ls, view, eol) ← takeLines m k view eol
        .ok (l :: ls, view, eol)
      else .ok ([], view, eol)
    | _ => .env .other

/-- The same with a buffer that collects received pieces:
`view = strbuf_append(&buf, piece);` the loop above, `strbuf_assign(&buf, view);` for each piece. -/
def collectLines (cfg : Cfg) : List View → Addr → Byte → St → Res (List (List Byte) × Addr × Byte × St)
  | [], buf, eol, s => .ok ([], buf, eol, s)
  | piece :: pieces, buf, eol, s => do
    match ← strbuf_append_strview cfg s (some buf) piece with
    | (view, some buf, s) =>
      let (ls, view, eol) ← takeLines s.mem (view.size.toNat + 2) view eol
      match ← strbuf_assign cfg s (some buf) view with
      | (_, some buf, s) =>
        let (ls', buf, eol, s) ← collectLines cfg pieces buf eol s
        .ok (ls ++ ls', buf, eol, s)
      | _ => .env .other
    | _ => .env .other

/-- Writing a list: `strbuf_append_prnf(&buf, "%d,", x);` for each number, `fmt` being the address of the format. -/
def writeNumbers (cfg : Cfg) (fmt : Addr) : List Int → Addr → St → Res (Addr × St)
  | [], buf, s => .ok (buf, s)
  | x :: xs, buf, s => do
    match ← strbuf_append_vprnf cfg s (some buf) fmt [.int x] with
    | (_, some buf, s) => writeNumbers cfg fmt xs buf s
    | _ => .env .other

/-- Reading a list: `tok = strview_split_first_delim(&src, ",", false);` until `src` becomes invalid, and
`err = strnum_value(&x, &tok, 0);` for each token before that. The result are the values of `err` and `x`. -/
def readNumbers (m : Mem) (comma : Addr) : Nat → View → Res (List (Int × Option Int))
  | 0, _ => .fuel
  | k + 1, src => do
    match ← strview_split_first_delim m (some src) comma false with
    | (tok, some src) =>
      if strview_is_valid src then do
        let (err, x, _) ← strnum_value_s .int m (some 0) (some tok) 0
        let xs ← readNumbers m comma k src
        .ok ((err, x) :: xs)
      else .ok []
    | _ => .env .other

/-- The text of a list of numbers: each in decimal, followed by a comma. -/
def listText (xs : List Int) : List Byte := xs.flatMap fun x => printSigned x ++ [44]

/-- `v` views the bytes `l` outside of the `n` bytes from `p`. -/
structure Elsewhere (s : St) (p : Addr) (n : Nat) (v : View) (l : List Byte) : Prop extends Denotes s.mem v l where
  apart : l = [] ∨ v.data + l.length ≤ p ∨ p + n ≤ v.data

/-- The buffer can hold `n` bytes: its capacity suffices, or it is dynamic and `n` is at least one grow step below `INT_MAX`. -/
def Buf.HasRoom (b : Buf) (cfg : Cfg) (n : Nat) : Prop := n ≤ b.cap ∨ (b.Dynamic ∧ (n : Int) + cfg.growStep ≤ INT_MAX)

end CStr
