import Verif.Spec.Replace
/-
  The fields of a text in reverse order, with the functions of the library.
-/
namespace CStr

/-- docs/strview-api.md, `strview_split_first_delim`, and docs/strbuf-api.md, `strbuf_prepend`:
`while(strview_is_valid(src)) {tok = strview_split_first_delim(&src, delims, false); strbuf_prepend(&buf, tok);
if(strview_is_valid(src)) strbuf_prepend(&buf, sep);}` for a valid `src`. -/
def reverseFields (cfg : Cfg) (delims : Addr) (sep : View) : Nat → View → Addr → St → Res (Addr × St)
  | 0, _, _, _ => .fuel
  | k + 1, src, buf, s => do
    match ← strview_split_first_delim s.mem (some src) delims false with
    | (tok, some src) =>
      match ← strbuf_prepend_strview cfg s (some buf) tok with
      | (_, some buf, s) =>
        if strview_is_valid src then do
          match ← strbuf_prepend_strview cfg s (some buf) sep with
          | (_, some buf, s) => reverseFields cfg delims sep k src buf s
          | _ => .env .other
        else .ok (buf, s)
      | _ => .env .other
    | _ => .env .other

end CStr
