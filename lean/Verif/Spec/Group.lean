import Verif.Spec.Replace
/-
  Grouping the characters of a text from its end, with the functions of the library.
-/
namespace CStr

/-- docs/strview-api.md, `strview_split_index` (a negative index counts from the end), and docs/strbuf-api.md, `strbuf_prepend`:
`while(src.size) {strbuf_prepend(&buf, strview_split_index(&src, -n)); if(src.size) strbuf_prepend(&buf, sep);}` -/
def groupFromEnd (cfg : Cfg) (n : Nat) (sep : View) : Nat → View → Addr → St → Res (Addr × St)
  | 0, _, _, _ => .fuel
  | k + 1, src, buf, s =>
    if src.size = 0 then .ok (buf, s)
    else do
      match ← strview_split_index (some src) (-(n : Int)) with
      | (grp, some src) =>
        match ← strbuf_prepend_strview cfg s (some buf) grp with
        | (_, some buf, s) =>
          if src.size ≠ 0 then do
            match ← strbuf_prepend_strview cfg s (some buf) sep with
            | (_, some buf, s) => groupFromEnd cfg n sep k src buf s
            | _ => .env .other
          else groupFromEnd cfg n sep k src buf s
        | _ => .env .other
      | _ => .env .other

end CStr
