import Verif.Spec.Combine
/-
  Replacing every occurrence of a text, with the functions the documentation gives for it, and what that means.
-/
namespace CStr

/-- docs/strview-api.md, `strview_find_first` ("a position reference for further parsing, or modification with strbuf.h functions"):
`while(1) {left = ⟨cut src at the first needle⟩; if(!strview_is_valid(left)) break;
strbuf_append(&buf, left); strbuf_append(&buf, with);} strbuf_append(&buf, src);`
with the cut as in `cutAtFirst`. -/
def replaceAll (cfg : Cfg) (needle with_ : View) : Nat → View → Addr → St → Res (Addr × St)
  | 0, _, _, _ => .fuel
  | k + 1, src, buf, s => do
    match ← cutAtFirst s.mem src needle with
    | (left, some src) =>
      if strview_is_valid left then do
        match ← strbuf_append_strview cfg s (some buf) left with
        | (_, some buf, s) =>
          match ← strbuf_append_strview cfg s (some buf) with_ with
          | (_, some buf, s) => replaceAll cfg needle with_ k src buf s
          | _ => .env .other
        | _ => .env .other
      else do
        match ← strbuf_append_strview cfg s (some buf) src with
        | (_, some buf, s) => .ok (buf, s)
        | _ => .env .other
    | _ => .env .other

/-- `t` is `h` with the occurrences of `n`, taken from the left and without overlap, replaced by `r`. -/
inductive Replaced (n r : List Byte) : List Byte → List Byte → Prop where
  | none {h : List Byte} (absent : ∀ a b, h ≠ a ++ n ++ b) : Replaced n r h h
  | some {a b t : List Byte} (first : ∀ a' b', a ++ n ++ b = a' ++ n ++ b' → a.length ≤ a'.length) (rest : Replaced n r b t) :
      Replaced n r (a ++ n ++ b) (a ++ r ++ t)

/-- docs/strview-api.md, `strview_split_first_delim`: `while(strview_is_valid(src)) {tok = strview_split_first_delim(&src, delims, false);
strbuf_append(&buf, tok); if(strview_is_valid(src)) strbuf_append(&buf, sep);}` for a valid `src`. -/
def changeDelims (cfg : Cfg) (delims : Addr) (sep : View) : Nat → View → Addr → St → Res (Addr × St)
  | 0, _, _, _ => .fuel
  | k + 1, src, buf, s => do
    match ← strview_split_first_delim s.mem (some src) delims false with
    | (tok, some src) =>
      match ← strbuf_append_strview cfg s (some buf) tok with
      | (_, some buf, s) =>
        if strview_is_valid src then do
          match ← strbuf_append_strview cfg s (some buf) sep with
          | (_, some buf, s) => changeDelims cfg delims sep k src buf s
          | _ => .env .other
        else .ok (buf, s)
      | _ => .env .other
    | _ => .env .other

/-- `h` with `r` in place of each character that is one of `ds`. -/
def delimsChanged (ds r h : List Byte) : List Byte := h.flatMap fun c => if c ∈ ds then r else [c]

end CStr
