import Verif.Spec.Combine
import Verif.Spec.Prnf
/-
  Bytes as hexadecimal text and back, with the functions of the library.
-/
namespace CStr

/-- docs/strview-api.md, `strview_pop_first_char`, and docs/strbuf-api.md, `strbuf_append_prnf`:
`while(src.size) strbuf_append_prnf(&buf, "%hhX", (unsigned char)strview_pop_first_char(&src));` `fmt` is the address of the format. -/
def writeHex (cfg : Cfg) (fmt : Addr) : Nat → View → Addr → St → Res (Addr × St)
  | 0, _, _, _ => .fuel
  | k + 1, src, buf, s =>
    if src.size = 0 then .ok (buf, s)
    else do
      match ← strview_pop_first_char s.mem (some src) with
      | (c, some src) =>
        match ← strbuf_append_vprnf cfg s (some buf) fmt [.int c.toNat] with
        | (_, some buf, s) => writeHex cfg fmt k src buf s
        | _ => .env .other
      | _ => .env .other

/-- docs/strview-api.md, `strview_split_index`, and docs/strnum-api.md, `strnum_value`:
`while(src.size) {tok = strview_split_index(&src, 2); err = strnum_value(&x, &tok, STRNUM_BASE_HEX);}` with an `unsigned char x`.
The result are the values of `err` and `x`. -/
def readHex (m : Mem) : Nat → View → Res (List (Int × Option Nat))
  | 0, _ => .fuel
  | k + 1, src =>
    if src.size = 0 then .ok []
    else do
      match ← strview_split_index (some src) 2 with
      | (tok, some src) =>
        let (err, x, _) ← strnum_value_u .uchar m (some 0) (some tok) STRNUM_BASE_HEX
        let xs ← readHex m k src
        .ok ((err, x) :: xs)
      | _ => .env .other

/-- The hexadecimal digit of a number below 16, in upper case. -/
def hexChar (d : Nat) : Byte := if d < 10 then UInt8.ofNat (48 + d) else UInt8.ofNat (55 + d)

/-- Each byte as two hexadecimal digits. -/
def hexText (l : List Byte) : List Byte := l.flatMap fun c => [hexChar (c.toNat / 16), hexChar (c.toNat % 16)]

end CStr
