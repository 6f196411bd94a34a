import Verif.Spec.Combine
import Verif.Spec.Pack
import Verif.Model.Pack
/-
  Messages of any length in one buffer, each with its length in front, and back.
-/
namespace CStr

/-- accessories/strbuf_pack.h, docs/strbuf-api.md `strbuf_append`:
`STRBUF_PACK_BE(&buf, (uint32_t)msg.size); strbuf_append(&buf, msg);` (or `_LE`) for each message. `tmp` is the address of the variable in
the macro. -/
def writeFrames (cfg : Cfg) (h : Host) (o : Order) (tmp : Addr) : List View → Addr → St → Res (Addr × St)
  | [], buf, s => .ok (buf, s)
  | msg :: msgs, buf, s => do
    match ← STRBUF_PACK cfg h o .u32 s tmp (some buf) msg.size with
    | (_, some buf, s) =>
      match ← strbuf_append_strview cfg s (some buf) msg with
      | (_, some buf, s) => writeFrames cfg h o tmp msgs buf s
      | _ => .env .other
    | _ => .env .other

/-- accessories/strview_unpack.h, docs/strview-api.md `strview_split_index`:
`while(src.size) {STRVIEW_UNPACK_BE(n, src); msg = strview_split_index(&src, n);}` (or `_LE`) with a `uint32_t n` at `dst`.
The result are the contents of the messages. -/
def readFrames (h : Host) (o : Order) (dst : Addr) : Nat → View → Mem → Res (List (List Byte))
  | 0, _, _ => .fuel
  | k + 1, src, m =>
    if src.size = 0 then .ok []
    else do
      let (n, m, src) ← STRVIEW_UNPACK h o .u32 m dst src
      match ← strview_split_index (some src) n with
      | (msg, some src) =>
        let l ← readBytes m msg.data msg.size.toNat
        let ls ← readFrames h o dst k src m
        .ok (l :: ls)
      | _ => .env .other

/-- Each message with its length in four bytes in front. -/
def framesText (o : Order) (ls : List (List Byte)) : List Byte := ls.flatMap fun l => wire o .u32 l.length ++ l

/-- A message that is neither in the buffer at `p` nor in the variable at `tmp`. -/
structure MessageAt (s : St) (p : Addr) (n : Nat) (tmp : Addr) (v : View) (l : List Byte) : Prop extends Elsewhere s p n v l where
  aside : l = [] ∨ v.data + l.length ≤ tmp ∨ tmp + 4 ≤ v.data

/-- The same for text that may be damaged, as a careful program does it:
`while(src.size >= 4) {STRVIEW_UNPACK_BE(n, src); if(n > (uint32_t)src.size) break; msg = strview_split_index(&src, n);}` -/
def readChecked (h : Host) (o : Order) (dst : Addr) : Nat → View → Mem → Res (List (List Byte))
  | 0, _, _ => .fuel
  | k + 1, src, m =>
    if src.size < 4 then .ok []
    else do
      let (n, m, src) ← STRVIEW_UNPACK h o .u32 m dst src
      if src.size < n then .ok []
      else do
        match ← strview_split_index (some src) n with
        | (msg, some src) =>
          let l ← readBytes m msg.data msg.size.toNat
          let ls ← readChecked h o dst k src m
          .ok (l :: ls)
        | _ => .env .other

/-- `t` begins with the messages `ls`, each with its length in front, and no further message follows. -/
inductive Frames (o : Order) : List Byte → List (List Byte) → Prop where
  | done {t : List Byte} (none : ∀ l rest : List Byte, l.length < 2 ^ 32 → t ≠ wire o .u32 l.length ++ (l ++ rest)) : Frames o t []
  | frame {l rest : List Byte} {ls : List (List Byte)} (len : l.length < 2 ^ 32) (more : Frames o rest ls) :
      Frames o (wire o .u32 l.length ++ (l ++ rest)) (l :: ls)

end CStr
