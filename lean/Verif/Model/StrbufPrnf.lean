import Verif.Model.Strbuf
import Verif.Model.Prnf
/-
  strbuf.c lines 238-304 and 816-819 together with the formatter of test/prnf.c: `strbuf_prnf` and `strbuf_append_prnf`
  with a format string and arguments. (`Model/Strbuf.lean` has the same functions for a given text.)
-/
namespace CStr

/-- strbuf.c lines 816-819: `char_handler_for_prnf`, with the buffer pointer it updates in the world. -/
def strbufSink (cfg : Cfg) : Sink (Addr × St) where
  mem := fun w => w.2.mem
  setMem := fun w m => (w.1, { w.2 with mem := m })
  call := some fun w c => append_char_to_buf cfg w.2 w.1 c

/-- strbuf.c lines 251-270 (and 238-249): `strbuf_vprnf` and `strbuf_prnf`. -/
def strbuf_vprnf (cfg : Cfg) (s : St) (buf_ptr : Option Addr) (format : Addr) (va : List VArg) : BufRes :=
  match deref buf_ptr with
  | some buf => do
    let m ← empty_buf s.mem buf
    let (char_count, buf, s) ← vfptrprnf (strbufSink cfg) (buf, { s with mem := m }) format va
    let size ← getSize s.mem buf
    if char_count > size then
      let m ← empty_buf s.mem buf
      let v ← strview_of_buf m buf
      .ok (v, some buf, { s with mem := m })
    else
      let v ← strview_of_buf s.mem buf
      .ok (v, some buf, s)
  | none => .ok (.invalid, buf_ptr, s)

/-- strbuf.c lines 285-304 (and 272-283): `strbuf_append_vprnf` and `strbuf_append_prnf`. -/
def strbuf_append_vprnf (cfg : Cfg) (s : St) (buf_ptr : Option Addr) (format : Addr) (va : List VArg) : BufRes :=
  match deref buf_ptr with
  | some buf => do
    let char_count ← getSize s.mem buf
    let (n, buf, s) ← vfptrprnf (strbufSink cfg) (buf, s) format va
    let char_count ← addInt cfg char_count n
    let size ← getSize s.mem buf
    if char_count > size ∨ char_count < 0 then
      let m ← empty_buf s.mem buf
      let v ← strview_of_buf m buf
      .ok (v, some buf, { s with mem := m })
    else
      let v ← strview_of_buf s.mem buf
      .ok (v, some buf, s)
  | none => .ok (.invalid, buf_ptr, s)

end CStr
