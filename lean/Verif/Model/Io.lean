import Verif.Model.Strbuf
/-
  Model of /repo/accessories/strbuf_io.c and /repo/accessories/strview_io.c.

  The operating system is free to transfer less than asked, or to fail, in every call. Its decision in a call is an argument: `none` is an
  error (the call returns -1), `some j` transfers `j` bytes or as many as there are, whichever is less. Every behaviour POSIX permits is of this form,
  except that a failing `read` here leaves the memory alone.
  A descriptor is modelled by the bytes still to be read from it, or the bytes written to it so far.
-/
namespace CStr

/-- POSIX `write(fd, a, n)`. `out` is what has been written to the descriptor so far. A negative `n` becomes a size beyond the address space. -/
def os_write (ans : Option Nat) (m : Mem) (a : Addr) (n : Int) (out : List Byte) : Res (Int × List Byte) :=
  match ans with
  | none => .ok (-1, out)
  | some j =>
    if n < 0 then .ub .badRead else do
      let l ← readBytes m a (min j n.toNat)
      .ok (l.length, out ++ l)

/-- POSIX `read(fd, a, n)`. `inp` is what is still to come from the descriptor. A negative `n` becomes a size beyond the address space. -/
def os_read (ans : Option Nat) (m : Mem) (a : Addr) (n : Int) (inp : List Byte) : Res (Int × Mem × List Byte) :=
  match ans with
  | none => .ok (-1, m, inp)
  | some j =>
    if n < 0 then .ub .badWrite else do
      let l := inp.take (min j n.toNat)
      let m ← writeBytes m a l
      .ok (l.length, m, inp.drop l.length)

/-- strbuf_io.c lines 20-38: `strbuf_append_read`. Returns the result, the state and the rest of the input (`*buf_ptr` is not changed). -/
def strbuf_append_read (cfg : Cfg) (s : St) (buf_ptr : Option Addr) (ans : Option Nat) (inp : List Byte) : Res (Int × St × List Byte) :=
  match deref buf_ptr with
  | some buf => do
    let size ← getSize s.mem buf
    let cap ← getCap s.mem buf
    let room ← addInt cfg cap (-size)
    let (retval, m, inp) ← os_read ans s.mem (cstrOf buf + size) room inp
    if retval > 0 then
      let size ← getSize m buf
      let size ← addInt cfg size retval
      let m ← setSize m buf size
      let size ← getSize m buf
      let m ← store m (cstrOf buf + size) 0
      .ok (retval, { s with mem := m }, inp)
    else .ok (retval, { s with mem := m }, inp)
  | none => .ok (0, s, inp)

/-- strbuf_io.c lines 40-62: `strbuf_write`. Returns the result, the new `*buf_ptr`, the state and all output so far. -/
def strbuf_write (cfg : Cfg) (s : St) (buf_ptr : Option Addr) (ans : Option Nat) (out : List Byte) : Res (Int × Option Addr × St × List Byte) :=
  match deref buf_ptr with
  | some buf => do
    let size ← getSize s.mem buf
    let (retval, out) ← os_write ans s.mem (cstrOf buf) size out
    if retval > 0 then
      let buf_view ← strbuf_view s.mem (some buf)
      let buf_view ← strview_sub buf_view retval INT_MAX
      let (_, bp, s) ← strbuf_assign cfg s (some buf) buf_view
      .ok (retval, bp, s, out)
    else .ok (retval, some buf, s, out)
  | none => .ok (0, buf_ptr, s, out)

/-- strview_io.c lines 19-31: `strview_write`. `none` is `src == NULL`. Returns the result, the new `*src` and all output so far. -/
def strview_write (m : Mem) (src : Option View) (ans : Option Nat) (out : List Byte) : Res (Int × Option View × List Byte) :=
  match src with
  | some v =>
    if strview_is_valid v then do
      let (retval, out) ← os_write ans m v.data v.size out
      if retval > 0 then
        let v ← strview_sub v retval INT_MAX
        .ok (retval, some v, out)
      else .ok (retval, some v, out)
    else .ok (0, some v, out)
  | none => .ok (0, none, out)

end CStr
