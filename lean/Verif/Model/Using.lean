import Verif.Model.Strbuf
/-
  Model of `strbuf_append_using` (/repo/strbuf.c lines 430-454) with a callback that may do anything, in particular call the library again. (In Model/Strbuf.lean the callback only
  writes to the memory it is given.)
-/
namespace CStr

/-- A callback (strbuf.h lines 495-508): it gets `dst` and `dst_size` and the data behind `fetch_vars`, here a value of type `ε`; it returns a number, and leaves these data and the
machine in any state whatsoever. -/
abbrev Callback (ε : Type) := ε → St → Addr → Int → Res (Int × ε × St)

/-- strbuf.c lines 430-454: `strbuf_append_using`. The local variables `buf` and `available_space` keep the values they had before the callback; everything else is read from the memory the callback
leaves. -/
def strbuf_append_using_any {ε : Type} (cfg : Cfg) (s : St) (e : ε) (buf_ptr : Option Addr) (f : Callback ε) : Res (View × Option Addr × ε × St) :=
  match deref buf_ptr with
  | some buf => do
    let cap ← getCap s.mem buf
    let size ← getSize s.mem buf
    let available_space ← addInt cfg cap (-size)
    let (bytes_appended, e, s) ← f e s (cstrOf buf + size) available_space
    if bytes_appended < 0 ∨ bytes_appended > available_space then
      let m ← empty_buf s.mem buf
      .ok (.invalid, some buf, e, { s with mem := m })
    else
      let size ← getSize s.mem buf
      let n ← addInt cfg size bytes_appended
      let m ← setSize s.mem buf n
      let size ← getSize m buf
      let m ← store m (cstrOf buf + size) 0
      let v ← strview_of_buf m buf
      .ok (v, some buf, e, { s with mem := m })
  | none => .ok (.invalid, buf_ptr, e, s)

/-- A callback of the simple kind as one of the general kind. -/
def Fetcher.callback (f : Fetcher) : Callback Unit := fun e s dst n => do
  let (r, m) ← callFetcher f s.mem dst n
  .ok (r, e, { s with mem := m })

end CStr
