import Verif.C.State
/-
  The allocator protocol, stated on the log of allocator calls alone (latest call first).
-/
namespace CStr

/-- Which allocator a block at `q` belongs to after the calls, judged from the calls alone: a successful request (`ret` not NULL) makes `ret` a
block of that allocator, and a release (`size = 0`) or a successful resize ends the life of `ptr`. -/
def ownerAfter : List Call → Addr → Option Alloc
  | [], _ => none
  | c :: older, q =>
    if c.ret ≠ 0 ∧ q = c.ret then some c.al
    else if c.ptr ≠ 0 ∧ q = c.ptr ∧ (c.size = 0 ∨ c.ret ≠ 0) then none
    else ownerAfter older q

/-- Every call with a pointer passes one that an earlier call of the same allocator returned and that has not been released or resized since; the
allocator function is never NULL. -/
def Protocol : List Call → Prop
  | [] => True
  | c :: older => (c.ptr ≠ 0 → ownerAfter older c.ptr = some c.al) ∧ c.al.fn ≠ 0 ∧ Protocol older

end CStr
