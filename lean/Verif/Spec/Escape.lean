import Verif.Spec.BufHist
/-
  An allocator that does not return. strbuf.h line 210 asks the user to catch a failed allocation inside the allocator, since the library does
  not check for NULL; strbuf.c line 73 and the examples do so with `assert`, other programs leave with `longjmp` or an exception. What the
  program then finds is what the memory and the heap were at the moment of the call.
-/
namespace CStr

/-- The state in which a program goes on when an allocator function, called at the moment `m`, jumps out of the library instead of returning. -/
def St.left (s : St) (m : Moment) : St := { s with mem := m.mem, live := m.live }

/-- A program that is left at the moment `m` of an operation on the buffer at `p`, `n` bytes of storage, begun in state `s`, finds at `p` the well-formed
buffer `c`, everything that was in memory elsewhere as it was, and no block released. -/
structure LeftWith (s : St) (p : Addr) (n : Nat) (m : Moment) (c : Buf) : Prop where
  buf : BufAt (s.left m) p c
  rest : ∀ a, ¬ InRange p n a → (s.mem a).isSome → m.mem a = s.mem a
  heap : ∀ q blk, s.live q = some blk → m.live q = some blk

/-- `m` is the moment of a request for memory made on the way from `s` to `s'`: it is recorded in `s'`, and not by `s`. -/
def RequestIn (s s' : St) (m : Moment) : Prop := ∃ ms, s'.moments = ms ++ s.moments ∧ m ∈ ms ∧ m.size ≠ 0

/-- The contents the buffer may have when the operation `e` on `b` is left. Formatted output and concatenation with the buffer among the parts empty the
buffer first; the bundled formatter appends one character at a time. -/
def Edit.Left (b : Buf) : Edit → List Byte → Prop
  | .printf _, d => d = []
  | .cat _ true, d => d = b.data ∨ d = []
  | .prnf t, d => ∃ k, d = t.take k
  | .appendPrnf t, d => ∃ k, d = b.data ++ t.take k
  | _, d => d = b.data

/-- The operation goes through the bundled formatter. -/
def Edit.Piecewise : Edit → Prop
  | .prnf _ | .appendPrnf _ => True
  | _ => False

/-- The operation asks for memory before it has changed anything. -/
def Edit.AsksFirst (b : Buf) : Edit → Prop
  | .printf _ | .prnf _ | .appendPrnf _ => False
  | .cat _ self => b.Dynamic → self = false
  | _ => True

/-- What the variables stand for when a command is left: as before the command, except that formatted output has emptied the buffer. -/
def Cmd.stopped (σ : AState) : Cmd → AState
  | .op h (.printf _) => match σ h with
    | some (.buf b) => σ.set h (some (.buf ⟨[], b.cap, b.al⟩))
    | _ => σ
  | _ => σ

/-- Commands that can be left without loss: all but, on dynamic buffers, `strbuf_to_cstr`, the bundled formatter, and concatenation with the buffer
among the parts. -/
def Cmd.Leavable (σ : AState) : Cmd → Prop
  | .toCstr h _ | .op h (.prnf _) | .op h (.appendPrnf _) => ∀ b, σ h = some (.buf b) → ¬ b.Dynamic
  | .op h (.cat xs) => ∀ b, σ h = some (.buf b) → b.Dynamic → xs.any (·.own σ h) = false
  | _ => True

/-- Every command of the program is, where it is executed. -/
def LeavableRun (cfg : Cfg) (dflt : Alloc) (K : Nat → List Byte) : List Cmd → AState → Prop
  | [], _ => True
  | c :: cs, σ => c.Leavable σ ∧ LeavableRun cfg dflt K cs (c.step cfg dflt K σ)

end CStr
