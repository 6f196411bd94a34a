import Verif.Model.Io
import Verif.Spec.Buf
/-
  Callers of the input/output functions: any sequence of calls, with any behaviour of the operating system.
-/
namespace CStr

/-- What a caller does: fill the buffer from the input descriptor, or write it to the output descriptor; with what the operating system does in that call. -/
inductive IoCall where
  | read (ans : Option Nat)
  | write (ans : Option Nat)

/-- A sequence of calls on one buffer. `inp`: still to be read, `out`: written so far. -/
def runIo (cfg : Cfg) : List IoCall → Option Addr → St → List Byte → List Byte → Res (Option Addr × St × List Byte × List Byte)
  | [], bp, s, inp, out => .ok (bp, s, inp, out)
  | .read ans :: r, bp, s, inp, out => do
    let (_, s, inp) ← strbuf_append_read cfg s bp ans inp
    runIo cfg r bp s inp out
  | .write ans :: r, bp, s, inp, out => do
    let (_, bp, s, out) ← strbuf_write cfg s bp ans out
    runIo cfg r bp s inp out

/-- A sequence of `strview_write` calls on one view, one for each decision of the operating system. -/
def runViewWrites (m : Mem) : List (Option Nat) → Option View → List Byte → Res (Option View × List Byte)
  | [], v, out => .ok (v, out)
  | ans :: r, v, out => do
    let (_, v, out) ← strview_write m v ans out
    runViewWrites m r v out

/-- How many of the decisions transfer something (if there is something to transfer). -/
def progress : List (Option Nat) → Nat
  | [] => 0
  | some (_ + 1) :: r => progress r + 1
  | _ :: r => progress r

end CStr
