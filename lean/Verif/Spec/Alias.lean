import Verif.Spec.BufCall
/-
  Two pointers to the same buffer (README, "it's important to only have one pointer to the buffer").
-/
namespace CStr

/-- `p` is a dangling pointer to a buffer: no byte of the header it points to is allocated. -/
structure Dangling (m : Mem) (p : Addr) : Prop where
  pos : 0 < p
  top : p + 24 ≤ litBase
  gone : ∀ a, InRange p 24 a → m a = none

/-- A `const char*` that may be passed to the library: NULL or a C string. -/
def ReadableCstr (m : Mem) (a : Addr) : Prop := a = 0 ∨ ∃ l, CString m a l

/-- The C strings among the arguments of the call can be read. -/
def BufOp.CstrsReadable (m : Mem) : BufOp → Prop
  | .appendCstr a | .prependCstr a | .insertAtIndexCstr _ a | .insertBeforeCstr _ a | .insertAfterCstr _ a | .stripCstr a => ReadableCstr m a
  | _ => True

/-- Two variables of type `strbuf_t*`. -/
structure Copies where
  fst : Addr
  snd : Addr

/-- The value of one of them. -/
def Copies.get (c : Copies) (second : Bool) : Addr := if second then c.snd else c.fst

/-- Assigning to one of them; the other keeps its value. -/
def Copies.set (c : Copies) (second : Bool) (q : Addr) : Copies := if second then ⟨c.fst, q⟩ else ⟨q, c.snd⟩

/-- Calls that modify a buffer, each given the address of one of the two variables (as in `strbuf_append(&mybuf, ...)`). -/
def runCopies (cfg : Cfg) : St → Copies → List (Bool × BufOp) → Res (Copies × St)
  | s, c, [] => .ok (c, s)
  | s, c, (w, op) :: rest => do
    let (_, bp, s) ← op.run cfg s (some (c.get w))
    runCopies cfg s (c.set w (bp.getD 0)) rest

/-- Calls on the buffer `b` at `p` whose results all fit into its capacity and which do not concatenate it with itself; `data` is the content in the
end. The arguments of a later call are judged in any state that the earlier ones may lead to: the buffer has the content they give it, and nothing outside
it has changed. -/
inductive AllFit (cfg : Cfg) (p : Addr) : St → Buf → List BufOp → List Byte → Prop
  | nil {s b} : AllFit cfg p s b [] b.data
  | cons {s b op e ops data} (hm : Means s p b op e) (hok : e.Ok cfg b) (hroom : e.Room b) (hself : e.self = false)
      (hrest : ∀ s' : St, BufAt s' p ⟨e.wanted b, b.cap, b.al⟩ → (∀ a, ¬ InRange p (storage b.cap) a → s'.mem a = s.mem a) →
        AllFit cfg p s' ⟨e.wanted b, b.cap, b.al⟩ ops data) : AllFit cfg p s b (op :: ops) data

end CStr
