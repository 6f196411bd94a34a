import Verif.Spec.Filter
import Verif.Spec.Threads
/-
  Several programs with input and output (Spec/Filter.lean) that run at the same time: each has variables, views, an `eol` variable, an input and an output of its own; memory and the allocator are
  shared. A call is not interrupted; which program makes the next call is decided by an arbitrary schedule.
-/
namespace CStr

/-- The variables a question names. -/
def Query.slots : Query → List Nat
  | .isNull h | .bufSize h | .capacity h | .bufChar h _ | .strChar h _ => [h]
  | _ => []

def MCmd.slots : MCmd → List Nat
  | .cmd c => c.slots
  | .op h _ => [h]
  | .create h _ _ => [h]
  | .view h => [h]
  | .const _ => []
  | .call _ => []

/-- The variables an action names. -/
def IAct.slots : IAct → List Nat
  | .act (.cmd c) => c.slots
  | .act (.ask q) => q.slots
  | .read h | .write h => [h]
  | .writeView _ => []
  | .pack h k _ _ _ => [h, k]
  | .unpack _ k _ _ => [k]
  | .encrypt h key iv k | .decrypt h key iv k => [h, key, iv, k]

/-- What a task has for itself: the answers it has got, its views, its `eol` variable, its input and output. -/
structure Task where
  answers : List Answer
  views : List View
  eol : Byte
  world : World

/-- All tasks: the variables of all of them, the machine, and the tasks. -/
structure Tasks where
  ρ : Vars
  s : St
  task : Nat → Task

/-- What the actions of task `i` are executed with. -/
def Tasks.state (T : Tasks) (i : Nat) : MState := ⟨T.ρ, T.s, (T.task i).views, (T.task i).eol⟩

/-- The next action of task `i`, if it has not finished. -/
def Tasks.turn (cfg : Cfg) (dflt : Alloc) (K : Nat → List Byte) (ka : Nat → Addr) (os : Nat → Nat → Option Nat) (ps : Nat → IProgram) (T : Tasks) (i : Nat) : Res Tasks :=
  match ps i (T.task i).answers with
  | none => .ok T
  | some x => do
    let (a, X, w) ← x.exec cfg dflt K ka (os i (T.task i).answers.length) (T.state i) (T.task i).world
    .ok ⟨X.ρ, X.s, fun j => if j = i then ⟨(T.task i).answers ++ [a], X.views, X.eol, w⟩ else T.task j⟩

/-- The tasks run, one action at a time, in the order of the schedule. -/
def Tasks.run (cfg : Cfg) (dflt : Alloc) (K : Nat → List Byte) (ka : Nat → Addr) (os : Nat → Nat → Option Nat) (ps : Nat → IProgram) : List Nat → Tasks → Res Tasks
  | [], T => .ok T
  | i :: sched, T => do
    let T ← T.turn cfg dflt K ka os ps i
    Tasks.run cfg dflt K ka os ps sched T

/-- The variables of task `i` only. -/
def AState.only (owner : Nat → Nat) (i : Nat) (σ : AState) : AState := fun h => if owner h = i then σ h else none

/-- Every task names its own variables only. -/
def OwnPrograms (owner : Nat → Nat) (ps : Nat → IProgram) : Prop := ∀ i t x, ps i t = some x → ∀ h ∈ x.slots, owner h = i

end CStr
