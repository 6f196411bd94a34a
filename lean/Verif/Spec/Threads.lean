import Verif.Spec.BufHist
/-
  Programs of several threads (or tasks) that use different buffers: which variables a command uses, and runs of many threads in which the calls
  alternate in any order. A call is not interrupted; allocation is shared.
-/
namespace CStr

/-- The variables an argument names. -/
def Src.slots : Src → List Nat
  | .const _ => []
  | .sub h _ _ => [h]
  | .null => []
  | .part (.buf h) _ _ => [h]
  | .part (.const _) _ _ => []

def CSrc.slots : CSrc → List Nat
  | .const _ => []
  | .tail h _ => [h]
  | .str h => [h]

def Piece.slots : Piece → List Nat
  | .text _ => []
  | .arg x => x.slots

def HOp.slots : HOp → List Nat
  | .append x | .prepend x | .insertAtIndex _ x | .assign x | .strip x => x.slots
  | .appendCstr x | .prependCstr x | .insertAtIndexCstr _ x | .stripCstr x => x.slots
  | .insertBefore dst x | .insertAfter dst x => dst.slots ++ x.slots
  | .insertBeforeCstr dst x | .insertAfterCstr dst x => dst.slots ++ x.slots
  | .cat xs => xs.flatMap Src.slots
  | .printf ps | .appendPrintf ps => ps.flatMap Piece.slots
  | .appendChar _ | .shrink | .grow _ | .appendUsing _ | .prnf _ | .appendPrnf _ => []

/-- The variables a command names. -/
def Cmd.slots : Cmd → List Nat
  | .createEmpty h _ _ => [h]
  | .createInit h x _ => h :: x.slots
  | .createFixed h k _ => [h, k]
  | .destroy h => [h]
  | .toCstr h k => [h, k]
  | .freeStr k _ => [k]
  | .op h o => h :: o.slots

/-- A command together with the thread that executes it. -/
abbrev TCmd := Nat × Cmd

/-- Each variable belongs to one thread, and each thread names its own variables only. -/
def OwnVariables (owner : Nat → Nat) (run : List TCmd) : Prop := ∀ tc ∈ run, ∀ h ∈ tc.2.slots, owner h = tc.1

/-- The program of one thread: its commands, in their order. -/
def threadProgram (run : List TCmd) (t : Nat) : List Cmd := (run.filter (·.1 = t)).map (·.2)

end CStr
