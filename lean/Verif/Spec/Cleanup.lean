import Verif.Spec.Filter
/-
  A program followed by `strbuf_destroy(&h)` for some of its variables.
-/
namespace CStr

/-- The number of answers after which the program has finished, if it has. -/
def IProgram.finishedAt (p : IProgram) (t : List Answer) : Option Nat := (List.range (t.length + 1)).find? fun k => (p (t.take k)).isNone

/-- `p`, then the buffers in `hs` are destroyed. -/
def IProgram.andFree (p : IProgram) (hs : List Nat) : IProgram := fun t =>
  match p.finishedAt t with
  | none => p t
  | some k => hs[t.length - k]?.map fun h => .act (.cmd (.cmd (.destroy h)))

/-- The variable that an action creates a buffer in. -/
def IAct.creates : IAct → Option Nat
  | .act (.cmd (.cmd (.createEmpty h _ _))) | .act (.cmd (.cmd (.createInit h _ _))) | .act (.cmd (.cmd (.createFixed h _ _))) | .act (.cmd (.create h _ _)) => some h
  | _ => none

/-- The program creates buffers in the variables `hs` only, and does not turn them into C strings. -/
def IProgram.BuffersIn (p : IProgram) (hs : List Nat) : Prop := ∀ t x, p t = some x → (∀ h, x.creates = some h → h ∈ hs) ∧ ∀ h k, x ≠ .act (.cmd (.cmd (.toCstr h k)))

/-- At the start the variables `hs` hold buffers or nothing, the others memory areas or nothing. -/
def AState.BuffersIn (σ : AState) (hs : List Nat) : Prop := (∀ h ∈ hs, σ.Handle h) ∧ ∀ h o, h ∉ hs → σ h = some o → ∃ n, o = .mem n

end CStr
