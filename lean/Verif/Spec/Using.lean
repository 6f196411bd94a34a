import Verif.Spec.HeldViews
import Verif.Model.Using
/-
  Programs whose callbacks call the library again, to any depth. `UProg.flat` is the same program without callbacks: the calls of a callback come before the call that it serves.
  `UProg.exec` runs the program on the machine.
-/
namespace CStr

/-- The callback has left the header, the content and the storage of the buffer alone. (The free space behind the content may hold anything.) -/
structure LeftAlone (s : St) (p : Addr) (b : Buf) : Prop where
  holds : Holds s.mem p (hdrBytes b.data.length b.cap b.al ++ b.data)
  mapped : ∀ i : Nat, i < storage b.cap → (s.mem (p + i)).isSome
  heap : b.Dynamic → s.live p = some ⟨storage b.cap, b.al⟩

/-- A program. `appendUsing h body x rest`: `strbuf_append_using(&h, callback, ...)`, then `rest`. The callback executes `body`, a program of the same kind, then copies
the bytes of the view `x` to the address it was given if there is room for them and returns their number, else it returns -1. -/
inductive UProg where
  | done
  | cmd (c : Cmd) (rest : UProg)
  | appendUsing (h : Nat) (body : UProg) (x : Src) (rest : UProg)

/-- The same program without callbacks, started in the abstract state `σ`. -/
def UProg.flat (cfg : Cfg) (dflt : Alloc) (K : Nat → List Byte) : UProg → AState → List Cmd
  | .done, _ => []
  | .cmd c rest, σ => c :: rest.flat cfg dflt K (c.step cfg dflt K σ)
  | .appendUsing h body x rest, σ =>
    match σ h with
    | some (.buf _) =>
      let cs := body.flat cfg dflt K σ
      let σ1 := runAbs cfg dflt K cs σ
      let c := Cmd.op h (.appendUsing (x.bytes K σ1))
      cs ++ c :: rest.flat cfg dflt K (c.step cfg dflt K σ1)
    | _ => rest.flat cfg dflt K σ

/-- The program is legitimate. A callback, and the callbacks inside it, may read the buffers that are being appended to (`busy`), but not change them; everything else
they may create, change and destroy. -/
def UProg.Legal (cfg : Cfg) (dflt : Alloc) (K : Nat → List Byte) : UProg → List Nat → AState → Prop
  | .done, _, _ => True
  | .cmd c rest, busy, σ => c.Legal cfg dflt K σ ∧ (∀ h ∈ busy, h ∉ c.changes) ∧ rest.Legal cfg dflt K busy (c.step cfg dflt K σ)
  | .appendUsing h body x rest, busy, σ =>
    σ.Handle h ∧ h ∉ busy ∧
    match σ h with
    | some (.buf _) =>
      let σ1 := runAbs cfg dflt K (body.flat cfg dflt K σ) σ
      body.Legal cfg dflt K (h :: busy) σ ∧ x.Legal K σ1 ∧
        rest.Legal cfg dflt K busy ((Cmd.op h (.appendUsing (x.bytes K σ1))).step cfg dflt K σ1)
    | _ => rest.Legal cfg dflt K busy σ

/-- What a callback does after its library calls: copy the view if there is room. -/
def deliver (K : Nat → List Byte) (ka : Nat → Addr) (x : Src) (ρ : Vars) (s : St) (dst : Addr) (n : Int) : Res (Int × Vars × St) := do
  let v ← x.eval K ka ρ s
  if v.size ≤ n then
    let m ← memmove s.mem dst v.data (sizeT v.size)
    .ok (v.size, ρ, { s with mem := m })
  else .ok (-1, ρ, s)

/-- Execute the program. The callback sees and changes the same variables as the program. -/
def UProg.exec (cfg : Cfg) (dflt : Alloc) (K : Nat → List Byte) (ka : Nat → Addr) : UProg → Vars → St → Res (Vars × St)
  | .done, ρ, s => .ok (ρ, s)
  | .cmd c rest, ρ, s => do
    let (ρ, s) ← c.exec cfg dflt K ka ρ s
    rest.exec cfg dflt K ka ρ s
  | .appendUsing h body x rest, ρ, s => do
    let (_, bp, ρ, s) ← strbuf_append_using_any cfg s ρ (some (ρ h)) (fun ρ s dst n => do
      let (ρ, s) ← body.exec cfg dflt K ka ρ s
      deliver K ka x ρ s dst n)
    rest.exec cfg dflt K ka (ρ.setPtr h bp) s

end CStr
