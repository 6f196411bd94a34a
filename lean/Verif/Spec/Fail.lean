import Verif.Spec.BufCall
/-! Allocators that may fail. -/
namespace CStr

/-- The same state with a stricter environment: where the allocator would answer NULL it breaks its contract instead (1 is not an aligned address, so it is never a legal
answer). In such a state the allocator never answers NULL. -/
def St.strict (s : St) : St := { s with picks := fun i => if (s.picks i).addr = 0 then ⟨1, (s.picks i).junk⟩ else s.picks i }

/-- Some answer of the allocator is NULL. -/
def St.CanFail (s : St) : Prop := ∃ i, (s.picks i).addr = 0

end CStr
