import Verif.Model.Stdlib
import Verif.Spec.Buf
/-
  What a heap operation may change (`InRange` is in Spec/Buf.lean).
-/
namespace CStr

/-- `p` is NULL (then `k = 0`) or the address of a live block of `k` bytes, which is mapped. -/
def Heap.Block (h : Heap) (p : Addr) (k : Nat) : Prop :=
  (p = 0 ∧ k = 0) ∨ (p ≠ 0 ∧ h.size p = some k ∧ ∀ i : Nat, i < k → (h.mem (p + i)).isSome)

/-- From `h` to `h'` the block of `k` bytes at `p` has been released (nothing for NULL); nothing else has changed. -/
structure HeapReleased (h h' : Heap) (p : Addr) (k : Nat) : Prop where
  gone : ∀ a, InRange p k a → h'.mem a = none
  others : ∀ a, ¬ InRange p k a → h'.mem a = h.mem a
  block : p ≠ 0 → h'.size p = none
  blocks : ∀ q, q ≠ p → h'.size q = h.size q

/-- From `h` to `h'` the block of `k` bytes at `p` (none if `p` is NULL) has become a block of `n` bytes at `p'`: aligned memory that nobody else used, that
begins with the bytes of the old block, as many as fit. Nothing else has changed. -/
structure HeapResized (h h' : Heap) (p : Addr) (k : Nat) (p' : Addr) (n : Nat) : Prop where
  notNull : 0 < p'
  aligned : p' % 8 = 0
  top : p' + n ≤ litBase
  free : ∀ a, InRange p' n a → ¬ InRange p k a → h.mem a = none
  mapped : ∀ i : Nat, i < n → (h'.mem (p' + i)).isSome
  kept : ∀ i : Nat, i < k → i < n → h'.mem (p' + i) = h.mem (p + i)
  left : ∀ a, InRange p k a → ¬ InRange p' n a → h'.mem a = none
  others : ∀ a, ¬ InRange p k a → ¬ InRange p' n a → h'.mem a = h.mem a
  block : h'.size p' = some n
  oldBlock : p ≠ 0 → p ≠ p' → h'.size p = none
  blocks : ∀ q, q ≠ p → q ≠ p' → h'.size q = h.size q

end CStr
