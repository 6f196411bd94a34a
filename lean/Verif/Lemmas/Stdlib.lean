import Verif.Model.Stdlib
import Verif.Spec.Stdlib
/-! Lemmas about the heap of the C library. -/
namespace CStr

theorem unmap_zero (m : Mem) (p : Addr) : unmap m p 0 = m := by
  funext a
  simp only [unmap]
  rw [if_neg (by omega)]

theorem heapOf_size {s : St} {al : Alloc} {p : Addr} {k : Nat} :
    (s.heapOf al).size p = some k ↔ s.live p = some ⟨k, al⟩ := by
  simp only [St.heapOf]
  cases h : s.live p with
  | none => simp
  | some b =>
    obtain ⟨n, o⟩ := b
    simp only
    split
    · next e => subst e; simp
    · next e =>
      constructor
      · intro h; cases h
      · intro h; cases h; exact absurd rfl e

theorem heapOf_size_none {s : St} {al : Alloc} {p : Addr} :
    (s.heapOf al).size p = none ↔ ∀ b, s.live p = some b → b.owner ≠ al := by
  simp only [St.heapOf]
  cases h : s.live p with
  | none => simp
  | some b =>
    simp only [Option.some.injEq, forall_eq']
    split
    · next e => simp [e]
    · next e => simp [e]

/-- The block sizes after the block at `p` has gone. -/
theorem heapOf_remove (s : St) (al : Alloc) (p : Addr) :
    (fun q => match (if q = p then none else s.live q : Option LiveBlk) with
      | some b => if b.owner = al then some b.size else none
      | none => none) = fun q => if q = p then none else (s.heapOf al).size q := by
  funext q
  by_cases h : q = p
  · simp only [if_pos h]
  · simp only [if_neg h, St.heapOf]; rfl

theorem allocCall_eq {s : St} {al : Alloc} (hal : al.fn ≠ 0) (p : Addr) (n : Nat) :
    allocCall s al p n =
      match (if p = 0 then some 0 else (s.heapOf al).size p : Option Nat) with
      | none => .ub .badFree
      | some k =>
        if n = 0 then
          .ok (0, { s with mem := unmap s.mem p k, live := fun q => if q = p then none else s.live q, log := ⟨al, p, n, 0⟩ :: s.log, moments := ⟨s.mem, s.live, n⟩ :: s.moments })
        else if (s.picks s.calls).addr = 0 then
          .ok (0, { s with calls := s.calls + 1, log := ⟨al, p, n, 0⟩ :: s.log, moments := ⟨s.mem, s.live, n⟩ :: s.moments })
        else if legalBlock (unmap s.mem p k) (s.picks s.calls).addr n then
          .ok ((s.picks s.calls).addr,
            { s with
              mem := mapNew (unmap s.mem p k) (s.picks s.calls).addr n (newContents s.mem p k (s.picks s.calls).junk)
              live := fun q => if q = (s.picks s.calls).addr then some ⟨n, al⟩ else if q = p then none else s.live q
              calls := s.calls + 1
              log := ⟨al, p, n, (s.picks s.calls).addr⟩ :: s.log
              moments := ⟨s.mem, s.live, n⟩ :: s.moments })
        else .env .alloc := by
  rw [allocCall, if_neg hal]; rfl

end CStr
