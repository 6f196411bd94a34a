import Verif.C.State
/-
  The heap of the C library, and the allocator functions that are built on it: the default allocator of strbuf.c and the one the
  documentation of strbuf.h gives as an example.
-/
namespace CStr

/-- The heap of the C library: memory, the sizes of its live blocks, and its answers to requests as in `St` (`C/State.lean`). -/
structure Heap where
  mem : Mem
  size : Addr → Option Nat
  picks : Nat → Pick
  calls : Nat

/-- What `realloc(p, 0)` does. C11 and C17 (7.22.3.5) leave it to the implementation; in C23 (7.24.3.7) it is undefined behaviour. -/
inductive ReallocZero where
  | frees      -- the block is released, NULL is returned
  | keeps      -- the block is kept, NULL is returned
  | block      -- like other sizes: a pointer to a new block of no bytes
  | undefined
  deriving DecidableEq, Repr

/-- `free` of the C library (C11 7.22.3.3): no effect for NULL, releases a live block, otherwise undefined. -/
def c_free (h : Heap) (p : Addr) : Res Heap :=
  if p = 0 then .ok h
  else match h.size p with
    | none => .ub .badFree
    | some k => .ok { h with mem := unmap h.mem p k, size := fun q => if q = p then none else h.size q }

/-- `realloc` of the C library (C11 7.22.3.5): a new block for NULL, otherwise the block is moved or resized and its contents are kept up to the
lesser of the sizes. When the request fails, NULL is returned and nothing changes. An answer that is not a block of free,
aligned memory would be a fault of the C library (`env`). Simplification: blocks are aligned to 8 bytes, which is what the library needs. -/
def c_realloc (z : ReallocZero) (h : Heap) (p : Addr) (n : Nat) : Res (Addr × Heap) :=
  let old : Option Nat := if p = 0 then some 0 else h.size p
  match old with
  | none => .ub .badFree
  | some k =>
    let request : Res (Addr × Heap) :=
      let pk := h.picks h.calls
      let m0 := unmap h.mem p k
      if pk.addr = 0 then .ok (0, { h with calls := h.calls + 1 })
      else if legalBlock m0 pk.addr n then
        .ok (pk.addr,
          { h with
            mem := mapNew m0 pk.addr n (newContents h.mem p k pk.junk)
            size := fun q => if q = pk.addr then some n else if q = p then none else h.size q
            calls := h.calls + 1 })
      else .env .alloc
    if n = 0 ∧ p ≠ 0 then
      match z with
      | .frees => do
        let h ← c_free h p
        .ok (0, h)
      | .keeps => .ok (0, h)
      | .block => request
      | .undefined => .ub .zeroRealloc
    else request

/-- strbuf.c lines 63-76: `allocfunc_stdlib`, the default allocator with `STRBUF_DEFAULT_ALLOCATOR_STDLIB`. `asserts` is
`STRBUF_ASSERT_DEFAULT_ALLOCATOR_STDLIB`. The same function is in examples/custom_allocator/custom-alloc.c lines 64-75 and
examples/default_custom_allocator/default-custom-alloc.c lines 63-74, with the assertion. -/
def allocfunc_stdlib (asserts : Bool) (z : ReallocZero) (h : Heap) (ptr_to_free : Addr) (size : Nat) : Res (Addr × Heap) := do
  let (result, h) ←
    (if size = 0 then do
      let h ← c_free h ptr_to_free
      .ok ((0 : Addr), h)
    else c_realloc z h ptr_to_free size)
  if asserts = true ∧ ¬ (size = 0 ∨ result ≠ 0) then .env .abort
  else .ok (result, h)

/-- strbuf.h lines 205-213: `my_alloc_func`, the example of the documentation. -/
def my_alloc_func (z : ReallocZero) (h : Heap) (ptr_to_free : Addr) (size : Nat) : Res (Addr × Heap) := do
  let (result, h) ← c_realloc z h ptr_to_free size
  if ¬ (size = 0 ∨ result ≠ 0) then .env .abort
  else .ok (result, h)

/-- What the allocator `al` has on the C library's heap: the memory, and those live blocks that are its own. -/
def St.heapOf (s : St) (al : Alloc) : Heap where
  mem := s.mem
  size := fun q => match s.live q with
    | some b => if b.owner = al then some b.size else none
    | none => none
  picks := s.picks
  calls := s.calls

end CStr
