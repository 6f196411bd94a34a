import Verif.C.Basic
/-
  Machine state for the buffer code: memory plus a heap managed by user supplied allocators.

  The allocator is the environment. Each request for memory consumes one arbitrary answer (`Pick`) of an infinite
  sequence fixed in the state, so a theorem about all states is a theorem about all allocator strategies.
-/
namespace CStr

/-- `strbuf_allocator_t` (strbuf.h lines 217-227): the two 64-bit words `app_data` and `allocator` (a function
pointer, 0 = NULL). The pair identifies the allocator. -/
structure Alloc where
  app : Nat
  fn : Nat
  deriving DecidableEq, Repr

/-- A live heap block: its size and the allocator that owns it. -/
structure LiveBlk where
  size : Nat
  owner : Alloc
  deriving DecidableEq, Repr

/-- One answer of the allocator: the address of the block (0 = NULL, the request failed) and the contents of
memory that was not copied from an old block. -/
structure Pick where
  addr : Addr
  junk : Nat → Byte

/-- One call of an allocator function: `allocator(this, ptr, size)` returned `ret`. -/
structure Call where
  al : Alloc
  ptr : Addr
  size : Nat
  ret : Addr
  deriving DecidableEq, Repr

/-- What an allocator function finds at the moment it is called: the memory and the heap, and the size asked for (0 for a release). -/
structure Moment where
  mem : Mem
  live : Addr → Option LiveBlk
  size : Nat

/-- Machine state. `live` maps the base address of each live heap block to its description; `picks` are the
answers of the allocator, `calls` the number of answers consumed so far, `log` all calls, latest first. `moments`
records what each call of an allocator function found, latest first; no function reads it. -/
structure St where
  mem : Mem
  live : Addr → Option LiveBlk
  picks : Nat → Pick
  calls : Nat
  log : List Call
  moments : List Moment := []

/-- Memory without the `n` bytes from `a`. -/
def unmap (m : Mem) (a : Addr) (n : Nat) : Mem :=
  fun x => if a ≤ x ∧ x < a + n then none else m x

/-- Memory with the `n` bytes `f 0 ... f (n-1)` mapped from `a`. -/
def mapNew (m : Mem) (a : Addr) (n : Nat) (f : Nat → Byte) : Mem :=
  fun x => if a ≤ x ∧ x < a + n then some (f (x - a).toNat) else m x

/-- A block of `n` bytes at `a` is a legal answer: not NULL, aligned for any object that fits a pointer, inside the
address space and not overlapping anything that is mapped. -/
def legalBlock (m : Mem) (a : Addr) (n : Nat) : Prop :=
  0 < a ∧ a % 8 = 0 ∧ a + n ≤ litBase ∧ ∀ i : Nat, i < n → m (a + i) = none

instance (m : Mem) (a : Addr) (n : Nat) : Decidable (legalBlock m a n) :=
  inferInstanceAs (Decidable (_ ∧ _ ∧ _ ∧ ∀ i : Nat, i < n → m (a + i) = none))

/-- Contents of a block resized from `old` (at address `p`, `k` bytes) to a larger or smaller one: the common part
is copied, the rest is arbitrary. With `k = 0` this is a new block. -/
def newContents (m : Mem) (p : Addr) (k : Nat) (junk : Nat → Byte) : Nat → Byte :=
  fun i => if i < k then (m (p + i)).getD 0 else junk i

/-- A call of an allocator function with the contract of strbuf.h lines 219-226 (and of `realloc`/`free` as used by
strbuf.c lines 64-76): `ptr = NULL` requests a new block, `size = 0` releases, otherwise resizes, keeping the common
part, in place or elsewhere; the result may overlap the old block, which is dead. When a request fails, NULL is
returned and nothing changes. The old block must be a live block of the same allocator, otherwise the
behaviour is undefined. The allocator function itself accesses nothing but the blocks.
(The `getD` in `newContents` is never reached for a live block: live blocks are mapped, see `St.WF`.) -/
def allocCall (s : St) (al : Alloc) (ptr : Addr) (size : Nat) : Res (Addr × St) :=
  if al.fn = 0 then .ub .nullCall
  else
    let old : Option Nat := if ptr = 0 then some 0 else
      match s.live ptr with
      | some b => if b.owner = al then some b.size else none
      | none => none
    match old with
    | none => .ub .badFree
    | some k =>
      let m0 := unmap s.mem ptr k
      let live0 : Addr → Option LiveBlk := fun q => if q = ptr then none else s.live q
      if size = 0 then
        .ok (0,
          { s with
            mem := m0
            live := live0
            log := ⟨al, ptr, size, 0⟩ :: s.log
            moments := ⟨s.mem, s.live, size⟩ :: s.moments })
      else
        let pk := s.picks s.calls
        if pk.addr = 0 then
          .ok (0,
            { s with
              calls := s.calls + 1
              log := ⟨al, ptr, size, 0⟩ :: s.log
              moments := ⟨s.mem, s.live, size⟩ :: s.moments })
        else if legalBlock m0 pk.addr size then
          .ok (pk.addr,
            { s with
              mem := mapNew m0 pk.addr size (newContents s.mem ptr k pk.junk)
              live := fun q => if q = pk.addr then some ⟨size, al⟩ else live0 q
              calls := s.calls + 1
              log := ⟨al, ptr, size, pk.addr⟩ :: s.log
              moments := ⟨s.mem, s.live, size⟩ :: s.moments })
        else .env .alloc

/-- The `k` little endian bytes of `n` (modulo `256^k`). -/
def leBytes : Nat → Nat → List Byte
  | 0, _ => []
  | k + 1, n => UInt8.ofNat (n % 256) :: leBytes k (n / 256)

/-- The number with the little endian bytes `l`. -/
def leVal : List Byte → Nat
  | [] => 0
  | b :: l => b.toNat + 256 * leVal l

/-- Value of a 32-bit pattern as a two's complement `int`. -/
def toInt32 (n : Nat) : Int := if n < 2147483648 then n else (n : Int) - 4294967296

/-- Bit pattern of an `int`. -/
def ofInt32 (x : Int) : Nat := (x % 4294967296).toNat

/-- Compile time configuration: whether signed overflow wraps (`-fwrapv`, and what usual compilers do without
exploiting the undefined behaviour) or is undefined behaviour (ISO C), and `STRBUF_CAPACITY_GROW_STEP`
(strbuf.h lines 123-125). -/
structure Cfg where
  wrapv : Bool
  growStep : Int

/-- `a + b` for `int`. -/
def addInt (cfg : Cfg) (a b : Int) : Res Int :=
  if INT_MIN ≤ a + b ∧ a + b ≤ INT_MAX then .ok (a + b)
  else if cfg.wrapv then .ok (toInt32 (ofInt32 (a + b)))
  else .ub .signedOverflow

/-- Access to a member of a struct with pointer alignment: the pointer must not be NULL and must be aligned. -/
def checkPtr (p : Addr) : Res Unit :=
  if p = 0 ∨ p % 8 ≠ 0 then .ub .badHeader else .ok ()

end CStr
