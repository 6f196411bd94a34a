import Verif.Model.Strbuf
import Verif.Spec.View
/-
  What it means that a buffer is in memory, which source views are legitimate, and what "nothing else changes" means.
  These notions, and the modelled functions, are what the buffer property statements use.
-/
namespace CStr

/-- The abstract value of a buffer: its content, its capacity and its allocator (`al.fn = 0`: fixed capacity). -/
structure Buf where
  data : List Byte
  cap : Nat
  al : Alloc

/-- A buffer with an allocator. -/
def Buf.Dynamic (b : Buf) : Prop := b.al.fn ≠ 0

instance (b : Buf) : Decidable b.Dynamic := inferInstanceAs (Decidable (_ ≠ _))

/-- Bytes of storage a buffer of capacity `cap` occupies: header, content, terminator. -/
def storage (cap : Nat) : Nat := 24 + cap + 1

/-- The header bytes: `int size`, `int capacity`, `void* app_data`, function pointer (strbuf.h lines 217-241). -/
def hdrBytes (size cap : Nat) (al : Alloc) : List Byte :=
  leBytes 4 size ++ leBytes 4 cap ++ leBytes 8 al.app ++ leBytes 8 al.fn

/-- At `p` there is a well-formed buffer with the value `b`: the header says so, the content follows it, then a NUL
byte; `size <= capacity <= INT_MAX`; all storage is mapped; if dynamic, the storage is a live block of its allocator. -/
structure BufAt (s : St) (p : Addr) (b : Buf) : Prop where
  pos : 0 < p
  aligned : p % 8 = 0
  top : p + storage b.cap ≤ litBase
  len : b.data.length ≤ b.cap
  cap : (b.cap : Int) ≤ INT_MAX
  app : b.al.app < 2 ^ 64
  fn : b.al.fn < 2 ^ 64
  holds : Holds s.mem p (hdrBytes b.data.length b.cap b.al ++ b.data ++ [0])
  mapped : ∀ i : Nat, i < storage b.cap → (s.mem (p + i)).isSome
  heap : b.Dynamic → s.live p = some ⟨storage b.cap, b.al⟩

/-- The heap bookkeeping is consistent: live blocks are non-empty, mapped and pairwise disjoint. -/
structure St.WF (s : St) : Prop where
  block : ∀ q b, s.live q = some b → 0 < q ∧ 0 < b.size ∧ q + b.size ≤ litBase ∧
    ∀ i : Nat, i < b.size → (s.mem (q + i)).isSome
  disjoint : ∀ q b q' b', s.live q = some b → s.live q' = some b' → q ≠ q' →
    q + b.size ≤ q' ∨ q' + b'.size ≤ q

/-- The heap is consistent and the allocator does not fail (strbuf.h line 210: "You need to catch a failed
allocation" in the allocator; the library does not check). -/
structure St.Sane (s : St) : Prop where
  wf : s.WF
  noFail : ∀ i, (s.picks i).addr ≠ 0

/-- `v` is a legitimate source for an operation on the buffer `b` at `p`: it denotes `l`, and it is empty, or lies
outside the buffer's storage, or inside the buffer's content. -/
structure Source (s : St) (p : Addr) (b : Buf) (v : View) (l : List Byte) : Prop extends Denotes s.mem v l where
  place : l = [] ∨ v.data + l.length ≤ p ∨ p + storage b.cap ≤ v.data ∨
    (p + 24 ≤ v.data ∧ v.data + l.length ≤ p + 24 + b.data.length)

/-- `v` starts inside the content of the buffer `b` at `p`. -/
def View.Into (v : View) (p : Addr) (b : Buf) : Prop := p + 24 ≤ v.data ∧ v.data < p + 24 + b.data.length

instance (v : View) (p : Addr) (b : Buf) : Decidable (v.Into p b) := inferInstanceAs (Decidable (_ ∧ _))

/-- Address `a` is one of the `n` bytes from `p`. -/
def InRange (p : Addr) (n : Nat) (a : Addr) : Prop := p ≤ a ∧ a < p + n

/-- From `s` to `s'` only the block of `n` bytes at `p` has changed, and has possibly moved to become the block of `n'` bytes
at `p'`: every other byte and every other heap block is as before, the new block takes only addresses that were free,
and addresses the block has left are free. -/
structure OnlyBlock (s s' : St) (p : Addr) (n : Nat) (p' : Addr) (n' : Nat) : Prop where
  outside : ∀ a, ¬ InRange p n a → ¬ InRange p' n' a → s'.mem a = s.mem a
  fresh : ∀ a, InRange p' n' a → ¬ InRange p n a → s.mem a = none
  left : ∀ a, InRange p n a → ¬ InRange p' n' a → s'.mem a = none
  live : ∀ q, q ≠ p → q ≠ p' → s'.live q = s.live q
  liveNew : p' ≠ p → s.live p' = none
  liveOld : p' ≠ p → s'.live p = none
  picks : s'.picks = s.picks

/-- From `s` to `s'` the only change is a new block of `n` bytes at `p`. -/
structure OnlyNew (s s' : St) (p : Addr) (n : Nat) : Prop where
  outside : ∀ a, ¬ InRange p n a → s'.mem a = s.mem a
  fresh : ∀ a, InRange p n a → s.mem a = none
  live : ∀ q, q ≠ p → s'.live q = s.live q
  liveNew : s.live p = none
  picks : s'.picks = s.picks

/-- From `s` to `s'` the only change is that the block of `n` bytes at `p` has been released. -/
structure OnlyFreed (s s' : St) (p : Addr) (n : Nat) : Prop where
  outside : ∀ a, ¬ InRange p n a → s'.mem a = s.mem a
  gone : ∀ a, InRange p n a → s'.mem a = none
  live : ∀ q, q ≠ p → s'.live q = s.live q
  liveGone : s'.live p = none
  picks : s'.picks = s.picks

/-- The allocator's next answer is not an acceptable place for a block of `n'` bytes that replaces the block of `n` bytes at `p`
(`n = 0`: a new block): NULL, misaligned, or not free. -/
def BadAnswer (s : St) (p : Addr) (n n' : Nat) : Prop := ¬ legalBlock (unmap s.mem p n) (s.picks s.calls).addr n'

/-- An allocator that can be stored in a buffer: two 64-bit words, the function pointer not NULL. -/
structure Alloc.Ok (al : Alloc) : Prop where
  app : al.app < 2 ^ 64
  fn : al.fn < 2 ^ 64
  some : al.fn ≠ 0

/-- State `s'` after creating the dynamic buffer `b` at `p` with one call of its allocator; nothing else has changed. -/
structure Created (s s' : St) (p : Addr) (b : Buf) : Prop where
  buf : BufAt s' p b
  sane : s'.Sane
  only : OnlyNew s s' p (storage b.cap)
  log : s'.log = ⟨b.al, 0, storage b.cap, p⟩ :: s.log

/-- State `s'` after an operation on the buffer `b` at `p`: the buffer, possibly moved to `p'`, has content `data`
and capacity `cap`, and nothing else has changed. If the capacity stays the same, the buffer has not moved and the
allocator has not been called. Otherwise the allocator has been called exactly once, to resize this block. -/
structure Result (s : St) (p : Addr) (b : Buf) (data : List Byte) (cap : Nat) (p' : Addr) (s' : St) : Prop where
  buf : BufAt s' p' ⟨data, cap, b.al⟩
  sane : s'.Sane
  only : OnlyBlock s s' p (storage b.cap) p' (storage cap)
  same : cap = b.cap → p' = p ∧ s'.live = s.live ∧ s'.log = s.log ∧ s'.calls = s.calls
  log : cap ≠ b.cap → s'.log = ⟨b.al, p, storage cap, p'⟩ :: s.log

/-- The outcome of an operation on the buffer `b` at `p` that returns a view: the buffer has content `data` and capacity `cap`
and the returned view is exactly its content. The only other possibility is that the capacity is to change and the allocator's
answer is illegal (`env`). -/
def Yields (s : St) (p : Addr) (b : Buf) (r : BufRes) (data : List Byte) (cap : Nat) : Prop :=
  ((cap ≠ b.cap ∧ BadAnswer s p (storage b.cap) (storage cap)) ∧ r = .env .alloc) ∨
  ∃ p' s', r = .ok (⟨p' + 24, data.length⟩, some p', s') ∧ Result s p b data cap p' s'

/-- State `s'` after an operation on the buffer `b` at `p` that may have called the allocator several times: like `Result`, without
the exact account of the calls. For a fixed buffer the allocator has not been called. -/
structure Changed (s : St) (p : Addr) (b : Buf) (data : List Byte) (cap : Nat) (p' : Addr) (s' : St) : Prop where
  buf : BufAt s' p' ⟨data, cap, b.al⟩
  sane : s'.Sane
  only : OnlyBlock s s' p (storage b.cap) p' (storage cap)
  fixed : ¬ b.Dynamic → p' = p ∧ cap = b.cap ∧ s'.live = s.live ∧ s'.log = s.log ∧ s'.calls = s.calls

/-- Like `Yields`, for operations that may call the allocator several times. -/
def YieldsVia (s : St) (p : Addr) (b : Buf) (r : BufRes) (data : List Byte) (cap : Nat) : Prop :=
  (b.Dynamic ∧ r = .env .alloc) ∨
  ∃ p' s', r = .ok (⟨p' + 24, data.length⟩, some p', s') ∧ Changed s p b data cap p' s'

/-- A format with its arguments produces the text `l`, and does so whatever happens to the `n` bytes from `p`: none of its
arguments points there. -/
def Fmt.Gives (fmt : Fmt) (s : St) (p : Addr) (n : Nat) (l : List Byte) : Prop :=
  ∀ m' : Mem, (∀ a, ¬ InRange p n a → (s.mem a).isSome → m' a = s.mem a) → fmt m' = .text l

/-- The capacity after an operation that needs room for `n` bytes: unchanged if it suffices, else `n` rounded up to a
multiple of the grow step, but at most `INT_MAX`. -/
def grownCap (step : Nat) (cap n : Nat) : Nat :=
  if n ≤ cap then cap
  else if ((n + step - 1) / step) * step ≤ 2147483647 then ((n + step - 1) / step) * step
  else 2147483647

/-- The configuration is usable: the grow step is a positive `int`. -/
structure Cfg.Ok (cfg : Cfg) : Prop where
  pos : 0 < cfg.growStep
  max : cfg.growStep ≤ INT_MAX

/-- A result of `n` bytes can be stored: it fits the capacity, or the buffer can grow (up to `INT_MAX`). -/
def Buf.Fits (b : Buf) (n : Nat) : Prop := n ≤ b.cap ∨ (b.Dynamic ∧ (n : Int) ≤ INT_MAX)

instance (b : Buf) (n : Nat) : Decidable (b.Fits n) := inferInstanceAs (Decidable (_ ∨ _))

/-- The capacity after an operation whose result has `n` bytes. -/
def Buf.capFor (b : Buf) (cfg : Cfg) (n : Nat) : Nat :=
  if b.Dynamic ∧ (n : Int) ≤ INT_MAX then grownCap cfg.growStep.toNat b.cap n else b.cap

/-- The overflow tests of the library are themselves free of signed overflow for a result of `n` bytes: always with
wrapping arithmetic, otherwise if it fits the capacity, or is at least one grow step below `INT_MAX`,
or is representable and the buffer is not dynamic. -/
def Cfg.Handles (cfg : Cfg) (b : Buf) (n : Nat) : Prop :=
  cfg.wrapv = true ∨ n ≤ b.cap ∨ (n : Int) + cfg.growStep ≤ INT_MAX ∨ (¬ b.Dynamic ∧ (n : Int) ≤ INT_MAX)

/-- The position an insertion index selects in a content of `size` bytes: negative indexes count from the end, and the
position is clipped to the content. -/
def insertPos (size : Nat) (i : Int) : Nat :=
  if i < 0 then ((size : Int) + i).toNat else min i.toNat size

/-- A caller that appends the characters of a list one at a time. -/
def append_chars (cfg : Cfg) : List Byte → Option Addr → St → Res (Option Addr × St)
  | [], bp, s => .ok (bp, s)
  | c :: t, bp, s => do
    let (_, bp, s) ← strbuf_append_char cfg s bp c
    append_chars cfg t bp s

end CStr
