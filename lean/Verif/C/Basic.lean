/-
  Machine model shared by every module.

  This file models the C abstract machine as far as /repo needs it: outcomes with explicit undefined
  behaviour, a flat byte memory, and the C library functions that read memory.
-/
namespace CStr

/-- Kinds of undefined behaviour the model distinguishes. -/
inductive UB where
  | badRead          -- load through NULL or from unmapped memory
  | badWrite         -- store through NULL, to unmapped or to read-only memory
  | overlap          -- memcpy with overlapping ranges
  | signedOverflow   -- signed integer overflow
  | badHeader        -- access to a struct member through a NULL or misaligned pointer
  | badFree          -- free/realloc of a pointer that is not a live allocation of that allocator
  | nullCall         -- call through a NULL function pointer
  | badShift         -- shift by a negative amount or by at least the width of the type
  | badArg           -- variable argument missing or of a different class than the one fetched
  | badConversion    -- conversion of a floating point value to an integer type that cannot hold it
  | zeroRealloc      -- realloc with size 0 (undefined since C23)
  deriving DecidableEq, Repr

/-- Which part of the environment broke its contract. -/
inductive Env where
  | alloc     -- the allocator returned a block that is misaligned, outside the address space or not free
  | callback  -- the callback of `strbuf_append_using` wrote more than it was allowed to
  | format    -- the formatter produced a text that cannot be reported in an `int`
  | abort     -- the program was stopped by a failed `assert`
  | other     -- not used by the model (free for tests of programs that call the library)
  deriving DecidableEq, Repr

/-- Outcome of a modelled C function. `fuel` means the modelled loop did not finish within its bound;
`env` means the environment (allocator, OS, callback) broke its own contract. -/
inductive Res (α : Type) where
  | ok (a : α)
  | ub (why : UB)
  | fuel
  | env (who : Env)
  deriving DecidableEq, Repr

namespace Res

@[simp] def bind {α β} : Res α → (α → Res β) → Res β
  | .ok a, f => f a
  | .ub w, _ => .ub w
  | .fuel, _ => .fuel
  | .env w, _ => .env w

instance : Monad Res where
  pure := Res.ok
  bind := Res.bind

@[simp] theorem pure_eq {α} (a : α) : (pure a : Res α) = .ok a := rfl
@[simp] theorem bind_ok {α β} (a : α) (f : α → Res β) : (Res.ok a >>= f) = f a := rfl
@[simp] theorem bind_ub {α β} (w : UB) (f : α → Res β) : (Res.ub w >>= f) = .ub w := rfl
@[simp] theorem bind_fuel {α β} (f : α → Res β) : ((Res.fuel : Res α) >>= f) = .fuel := rfl
@[simp] theorem bind_env {α β} (w : Env) (f : α → Res β) : ((Res.env w : Res α) >>= f) = .env w := rfl
@[simp] theorem map_ok {α β} (a : α) (f : α → β) : (f <$> Res.ok a) = .ok (f a) := rfl

instance : LawfulMonad Res := LawfulMonad.mk'
  (id_map := by intro α x; cases x <;> rfl)
  (pure_bind := by intros; rfl)
  (bind_assoc := by intro α β γ x f g; cases x <;> rfl)

end Res

/-- A byte of memory (an `unsigned char` value). -/
macro "Byte" : term => `(UInt8)
/-- A machine address. `0` is NULL. -/
macro "Addr" : term => `(Int)
/-- Flat byte memory: `none` means the address is not mapped. -/
abbrev Mem := Addr → Option Byte

def INT_MAX : Int := 2147483647
def INT_MIN : Int := -2147483648

/-- String literals used inside the library, placed in read-only memory at addresses `>= litBase`
(beyond the 64-bit address space, so no user object can collide with them). -/
def litBase : Addr := 18446744073709551616

/-- The bytes of the literal segment. Offsets:
0 `"\r\n"`, 3 `"0"`, 5 `" "`, 7 `"0b"`, 10 `"0x"`, 13 `"infinty"`, 21 `"inf"`, 25 `"nan"`, 29 `"E"`,
31 `""`, 32 `":"`, 34 `"/"`, 36 `"//"`, 39 `"?"`, 41 `"#"`, 43 `"@"`, 45 `"["`, 47 `"]"`,
49 `"://"`. -/
def litSeg : List Byte :=
  [13, 10, 0,  48, 0,  32, 0,  48, 98, 0,  48, 120, 0,
   105, 110, 102, 105, 110, 116, 121, 0,  105, 110, 102, 0,  110, 97, 110, 0,  69, 0,
   0,  58, 0,  47, 0,  47, 47, 0,  63, 0,  35, 0,  64, 0,  91, 0,  93, 0,  58, 47, 47, 0]

/-- Reading one byte of memory: literals, then user memory; NULL and negative addresses never hold data. -/
def rd (m : Mem) (a : Addr) : Option Byte :=
  if a ≤ 0 then none
  else if litBase ≤ a then litSeg[(a - litBase).toNat]?
  else m a

/-- `*p` for `const char* p`. -/
def load (m : Mem) (a : Addr) : Res Byte :=
  match rd m a with
  | some b => .ok b
  | none => .ub .badRead

/-- `*p = b`. -/
def store (m : Mem) (a : Addr) (b : Byte) : Res Mem :=
  if 0 < a ∧ a < litBase ∧ (m a).isSome then .ok (fun x => if x = a then some b else m x)
  else .ub .badWrite

/-- Value of a (signed, 8-bit) `char` promoted to `int`. -/
def charToInt (b : Byte) : Int := if b.toNat < 128 then b.toNat else (b.toNat : Int) - 256

/-- C-locale `toupper` on an `unsigned char` value. -/
def toUpper (b : Byte) : Byte := if 97 ≤ b ∧ b ≤ 122 then b - 32 else b

/-- C-locale `isdigit`. -/
def isDigit (b : Byte) : Bool := 48 ≤ b && b ≤ 57

/-- C-locale `isxdigit`. -/
def isXDigit (b : Byte) : Bool := (48 ≤ b && b ≤ 57) || (65 ≤ b && b ≤ 70) || (97 ≤ b && b ≤ 102)

/-- C library `strlen`, bounded by `fuel` (the caller passes `INT_MAX + 1`; a longer string does not fit
the `int size` of a view, see strview.h lines 54-58). -/
def strlen (m : Mem) (a : Addr) : Nat → Res Int
  | 0 => .fuel
  | n + 1 => do
    let x ← load m a
    if x = 0 then .ok 0 else
      let r ← strlen m (a + 1) n
      .ok (r + 1)

/-- `n` bytes starting at `a` hold the list `l`. -/
def Holds (m : Mem) (a : Addr) (l : List Byte) : Prop :=
  ∀ i (h : i < l.length), rd m (a + i) = some l[i]

/-- Read `n` consecutive bytes. -/
def readBytes (m : Mem) (a : Addr) : Nat → Res (List Byte)
  | 0 => .ok []
  | n + 1 => do
    let b ← load m a
    let r ← readBytes m (a + 1) n
    .ok (b :: r)

/-- Write consecutive bytes. -/
def writeBytes (m : Mem) (a : Addr) : List Byte → Res Mem
  | [] => .ok m
  | b :: r => do
    let m' ← store m a b
    writeBytes m' (a + 1) r

/-- First difference of two equally long byte lists as unsigned bytes (0 if equal). -/
def lexDiff : List Byte → List Byte → Int
  | x :: l, y :: r => if x = y then lexDiff l r else (x.toNat : Int) - y.toNat
  | _, _ => 0

/-- C library `memcmp(a, b, n)`: all `n` bytes of both objects must be readable (C11 7.24.4.1); the sign of the
result is that of the first difference, taken as unsigned bytes. C leaves the magnitude of the result open;
the model returns the difference itself. -/
def memcmp (m : Mem) (a b : Addr) (n : Nat) : Res Int := do
  let x ← readBytes m a n
  let y ← readBytes m b n
  .ok (lexDiff x y)

/-- C library `memmove`. -/
def memmove (m : Mem) (dst src : Addr) (n : Nat) : Res Mem := do
  let l ← readBytes m src n
  writeBytes m dst l

/-- C library `memcpy`: overlapping ranges are undefined behaviour. -/
def memcpy (m : Mem) (dst src : Addr) (n : Nat) : Res Mem :=
  if n ≠ 0 ∧ dst < src + n ∧ src < dst + n then .ub .overlap else memmove m dst src n

end CStr
