import Verif.Model.Pack
import Verif.Spec.Buf
/-
  What packed integers look like, independently of xendian.h: base 256 digits.
-/
namespace CStr

/-- The value fits the type. -/
def IntTy.InRange (t : IntTy) (x : Int) : Prop :=
  match t with
  | .u8 => 0 ≤ x ∧ x < 2 ^ 8
  | .i8 => -2 ^ 7 ≤ x ∧ x < 2 ^ 7
  | .u16 => 0 ≤ x ∧ x < 2 ^ 16
  | .i16 => -2 ^ 15 ≤ x ∧ x < 2 ^ 15
  | .u32 => 0 ≤ x ∧ x < 2 ^ 32
  | .i32 => -2 ^ 31 ≤ x ∧ x < 2 ^ 31
  | .u64 => 0 ≤ x ∧ x < 2 ^ 64
  | .i64 => -2 ^ 63 ≤ x ∧ x < 2 ^ 63

/-- Digit `i` (weight `256^i`) of the two's complement representation of `x`. -/
def digit (x : Int) (i : Nat) : Byte := UInt8.ofNat (x / 256 ^ i % 256).toNat

/-- The bytes of a packed integer: its digits, least significant first or last. -/
def wire (o : Order) (t : IntTy) (x : Int) : List Byte :=
  match o with
  | .LE => (List.range t.width).map (digit x)
  | .BE => ((List.range t.width).map (digit x)).reverse

/-- The program has a variable of `n` bytes at `a`. -/
def Variable (m : Mem) (a : Addr) (n : Nat) : Prop := 0 < a ∧ a + n ≤ litBase ∧ ∀ i : Nat, i < n → (m (a + i)).isSome

/-- An integer to pack: byte order, type, value. -/
structure Item where
  order : Order
  ty : IntTy
  val : Int

/-- The bytes of several packed integers. -/
def wires (l : List Item) : List Byte := (l.map fun i => wire i.order i.ty i.val).flatten

/-- Pack several integers, one after the other, on a host `h`. -/
def packAll (cfg : Cfg) (h : Host) (tmp : Addr) : List Item → Option Addr → St → Res (Option Addr × St)
  | [], bp, s => .ok (bp, s)
  | i :: r, bp, s => do
    let (_, bp, s) ← STRBUF_PACK cfg h i.order i.ty s tmp bp i.val
    packAll cfg h tmp r bp s

/-- Unpack several integers of the given byte orders and types, on a host `h`. -/
def unpackAll (h : Host) (dst : Addr) : List (Order × IntTy) → View → Mem → Res (List Int × View × Mem)
  | [], v, m => .ok ([], v, m)
  | (o, t) :: r, v, m => do
    let (x, m, v) ← STRVIEW_UNPACK h o t m dst v
    let (xs, v, m) ← unpackAll h dst r v m
    .ok (x :: xs, v, m)

end CStr
