import Verif.Model.Strbuf
/-
  Model of /repo/accessories/xendian.h, strbuf_pack.h and strview_unpack.h.

  Integers are handled by their bit patterns: a `k` byte integer is a natural number below `256^k`; the conversions between
  `intN_t` and `uintN_t` in xendian.h keep the pattern (two's complement, C11 7.20.1.1). `repr` and `ofRepr` are the object representation
  on the host, which the unions of xendian.h lines 43-59 expose.
-/
namespace CStr

/-- Byte order of the machine the code runs on (`__BYTE_ORDER__`, xendian.h lines 72-93). -/
inductive Host where
  | little
  | big
  deriving DecidableEq

/-- Object representation of the `k` byte integer with pattern `n`. -/
def repr (h : Host) (k n : Nat) : List Byte :=
  match h with
  | .little => leBytes k n
  | .big => (leBytes k n).reverse

/-- The pattern of the integer with the object representation `l`. -/
def ofRepr (h : Host) (l : List Byte) : Nat :=
  match h with
  | .little => leVal l
  | .big => leVal l.reverse

/-- Element `i` of an array of `w` byte integers over the bytes `l` (a union member such as `word16[i]`). -/
def word (h : Host) (w i : Nat) (l : List Byte) : Nat := ofRepr h ((l.drop (w * i)).take w)

/-- xendian.h lines 99-107: `xendian_swap16`. -/
def xendian_swap16 (h : Host) (x : Nat) : Nat :=
  let inn := repr h 2 x
  ofRepr h (repr h 1 (word h 1 1 inn) ++ repr h 1 (word h 1 0 inn))

/-- xendian.h lines 109-117: `xendian_swap32`. -/
def xendian_swap32 (h : Host) (x : Nat) : Nat :=
  let inn := repr h 4 x
  ofRepr h (repr h 2 (xendian_swap16 h (word h 2 1 inn)) ++ repr h 2 (xendian_swap16 h (word h 2 0 inn)))

/-- xendian.h lines 119-127: `xendian_swap64`. -/
def xendian_swap64 (h : Host) (x : Nat) : Nat :=
  let inn := repr h 8 x
  ofRepr h (repr h 4 (xendian_swap32 h (word h 4 1 inn)) ++ repr h 4 (xendian_swap32 h (word h 4 0 inn)))

/-- The integer types the macros accept (xendian.h lines 61-70). -/
inductive IntTy where
  | u8 | i8 | u16 | i16 | u32 | i32 | u64 | i64
  deriving DecidableEq

/-- `sizeof`. -/
def IntTy.width : IntTy → Nat
  | .u8 | .i8 => 1
  | .u16 | .i16 => 2
  | .u32 | .i32 => 4
  | .u64 | .i64 => 8

def IntTy.signed : IntTy → Bool
  | .u8 | .u16 | .u32 | .u64 => false
  | .i8 | .i16 | .i32 | .i64 => true

/-- The bit pattern of a value. -/
def IntTy.pattern (t : IntTy) (x : Int) : Nat := (x % (256 ^ t.width : Nat)).toNat

/-- The value of a bit pattern. -/
def IntTy.value (t : IntTy) (n : Nat) : Int :=
  if t.signed ∧ 256 ^ t.width ≤ 2 * n then (n : Int) - (256 ^ t.width : Nat) else n

/-- xendian.h lines 61-70: `xendian_SWAP`, on patterns. -/
def xendian_SWAP (h : Host) (t : IntTy) (n : Nat) : Nat :=
  match t with
  | .u8 | .i8 => n
  | .u16 | .i16 => xendian_swap16 h n
  | .u32 | .i32 => xendian_swap32 h n
  | .u64 | .i64 => xendian_swap64 h n

/-- Byte order named by the macro. -/
inductive Order where
  | LE
  | BE
  deriving DecidableEq

/-- xendian.h lines 76-88: `xendian_pack_LE`, `xendian_pack_BE`, `xendian_unpack_LE`, `xendian_unpack_BE` (packing and unpacking are
the same operation). -/
def xendian_conv (h : Host) (o : Order) (t : IntTy) (n : Nat) : Nat :=
  match h, o with
  | .little, .LE => n
  | .little, .BE => xendian_SWAP h t n
  | .big, .LE => xendian_SWAP h t n
  | .big, .BE => n

/-- strbuf_pack.h lines 19 and 22: `STRBUF_PACK_LE(dst, src)` and `STRBUF_PACK_BE(dst, src)`. `tmp` is the address of the local variable. The buffer
functions are modelled for the little endian header layout whatever `h` is. -/
def STRBUF_PACK (cfg : Cfg) (h : Host) (o : Order) (t : IntTy) (s : St) (tmp : Addr) (dst : Option Addr) (src : Int) : BufRes := do
  let m ← writeBytes s.mem tmp (repr h t.width (xendian_conv h o t (t.pattern src)))
  strbuf_append_strview cfg { s with mem := m } dst ⟨tmp, t.width⟩

/-- strview_unpack.h lines 19-33: `STRVIEW_UNPACK_LE(dst, view)` and `STRVIEW_UNPACK_BE(dst, view)`. `dst` is the address of the variable; the result is
its value, the memory and the new value of `view`. -/
def STRVIEW_UNPACK (h : Host) (o : Order) (t : IntTy) (m : Mem) (dst : Addr) (view : View) : Res (Int × Mem × View) := do
  let m ← memcpy m dst view.data t.width
  let l ← readBytes m dst t.width
  let n := xendian_conv h o t (ofRepr h l)
  let m ← writeBytes m dst (repr h t.width n)
  let view ← strview_sub view t.width INT_MAX
  .ok (t.value n, m, view)

end CStr
