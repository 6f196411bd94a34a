import Verif.Model.Strview
/-
  Model of /repo/strnum.c (and the type dispatch of strnum.h). One definition per C function.

  Conventions as in Model/Strview.lean. `int options` is its 32-bit pattern. Unsigned integers are `Nat` reduced with
  `u32`/`u64` where C wraps; `long` is 64 bits (LP64); `char` is signed. A `T* dst` argument is `Option` of the
  pointee (`none` is NULL) and the pointee after the call is returned. Chains of `if(!err)` are nested `if`s.

  Floating point is a parameter (`FloatOps`): the code is modelled for every implementation of the float
  operations it uses, nothing is assumed about rounding.
-/
namespace CStr

/-- errno.h values used by strnum.c. -/
def EINVAL : Int := 22
def ERANGE : Int := 34

/-- strnum.h line 32. -/
def STRNUM_DEFAULT : UInt32 := 0
/-- strnum.h lines 39-74: option flags. -/
def STRNUM_BASE_BIN : UInt32 := 1
def STRNUM_BASE_HEX : UInt32 := 2
def STRNUM_NOBX : UInt32 := 4
def STRNUM_NOSIGN : UInt32 := 8
def STRNUM_NOSPACE : UInt32 := 16
def STRNUM_NOEXP : UInt32 := 32

/-- The C condition `options & k`. -/
def flag (options k : UInt32) : Bool := options &&& k != 0

/-- Reduction to `unsigned int` / `unsigned long`, `unsigned long long`. -/
def u32 (x : Nat) : Nat := x % 4294967296
def u64 (x : Nat) : Nat := x % 18446744073709551616

/-- Conversion of an integer to a signed type of `bits` bits (two's complement). -/
def castS (bits : Nat) (x : Int) : Int := Int.bmod x (2 ^ bits)

/-- Conversion of an integer to an unsigned type of `bits` bits. -/
def castU (bits : Nat) (x : Nat) : Nat := x % 2 ^ bits

/-- String literals `" "`, `"0"`, `"0b"`, `"0x"` (strnum.c lines 492, 608, 666, 770, 709, 714). -/
def litSpace : Addr := litBase + 5
def litZero : Addr := litBase + 3
def lit0b : Addr := litBase + 7
def lit0x : Addr := litBase + 10

/-- strnum.c lines 870-873: `upper_nibble_ull_is_zero`. -/
def upper_nibble_ull_is_zero (i : Nat) : Bool := i &&& (0xF <<< 60) == 0

/-- strnum.c lines 875-878: `upper_bit_ull_is_zero`. -/
def upper_bit_ull_is_zero (i : Nat) : Bool := i &&& (1 <<< 63) == 0

/-- strnum.c lines 880-886: `xdigit_value`. -/
def xdigit_value (c : Byte) : Nat :=
  let c := c &&& 0x5F
  let c := if c &&& 0x40 ≠ 0 then c + 9 else c
  (c &&& 0x0F).toNat

/-- strnum.c lines 888-891: `isbdigit`. -/
def isbdigit (c : Byte) : Bool := c &&& 0x7E == 0x30

/-- strnum.c lines 770-774 and 776-780: the loops accumulating in `unsigned int` (`limit` = `UI_LIMIT`, `wrap` =
`u32`) and `unsigned long` (`limit` = `UL_LIMIT`, `wrap` = `u64`). Returns `(*str, res)`. -/
def dec_loop (m : Mem) (limit : Nat) (wrap : Nat → Nat) : Nat → View → Nat → Res (View × Nat)
  | 0, _, _ => .fuel
  | k + 1, str, res =>
    if str.size ≠ 0 then do
      let b ← load m str.data
      if isDigit b ∧ res < limit then do
        let (c, str) ← pop_first_nn m str
        dec_loop m limit wrap k str (wrap (wrap (res * 10) + (c &&& 0x0F).toNat))
      else .ok (str, res)
    else .ok (str, res)

/-- strnum.c lines 782-800: the loop accumulating in `unsigned long long` with overflow checks.
Returns `(err, *str, res)`. -/
def dec_ull_loop (m : Mem) : Nat → Int → View → Nat → Res (Int × View × Nat)
  | 0, _, _, _ => .fuel
  | k + 1, err, str, res =>
    if str.size ≠ 0 then do
      let b ← load m str.data
      if isDigit b ∧ err = 0 then
        if res > 1844674407370955161 then dec_ull_loop m k ERANGE str res
        else do
          let next_weight := u64 (res * 10)
          let b ← load m str.data
          let post_add := u64 (next_weight + (b &&& 0x0F).toNat)
          if post_add < next_weight then dec_ull_loop m k ERANGE str res
          else do
            let (_, str) ← pop_first_nn m str
            dec_ull_loop m k err str post_add
      else .ok (err, str, res)
    else .ok (err, str, res)

/-- The test `str->size && isX(str->data[0])`. -/
def first_is (m : Mem) (p : Byte → Bool) (str : View) : Res Bool :=
  if str.size ≠ 0 then do
    let b ← load m str.data
    .ok (p b)
  else .ok false

/-- strnum.c lines 749-808: `consume_decimal_digits`. Returns `(err, *dst, *str)`. `UI_LIMIT` is
4294967295/10-9, `UL_LIMIT` is (2^64-1)/10-9. -/
def consume_decimal_digits (m : Mem) (str : View) : Res (Int × Nat × View) := do
  if ← first_is m isDigit str then do
    let str ← strview_trim_start_cstr m str litZero
    let (str, res_ui) ← dec_loop m 429496720 u32 (str.size.toNat + 1) str 0
    let (str, res_ul) ← dec_loop m 1844674407370955152 u64 (str.size.toNat + 1) str res_ui
    let (err, str, res_ull) ← dec_ull_loop m (str.size.toNat + 2) 0 str res_ul
    .ok (err, res_ull, str)
  else .ok (EINVAL, 0, str)

/-- strnum.c lines 823-832: loop of `consume_hex_digits`. -/
def hex_loop (m : Mem) : Nat → Int → View → Nat → Res (Int × View × Nat)
  | 0, _, _, _ => .fuel
  | k + 1, err, str, result =>
    if str.size ≠ 0 then do
      let b ← load m str.data
      if isXDigit b ∧ err = 0 then
        if !upper_nibble_ull_is_zero result then hex_loop m k ERANGE str result
        else do
          let (c, str) ← pop_first_nn m str
          hex_loop m k err str (u64 (u64 (result <<< 4) + xdigit_value c))
      else .ok (err, str, result)
    else .ok (err, str, result)

/-- strnum.c lines 810-838: `consume_hex_digits`. Returns `(err, *dst, *str)`. -/
def consume_hex_digits (m : Mem) (str : View) : Res (Int × Nat × View) := do
  if ← first_is m isXDigit str then do
    let str ← strview_trim_start_cstr m str litZero
    let (err, str, result) ← hex_loop m (str.size.toNat + 2) 0 str 0
    .ok (err, result, str)
  else .ok (EINVAL, 0, str)

/-- strnum.c lines 853-862: loop of `consume_bin_digits`. -/
def bin_loop (m : Mem) : Nat → Int → View → Nat → Res (Int × View × Nat)
  | 0, _, _, _ => .fuel
  | k + 1, err, str, result =>
    if str.size ≠ 0 then do
      let b ← load m str.data
      if isbdigit b ∧ err = 0 then
        if !upper_bit_ull_is_zero result then bin_loop m k ERANGE str result
        else do
          let (c, str) ← pop_first_nn m str
          bin_loop m k err str (u64 (result <<< 1) ||| (c &&& 1).toNat)
      else .ok (err, str, result)
    else .ok (err, str, result)

/-- strnum.c lines 840-868: `consume_bin_digits`. Returns `(err, *dst, *str)`. -/
def consume_bin_digits (m : Mem) (str : View) : Res (Int × Nat × View) := do
  if ← first_is m isbdigit str then do
    let str ← strview_trim_start_cstr m str litZero
    let (err, str, result) ← bin_loop m (str.size.toNat + 2) 0 str 0
    .ok (err, result, str)
  else .ok (EINVAL, 0, str)

/-- strnum.c lines 737-747: `consume_digits`. -/
def consume_digits (m : Mem) (src : View) (base : Nat) : Res (Int × Nat × View) :=
  if base = 10 then consume_decimal_digits m src
  else if base = 16 then consume_hex_digits m src
  else consume_bin_digits m src

/-- strnum.c lines 721-732: `consume_sign`. Returns `(is_neg, *num)`. -/
def consume_sign (m : Mem) (num : View) : Res (Bool × View) :=
  if num.size ≠ 0 then do
    let b ← load m num.data
    if b = 45 then do
      let (_, num) ← pop_first_nn m num
      .ok (true, num)
    else if b = 43 then do
      let (_, num) ← pop_first_nn m num
      .ok (false, num)
    else .ok (false, num)
  else .ok (false, num)

/-- strnum.c lines 712-717: second branch of `consume_base_prefix`. -/
def consume_hex_prefix (m : Mem) (base : Nat) (src base_prefix : View) (options : UInt32) :
    Res (Nat × View) := do
  if !flag options STRNUM_BASE_BIN then do
    if ← strview_is_match_nocase_cstr m base_prefix lit0x then do
      let s ← strview_sub src 2 INT_MAX
      .ok (16, s)
    else .ok (base, src)
  else .ok (base, src)

/-- strnum.c lines 702-719: `consume_base_prefix`. Returns `(*base, *src)`. -/
def consume_base_prefix (m : Mem) (base : Nat) (src : View) (options : UInt32) : Res (Nat × View) := do
  let base_prefix ← strview_sub src 0 2
  if !flag options STRNUM_NOBX then
    if !flag options STRNUM_BASE_HEX then do
      if ← strview_is_match_nocase_cstr m base_prefix lit0b then do
        let s ← strview_sub src 2 INT_MAX
        .ok (2, s)
      else consume_hex_prefix m base src base_prefix options
    else consume_hex_prefix m base src base_prefix options
  else .ok (base, src)

/-- strnum.c lines 599-602 and 664-667: initial base. -/
def initial_base (options : UInt32) : Nat :=
  if flag options STRNUM_BASE_BIN then 2 else if flag options STRNUM_BASE_HEX then 16 else 10

/-- strnum.c lines 611-612 and 676-677: `if(!(options & STRNUM_NOSPACE)) num = strview_trim_start(num, " ")`. -/
def consume_space (m : Mem) (num : View) (options : UInt32) : Res View :=
  if !flag options STRNUM_NOSPACE then strview_trim_start_cstr m num litSpace else .ok num

/-- strnum.c lines 604-605 and 669-670: `num = src ? *src : STRVIEW_INVALID`. -/
def srcView : Option View → View
  | some v => v
  | none => .invalid

/-- strnum.c lines 657-700: `consume_unsigned`. Returns `(err, stored, *src)` where `stored` is the value stored through
a non-NULL `dst` (`none`: no store). -/
def consume_unsigned (m : Mem) (src : Option View) (options : UInt32) (limit_max : Nat) :
    Res (Int × Option Nat × Option View) :=
  if strview_is_valid (srcView src) then do
    let num ← consume_space m (srcView src) options
    let (base, num) ← consume_base_prefix m (initial_base options) num options
    let (err, val, num) ← consume_digits m num base
    if err = 0 then
      if val > limit_max then .ok (ERANGE, none, src)
      else .ok (0, some val, src.map fun _ => num)
    else .ok (err, none, src)
  else .ok (EINVAL, none, src)

/-- strnum.c lines 614-616: `if(!(options & STRNUM_NOSIGN)) is_neg = consume_sign(&num)`. -/
def consume_opt_sign (m : Mem) (num : View) (options : UInt32) : Res (Bool × View) :=
  if !flag options STRNUM_NOSIGN then consume_sign m num else .ok (false, num)

/-- strnum.c lines 625-640: range check and application of the sign; `val_ull * -1` is computed in
`unsigned long long` and converted to `long long`. `none` is ERANGE. -/
def apply_sign (is_neg : Bool) (val_ull : Nat) : Option Int :=
  if is_neg then
    if val_ull > 9223372036854775808 then none
    else some (castS 64 (u64 (val_ull * 18446744073709551615)))
  else if val_ull > 9223372036854775807 then none
  else some (castS 64 val_ull)

/-- strnum.c lines 590-655: `consume_signed`. Result as for `consume_unsigned`. -/
def consume_signed (m : Mem) (src : Option View) (options : UInt32) (limit_min limit_max : Int) :
    Res (Int × Option Int × Option View) :=
  if strview_is_valid (srcView src) then do
    let num ← consume_space m (srcView src) options
    let (is_neg, num) ← consume_opt_sign m num options
    let (base, num) ← consume_base_prefix m (initial_base options) num options
    let (err, val_ull, num) ← consume_digits m num base
    if err = 0 then
      match apply_sign is_neg val_ull with
      | none => .ok (ERANGE, none, src)
      | some val_ll =>
        if limit_min ≤ val_ll ∧ val_ll ≤ limit_max then .ok (0, some val_ll, src.map fun _ => num)
        else .ok (ERANGE, none, src)
    else .ok (err, none, src)
  else .ok (EINVAL, none, src)

/-- The body shared by strnum.c lines 74-120: call `consume_unsigned` with a local `val`, and if there was no error
store it, converted, through `dst`. Reading `val` when nothing was stored would be undefined. -/
def consume_u (m : Mem) (dst : Option Nat) (src : Option View) (options : UInt32) (limit_max bits : Nat) :
    Res (Int × Option Nat × Option View) := do
  let (err, val, src) ← consume_unsigned m src options limit_max
  match dst with
  | none => .ok (err, none, src)
  | some old =>
    if err = 0 then
      match val with
      | some val => .ok (err, some (castU bits val), src)
      | none => .ub .badRead
    else .ok (err, some old, src)

/-- strnum.c lines 74-84: `strnum_consume_uchar`. -/
def strnum_consume_uchar (m : Mem) (dst : Option Nat) (src : Option View) (options : UInt32) :
    Res (Int × Option Nat × Option View) := consume_u m dst src options 255 8

/-- strnum.c lines 86-96: `strnum_consume_ushort`. -/
def strnum_consume_ushort (m : Mem) (dst : Option Nat) (src : Option View) (options : UInt32) :
    Res (Int × Option Nat × Option View) := consume_u m dst src options 65535 16

/-- strnum.c lines 98-108: `strnum_consume_uint`. -/
def strnum_consume_uint (m : Mem) (dst : Option Nat) (src : Option View) (options : UInt32) :
    Res (Int × Option Nat × Option View) := consume_u m dst src options 4294967295 32

/-- strnum.c lines 110-120: `strnum_consume_ulong`. -/
def strnum_consume_ulong (m : Mem) (dst : Option Nat) (src : Option View) (options : UInt32) :
    Res (Int × Option Nat × Option View) := consume_u m dst src options 18446744073709551615 64

/-- strnum.c lines 122-125: `strnum_consume_ullong`: `dst` is passed on to `consume_unsigned`. -/
def strnum_consume_ullong (m : Mem) (dst : Option Nat) (src : Option View) (options : UInt32) :
    Res (Int × Option Nat × Option View) := do
  let (err, val, src) ← consume_unsigned m src options 18446744073709551615
  match dst, val with
  | some _, some val => .ok (err, some val, src)
  | _, _ => .ok (err, dst, src)

/-- The body shared by strnum.c lines 127-173, as `consume_u`. -/
def consume_s (m : Mem) (dst : Option Int) (src : Option View) (options : UInt32) (limit_min limit_max : Int)
    (bits : Nat) : Res (Int × Option Int × Option View) := do
  let (err, val, src) ← consume_signed m src options limit_min limit_max
  match dst with
  | none => .ok (err, none, src)
  | some old =>
    if err = 0 then
      match val with
      | some val => .ok (err, some (castS bits val), src)
      | none => .ub .badRead
    else .ok (err, some old, src)

/-- strnum.c lines 127-137: `strnum_consume_char`. -/
def strnum_consume_char (m : Mem) (dst : Option Int) (src : Option View) (options : UInt32) :
    Res (Int × Option Int × Option View) := consume_s m dst src options (-128) 127 8

/-- strnum.c lines 139-149: `strnum_consume_short`. -/
def strnum_consume_short (m : Mem) (dst : Option Int) (src : Option View) (options : UInt32) :
    Res (Int × Option Int × Option View) := consume_s m dst src options (-32768) 32767 16

/-- strnum.c lines 151-161: `strnum_consume_int`. -/
def strnum_consume_int (m : Mem) (dst : Option Int) (src : Option View) (options : UInt32) :
    Res (Int × Option Int × Option View) := consume_s m dst src options INT_MIN INT_MAX 32

/-- strnum.c lines 163-173: `strnum_consume_long`. -/
def strnum_consume_long (m : Mem) (dst : Option Int) (src : Option View) (options : UInt32) :
    Res (Int × Option Int × Option View) :=
  consume_s m dst src options (-9223372036854775808) 9223372036854775807 64

/-- strnum.c lines 175-178: `strnum_consume_llong`. -/
def strnum_consume_llong (m : Mem) (dst : Option Int) (src : Option View) (options : UInt32) :
    Res (Int × Option Int × Option View) := do
  let (err, val, src) ← consume_signed m src options (-9223372036854775808) 9223372036854775807
  match dst, val with
  | some _, some val => .ok (err, some val, src)
  | _, _ => .ok (err, dst, src)

/-- The unsigned destination types of `strnum_value`. -/
inductive UTy where | uchar | ushort | uint | ulong | ullong
/-- The signed destination types of `strnum_value`. -/
inductive STy where | char | short | int | long | llong

/-- strnum.h lines 92-106: `strnum_value` for an unsigned destination. -/
def strnum_value_u : UTy → Mem → Option Nat → Option View → UInt32 → Res (Int × Option Nat × Option View)
  | .uchar => strnum_consume_uchar
  | .ushort => strnum_consume_ushort
  | .uint => strnum_consume_uint
  | .ulong => strnum_consume_ulong
  | .ullong => strnum_consume_ullong

/-- strnum.h lines 92-106: `strnum_value` for a signed destination. -/
def strnum_value_s : STy → Mem → Option Int → Option View → UInt32 → Res (Int × Option Int × Option View)
  | .char => strnum_consume_char
  | .short => strnum_consume_short
  | .int => strnum_consume_int
  | .long => strnum_consume_long
  | .llong => strnum_consume_llong

/-- The body shared by strnum.c lines 208-234 and 271-304:
`err = consume_unsigned(&v, &src, options, MAX); return err ? dfault : (T)v;`. -/
def default_u (m : Mem) (src : View) (dfault : Nat) (options : UInt32) (limit_max bits : Nat) : Res Nat := do
  let (err, v, _) ← consume_unsigned m (some src) options limit_max
  if err ≠ 0 then .ok dfault
  else match v with
    | some v => .ok (castU bits v)
    | none => .ub .badRead

/-- The body shared by strnum.c lines 180-206 and 236-269. -/
def default_s (m : Mem) (src : View) (dfault : Int) (options : UInt32) (limit_min limit_max : Int) (bits : Nat) :
    Res Int := do
  let (err, v, _) ← consume_signed m (some src) options limit_min limit_max
  if err ≠ 0 then .ok dfault
  else match v with
    | some v => .ok (castS bits v)
    | none => .ub .badRead

/-- strnum.c lines 180-185: `strnum_i8`. -/
def strnum_i8 (m : Mem) (src : View) (d : Int) (o : UInt32) : Res Int := default_s m src d o (-128) 127 8
/-- strnum.c lines 187-192: `strnum_i16`. -/
def strnum_i16 (m : Mem) (src : View) (d : Int) (o : UInt32) : Res Int := default_s m src d o (-32768) 32767 16
/-- strnum.c lines 194-199: `strnum_i32`. -/
def strnum_i32 (m : Mem) (src : View) (d : Int) (o : UInt32) : Res Int :=
  default_s m src d o (-2147483648) 2147483647 32
/-- strnum.c lines 201-206: `strnum_i64`. -/
def strnum_i64 (m : Mem) (src : View) (d : Int) (o : UInt32) : Res Int :=
  default_s m src d o (-9223372036854775808) 9223372036854775807 64
/-- strnum.c lines 208-213: `strnum_u8`. -/
def strnum_u8 (m : Mem) (src : View) (d : Nat) (o : UInt32) : Res Nat := default_u m src d o 255 8
/-- strnum.c lines 215-220: `strnum_u16`. -/
def strnum_u16 (m : Mem) (src : View) (d : Nat) (o : UInt32) : Res Nat := default_u m src d o 65535 16
/-- strnum.c lines 222-227: `strnum_u32`. -/
def strnum_u32 (m : Mem) (src : View) (d : Nat) (o : UInt32) : Res Nat := default_u m src d o 4294967295 32
/-- strnum.c lines 229-234: `strnum_u64`. -/
def strnum_u64 (m : Mem) (src : View) (d : Nat) (o : UInt32) : Res Nat :=
  default_u m src d o 18446744073709551615 64
/-- strnum.c lines 236-241: `strnum_char`. -/
def strnum_char (m : Mem) (src : View) (d : Int) (o : UInt32) : Res Int := default_s m src d o (-128) 127 8
/-- strnum.c lines 243-248: `strnum_short`. -/
def strnum_short (m : Mem) (src : View) (d : Int) (o : UInt32) : Res Int := default_s m src d o (-32768) 32767 16
/-- strnum.c lines 250-255: `strnum_int`. -/
def strnum_int (m : Mem) (src : View) (d : Int) (o : UInt32) : Res Int := default_s m src d o INT_MIN INT_MAX 32
/-- strnum.c lines 257-262: `strnum_long`. -/
def strnum_long (m : Mem) (src : View) (d : Int) (o : UInt32) : Res Int :=
  default_s m src d o (-9223372036854775808) 9223372036854775807 64
/-- strnum.c lines 264-269: `strnum_llong`. -/
def strnum_llong (m : Mem) (src : View) (d : Int) (o : UInt32) : Res Int :=
  default_s m src d o (-9223372036854775808) 9223372036854775807 64
/-- strnum.c lines 271-276: `strnum_uchar`. -/
def strnum_uchar (m : Mem) (src : View) (d : Nat) (o : UInt32) : Res Nat := default_u m src d o 255 8
/-- strnum.c lines 278-283: `strnum_ushort`. -/
def strnum_ushort (m : Mem) (src : View) (d : Nat) (o : UInt32) : Res Nat := default_u m src d o 65535 16
/-- strnum.c lines 285-290: `strnum_uint`. -/
def strnum_uint (m : Mem) (src : View) (d : Nat) (o : UInt32) : Res Nat := default_u m src d o 4294967295 32
/-- strnum.c lines 292-297: `strnum_ulong`. -/
def strnum_ulong (m : Mem) (src : View) (d : Nat) (o : UInt32) : Res Nat :=
  default_u m src d o 18446744073709551615 64
/-- strnum.c lines 299-304: `strnum_ullong`. -/
def strnum_ullong (m : Mem) (src : View) (d : Nat) (o : UInt32) : Res Nat :=
  default_u m src d o 18446744073709551615 64

/-! ### Floating point -/

/-- The operations of a floating type that strnum.c uses: conversion from `unsigned long long`, `0.0`, `+=`, `*=`,
`powfunc(10, n)`, unary `-`, `INFINITY`, `NAN`, `x == INFINITY` and `x != x`. -/
structure FloatOps (F : Type) where
  zero : F
  ofULL : Nat → F
  add : F → F → F
  mul : F → F → F
  pow10 : Int → F
  neg : F → F
  inf : F
  nan : F
  isPosInf : F → Bool
  isNan : F → Bool

/-- Values of `special_value`: 0.0, INFINITY or NAN (strnum.c line 27). -/
inductive Special where | none | inf | nan
  deriving DecidableEq, Repr

/-- strnum.c lines 22-32: `float_components_t`. -/
structure FC where
  options : UInt32
  num : View
  is_neg : Bool
  special : Special
  integral : View
  fractional : View
  got_exponent : Bool
  exp_value : Int
  deriving DecidableEq, Repr

/-- String literals `"infinty"`, `"inf"`, `"nan"` and `"E"` (strnum.c lines 517, 522, 527, 508). -/
def litInfinty : Addr := litBase + 13
def litInf : Addr := litBase + 21
def litNan : Addr := litBase + 25
def litE : Addr := litBase + 29

/-- strnum.c lines 900-904: loop of `split_digits`. Returns `(*src, result.size)`. -/
def split_digits_loop (m : Mem) : Nat → View → Int → Res (View × Int)
  | 0, _, _ => .fuel
  | k + 1, src, n =>
    if src.size ≠ 0 then do
      let b ← load m src.data
      if isDigit b then do
        let (_, src) ← pop_first_nn m src
        let n ← chk (n + 1)
        split_digits_loop m k src n
      else .ok (src, n)
    else .ok (src, n)

/-- strnum.c lines 893-907: `split_digits`. Returns `(result, *src)`. -/
def split_digits (m : Mem) (src : View) : Res (View × View) := do
  if ← first_is m isDigit src then do
    let (s, n) ← split_digits_loop m (src.size.toNat + 1) src 0
    .ok (⟨src.data, n⟩, s)
  else .ok (.invalid, src)

/-- strnum.c lines 514-533: `consume_float_special`. Returns `(value, fc->num)`. -/
def consume_float_special (m : Mem) (num : View) : Res (Special × View) := do
  if ← strview_starts_with_nocase_cstr m num litInfinty then do
    let n ← strview_sub num 8 INT_MAX
    .ok (.inf, n)
  else if ← strview_starts_with_nocase_cstr m num litInf then do
    let n ← strview_sub num 3 INT_MAX
    .ok (.inf, n)
  else if ← strview_starts_with_nocase_cstr m num litNan then do
    let n ← strview_sub num 3 INT_MAX
    .ok (.nan, n)
  else .ok (.none, num)

/-- strnum.c lines 535-547: `consume_exponent`. Returns `(err, *fc)`. -/
def consume_exponent (m : Mem) (fc : FC) : Res (Int × FC) := do
  let exp_view ← strview_sub fc.num 1 INT_MAX
  let (err, ev, xv) ← strnum_consume_int m (some fc.exp_value) (some exp_view) (STRNUM_NOSPACE ||| STRNUM_NOBX)
  match ev, xv with
  | some ev, some xv =>
    if err = 0 then .ok (0, { fc with exp_value := ev, got_exponent := true, num := xv })
    else if err = EINVAL then .ok (0, { fc with exp_value := ev, got_exponent := false })
    else .ok (err, { fc with exp_value := ev, got_exponent := false })
  | _, _ => .ub .badRead

/-- strnum.c lines 497-503: the integral and fractional digits. -/
def float_digits (m : Mem) (fc : FC) : Res FC := do
  let (i, num) ← split_digits m fc.num
  if ← first_is m (· == 46) num then do
    let (_, num) ← pop_first_nn m num
    let (f, num) ← split_digits m num
    .ok { fc with integral := i, fractional := f, num := num }
  else .ok { fc with integral := i, num := num }

/-- strnum.c lines 508-509: the optional exponent. -/
def float_exponent (m : Mem) (fc : FC) : Res (Int × FC) := do
  if !flag fc.options STRNUM_NOEXP then do
    if ← strview_starts_with_nocase_cstr m fc.num litE then consume_exponent m fc
    else .ok (0, fc)
  else .ok (0, fc)

/-- strnum.c lines 473-512: `process_float_components`. Returns `(err, *fc)`. -/
def process_float_components (m : Mem) (fc : FC) : Res (Int × FC) := do
  let fc := { fc with integral := .invalid, fractional := .invalid }
  if strview_is_valid fc.num then do
    let num ← consume_space m fc.num fc.options
    let (is_neg, num) ←
      if !flag fc.options STRNUM_NOSIGN then consume_sign m num else .ok (fc.is_neg, num)
    let (sp, num) ← consume_float_special m num
    let fc := { fc with num := num, is_neg := is_neg, special := sp }
    if sp = .none then do
      let fc ← float_digits m fc
      if !strview_is_valid fc.integral ∧ !strview_is_valid fc.fractional then .ok (EINVAL, fc)
      else float_exponent m fc
    else .ok (0, fc)
  else .ok (EINVAL, fc)

/-- strnum.c lines 554-559: the loop over the integral digits in `make_float_type`. Returns `result`. -/
def integral_loop {F : Type} (ops : FloatOps F) (m : Mem) : Nat → View → F → Res F
  | 0, _, _ => .fuel
  | k + 1, digits, result =>
    if digits.size ≠ 0 then do
      let (_, ull, digits) ← consume_decimal_digits m digits
      let result := ops.add result (ops.ofULL ull)
      let result := ops.mul result (ops.pow10 digits.size)
      integral_loop ops m k digits result
    else .ok result

/-- strnum.c lines 561-569: the loop over the fractional digits in `make_float_type`. -/
def fractional_loop {F : Type} (ops : FloatOps F) (m : Mem) : Nat → View → Int → F → Res F
  | 0, _, _, _ => .fuel
  | k + 1, digits, power, result =>
    if digits.size ≠ 0 then do
      let power ← chk (power - digits.size)
      let (_, ull, digits) ← consume_decimal_digits m digits
      let power ← chk (power + digits.size)
      let part := ops.mul (ops.ofULL ull) (ops.pow10 power)
      fractional_loop ops m k digits power (ops.add result part)
    else .ok result

/-- strnum.c lines 549-571: `make_float_type`, the body of `make_float`, `make_double` and `make_ldouble`
(lines 573-586). -/
def make_float_type {F : Type} (ops : FloatOps F) (m : Mem) (integral_digits fractional_digits : View)
    (exp_value : Int) : Res F := do
  let result ← integral_loop ops m (integral_digits.size.toNat + 1) integral_digits ops.zero
  let frac ← strview_trim_end_cstr m fractional_digits litZero
  let result ← fractional_loop ops m (frac.size.toNat + 1) frac 0 result
  .ok (ops.mul result (ops.pow10 exp_value))

/-- strnum.c lines 330-350, 375-396 and 421-442: the common second half of the three float conversions, given the
outcome `(err, fc)` of the first half. `*src = fc.num` is executed whenever there is no error, also if `src` is NULL. -/
def finish_float {F : Type} (ops : FloatOps F) (m : Mem) (dst : Option F) (src : Option View) (err : Int)
    (fc : FC) : Res (Int × Option F × Option View) := do
  if err = 0 then do
    let value ← match fc.special with
      | .inf => .ok ops.inf
      | .nan => .ok ops.nan
      | .none => make_float_type ops m fc.integral fc.fractional fc.exp_value
    if fc.special = .none ∧ ops.isPosInf value then .ok (ERANGE, dst, src)
    else
      let out := if ops.isNan value then ops.nan else if fc.is_neg then ops.neg value else value
      match src with
      | none => .ub .badWrite
      | some _ => .ok (0, dst.map fun _ => out, some fc.num)
  else .ok (err, dst, src)

/-- strnum.c lines 311-321, 357-367, 403-413: the initial components. -/
def fcInit (options : UInt32) : FC :=
  { options := options, num := .invalid, is_neg := false, special := .none, integral := .invalid,
    fractional := .invalid, got_exponent := false, exp_value := 0 }

/-- strnum.c lines 307-351: `strnum_consume_float`. -/
def strnum_consume_float {F : Type} (ops : FloatOps F) (m : Mem) (dst : Option F) (src : Option View)
    (options : UInt32) : Res (Int × Option F × Option View) :=
  match src with
  | none => finish_float ops m dst none 0 (fcInit options)
  | some s => do
    let (err, fc) ← process_float_components m { fcInit options with num := s }
    finish_float ops m dst src err fc

/-- strnum.c lines 353-397: `strnum_consume_double`. -/
def strnum_consume_double {F : Type} (ops : FloatOps F) (m : Mem) (dst : Option F) (src : Option View)
    (options : UInt32) : Res (Int × Option F × Option View) := do
  let (err, fc) ← process_float_components m { fcInit options with num := srcView src }
  finish_float ops m dst src err fc

/-- strnum.c lines 399-443: `strnum_consume_ldouble`. -/
def strnum_consume_ldouble {F : Type} (ops : FloatOps F) (m : Mem) (dst : Option F) (src : Option View)
    (options : UInt32) : Res (Int × Option F × Option View) := do
  let (err, fc) ← process_float_components m { fcInit options with num := srcView src }
  finish_float ops m dst src err fc

/-- The floating destination types of `strnum_value`. -/
inductive FTy where | float | double | ldouble

/-- strnum.h lines 92-106: `strnum_value` for a floating destination. -/
def strnum_value_f {F : Type} (ops : FloatOps F) : FTy → Mem → Option F → Option View → UInt32 →
    Res (Int × Option F × Option View)
  | .float => strnum_consume_float ops
  | .double => strnum_consume_double ops
  | .ldouble => strnum_consume_ldouble ops

/-- strnum.c lines 445-464: `strnum_float`, `strnum_double`, `strnum_ldouble`. The local `v` starts uninitialised,
which is modelled by an arbitrary initial value `v0`. -/
def strnum_default_f {F : Type} (ops : FloatOps F) (t : FTy) (m : Mem) (src : View) (dfault v0 : F)
    (options : UInt32) : Res F := do
  let (err, v, _) ← strnum_value_f ops t m (some v0) (some src) options
  if err ≠ 0 then .ok dfault
  else match v with
    | some v => .ok v
    | none => .ub .badRead

end CStr
