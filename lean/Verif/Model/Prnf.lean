import Verif.C.State
import Verif.C.Float32
/-
  test/prnf.c: the text formatter behind `strbuf_prnf`, with the configuration of test/prnf_conf.h
  (`PRNF_SUPPORT_LONG_LONG`, `PRNF_SUPPORT_FLOAT`, `PRNF_COL_ALIGNMENT`; no extensions, no AVR, `PRNF_ASSERT` and
  `PRNF_WARN` empty) on a target with 32-bit `int` and 64-bit `long`, `long long`, `size_t` and `ptrdiff_t`.
  Signed overflow is undefined behaviour here. Local arrays are lists; a write past their end is `badWrite`.
-/
namespace CStr

/-- The result of an `int` computation: undefined if the exact value does not fit. -/
def ckInt (x : Int) : Res Int := if INT_MIN ≤ x ∧ x ≤ INT_MAX then .ok x else .ub .signedOverflow

/-- Value of a 64-bit pattern as a two's complement `long long`. -/
def toInt64 (n : Nat) : Int := if n < 2 ^ 63 then n else (n : Int) - 2 ^ 64

/-- One variable argument as it is passed: an `int` or `unsigned` (and everything promoted to it), an 8 byte integer, a
`double`, or a pointer to characters. Simplification: integers of one size are interchangeable whatever their
signedness and rank, as in the calling conventions of 64-bit targets (C11 7.16.1.1 is narrower). -/
inductive VArg where
  | int (v : Int)
  | llong (v : Int)
  | dbl (x : Flt)
  | ptr (a : Addr)
  deriving DecidableEq

/-- prnf.c line 77: the `TYPE_x` constants in use (no AVR, no extensions). -/
inductive PTy where
  | none | bin | int | uint | hex | str | char | float | eng
  deriving DecidableEq, Repr

/-- prnf.c lines 79-91: `struct placeholder_struct`. -/
structure Placeholder where
  flag_minus : Bool := false
  flag_zero : Bool := false
  sign_pad : Byte := 0
  prec_specified : Bool := false
  width : Int := 0
  prec : Int := 0
  prec_is_dynamic : Bool := false
  width_is_dynamic : Bool := false
  size_modifier : Nat := 4
  type : PTy := .none
  deriving DecidableEq, Repr

/-- The part of the world that a character handler acts on: `mem` is the memory in it, `setMem` replaces the memory, and
`call` is the handler `dst_fptr` together with its first argument (`none` = NULL). -/
structure Sink (σ : Type) where
  mem : σ → Mem
  setMem : σ → Mem → σ
  call : Option (σ → Byte → Res σ)

/-- prnf.c lines 93-103: `struct out_struct`, with the world `w` in place of the handler and its argument. -/
structure OutInfo (σ : Type) where
  col : Int := 0
  char_cnt : Int := 0
  size_limit : Int := 0
  buf : Addr := 0
  w : σ

section
variable {σ : Type} (K : Sink σ)

/-- prnf.c lines 1170-1174: the character goes to the buffer, to the handler, or nowhere. -/
def out_dest (o : OutInfo σ) (x : Byte) : Res (OutInfo σ) :=
  let toHandler : Res (OutInfo σ) :=
    match K.call with
    | some f => do let w ← f o.w x; .ok { o with w := w }
    | none => .ok o
  if o.buf ≠ 0 then do
    let n ← ckInt (o.char_cnt + 1)
    if n < o.size_limit then
      let m ← store (K.mem o.w) o.buf x
      .ok { o with w := K.setMem o.w m, buf := o.buf + 1 }
    else toHandler
  else toHandler

/-- prnf.c lines 1176-1181: column after a character (`char` is signed). -/
def out_col (o : OutInfo σ) (x : Byte) : Res (OutInfo σ) :=
  if x = 13 ∨ x = 10 then .ok { o with col := 0 }
  else if charToInt x > 31 then do
    let c ← ckInt (o.col + 1)
    .ok { o with col := c }
  else .ok o

/-- prnf.c lines 1168-1184: `out_char`. -/
def out_char (o : OutInfo σ) (x : Byte) : Res (OutInfo σ) := do
  let o ← out_dest K o x
  let o ← out_col o x
  let n ← ckInt (o.char_cnt + 1)
  .ok { o with char_cnt := n }

/-- prnf.c lines 1187-1191: `out_terminate`. -/
def out_terminate (o : OutInfo σ) : Res (OutInfo σ) :=
  if o.buf ≠ 0 ∧ o.size_limit ≠ 0 then do
    let m ← store (K.mem o.w) o.buf 0
    .ok { o with w := K.setMem o.w m }
  else .ok o

/-- `while(n--) out_char(x);` (prnf.c lines 680-681, 1002-1003, 1023-1024). A negative `n` ends in signed overflow. The
first argument bounds the number of rounds. -/
def out_repeat : Nat → OutInfo σ → Int → Byte → Res (OutInfo σ)
  | 0, _, _, _ => .fuel
  | k + 1, o, n, x =>
    if n = 0 then .ok o
    else do
      let n ← ckInt (n - 1)
      let o ← out_char K o x
      out_repeat k o n x

/-- Output of a list of characters in order: the loops over local text (prnf.c lines 682-686 and 869-874). -/
def out_list : OutInfo σ → List Byte → Res (OutInfo σ)
  | o, [] => .ok o
  | o, x :: l => do
    let o ← out_char K o x
    out_list o l

end

/-- More rounds than any loop over an `int` can make. -/
def loopBound : Nat := 2 ^ 33

/-- More rounds than any loop over a string in memory can make. -/
def strBound : Nat := 2 ^ 65

/-- prnf.c lines 1038-1041: `is_type_unsigned`. -/
def is_type_unsigned (t : PTy) : Bool := t = .uint || t = .hex || t = .bin

/-- prnf.c lines 1044-1047: `is_type_int`. -/
def is_type_int (t : PTy) : Bool := t = .uint || t = .int || t = .hex || t = .bin

/-- prnf.c lines 1050-1053: `is_type_numeric`. -/
def is_type_numeric (t : PTy) : Bool :=
  t = .bin || t = .int || t = .uint || t = .hex || t = .float || t = .eng

/-- prnf.c lines 1028-1035: `is_centered_string`. -/
def is_centered_string (p : Placeholder) : Bool :=
  p.type = .str && !p.prec_is_dynamic && p.width ≠ 0 && p.prec_specified && p.prec = 0

/-- prnf.c lines 1060-1071: `ascii_hex_digit`. -/
def ascii_hex_digit (x : Nat) : Byte :=
  let x := x % 16
  if x < 10 then UInt8.ofNat (48 + x) else UInt8.ofNat (65 + (x - 10))

/-- prnf.c lines 951-965: `prnf_strlen`, `retval` so far in the last argument. -/
def prnf_strlen_loop (m : Mem) : Nat → Addr → Int → Res Int
  | 0, _, _ => .fuel
  | k + 1, a, n => do
    let c ← load m a
    if c = 0 then .ok n
    else
      let n ← ckInt (n + 1)
      prnf_strlen_loop m k (a + 1) n

/-- prnf.c lines 951-965: `prnf_strlen`. -/
def prnf_strlen (m : Mem) (str : Addr) : Res Int :=
  if str ≠ 0 then prnf_strlen_loop m strBound str 0 else .ok 0

/-- prnf.c lines 967-981: `prnf_atoi`, returning the value and the advanced pointer. -/
def prnf_atoi (m : Mem) : Nat → Addr → Int → Res (Int × Addr)
  | 0, _, _ => .fuel
  | k + 1, a, v => do
    let c ← load m a
    if isDigit c then
      let v ← ckInt (v * 10)
      let v ← ckInt (v + (c &&& 15).toNat)
      prnf_atoi m k (a + 1) v
    else .ok (v, a)

section
variable {σ : Type} (K : Sink σ)

/-- prnf.c lines 984-1004: `prepad`. -/
def prepad (o : OutInfo σ) (p : Placeholder) (source_len : Int) : Res (OutInfo σ) := do
  let pad_len ←
    if is_centered_string p && source_len < p.width then do
      let d ← ckInt (p.width - source_len)
      .ok (d.tdiv 2)
    else if !p.flag_minus && p.width > source_len then ckInt (p.width - source_len)
    else .ok 0
  let pad_char : Byte :=
    if is_type_numeric p.type && p.flag_zero && !(p.prec_specified && is_type_int p.type) then 48 else 32
  out_repeat K loopBound o pad_len pad_char

/-- prnf.c lines 1007-1025: `postpad`. -/
def postpad (o : OutInfo σ) (p : Placeholder) (source_len : Int) : Res (OutInfo σ) := do
  let pad_len ←
    if is_centered_string p && source_len < p.width then do
      let d ← ckInt (p.width - source_len)
      let d ← if d % 2 ≠ 0 then ckInt (d + 1) else .ok d
      .ok (d / 2)
    else if p.flag_minus && p.width > source_len then ckInt (p.width - source_len)
    else .ok 0
  out_repeat K loopBound o pad_len 32

/-- prnf.c lines 1136-1142 and 1146-1151: append the digits of `il`, least significant first, while `il > stop`. -/
def asc_loop (stop : Nat) : Nat → Nat → List Byte → Nat × List Byte
  | 0, il, l => (il, l)
  | k + 1, il, l =>
    if il > stop then asc_loop stop k (il / 10) (l ++ [UInt8.ofNat (48 + il % 10)]) else (il, l)

/-- prnf.c line 45: `DEC_BUF_SIZE`. -/
def DEC_BUF_SIZE : Nat := 20

/-- prnf.c lines 1131-1161: `ulong2asc_rev`: the digits written to the buffer, whose size at all call sites is
`DEC_BUF_SIZE`. The loops make at most one round per bit of a 64-bit number. -/
def ulong2asc_rev (il : Nat) : Res (List Byte) :=
  let (i, l) := asc_loop 4294967295 64 il []
  let (_, l) := asc_loop 0 64 i l
  let l := if l.length = 0 then [48] else l
  if l.length ≤ DEC_BUF_SIZE then .ok l else .ub .badWrite

/-- prnf.c lines 641-693: `print_dec`. `value` is the 64-bit pattern of the argument. -/
def print_dec (o : OutInfo σ) (p : Placeholder) (value : Nat) : Res (OutInfo σ) := do
  let (uvalue, sign_char) ←
    if is_type_unsigned p.type then .ok (value, (0 : Byte))
    else if toInt64 value < 0 then
      if toInt64 value = -(2 ^ 63) then .ub .signedOverflow
      else .ok ((-toInt64 value).toNat, 45)
    else .ok (value, p.sign_pad)
  let txt ← ulong2asc_rev uvalue
  let number_len : Int := txt.length
  let zero_pad_len := if p.prec_specified && p.prec > number_len then p.prec - number_len else 0
  let number_len ← ckInt (number_len + zero_pad_len)
  let number_len ← if sign_char ≠ 0 then ckInt (number_len + 1) else .ok number_len
  let o ← prepad K o p number_len
  let o ← if sign_char ≠ 0 then out_char K o sign_char else .ok o
  let o ← out_repeat K loopBound o zero_pad_len 48
  let o ← out_list K o txt.reverse
  postpad K o p number_len

/-- prnf.c lines 710-714: the loop of `print_bin`; the value of `bit` is `2^(k-1)`, zero for `k = 0`. -/
def print_bits (uvalue : Nat) : Nat → OutInfo σ → Res (OutInfo σ)
  | 0, o => .ok o
  | k + 1, o => do
    let o ← out_char K o (if uvalue &&& 2 ^ k ≠ 0 then 49 else 48)
    print_bits uvalue k o

/-- prnf.c lines 695-719: `print_bin`. -/
def print_bin (o : OutInfo σ) (p : Placeholder) (uvalue : Nat) : Res (OutInfo σ) := do
  let number_len : Int := if p.prec_specified then p.prec else p.size_modifier * 8
  let o ← prepad K o p number_len
  let sh ← ckInt (number_len - 1)
  if 0 ≤ sh ∧ sh < 64 then
    let o ← print_bits K uvalue (sh.toNat + 1) o
    postpad K o p number_len
  else .ub .badShift

/-- prnf.c lines 736-740: the loop of `print_hex`. `offset` is an 8-bit unsigned number. The first argument bounds the
number of rounds. -/
def print_hex_loop (uvalue : Nat) : Nat → OutInfo σ → Nat → Res (OutInfo σ)
  | 0, _, _ => .fuel
  | k + 1, o, offset => do
    let offset := (offset + 252) % 256
    if offset < 64 then
      let o ← out_char K o (ascii_hex_digit ((uvalue >>> offset) % 256))
      if offset = 0 then .ok o else print_hex_loop uvalue k o offset
    else .ub .badShift

/-- prnf.c lines 721-745: `print_hex`. -/
def print_hex (o : OutInfo σ) (p : Placeholder) (uvalue : Nat) : Res (OutInfo σ) := do
  let number_len : Int := if p.prec_specified then p.prec else p.size_modifier * 2
  let o ← prepad K o p number_len
  let offset ← ckInt (number_len * 4)
  let o ← print_hex_loop K uvalue loopBound o (offset % 256).toNat
  postpad K o p number_len

/-- prnf.c lines 912-916: the loop of `print_str`. -/
def print_str_loop : Nat → OutInfo σ → Int → Addr → Res (OutInfo σ)
  | 0, _, _, _ => .fuel
  | k + 1, o, cnt, str =>
    if cnt = 0 then .ok o
    else do
      let cnt ← ckInt (cnt - 1)
      let c ← load (K.mem o.w) str
      let o ← out_char K o c
      print_str_loop k o cnt (str + 1)

/-- prnf.c lines 899-919: `print_str`. -/
def print_str (o : OutInfo σ) (p : Placeholder) (str : Addr) : Res (OutInfo σ) := do
  let source_len ← prnf_strlen (K.mem o.w) str
  let source_len :=
    if p.prec_specified && p.prec < source_len && !is_centered_string p then p.prec else source_len
  let o ← prepad K o p source_len
  let o ← print_str_loop K loopBound o source_len str
  postpad K o p source_len

/-- prnf.c lines 50, 1097-1115: `get_prec`, with `FLOAT_PREC_MAX` 19, `PRNF_ENG_PREC_DEFAULT` 0 and
`PRNF_FLOAT_PREC_DEFAULT` 3. The precision is converted to an 8-bit unsigned number. -/
def get_prec (p : Placeholder) : Nat :=
  let prec := if p.prec_specified then (p.prec % 256).toNat else if p.type = .eng then 0 else 3
  if prec > 19 then 19 else prec

/-- prnf.c line 181: `pow10_tbl`, the nearest `float` to each power of ten (20 entries, see `print_float`). -/
def pow10_tbl (i : Nat) : Flt := round32 ((10 ^ i : Nat) : Rat)

/-- `value * pow10_tbl[prec]`. -/
def mulPow10 (value : Flt) (prec : Nat) : Flt :=
  match pow10_tbl prec with
  | .fin y => value.mulPos y
  | _ => .nan

/-- float.h: `FLT_MAX`. -/
def FLT_MAX : Rat := pow2 128 - pow2 104

/-- prnf.c lines 761-788: `determine_float_msg`, NULL as `none`. `(float)ULLONG_MAX` is `2^64`. -/
def determine_float_msg (p : Placeholder) (value : Flt) : Option (List Byte) :=
  let value := if value.lt (.fin 0) then value.neg else value
  if value.isNan then some [78, 65, 78]
  else if (Flt.fin FLT_MAX).lt value then some [73, 78, 70]
  else if (Flt.fin (pow2 64)).le (mulPow10 value (get_prec p)) then some [79, 86, 69, 82]
  else none

/-- prnf.c lines 880-896: `determine_sign_char_of_float`. -/
def determine_sign_char_of_float (p : Placeholder) (value : Flt) : Byte :=
  if value.lt (.fin 0) then 45 else if !value.isNan then p.sign_pad else 0

/-- prnf.c lines 1117-1127: `round_float_to_ulong`. The conversion of a number outside the range of the integer type
is undefined. The integer part of a `float` below `2^64` is itself a `float`, so the conversion back is exact. -/
def round_float_to_ulong (x : Flt) : Res Nat :=
  match x with
  | .fin q =>
    if -1 < q ∧ q < pow2 64 then
      let n := q.floor.toNat
      if (Flt.fin (1 / 2)).le (x.subFin (n : Rat)) then .ok ((n + 1) % 2 ^ 64) else .ok n
    else .ub .badConversion
  | _ => .ub .badConversion

/-- prnf.c lines 833-839: the digits with the decimal point before the digit where `radix_pos` reaches zero; `radix_pos`
is an 8-bit unsigned number. -/
def out_radix : OutInfo σ → Nat → List Byte → Res (OutInfo σ)
  | o, _, [] => .ok o
  | o, r, x :: l => do
    let o ← if r = 0 then out_char K o 46 else .ok o
    let o ← out_char K o x
    out_radix o ((r + 255) % 256) l

/-- prnf.c lines 790-852: `print_float_normal`. -/
def print_float_normal (o : OutInfo σ) (p : Placeholder) (value : Flt) (postpend : Byte) : Res (OutInfo σ) := do
  let sign_char := determine_sign_char_of_float p value
  let prec := get_prec p
  let value := if value.lt (.fin 0) then value.neg else value
  let value := mulPow10 value prec
  let uvalue ← round_float_to_ulong value
  let txt ← ulong2asc_rev uvalue
  let txt := txt ++ List.replicate (prec + 1 - txt.length) 48
  if txt.length ≤ DEC_BUF_SIZE then
    let number_len := txt.length
    let (number_len, radix_pos) := if prec ≠ 0 then (number_len + 1, number_len - prec) else (number_len, 255)
    let number_len := if sign_char ≠ 0 then number_len + 1 else number_len
    let number_len := if postpend ≠ 0 ∧ uvalue ≠ 0 then number_len + 1 else number_len
    let o ← prepad K o p number_len
    let o ← if sign_char ≠ 0 then out_char K o sign_char else .ok o
    let o ← out_radix K o radix_pos txt.reverse
    let o ← if postpend ≠ 0 ∧ uvalue ≠ 0 then out_char K o postpend else .ok o
    postpad K o p number_len
  else .ub .badWrite

/-- prnf.c lines 856-877: `print_float_special`. -/
def print_float_special (o : OutInfo σ) (p : Placeholder) (out_msg : List Byte) (value : Flt) : Res (OutInfo σ) := do
  let sign_char := determine_sign_char_of_float p value
  let ph := { p with type := .str, prec := 1 }
  let msg_len : Int := if sign_char ≠ 0 then out_msg.length + 1 else out_msg.length
  let o ← prepad K o ph msg_len
  let o ← if sign_char ≠ 0 then out_char K o sign_char else .ok o
  let o ← out_list K o out_msg
  postpad K o ph msg_len

/-- prnf.c lines 749-758: `print_float`. The table of powers has 20 entries (line 181): reading beyond it is undefined. The check
is made here, also for values for which the table is not read. -/
def print_float (o : OutInfo σ) (p : Placeholder) (value : Flt) (postpend : Byte) : Res (OutInfo σ) :=
  if get_prec p ≥ 20 then .ub .badRead
  else
    match determine_float_msg p value with
    | some out_msg => print_float_special K o p out_msg value
    | none => print_float_normal K o p value postpend

/-- prnf.c lines 1080-1084: divide by 1000 while the magnitude is at least 1000 and `i < 16`. -/
def eng_down : Nat → Flt → Nat → Flt × Nat
  | 0, v, i => (v, i)
  | k + 1, v, i =>
    if !((Flt.fin (-1000)).lt v && v.lt (.fin 1000)) && i < 16 then eng_down k (v.divPos 1000) (i + 1) else (v, i)

/-- prnf.c lines 1086-1090: multiply by 1000 while the magnitude is below 1 and `i > 0`. -/
def eng_up : Nat → Flt → Nat → Flt × Nat
  | 0, v, i => (v, i)
  | k + 1, v, i =>
    if ((Flt.fin (-1)).lt v && v.lt (.fin 1)) && i ≠ 0 then eng_up k (v.mulPos 1000) (i - 1) else (v, i)

/-- prnf.c line 1078: the table of `get_eng`: `y z a f p n u m`, none, `k M G T P E Z Y`. -/
def engTbl : List Byte := [121, 122, 97, 102, 112, 110, 117, 109, 0, 107, 77, 71, 84, 80, 69, 90, 89]

/-- prnf.c lines 1074-1095: `get_eng`. `i` starts at 8 and stays between 0 and 16, so each loop makes at most 16 rounds
and the table is read inside its bounds. -/
def get_eng (value : Flt) : Res (Flt × Byte) :=
  let (v, i) := eng_down 16 value 8
  let (v, i) := eng_up 16 v i
  match engTbl[i]? with
  | some c => .ok (v, c)
  | none => .ub .badRead

/-- The member of `union varg_union` (prnf.c lines 111-124) that READ_VARG sets: an integer as 64-bit pattern. -/
inductive Varg where
  | unset
  | bits (n : Nat)
  | f (x : Flt)
  | c (x : Byte)
  | str (a : Addr)

/-- `va_arg` for an `int` or `unsigned`: the 32-bit pattern. -/
def va_int : List VArg → Res (Nat × List VArg)
  | .int v :: va => .ok ((v % 2 ^ 32).toNat, va)
  | _ => .ub .badArg

/-- `va_arg` for an 8 byte integer: the 64-bit pattern. -/
def va_llong : List VArg → Res (Nat × List VArg)
  | .llong v :: va => .ok ((v % 2 ^ 64).toNat, va)
  | _ => .ub .badArg

/-- prnf.c lines 350-361: dynamic width and precision. -/
def read_dynamic (p : Placeholder) (va : List VArg) : Res (Placeholder × List VArg) := do
  let (p, va) ←
    if p.width_is_dynamic then do
      let (w, va) ← va_int va
      if toInt32 w < 0 then
        let w ← ckInt (-toInt32 w)
        .ok ({ p with width := w, flag_minus := true }, va)
      else .ok ({ p with width := toInt32 w }, va)
    else .ok (p, va)
  if p.prec_is_dynamic then
    let (n, va) ← va_int va
    .ok ({ p with prec := toInt32 n }, va)
  else .ok (p, va)

/-- prnf.c lines 347-396: `READ_VARG`. `sizeof(long)` is `sizeof(prnf_ulong_t)`, so lines 367-374 are never reached. -/
def read_varg (p : Placeholder) (va : List VArg) : Res (Placeholder × Varg × List VArg) := do
  let (p, va) ← read_dynamic p va
  match p.type with
  | .float | .eng =>
    match va with
    | .dbl x :: va => .ok (p, .f x.toFloat, va)
    | _ => .ub .badArg
  | .char => do
    let (n, va) ← va_int va
    .ok (p, .c (UInt8.ofNat (n % 256)), va)
  | .str =>
    match va with
    | .ptr a :: va => .ok (p, .str a, va)
    | _ => .ub .badArg
  | .none => .ok (p, .unset, va)
  | .int =>
    if p.size_modifier = 8 then do
      let (n, va) ← va_llong va
      .ok (p, .bits n, va)
    else do
      let (n, va) ← va_int va
      .ok (p, .bits ((toInt32 n) % 2 ^ 64).toNat, va)
  | .uint | .hex | .bin =>
    if p.size_modifier = 8 then do
      let (n, va) ← va_llong va
      .ok (p, .bits n, va)
    else do
      let (n, va) ← va_int va
      .ok (p, .bits n, va)

/-- prnf.c lines 596-638: `print_placeholder`. `READ_VARG` has set the member that belongs to the type; the last case does
not occur. -/
def print_placeholder (o : OutInfo σ) (varg : Varg) (p : Placeholder) : Res (OutInfo σ) :=
  match p.type, varg with
  | .int, .bits n => print_dec K o p n
  | .uint, .bits n => print_dec K o p n
  | .bin, .bits n => print_bin K o p n
  | .hex, .bits n => print_hex K o p n
  | .float, .f x => print_float K o p x 0
  | .eng, .f x => do
    let (v, c) ← get_eng x
    print_float K o p v c
  | .char, .c x => out_char K o x
  | .str, .str a => print_str K o p a
  | .none, _ => .ok o
  | _, _ => .ub .badArg

end

/-- prnf.c lines 448-464: the flags. -/
def parse_flags (m : Mem) : Nat → Addr → Placeholder → Res (Placeholder × Addr)
  | 0, _, _ => .fuel
  | k + 1, a, p => do
    let c ← load m a
    if c = 48 then parse_flags m k (a + 1) { p with flag_zero := true }
    else if c = 45 then parse_flags m k (a + 1) { p with flag_minus := true }
    else if c = 43 then parse_flags m k (a + 1) { p with sign_pad := 43 }
    else if c = 32 then parse_flags m k (a + 1) { p with sign_pad := 32 }
    else if c = 35 then parse_flags m k (a + 1) p
    else if c = 39 then parse_flags m k (a + 1) p
    else .ok (p, a)

/-- prnf.c lines 466-473: the width. -/
def parse_width (m : Mem) (a : Addr) (p : Placeholder) : Res (Placeholder × Addr) := do
  let c ← load m a
  if c = 42 then .ok ({ p with width_is_dynamic := true }, a + 1)
  else
    let (w, a) ← prnf_atoi m strBound a 0
    .ok ({ p with width := w }, a)

/-- prnf.c lines 475-487: the precision. -/
def parse_prec (m : Mem) (a : Addr) (p : Placeholder) : Res (Placeholder × Addr) := do
  let c ← load m a
  if c = 46 then
    let p := { p with prec_specified := true }
    let c ← load m (a + 1)
    if c = 42 then .ok ({ p with prec_is_dynamic := true }, a + 2)
    else
      let (n, a) ← prnf_atoi m strBound (a + 1) 0
      .ok ({ p with prec := n }, a)
  else .ok (p, a)

/-- prnf.c lines 489-533: the size modifier. `L` and `j` only reach an empty assertion. -/
def parse_size (m : Mem) (a : Addr) (p : Placeholder) : Res (Placeholder × Addr) := do
  let c ← load m a
  if c = 104 then
    let c ← load m (a + 1)
    if c = 104 then .ok ({ p with size_modifier := 1 }, a + 2) else .ok ({ p with size_modifier := 2 }, a + 1)
  else if c = 108 then
    let c ← load m (a + 1)
    if c = 108 then .ok ({ p with size_modifier := 8 }, a + 2) else .ok ({ p with size_modifier := 8 }, a + 1)
  else if c = 116 then .ok ({ p with size_modifier := 8 }, a + 1)
  else if c = 122 then .ok ({ p with size_modifier := 8 }, a + 1)
  else .ok (p, a)

/-- prnf.c lines 535-590: the type of a letter, `none` for a letter that is not supported. -/
def typeOfLetter (c : Byte) : PTy :=
  if c = 100 ∨ c = 105 then .int
  else if c = 111 then .bin
  else if c = 117 then .uint
  else if c = 120 ∨ c = 88 then .hex
  else if c = 102 ∨ c = 70 then .float
  else if c = 101 ∨ c = 69 then .eng
  else if c = 83 ∨ c = 115 then .str
  else if c = 99 then .char
  else .none

/-- prnf.c lines 443-594: `parse_placeholder`. -/
def parse_placeholder (m : Mem) (fmtstr : Addr) : Res (Placeholder × Addr) := do
  let (p, a) ← parse_flags m strBound fmtstr {}
  let (p, a) ← parse_width m a p
  let (p, a) ← parse_prec m a p
  let (p, a) ← parse_size m a p
  let c ← load m a
  .ok ({ p with type := typeOfLetter c }, a + 1)

section
variable {σ : Type} (K : Sink σ)

/-- prnf.c lines 942-943: `while(out_info->col < col) out_char(out_info, pad_char);` -/
def out_to_col : Nat → OutInfo σ → Int → Byte → Res (OutInfo σ)
  | 0, _, _, _ => .fuel
  | k + 1, o, col, x =>
    if o.col < col then do
      let o ← out_char K o x
      out_to_col k o col x
    else .ok o

/-- prnf.c lines 925-948: `print_col_alignment`. -/
def print_col_alignment (o : OutInfo σ) (fmtstr : Addr) : Res (OutInfo σ × Addr) := do
  let c ← load (K.mem o.w) fmtstr
  let got_col := isDigit c
  let (col, a) ← prnf_atoi (K.mem o.w) strBound fmtstr 0
  let pad_char ← load (K.mem o.w) a
  let pad_char := if charToInt pad_char < 32 then 0 else pad_char
  if !got_col then do
    let o ← out_char K o 11
    .ok (o, a)
  else if pad_char ≠ 0 then do
    let o ← out_to_col K loopBound o col pad_char
    .ok (o, a + 1)
  else .ok (o, a)

/-- prnf.c lines 403-434: the loop of `core_prnf`. The first argument bounds the number of rounds. -/
def core_loop : Nat → OutInfo σ → Addr → List VArg → Res (OutInfo σ)
  | 0, _, _, _ => .fuel
  | k + 1, o, fmtstr, va => do
    let c ← load (K.mem o.w) fmtstr
    if c = 0 then .ok o
    else if c = 37 then
      let d ← load (K.mem o.w) (fmtstr + 1)
      if d = 37 then
        let o ← out_char K o 37
        core_loop k o (fmtstr + 2) va
      else
        let (p, a) ← parse_placeholder (K.mem o.w) (fmtstr + 1)
        let (p, varg, va) ← read_varg p va
        let o ← print_placeholder K o varg p
        core_loop k o a va
    else if c = 11 then
      let (o, a) ← print_col_alignment K o (fmtstr + 1)
      core_loop k o a va
    else
      let o ← out_char K o c
      core_loop k o (fmtstr + 1) va

/-- prnf.c lines 398-440: `core_prnf`. Returns the count and the world. -/
def core_prnf (o : OutInfo σ) (fmtstr : Addr) (va : List VArg) : Res (Int × σ) := do
  let o ← core_loop K strBound o fmtstr va
  let o ← out_terminate K o
  .ok (o.char_cnt, o.w)

/-- prnf.c lines 325-329 and 296-305: `vfptrprnf` and `fptrprnf`; with the handler `prnf_out_fptr` also lines 307-311 and
241-250: `vprnf` and `prnf`. -/
def vfptrprnf (w : σ) (fmtstr : Addr) (va : List VArg) : Res (Int × σ) :=
  core_prnf K { w := w } fmtstr va

end

/-- Only memory: no handler. -/
def memSink : Sink Mem := ⟨id, fun _ m => m, none⟩

/-- prnf.c lines 313-317 and 252-261: `vsprnf` and `sprnf`. -/
def vsprnf (m : Mem) (dst : Addr) (fmtstr : Addr) (va : List VArg) : Res (Int × Mem) :=
  core_prnf memSink { size_limit := INT_MAX, buf := dst, w := m } fmtstr va

/-- prnf.c lines 319-323 and 263-272: `vsnprnf` and `snprnf`. The size is converted to `int`. -/
def vsnprnf (m : Mem) (dst : Addr) (dst_size : Nat) (fmtstr : Addr) (va : List VArg) : Res (Int × Mem) :=
  core_prnf memSink { size_limit := toInt32 (dst_size % 2 ^ 32), buf := dst, w := m } fmtstr va

/-- prnf.c lines 274-294: `snappf`. -/
def snappf (m : Mem) (dst : Addr) (dst_size : Nat) (fmtstr : Addr) (va : List VArg) : Res (Int × Mem) := do
  let org_len ←
    if dst_size ≠ 0 then do
      let n ← prnf_strlen m dst
      .ok (if n.toNat > dst_size - 1 then dst_size - 1 else n.toNat)
    else .ok 0
  vsnprnf m (dst + org_len) (dst_size - org_len) fmtstr va

end CStr
