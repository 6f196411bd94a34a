import Verif.C.Basic
/-
  Model of /repo/strview.c. One definition per C function, same order as the source.

  Conventions: `strview_t*` arguments are `Option View` (`none` is NULL) and the updated pointee is returned.
  `const char*` arguments are addresses. `int` is `Int`, with `chk` where C arithmetic could overflow.
  The `_cstr` variants selected by the `_Generic` macros of strview.h are modelled by `cstr`.
-/
namespace CStr

/-- strview.h lines 54-58: `strview_t`. -/
structure View where
  data : Addr
  size : Int
  deriving DecidableEq, Repr

/-- strview.h lines 77-82: `STRVIEW_INVALID`. -/
def View.invalid : View := ⟨0, 0⟩

/-- Result of an `int` computation: out of range is undefined behaviour (C11 6.5p5). -/
def chk (x : Int) : Res Int := if INT_MIN ≤ x ∧ x ≤ INT_MAX then .ok x else .ub .signedOverflow

/-- Conversion `int` to `size_t` (C11 6.3.1.3p2), as done when an `int` size is passed to a mem function. -/
def sizeT (n : Int) : Nat := if n < 0 then (18446744073709551616 + n).toNat else n.toNat

/-- strview.c lines 34-37: `cstr`. -/
def cstr (m : Mem) (p : Addr) : Res View :=
  if p = 0 then .ok .invalid
  else do
    let n ← strlen m p 2147483648
    .ok ⟨p, n⟩

/-- strview.c lines 39-52: `strview_to_cstr`. Writes through `dst`; returns the new memory. -/
def strview_to_cstr (m : Mem) (dst : Addr) (dst_size : Nat) (str : View) : Res Mem :=
  let src_size : Nat := if str.size < 0 then 0 else str.size.toNat
  if dst_size ≠ 0 ∧ dst ≠ 0 then do
    let copy_size := if dst_size - 1 < src_size then dst_size - 1 else src_size
    let m ← memcpy m dst str.data copy_size
    store m (dst + copy_size) 0
  else .ok m

/-- strview.c lines 54-57: `strview_is_valid`. -/
def strview_is_valid (str : View) : Bool := str.data ≠ 0

/-- strview.c lines 59-64: `strview_swap`. -/
def strview_swap (a b : View) : View × View := (b, a)

/-- strview.c lines 387-397: `memcmp_nocase`. The loop `while(size-- && !result)` is recursion on `size`. -/
def memcmp_nocase (m : Mem) (a b : Addr) : Nat → Res Int
  | 0 => .ok 0
  | n + 1 => do
    let x ← load m a
    let y ← load m b
    let result := ((toUpper x).toNat : Int) - (toUpper y).toNat
    if result = 0 then memcmp_nocase m (a + 1) (b + 1) n else .ok result

/-- strview.c lines 66-69: `strview_is_match_strview`. -/
def strview_is_match_strview (m : Mem) (str1 str2 : View) : Res Bool :=
  if str1.size = str2.size then
    if str1.data = str2.data then .ok true
    else do
      let r ← memcmp m str1.data str2.data (sizeT str1.size)
      .ok (r = 0)
  else .ok false

/-- strview.c lines 71-74: `strview_is_match_cstr`. -/
def strview_is_match_cstr (m : Mem) (str1 : View) (str2 : Addr) : Res Bool := do
  let v ← cstr m str2
  strview_is_match_strview m str1 v

/-- strview.c lines 76-79: `strview_is_match_nocase_strview`. -/
def strview_is_match_nocase_strview (m : Mem) (str1 str2 : View) : Res Bool :=
  if str1.size = str2.size then
    if str1.data = str2.data then .ok true
    else do
      let r ← memcmp_nocase m str1.data str2.data (sizeT str1.size)
      .ok (r = 0)
  else .ok false

/-- strview.c lines 81-84: `strview_is_match_nocase_cstr`. -/
def strview_is_match_nocase_cstr (m : Mem) (str1 : View) (str2 : Addr) : Res Bool := do
  let v ← cstr m str2
  strview_is_match_nocase_strview m str1 v

/-- strview.c lines 86-96: `strview_starts_with_strview`. -/
def strview_starts_with_strview (m : Mem) (str1 str2 : View) : Res Bool :=
  if !strview_is_valid str2 then .ok (!strview_is_valid str1)
  else if str1.size ≥ str2.size then
    if str1.data = str2.data then .ok true
    else do
      let r ← memcmp m str1.data str2.data (sizeT str2.size)
      .ok (r = 0)
  else .ok false

/-- strview.c lines 98-101: `strview_starts_with_cstr`. -/
def strview_starts_with_cstr (m : Mem) (str1 : View) (str2 : Addr) : Res Bool := do
  let v ← cstr m str2
  strview_starts_with_strview m str1 v

/-- strview.c lines 103-113: `strview_starts_with_nocase_strview`. -/
def strview_starts_with_nocase_strview (m : Mem) (str1 str2 : View) : Res Bool :=
  if !strview_is_valid str2 then .ok (!strview_is_valid str1)
  else if str1.size ≥ str2.size then
    if str1.data = str2.data then .ok true
    else do
      let r ← memcmp_nocase m str1.data str2.data (sizeT str2.size)
      .ok (r = 0)
  else .ok false

/-- strview.c lines 115-118: `strview_starts_with_nocase_cstr`. -/
def strview_starts_with_nocase_cstr (m : Mem) (str1 : View) (str2 : Addr) : Res Bool := do
  let v ← cstr m str2
  strview_starts_with_nocase_strview m str1 v

/-- strview.c lines 120-132: `strview_compare`. -/
def strview_compare (m : Mem) (str1 str2 : View) : Res Int := do
  let compare_size := if str1.size < str2.size then str1.size else str2.size
  let result ← if compare_size ≠ 0 then memcmp m str1.data str2.data (sizeT compare_size) else .ok 0
  if result = 0 ∧ str1.size ≠ str2.size then
    .ok (if str1.size > str2.size then 1 else -1)
  else .ok result

/-- strview.c lines 144-170: `strview_sub`. -/
def strview_sub (str : View) (begin_ end_ : Int) : Res View :=
  if str.data ≠ 0 ∧ str.size ≠ 0 then do
    let begin_ ← if begin_ < 0 then chk (str.size + begin_) else .ok begin_
    let end_ ← if end_ < 0 then chk (str.size + end_) else .ok end_
    if begin_ ≤ end_ ∧ begin_ < str.size ∧ end_ ≥ 0 then do
      let begin_ := if begin_ < 0 then 0 else begin_
      let end_ := if end_ > str.size then str.size else end_
      let size ← chk (end_ - begin_)
      .ok ⟨str.data + begin_, size⟩
    else .ok ⟨0, 0⟩
  else .ok ⟨str.data, 0⟩

/-- strview.c lines 373-385: the loop of `contains_char`; `e` is `&str.data[str.size]`. -/
def contains_char_loop (m : Mem) (e : Addr) (c : Byte) : Nat → Addr → Bool → Res Bool
  | 0, _, _ => .fuel
  | k + 1, ptr, found =>
    if !found ∧ ptr ≠ e then do
      let b ← load m ptr
      contains_char_loop m e c k (ptr + 1) (b = c)
    else .ok found

/-- strview.c lines 373-385: `contains_char`. -/
def contains_char (m : Mem) (str : View) (c : Byte) : Res Bool :=
  contains_char_loop m (str.data + str.size) c (str.size.toNat + 1) str.data false

/-- strview.c lines 177-186: loop of `strview_trim_start_strview`. -/
def trim_start_loop (m : Mem) (chars : View) : Nat → View → Res View
  | 0, _ => .fuel
  | k + 1, str =>
    if str.size ≠ 0 then do
      let b ← load m str.data
      if ← contains_char m chars b then
        trim_start_loop m chars k ⟨str.data + 1, str.size - 1⟩
      else .ok str
    else .ok str

/-- strview.c lines 177-186: `strview_trim_start_strview`. -/
def strview_trim_start_strview (m : Mem) (str chars : View) : Res View :=
  trim_start_loop m chars (str.size.toNat + 1) str

/-- strview.c lines 172-175: `strview_trim_start_cstr`. -/
def strview_trim_start_cstr (m : Mem) (str : View) (chars : Addr) : Res View := do
  let v ← cstr m chars
  strview_trim_start_strview m str v

/-- strview.c lines 193-199: loop of `strview_trim_end_strview`. -/
def trim_end_loop (m : Mem) (chars : View) : Nat → View → Res View
  | 0, _ => .fuel
  | k + 1, str =>
    if str.size ≠ 0 then do
      let b ← load m (str.data + (str.size - 1))
      if ← contains_char m chars b then
        trim_end_loop m chars k ⟨str.data, str.size - 1⟩
      else .ok str
    else .ok str

/-- strview.c lines 193-199: `strview_trim_end_strview`. -/
def strview_trim_end_strview (m : Mem) (str chars : View) : Res View :=
  trim_end_loop m chars (str.size.toNat + 1) str

/-- strview.c lines 188-191: `strview_trim_end_cstr`. -/
def strview_trim_end_cstr (m : Mem) (str : View) (chars : Addr) : Res View := do
  let v ← cstr m chars
  strview_trim_end_strview m str v

/-- strview.c lines 206-211: `strview_trim_strview`. -/
def strview_trim_strview (m : Mem) (str chars : View) : Res View := do
  let str ← strview_trim_start_strview m str chars
  strview_trim_end_strview m str chars

/-- strview.c lines 201-204: `strview_trim_cstr`. -/
def strview_trim_cstr (m : Mem) (str : View) (chars : Addr) : Res View := do
  let v ← cstr m chars
  strview_trim_strview m str v

/-- A `memcmp`-like comparison function, strview.c line 25 (`comp_func`). -/
abbrev CompFunc := Mem → Addr → Addr → Nat → Res Int

/-- strview.c lines 531-536: loop of `find_first`. Returns the final `(remaining_hay, found)`. -/
def find_first_loop (m : Mem) (comp : CompFunc) (haystack needle : View) :
    Nat → Addr → Bool → Res (Addr × Bool)
  | 0, _, _ => .fuel
  | k + 1, rem, found =>
    if haystack.data + haystack.size - rem ≥ needle.size ∧ !found then do
      let r ← comp m rem needle.data (sizeT needle.size)
      if r = 0 then find_first_loop m comp haystack needle k rem true
      else find_first_loop m comp haystack needle k (rem + 1) false
    else .ok (rem, found)

/-- strview.c lines 522-545: `find_first`. -/
def find_first (m : Mem) (comp : CompFunc) (haystack needle : View) : Res View := do
  let (rem, found) ←
    if haystack.data ≠ 0 ∧ needle.data ≠ 0 then
      find_first_loop m comp haystack needle (haystack.size.toNat + 3) haystack.data false
    else .ok (haystack.data, false)
  if found then .ok ⟨rem, needle.size⟩ else .ok .invalid

/-- 64-bit pointer wrap-around of an address computation that may underflow (used in `find_last` only). -/
def wrapPtr (a : Addr) : Addr := if a < 0 then a + 18446744073709551616 else a

/-- strview.c lines 556-561: loop of `find_last`. -/
def find_last_loop (m : Mem) (comp : CompFunc) (haystack needle : View) :
    Nat → Addr → Bool → Res (Addr × Bool)
  | 0, _, _ => .fuel
  | k + 1, rem, found =>
    if rem ≥ haystack.data ∧ !found then do
      let r ← comp m rem needle.data (sizeT needle.size)
      if r = 0 then find_last_loop m comp haystack needle k rem true
      else find_last_loop m comp haystack needle k (rem - 1) false
    else .ok (rem, found)

/-- strview.c lines 547-570: `find_last`. -/
def find_last (m : Mem) (comp : CompFunc) (haystack needle : View) : Res View := do
  let d ← chk (haystack.size - needle.size)
  let rem := wrapPtr (haystack.data + d)
  let (rem, found) ←
    if haystack.data ≠ 0 ∧ needle.data ≠ 0 then
      find_last_loop m comp haystack needle ((rem - haystack.data).toNat + 3) rem false
    else .ok (rem, false)
  if found then .ok ⟨rem, needle.size⟩ else .ok .invalid

/-- strview.c lines 213-216: `strview_find_first_strview`. -/
def strview_find_first_strview (m : Mem) (haystack needle : View) : Res View :=
  find_first m memcmp haystack needle

/-- strview.c lines 218-221: `strview_find_first_nocase_strview`. -/
def strview_find_first_nocase_strview (m : Mem) (haystack needle : View) : Res View :=
  find_first m memcmp_nocase haystack needle

/-- strview.c lines 223-226: `strview_find_first_nocase_cstr`. -/
def strview_find_first_nocase_cstr (m : Mem) (haystack : View) (needle : Addr) : Res View := do
  let v ← cstr m needle
  find_first m memcmp_nocase haystack v

/-- strview.c lines 228-231: `strview_find_first_cstr`. -/
def strview_find_first_cstr (m : Mem) (haystack : View) (needle : Addr) : Res View := do
  let v ← cstr m needle
  strview_find_first_strview m haystack v

/-- strview.c lines 233-236: `strview_find_last_strview`. -/
def strview_find_last_strview (m : Mem) (haystack needle : View) : Res View :=
  find_last m memcmp haystack needle

/-- strview.c lines 238-241: `strview_find_last_nocase_strview`. -/
def strview_find_last_nocase_strview (m : Mem) (haystack needle : View) : Res View :=
  find_last m memcmp_nocase haystack needle

/-- strview.c lines 243-246: `strview_find_last_nocase_cstr`. -/
def strview_find_last_nocase_cstr (m : Mem) (haystack : View) (needle : Addr) : Res View := do
  let v ← cstr m needle
  find_last m memcmp_nocase haystack v

/-- strview.c lines 248-251: `strview_find_last_cstr`. -/
def strview_find_last_cstr (m : Mem) (haystack : View) (needle : Addr) : Res View := do
  let v ← cstr m needle
  strview_find_last_strview m haystack v

/-- strview.c lines 134-137: `strview_contains`. -/
def strview_contains (m : Mem) (haystack needle : View) : Res Bool := do
  let r ← strview_find_first_strview m haystack needle
  .ok (strview_is_valid r)

/-- strview.c lines 139-142: `strview_contains_nocase`. -/
def strview_contains_nocase (m : Mem) (haystack needle : View) : Res Bool := do
  let r ← strview_find_first_nocase_strview m haystack needle
  .ok (strview_is_valid r)

/-- strview.c lines 410-415: scan loop of `split_first_delim`; `e` is `&data[size]`.
Returns the final `(ptr, found)`. -/
def split_first_loop (m : Mem) (e : Addr) (delims : View) (excl : Bool) :
    Nat → Addr → Bool → Bool → Res (Addr × Bool)
  | 0, _, _, _ => .fuel
  | k + 1, ptr, inq, found =>
    if ptr ≠ e ∧ !found then do
      let b ← load m ptr
      let inq := inq ^^ (b == 34 && excl)
      let found ← if !inq then contains_char m delims b else .ok false
      split_first_loop m e delims excl k (if found then ptr else ptr + 1) inq found
    else .ok (ptr, found)

/-- strview.c lines 399-437: static `split_first_delim`. Returns `(result, *strview_ptr)`. -/
def split_first_delim (m : Mem) (src delims : View) (excl : Bool) : Res (View × View) := do
  let (ptr, found) ←
    if src.data ≠ 0 ∧ delims.data ≠ 0 then
      split_first_loop m (src.data + src.size) delims excl (src.size.toNat + 2) src.data false false
    else .ok (src.data, false)
  if found then
    let size := ptr - src.data
    let rsize := src.size - size - 1
    .ok (⟨src.data, size⟩, ⟨if rsize ≠ 0 then ptr + 1 else ptr, rsize⟩)
  else .ok (src, .invalid)

/-- strview.c lines 449-454: scan loop of `split_last_delim`; `b0` is `data-1`. -/
def split_last_loop (m : Mem) (b0 : Addr) (delims : View) (excl : Bool) :
    Nat → Addr → Bool → Bool → Res (Addr × Bool)
  | 0, _, _, _ => .fuel
  | k + 1, ptr, inq, found =>
    if ptr ≠ b0 ∧ !found then do
      let b ← load m ptr
      let inq := inq ^^ (b == 34 && excl)
      let found ← if !inq then contains_char m delims b else .ok false
      split_last_loop m b0 delims excl k (if found then ptr else ptr - 1) inq found
    else .ok (ptr, found)

/-- strview.c lines 439-476: static `split_last_delim`. Returns `(result, *strview_ptr)`. -/
def split_last_delim (m : Mem) (src delims : View) (excl : Bool) : Res (View × View) := do
  let (ptr, found) ←
    if src.data ≠ 0 ∧ src.size ≠ 0 ∧ delims.data ≠ 0 then
      split_last_loop m (src.data - 1) delims excl (src.size.toNat + 2)
        (src.data + (src.size - 1)) false false
    else .ok (src.data, false)
  if found then
    let size := src.data + src.size - ptr
    .ok (⟨if size - 1 ≠ 0 then ptr + 1 else ptr, size - 1⟩, ⟨src.data, src.size - size⟩)
  else .ok (src, .invalid)

/-- strview.c lines 478-506: static `split_index`. Returns `(result, *strview_ptr)`. -/
def split_index (src : View) (index : Int) : Res (View × View) := do
  let neg := index < 0
  let index ← if index < 0 then chk (src.size + index) else .ok index
  let index := if index < 0 then 0 else index
  let index := if index > src.size then src.size else index
  let result : View := ⟨src.data, index⟩
  let remainder : View := ⟨src.data + index, src.size - index⟩
  if neg then .ok (remainder, result) else .ok (result, remainder)

/-- strview.c lines 253-261: `strview_split_first_delim` with a non-NULL `strview_ptr`.
Returns `(result, *strview_ptr)`. -/
def split_first_nn (m : Mem) (src : View) (delims : Addr) (excl : Bool) : Res (View × View) := do
  let d ← cstr m delims
  split_first_delim m src d excl

/-- strview.c lines 253-261: `strview_split_first_delim`. -/
def strview_split_first_delim (m : Mem) (p : Option View) (delims : Addr) (excl : Bool) :
    Res (View × Option View) :=
  match p with
  | none => .ok (.invalid, none)
  | some src => do
    let (r, s) ← split_first_nn m src delims excl
    .ok (r, some s)

/-- Store into element `i` of a C array of views; past the end is undefined behaviour. -/
def setAt (arr : List View) (i : Nat) (v : View) : Res (List View) :=
  if i < arr.length then .ok (arr.set i v) else .ub .badWrite

/-- strview.c lines 265-268: loop of `strview_split_all`. -/
def split_all_loop (m : Mem) (dst_size : Int) (delims : Addr) (excl : Bool) :
    Nat → Nat → List View → View → Res (Nat × List View)
  | 0, _, _, _ => .fuel
  | k + 1, count, dst, src =>
    if strview_is_valid src ∧ (count : Int) < dst_size then do
      let (r, s) ← split_first_nn m src delims excl
      let dst ← setAt dst count r
      split_all_loop m dst_size delims excl k (count + 1) dst s
    else .ok (count, dst)

/-- strview.c lines 263-269: `strview_split_all`. `dst` is the destination array; returns the count and the
array. -/
def strview_split_all (m : Mem) (dst_size : Int) (dst : List View) (src : View) (delims : Addr)
    (excl : Bool) : Res (Nat × List View) :=
  split_all_loop m dst_size delims excl (src.size.toNat + 3) 0 dst src

/-- strview.c lines 271-279: `strview_split_last_delim`. -/
def strview_split_last_delim (m : Mem) (p : Option View) (delims : Addr) (excl : Bool) :
    Res (View × Option View) :=
  match p with
  | none => .ok (.invalid, none)
  | some src => do
    let d ← cstr m delims
    let (r, s) ← split_last_delim m src d excl
    .ok (r, some s)

/-- strview.c lines 281-289: `strview_split_index`. -/
def strview_split_index (p : Option View) (index : Int) : Res (View × Option View) :=
  match p with
  | none => .ok (.invalid, none)
  | some src => do
    let (r, s) ← split_index src index
    .ok (r, some s)

/-- strview.c lines 291-297: `strview_pop_first_char` with a non-NULL argument.
Returns `(char, *strview_ptr)`. -/
def pop_first_nn (m : Mem) (src : View) : Res (Byte × View) :=
  if src.size ≠ 0 then do
    let (r, s) ← split_index src 1
    let c ← load m r.data
    .ok (c, s)
  else .ok (0, src)

/-- strview.c lines 291-297: `strview_pop_first_char`. -/
def strview_pop_first_char (m : Mem) (p : Option View) : Res (Byte × Option View) :=
  match p with
  | none => .ok (0, none)
  | some src => do
    let (c, s) ← pop_first_nn m src
    .ok (c, some s)

/-- Address of the literal `"\r\n"` (strview.c line 313). -/
def litCRLF : Addr := litBase

/-- strview.c lines 299-335: `strview_split_line`. `eol` is the pointee of the `char* eol` argument (`none`
for NULL). Returns `(result, *strview_ptr, *eol)`. -/
def strview_split_line (m : Mem) (p : Option View) (eol : Option Byte) :
    Res (View × Option View × Option Byte) :=
  match p with
  | none => .ok (.invalid, none, eol)
  | some v =>
    if v.size ≠ 0 then do
      let src ← match eol with
        | none => .ok v
        | some e =>
          if e ≠ 0 then do
            let b ← load m v.data
            if charToInt e + charToInt b = 23 then do
              let (_, s) ← pop_first_nn m v
              .ok s
            else .ok v
          else .ok v
      let (result, src) ← split_first_nn m src litCRLF false
      if strview_is_valid src then do
        let e ← load m (result.data + result.size)
        let b ← load m src.data
        if charToInt e + charToInt b = 23 then do
          let (_, src) ← pop_first_nn m src
          .ok (result, some src, eol.map (fun _ => 0))
        else .ok (result, some src, eol.map (fun _ => e))
      else .ok (.invalid, some result, eol)
    else .ok (.invalid, some v, eol)

/-- strview.c lines 337-346: `strview_split_left`. -/
def strview_split_left (p : Option View) (pos : View) : Res (View × Option View) :=
  match p with
  | none => .ok (.invalid, none)
  | some src =>
    if strview_is_valid src ∧ strview_is_valid pos ∧
        src.data ≤ pos.data ∧ pos.data ≤ src.data + src.size then do
      let (r, s) ← split_index src (pos.data - src.data)
      .ok (r, some s)
    else .ok (.invalid, some src)

/-- strview.c lines 348-367: `strview_split_right`. -/
def strview_split_right (p : Option View) (pos : View) : Res (View × Option View) :=
  match p with
  | none => .ok (.invalid, none)
  | some src =>
    if strview_is_valid src ∧ strview_is_valid pos then
      let split_point := pos.data + pos.size
      if src.data ≤ split_point ∧ split_point ≤ src.data + src.size then do
        let (r, s) ← split_index src (split_point - src.data)
        let (r, s) := strview_swap r s
        .ok (r, some s)
      else .ok (.invalid, some src)
    else .ok (.invalid, some src)

/-- strview.c lines 515-518: loop of `strview_dequote`. -/
def dequote_loop (m : Mem) (q : Byte) : Nat → View → Res View
  | 0, _ => .fuel
  | k + 1, r =>
    if r.size > 1 then do
      let a ← load m r.data
      if a = q then do
        let b ← load m (r.data + (r.size - 1))
        if b = q then do
          let r ← strview_sub r 1 (-1)
          dequote_loop m q k r
        else .ok r
      else .ok r
    else .ok r

/-- strview.c lines 508-520: `strview_dequote`. -/
def strview_dequote (m : Mem) (src : View) : Res View :=
  if src.size > 1 then do
    let q ← load m src.data
    dequote_loop m q (src.size.toNat + 1) src
  else .ok src

end CStr
