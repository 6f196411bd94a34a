import Verif.Model.Strview
/-
  Printing a view with the C library: `PRIstr` and `PRIstrarg`.
-/
namespace CStr

/-- C library, conversion `%.*s` with precision `n` (C11 7.21.6.1p8): the bytes from `a` up to a NUL, but no more than `n`, and no more are read. -/
def c_print_str (m : Mem) : Nat → Addr → Res (List Byte)
  | 0, _ => .ok []
  | n + 1, a => do
    let c ← load m a
    if c = 0 then .ok []
    else
      let t ← c_print_str m n (a + 1)
      .ok (c :: t)

/-- strview.h lines 36 and 49: `printf("%"PRIstr, PRIstrarg(v))`, that is `printf("%.*s", v.size, v.data)`. A negative precision counts as none
(C11 7.21.6.1p5). Simplification: with precision 0 the pointer is not used, so NULL is accepted, as in common C libraries. -/
def pri_str (m : Mem) (v : View) : Res (List Byte) :=
  if v.size < 0 then do
    let n ← strlen m v.data 2147483648
    readBytes m v.data n.toNat
  else c_print_str m v.size.toNat v.data

end CStr
