import Verif.Model.Print
import Verif.Model.Strnum
/-
  The example program `testnum` (/repo/examples/testnum/testnum.c): what it does with one line of input. Its options are in Model/Examples.lean.
  Left out: the fixed text around the printed values, and `getline`, whose result is the string `txt`.
-/
namespace CStr

/-- testnum.c lines 104-110: the rest of `numtsthelper` after `err = strnum_value(&(var), &v, opt)`: what the printed line contains, that is `err`, `err ? 0 : (var)` and the text of `v`.
The conversions of the two numbers to text are those of the C library and left out. -/
def numtst_report {T : Type} (m : Mem) (zero : T) (r : Int × Option T × Option View) : Res (Int × T × List Byte) := do
  let (err, var, v) := r
  let val ← if err ≠ 0 then .ok zero else
    match var with
    | some x => .ok x
    | none => .ub .badRead
  let t ← match v with
    | some v => pri_str m v
    | none => .ub .badRead
  .ok (err, val, t)

/-- testnum.c lines 104-110: `numtsthelper` for an unsigned type. `var` is the indeterminate value of the variable. -/
def numtst_u (m : Mem) (view : View) (options : UInt32) (t : UTy) (var : Nat) : Res (Int × Nat × List Byte) := do
  let r ← strnum_value_u t m (some var) (some view) options
  numtst_report m 0 r

/-- testnum.c lines 104-110: `numtsthelper` for a signed type. -/
def numtst_s (m : Mem) (view : View) (options : UInt32) (t : STy) (var : Int) : Res (Int × Int × List Byte) := do
  let r ← strnum_value_s t m (some var) (some view) options
  numtst_report m 0 r

/-- testnum.c lines 104-110: `numtsthelper` for a floating type. -/
def numtst_f {F : Type} (ops : FloatOps F) (m : Mem) (view : View) (options : UInt32) (t : FTy) (var : F) : Res (Int × F × List Byte) := do
  let r ← strnum_value_f ops t m (some var) (some view) options
  numtst_report m ops.zero r

/-- What `test_number_conversion` prints for a line. -/
structure NumReport (F : Type) where
  line : List Byte
  unsigned : List (Int × Nat × List Byte)
  signed : List (Int × Int × List Byte)
  floating : List (Int × F × List Byte)

/-- testnum.c lines 112-144: `test_number_conversion`. `u`, `i` and `f` are the indeterminate values of its local variables.
Simplification: the three floating types share the type `F` of their values, each with its own operations. -/
def test_number_conversion {F : Type} (ops : FTy → FloatOps F) (m : Mem) (view : View) (options : UInt32) (u : UTy → Nat) (i : STy → Int) (f : FTy → F) :
    Res (NumReport F) := do
  let t ← pri_str m view
  let us ← [UTy.uchar, .ushort, .uint, .ulong, .ullong].mapM fun ty => numtst_u m view options ty (u ty)
  let ss ← [STy.char, .short, .int, .long, .llong].mapM fun ty => numtst_s m view options ty (i ty)
  let fs ← [FTy.float, .double, .ldouble].mapM fun ty => numtst_f (ops ty) m view options ty (f ty)
  .ok ⟨t, us, ss, fs⟩

/-- testnum.c lines 90-95: one turn of the loop of `main`. `txt` is the line, `crlf` the address of the literal `"\r\n"`. -/
def testnum_line {F : Type} (ops : FTy → FloatOps F) (m : Mem) (txt crlf : Addr) (options : UInt32) (u : UTy → Nat) (i : STy → Int) (f : FTy → F) :
    Res (NumReport F) := do
  let v ← cstr m txt
  let c ← cstr m crlf
  let view ← strview_trim_end_strview m v c
  test_number_conversion ops m view options u i f

end CStr
