import Verif.Model.Print
import Verif.Model.Strbuf
import Verif.Spec.BufHist
/-
  The example programs of /repo/examples (the URI parser is in Model/Uri.lean). Modelled is what they do with the library and the text of the variable parts
  of what they print; the fixed text around it is left out.
-/
namespace CStr

/-- `printf("%s", a)`: the bytes up to the first NUL. -/
def print_s (m : Mem) (a : Addr) : Res (List Byte) := do
  let n ← strlen m a 2147483648
  readBytes m a n.toNat

/-- `buf->cstr`. -/
def buf_cstr : Option Addr → Res Addr
  | some p => if p = 0 then .ub .badHeader else .ok (p + 24)
  | none => .ub .badHeader

/-- strbuf.h line 87: `sizeof` an object of type `strbuf_space_t(cap)`: the struct of 24 bytes and `cap + 1` characters, rounded up to the alignment of the struct. -/
def space_size (cap : Nat) : Nat := (24 + (cap + 1) + 7) / 8 * 8

/-- stack-buf.c lines 52-55 and 63-67: assign `v` to the buffer, print it, strip `-`, print it. `dash` is the address of the literal `"-"`. -/
def assign_and_strip (cfg : Cfg) (s : St) (buf : Option Addr) (v : View) (dash : Addr) : Res (List Byte × List Byte × St) := do
  let (_, buf, s) ← strbuf_assign cfg s buf v
  let c ← buf_cstr buf
  let t1 ← print_s s.mem c
  let d ← cstr s.mem dash
  let (_, buf, s) ← strbuf_strip_strview cfg s buf d
  let c ← buf_cstr buf
  let t2 ← print_s s.mem c
  .ok (t1, t2, s)

/-- stack-buf.c lines 48-56: `ex1`. `space` is the address of the object made by `STRBUF_FIXED_CAP(200)`, which is part of the initial memory here. -/
def stack_ex1 (cfg : Cfg) (s : St) (space : Addr) (v : View) (dash : Addr) : Res (List Byte × List Byte × St) :=
  assign_and_strip cfg s (some space) v dash

/-- stack-buf.c lines 58-68: `ex2`. `space` is the address of `bufspace`; its length `(v.size)+1` is computed as `int`. -/
def stack_ex2 (cfg : Cfg) (s : St) (space : Addr) (v : View) (dash : Addr) : Res (List Byte × List Byte × St) := do
  let _ ← chk (v.size + 1)
  let (buf, m) ← strbuf_create_fixed s.mem space (space_size v.size.toNat)
  assign_and_strip cfg { s with mem := m } (some buf) v dash

/-- stack-buf.c lines 70-77: `ex3`. `cbuf` is the address of the array of `v.size + 1` characters. -/
def stack_ex3 (m : Mem) (cbuf : Addr) (v : View) : Res (List Byte × Mem) := do
  let n ← chk (v.size + 1)
  let m ← strview_to_cstr m cbuf n.toNat v
  let t ← print_s m cbuf
  .ok (t, m)

/-- static-buf.c lines 53-60: `ex1`: print the content of the static buffer and the argument, assign the argument. -/
def static_ex1 (cfg : Cfg) (s : St) (buf_space : Addr) (v : View) : Res (List Byte × List Byte × St) := do
  let c ← buf_cstr (some buf_space)
  let t1 ← print_s s.mem c
  let t2 ← pri_str s.mem v
  let (_, _, s) ← strbuf_assign cfg s (some buf_space) v
  .ok (t1, t2, s)

/-- Several calls of `ex1` of static-buf.c, as in its `main` (lines 40-42). -/
def static_calls (cfg : Cfg) (buf_space : Addr) : List View → St → Res (List (List Byte × List Byte) × St)
  | [], s => .ok ([], s)
  | v :: vs, s => do
    let (t1, t2, s) ← static_ex1 cfg s buf_space v
    let (r, s) ← static_calls cfg buf_space vs s
    .ok ((t1, t2) :: r, s)

/-- custom-alloc.c lines 42-54 (the same in default-custom-alloc.c and default-stdlib-alloc.c): create a buffer, append texts, concatenate two texts and twice the buffer itself. The texts are the constants
`0` to `n - 1` and `n`, `n + 1` of the program; the example has `n = 6`. The buffer itself, `strbuf_view(&buf)`, is written as the part from 0 to `INT_MAX`, which is the same view. -/
def alloc_main (n : Nat) (o : Option Alloc) : List Cmd :=
  .createEmpty 0 16 o :: (List.range n).map (fun k => .op 0 (.append (.const k))) ++
    [.op 0 (.cat [.const n, .sub 0 0 2147483647, .sub 0 0 2147483647, .const (n + 1)])]

/-- testnum.c lines 54-69: the options a list of command line arguments selects. `names` are the addresses of the literals. -/
def testnum_options (m : Mem) (names : List (Addr × UInt32)) : List Addr → UInt32 → Res UInt32
  | [], options => .ok options
  | a :: args, options => do
    let v ← cstr m a
    let options ← names.foldlM (init := options) fun options (name, bit) => do
      let w ← cstr m name
      let r ← strview_is_match_nocase_strview m v w
      .ok (if r then options ||| bit else options)
    testnum_options m names args options

end CStr
