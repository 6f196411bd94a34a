import Verif.Model.StrbufPrnf
import Verif.Model.Strnum
import Verif.Spec.View
/-
  The project's own unit tests (test/test.c), run in the model by the kernel. They are tests, not proofs of properties: they show that the
  model behaves like the program where the authors of the program have written down what they expect.
  The statements of each test function are translated one by one; the number in an assertion is its line in test/test.c, and a test
  returns the lines of the assertions that failed. Where a macro of the library selects a function by the type of an argument, the
  translation has the selected function. `printf` of the C library is given by its result. Left out, because the kernel takes too long
  for them: `test_strbuf_prnf`, `test_strbuf_append_prnf`, `test_strbuf_strcat`, `test_strbuf_append`, `test_strbuf_prepend`,
  `test_strbuf_insert_at_index`, `test_strview_append_char`, `test_strview_split_line`. All but the last part of the last one (`TEST_LINE_POP`, which
  feeds lines character by character) were checked once, with the same result.
-/
namespace CStr.Conform
open CStr

/-- test/test.c lines 37-38: `static_buf`. -/
def staticBuf : Addr := 4096

/-- The address of the string literal number `k`. -/
def litAddr (lits : List (List Byte)) (k : Nat) : Addr := 1048576 + ((lits.take k).flatMap (· ++ [0])).length

/-- The memory before a test: `static_buf` and the string literals. Blocks from the allocator are filled with 0xAA. -/
def start (lits : List (List Byte)) : St where
  mem := fun x => if 4096 ≤ x ∧ x < 4096 + 200 then some 0 else memAt 1048576 (lits.flatMap (· ++ [0])) x
  live := fun _ => none
  picks := fun n => ⟨1073741824 + 4096 * n, fun _ => 170⟩
  calls := 0
  log := []

/-- test/Makefile: compiled with the default grow step. -/
def cfg : Cfg := ⟨false, 16⟩

/-- The allocator over malloc and free, by a number of its own (strbuf.c lines 63-76; test/Makefile line 37). -/
def dflt : Alloc := ⟨0, 1⟩

/-- A call with `&buf` (test/test.c throughout): result, pointer and state after it. -/
def bo (r : BufRes) : Res (View × Addr × St) := do
  let (v, p, s) ← r
  .ok (v, p.getD 0, s)

/-- The same for `strbuf_destroy(&buf)` (test/test.c line 194). -/
def ds (r : Res (Option Addr × St)) : Res (Addr × St) := do
  let (p, s) ← r
  .ok (p.getD 0, s)

/-- The same for `strbuf_to_cstr(&buf)` (test/test.c `test_strbuf_to_cstr`). -/
def tc (r : Res (Addr × Option Addr × St)) : Res (Addr × Addr × St) := do
  let (a, p, s) ← r
  .ok (a, p.getD 0, s)

/-- A call with `&view` (test/test.c throughout): result and view after it. -/
def sp (r : Res (View × Option View)) : Res (View × View) := do
  let (v, s) ← r
  .ok (v, s.getD .invalid)

/-- The same for `strview_split_line(&src, &eol)` (test/test.c `test_strview_split_line`). -/
def sl (r : Res (View × Option View × Option Byte)) : Res (View × View) := do
  let (v, s, _) ← r
  .ok (v, s.getD .invalid)

/-- Destination and source after a conversion. -/
def nv {α : Type} [Inhabited α] (r : Res (Int × Option α × Option View)) : Res (Int × α × View) := do
  let (e, d, s) ← r
  .ok (e, d.getD default, s.getD .invalid)

/-- A value for a destination that was not given (no test does that). -/
instance : Inhabited Flt := ⟨.nan⟩

/-- An element of an array of views. -/
def at_ (l : List View) (i : Nat) : View := l.getD i .invalid

/-- C library `strcmp`, as far as the tests use it: zero exactly for equal strings. -/
def strcmp (m : Mem) (a b : Addr) : Res Int := do
  let x ← strlen m a 2147483648
  let y ← strlen m b 2147483648
  if x = y then memcmp m a b x.toNat else .ok 1

end CStr.Conform
