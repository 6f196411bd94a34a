import Verif.Model.Strbuf
import Verif.Model.Strnum
/-
  The function-like macros of strview.h and strbuf.h: selection of a function by the type of an argument, and counting of arguments.
-/
namespace CStr

/-- Types of macro arguments, after the conversions C11 6.5.1.1 applies to the controlling expression (arrays, such as string literals,
become pointers; qualifiers of the value itself are dropped). `unsigned char*` stands for the types no macro lists. -/
inductive CTy where | charPtr | constCharPtr | ucharPtr | view | sizeT | int | uint
  deriving DecidableEq, Repr

/-- An argument: a value with its type. -/
inductive CArg where
  | charPtr (a : Addr)
  | constCharPtr (a : Addr)
  | ucharPtr (a : Addr)
  | view (v : View)
  | sizeT (n : Nat)
  | int (i : Int)
  | uint (n : Nat)

def CArg.ty : CArg → CTy
  | .charPtr _ => .charPtr
  | .constCharPtr _ => .constCharPtr
  | .ucharPtr _ => .ucharPtr
  | .view _ => .view
  | .sizeT _ => .sizeT
  | .int _ => .int
  | .uint _ => .uint

/-- A function selected by `_Generic`, by the type of its parameter. -/
inductive Impl (α : Type) where
  | onCstr (f : Addr → α)
  | onView (f : View → α)
  | onSize (f : Nat → α)

/-- Call the selected function with the argument: `char*` is converted to `const char*`, `int` to `size_t`. `none`: there is no such conversion,
the program does not compile. -/
def Impl.call {α : Type} : Impl α → CArg → Option α
  | .onCstr f, .charPtr a => some (f a)
  | .onCstr f, .constCharPtr a => some (f a)
  | .onView f, .view v => some (f v)
  | .onSize f, .sizeT n => some (f n)
  | .onSize f, .int i => some (f (CStr.sizeT i))
  | .onSize f, .uint n => some (f n)
  | _, _ => none

/-- `_Generic((x), ty: f, ...)(x)` (C11 6.5.1.1): the function listed for the type of the argument. `none`: there is none, the program does not compile. -/
def generic {α : Type} (assoc : List (CTy × Impl α)) (x : CArg) : Option α :=
  match assoc.lookup x.ty with
  | some f => f.call x
  | none => none

/-- The association list of all macros that take a C string or a view (strview.h lines 92-296, strbuf.h lines 253-336):
`const char*: f_cstr, char*: f_cstr, strview_t: f_strview`. -/
def strAssoc {α : Type} (f_cstr : Addr → α) (f_strview : View → α) : List (CTy × Impl α) :=
  [(.constCharPtr, .onCstr f_cstr), (.charPtr, .onCstr f_cstr), (.view, .onView f_strview)]

/-- strview.h lines 92-96. -/
def strview_is_match (m : Mem) (str1 : View) (str2 : CArg) : Option (Res Bool) :=
  generic (strAssoc (strview_is_match_cstr m str1) (strview_is_match_strview m str1)) str2
/-- strview.h lines 106-110. -/
def strview_is_match_nocase (m : Mem) (str1 : View) (str2 : CArg) : Option (Res Bool) :=
  generic (strAssoc (strview_is_match_nocase_cstr m str1) (strview_is_match_nocase_strview m str1)) str2
/-- strview.h lines 127-131. -/
def strview_starts_with (m : Mem) (str1 : View) (str2 : CArg) : Option (Res Bool) :=
  generic (strAssoc (strview_starts_with_cstr m str1) (strview_starts_with_strview m str1)) str2
/-- strview.h lines 148-152. -/
def strview_starts_with_nocase (m : Mem) (str1 : View) (str2 : CArg) : Option (Res Bool) :=
  generic (strAssoc (strview_starts_with_nocase_cstr m str1) (strview_starts_with_nocase_strview m str1)) str2
/-- strview.h lines 169-173. -/
def strview_trim (m : Mem) (str : View) (chars : CArg) : Option (Res View) :=
  generic (strAssoc (strview_trim_cstr m str) (strview_trim_strview m str)) chars
/-- strview.h lines 190-194. -/
def strview_trim_start (m : Mem) (str : View) (chars : CArg) : Option (Res View) :=
  generic (strAssoc (strview_trim_start_cstr m str) (strview_trim_start_strview m str)) chars
/-- strview.h lines 211-215. -/
def strview_trim_end (m : Mem) (str : View) (chars : CArg) : Option (Res View) :=
  generic (strAssoc (strview_trim_end_cstr m str) (strview_trim_end_strview m str)) chars
/-- strview.h lines 232-236. -/
def strview_find_first (m : Mem) (haystack : View) (needle : CArg) : Option (Res View) :=
  generic (strAssoc (strview_find_first_cstr m haystack) (strview_find_first_strview m haystack)) needle
/-- strview.h lines 252-256. -/
def strview_find_first_nocase (m : Mem) (haystack : View) (needle : CArg) : Option (Res View) :=
  generic (strAssoc (strview_find_first_nocase_cstr m haystack) (strview_find_first_nocase_strview m haystack)) needle
/-- strview.h lines 272-276. -/
def strview_find_last (m : Mem) (haystack : View) (needle : CArg) : Option (Res View) :=
  generic (strAssoc (strview_find_last_cstr m haystack) (strview_find_last_strview m haystack)) needle
/-- strview.h lines 292-296. -/
def strview_find_last_nocase (m : Mem) (haystack : View) (needle : CArg) : Option (Res View) :=
  generic (strAssoc (strview_find_last_nocase_cstr m haystack) (strview_find_last_nocase_strview m haystack)) needle

/-- strbuf.h lines 253-257. -/
def strbuf_append (cfg : Cfg) (s : St) (bp : Option Addr) (str : CArg) : Option BufRes :=
  generic (strAssoc (strbuf_append_cstr cfg s bp) (strbuf_append_strview cfg s bp)) str
/-- strbuf.h lines 269-273. -/
def strbuf_prepend (cfg : Cfg) (s : St) (bp : Option Addr) (str : CArg) : Option BufRes :=
  generic (strAssoc (strbuf_prepend_cstr cfg s bp) (strbuf_prepend_strview cfg s bp)) str
/-- strbuf.h lines 286-290. -/
def strbuf_insert_at_index (cfg : Cfg) (s : St) (bp : Option Addr) (index : Int) (str : CArg) : Option BufRes :=
  generic (strAssoc (strbuf_insert_at_index_cstr cfg s bp index) (strbuf_insert_at_index_strview cfg s bp index)) str
/-- strbuf.h lines 302-306. -/
def strbuf_insert_before (cfg : Cfg) (s : St) (bp : Option Addr) (dst : View) (src : CArg) : Option BufRes :=
  generic (strAssoc (strbuf_insert_before_cstr cfg s bp dst) (strbuf_insert_before_strview cfg s bp dst)) src
/-- strbuf.h lines 318-322. -/
def strbuf_insert_after (cfg : Cfg) (s : St) (bp : Option Addr) (dst : View) (src : CArg) : Option BufRes :=
  generic (strAssoc (strbuf_insert_after_cstr cfg s bp dst) (strbuf_insert_after_strview cfg s bp dst)) src
/-- strbuf.h lines 332-336. -/
def strbuf_strip (cfg : Cfg) (s : St) (bp : Option Addr) (chars : CArg) : Option BufRes :=
  generic (strAssoc (strbuf_strip_cstr cfg s bp) (strbuf_strip_strview cfg s bp)) chars

/-- strbuf.h lines 194-198: `strbuf_create`. -/
def strbuf_create (cfg : Cfg) (dflt : Alloc) (s : St) (init : CArg) (alloc : Option Alloc) : Option (Res (Addr × St)) :=
  generic [(.sizeT, .onSize fun n => strbuf_create_empty dflt s n alloc), (.int, .onSize fun n => strbuf_create_empty dflt s n alloc),
    (.view, .onView fun v => strbuf_create_init cfg dflt s v alloc)] init

/-- strview.h line 72: `cstr_SL`. `a` is the address of a literal with the bytes `l` and the terminator, so that its `sizeof` is `l.length + 1`. -/
def cstr_SL (a : Addr) (l : List Byte) : View := ⟨a, castS 32 ((l.length + 1 : Nat) - 1)⟩

/-- A macro argument in the expansion of `PP_NARG`: one of the views, or a number of `PP_RSEQ_N`. -/
inductive Tok where
  | arg (v : View)
  | num (n : Int)

/-- strbuf.h lines 146-159: `PP_RSEQ_N()`. -/
def PP_RSEQ_N : List Int :=
  [127, 126, 125, 124, 123, 122, 121, 120,
   119, 118, 117, 116, 115, 114, 113, 112, 111, 110,
   109, 108, 107, 106, 105, 104, 103, 102, 101, 100,
   99, 98, 97, 96, 95, 94, 93, 92, 91, 90,
   89, 88, 87, 86, 85, 84, 83, 82, 81, 80,
   79, 78, 77, 76, 75, 74, 73, 72, 71, 70,
   69, 68, 67, 66, 65, 64, 63, 62, 61, 60,
   59, 58, 57, 56, 55, 54, 53, 52, 51, 50,
   49, 48, 47, 46, 45, 44, 43, 42, 41, 40,
   39, 38, 37, 36, 35, 34, 33, 32, 31, 30,
   29, 28, 27, 26, 25, 24, 23, 22, 21, 20,
   19, 18, 17, 16, 15, 14, 13, 12, 11, 10,
   9, 8, 7, 6, 5, 4, 3, 2, 1, 0]

/-- strbuf.h lines 131-144: `PP_128TH_ARG`: the argument after the parameters `_1` to `_127`. -/
def PP_128TH_ARG (l : List Tok) : Option Tok := l[127]?

/-- strbuf.h lines 129-130: `PP_NARG`. -/
def PP_NARG (args : List View) : Option Tok := PP_128TH_ARG (args.map .arg ++ PP_RSEQ_N.map .num)

/-- strbuf.c lines 141-150, 586-: `_strbuf_cat` fetches `n_args` views of its variable arguments, twice. The loop `while(i++ != n_args)` does not
end for a negative number, and fetching an argument that was not passed is undefined. -/
def strbuf_cat_n (cfg : Cfg) (s : St) (buf_ptr : Option Addr) (n_args : Int) (args : List View) : BufRes :=
  match deref buf_ptr with
  | none => .ok (.invalid, buf_ptr, s)
  | some _ => if 0 ≤ n_args ∧ n_args ≤ args.length then strbuf_cat cfg s buf_ptr (args.take n_args.toNat) else .ub .badArg

/-- strbuf.h line 177: the macro `strbuf_cat`. `none`: the program does not compile, as a view is not a number. -/
def strbuf_cat_macro (cfg : Cfg) (s : St) (buf_ptr : Option Addr) (args : List View) : Option BufRes :=
  match PP_NARG args with
  | some (.num n) => some (strbuf_cat_n cfg s buf_ptr n args)
  | _ => none

end CStr
