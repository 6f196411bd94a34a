import Verif.C.State
import Verif.Model.Strview
/-
  Model of /repo/strbuf.c and /repo/strbuf.h.

  A `strbuf_t` lives in byte memory exactly as the C compiler lays it out on an LP64 little endian target: `int size` at
  offset 0, `int capacity` at 4, `allocator.app_data` at 8, `allocator.allocator` at 16, `cstr[]` from offset 24
  (strbuf.h lines 217-241).

  Conventions.
  * `strbuf_t* buf` is the address `buf`. `strbuf_t** buf_ptr` is modelled by the value it points to: `none` is
    `buf_ptr == NULL`, `some p` is `*buf_ptr == p` (`p = 0` is NULL). A function that writes `*buf_ptr` returns the new
    value. The pointer variable itself is not part of the modelled memory.
  * A function that allocates maps a state to a state; one that does not maps memory to memory.
-/
namespace CStr

/-- `sizeof(strbuf_t)`, which is also the offset of `cstr` (strbuf.h lines 235-241). -/
def hdrLen : Nat := 24

/-- `&buf->cstr[0]`. -/
def cstrOf (buf : Addr) : Addr := buf + hdrLen

/-- Load a `k` byte member at offset `off` of the header. -/
def getField (m : Mem) (buf : Addr) (off k : Nat) : Res Nat := do
  checkPtr buf
  let l ← readBytes m (buf + off) k
  .ok (leVal l)

/-- Store a `k` byte member at offset `off` of the header. -/
def setField (m : Mem) (buf : Addr) (off k : Nat) (v : Nat) : Res Mem := do
  checkPtr buf
  writeBytes m (buf + off) (leBytes k v)

/-- `buf->size`. -/
def getSize (m : Mem) (buf : Addr) : Res Int := do
  let n ← getField m buf 0 4
  .ok (toInt32 n)

/-- `buf->capacity`. -/
def getCap (m : Mem) (buf : Addr) : Res Int := do
  let n ← getField m buf 4 4
  .ok (toInt32 n)

/-- `buf->allocator`. -/
def getAlloc (m : Mem) (buf : Addr) : Res Alloc := do
  let a ← getField m buf 8 8
  let f ← getField m buf 16 8
  .ok ⟨a, f⟩

/-- `buf->size = v`. -/
def setSize (m : Mem) (buf : Addr) (v : Int) : Res Mem := setField m buf 0 4 (ofInt32 v)

/-- `buf->capacity = v`. -/
def setCap (m : Mem) (buf : Addr) (v : Int) : Res Mem := setField m buf 4 4 (ofInt32 v)

/-- `buf->allocator = al`. -/
def setAlloc (m : Mem) (buf : Addr) (al : Alloc) : Res Mem := do
  let m ← setField m buf 8 8 al.app
  setField m buf 16 8 al.fn

/-- strbuf.c lines 780-783: `buf_is_dynamic`. -/
def buf_is_dynamic (m : Mem) (buf : Addr) : Res Bool := do
  let f ← getField m buf 16 8
  .ok (decide (f ≠ 0))

/-- strbuf.c lines 785-789: `empty_buf`. -/
def empty_buf (m : Mem) (buf : Addr) : Res Mem := do
  let m ← setSize m buf 0
  store m (cstrOf buf) 0

/-- strbuf.c lines 791-796: `add_will_overflow_int`. -/
def add_will_overflow_int (cfg : Cfg) (a b : Int) : Res Bool := do
  let c ← addInt cfg a b
  .ok (decide ((a < 0 ↔ b < 0) ∧ ¬ (a < 0 ↔ c < 0)))

/-- strbuf.c lines 804-809: the loop of `view_contains_char`. -/
def view_contains_char_loop (m : Mem) (c : Byte) : Nat → View → Bool → Res Bool
  | 0, _, _ => .fuel
  | k + 1, view, retval =>
    if !retval ∧ view.size ≠ 0 then do
      let b ← load m view.data
      view_contains_char_loop m c k ⟨view.data + 1, view.size - 1⟩ (retval || b = c)
    else .ok retval

/-- strbuf.c lines 798-813: `view_contains_char`. -/
def view_contains_char (m : Mem) (view : View) (c : Byte) : Res Bool :=
  if strview_is_valid view then view_contains_char_loop m c (view.size.toNat + 1) view false
  else .ok false

/-- strbuf.c lines 775-778: `buf_contains_str`. -/
def buf_contains_str (m : Mem) (buf : Addr) (str : View) : Res Bool := do
  let size ← getSize m buf
  .ok (decide (cstrOf buf ≤ str.data ∧ str.data < cstrOf buf + size))

/-- strbuf.c lines 760-773: `round_up_capacity`. `%` on ints is `Int.tmod`. -/
def round_up_capacity (cfg : Cfg) (capacity : Int) : Res Int :=
  let remainder := capacity.tmod cfg.growStep
  if remainder ≠ 0 then do
    let ovf ← add_will_overflow_int cfg capacity (cfg.growStep - remainder)
    if !ovf then addInt cfg capacity (cfg.growStep - remainder)
    else .ok INT_MAX
  else .ok capacity

/-- strbuf.c lines 575-584: `strview_of_buf`. -/
def strview_of_buf (m : Mem) (buf : Addr) : Res View :=
  if buf ≠ 0 then do
    let size ← getSize m buf
    .ok ⟨cstrOf buf, size⟩
  else .ok .invalid

/-- strbuf.c lines 560-573: `create_buf`. The test `initial_capacity <= INT_MAX` is always true for an `int`. The
size passed to the allocator is computed in `size_t`. The result of the allocator is used without a check. -/
def create_buf (s : St) (initial_capacity : Int) (al : Alloc) : Res (Addr × St) := do
  let (buf, s) ← allocCall s al 0 ((hdrLen + sizeT initial_capacity + 1) % 18446744073709551616)
  let m ← setCap s.mem buf initial_capacity
  let m ← setAlloc m buf al
  let m ← empty_buf m buf
  .ok (buf, { s with mem := m })

/-- strbuf.c lines 704-710: `destroy_buf`. Returns the new state; `*buf_ptr` becomes NULL. -/
def destroy_buf (s : St) (buf : Addr) : Res St := do
  let dyn ← buf_is_dynamic s.mem buf
  if dyn then
    let al ← getAlloc s.mem buf
    let (_, s) ← allocCall s al buf 0
    .ok s
  else .ok s

/-- strbuf.c lines 712-728: `change_buf_capacity`. Returns the new `*buf_ptr`. -/
def change_buf_capacity (s : St) (buf : Addr) (new_capacity : Int) : Res (Addr × St) := do
  let dyn ← buf_is_dynamic s.mem buf
  if dyn then
    let size ← getSize s.mem buf
    let new_capacity := if new_capacity < size then size else new_capacity
    let cap ← getCap s.mem buf
    if new_capacity ≠ cap then
      let al ← getAlloc s.mem buf
      let (buf, s) ← allocCall s al buf ((hdrLen + sizeT new_capacity + 1) % 18446744073709551616)
      let m ← setCap s.mem buf new_capacity
      .ok (buf, { s with mem := m })
    else .ok (buf, s)
  else .ok (buf, s)

/-- The statement `if(buf_is_dynamic(buf) && buf->capacity < n) change_buf_capacity(&buf, round_up_capacity(n));`
which occurs with minor variations (order of the tests, `n > buf->capacity`) in strbuf.c lines 218-219, 399-400, 612-613,
665-666 and 743-744. -/
def ensure_capacity (cfg : Cfg) (s : St) (buf : Addr) (n : Int) : Res (Addr × St) := do
  let dyn ← buf_is_dynamic s.mem buf
  let cap ← getCap s.mem buf
  if dyn ∧ cap < n then
    let c ← round_up_capacity cfg n
    change_buf_capacity s buf c
  else .ok (buf, s)

/-- strbuf.c lines 654-659: the adjustment of `index` in `insert_strview_into_buf`. -/
def insert_index (cfg : Cfg) (size index : Int) : Res Int := do
  let index := if index > size then size else index
  let index ← if index < 0 then addInt cfg index size else .ok index
  .ok (if index < 0 then 0 else index)

/-- strbuf.c lines 684-686: the parts of a source inside the buffer after the move: `(left behind, shifted)`. -/
def insert_split (str : View) (move_src move_dst : Addr) : Res (View × View) := do
  let (left, shifted) ←
    if move_src > str.data then split_index str (move_src - str.data) else .ok (View.invalid, str)
  .ok (left, ⟨shifted.data + (move_dst - move_src), shifted.size⟩)

/-- strbuf.c lines 676-688: make the gap; returns memory and the two parts of the source. -/
def insert_gap (m : Mem) (buf : Addr) (size index : Int) (str : View) (src_in_dst : Bool) :
    Res (Mem × View × View) :=
  let move_src := cstrOf buf + index
  let move_dst := cstrOf buf + (index + str.size)
  if str.size ≠ 0 then do
    let m ← memmove m move_dst move_src (sizeT (size - index))
    if src_in_dst then
      let (left, shifted) ← insert_split str move_src move_dst
      .ok (m, left, shifted)
    else .ok (m, View.invalid, str)
  else .ok (m, View.invalid, str)

/-- strbuf.c lines 691-692 and 694-695: `if(part.size) memcpy(dst, part.data, part.size)`. -/
def copy_part (m : Mem) (dst : Addr) (part : View) : Res Mem :=
  if part.size ≠ 0 then memcpy m dst part.data (sizeT part.size) else .ok m

/-- strbuf.c lines 676-696: the part of `insert_strview_into_buf` that moves and copies bytes once there is room. -/
def insert_place (cfg : Cfg) (m : Mem) (buf : Addr) (index : Int) (str : View) (src_in_dst : Bool) : Res Mem := do
  let size ← getSize m buf
  let (m, left, shifted) ← insert_gap m buf size index str src_in_dst
  let newSize ← addInt cfg size str.size
  let m ← setSize m buf newSize
  let move_src := cstrOf buf + index
  let m ← copy_part m move_src left
  let m ← copy_part m (move_src + left.size) shifted
  let size ← getSize m buf
  store m (cstrOf buf + size) 0

/-- strbuf.c lines 643-702: `insert_strview_into_buf`. Returns the new `*buf_ptr`. -/
def insert_strview_into_buf (cfg : Cfg) (s : St) (buf : Addr) (index : Int) (str : View) : Res (Addr × St) := do
  let src_in_dst ← buf_contains_str s.mem buf str
  let src_offset := str.data - cstrOf buf
  let size ← getSize s.mem buf
  let index ← insert_index cfg size index
  let failed ← add_will_overflow_int cfg size str.size
  if !failed then
    let n ← addInt cfg size str.size
    let (buf', s) ← ensure_capacity cfg s buf n
    let str : View := if src_in_dst ∧ buf' ≠ buf then ⟨cstrOf buf' + src_offset, str.size⟩ else str
    let cap ← getCap s.mem buf'
    if cap < n then
      let m ← empty_buf s.mem buf'
      .ok (buf', { s with mem := m })
    else
      let m ← insert_place cfg s.mem buf' index str src_in_dst
      .ok (buf', { s with mem := m })
  else
    let m ← empty_buf s.mem buf
    .ok (buf, { s with mem := m })

/-- strbuf.c lines 730-734: `assign_strview_to_buf`. -/
def assign_strview_to_buf (cfg : Cfg) (s : St) (buf : Addr) (str : View) : Res (Addr × St) := do
  let m ← empty_buf s.mem buf
  insert_strview_into_buf cfg { s with mem := m } buf 0 str

/-- strbuf.c lines 736-758: `append_char_to_buf`. -/
def append_char_to_buf (cfg : Cfg) (s : St) (buf : Addr) (c : Byte) : Res (Addr × St) := do
  let size ← getSize s.mem buf
  let failed ← add_will_overflow_int cfg size 1
  if !failed then
    let n ← addInt cfg size 1
    let (buf, s) ← ensure_capacity cfg s buf n
    let cap ← getCap s.mem buf
    if cap < n then
      let m ← empty_buf s.mem buf
      .ok (buf, { s with mem := m })
    else
      let size ← getSize s.mem buf
      let m ← store s.mem (cstrOf buf + size) c
      let n ← addInt cfg size 1
      let m ← setSize m buf n
      let size ← getSize m buf
      let m ← store m (cstrOf buf + size) 0
      .ok (buf, { s with mem := m })
  else
    let m ← empty_buf s.mem buf
    .ok (buf, { s with mem := m })

/-- strbuf.c lines 598-604: the first loop of `buffer_vcat`: total size, whether it overflows, whether an argument
points into the buffer. The variable arguments are a list. -/
def vcat_scan (cfg : Cfg) (m : Mem) (dst : Addr) : List View → Int → Bool → Bool → Res (Int × Bool × Bool)
  | [], size_needed, failed, tmp => .ok (size_needed, failed, tmp)
  | str :: rest, size_needed, failed, tmp => do
    let o ← add_will_overflow_int cfg size_needed str.size
    let n ← addInt cfg size_needed str.size
    let c ← buf_contains_str m dst str
    vcat_scan cfg m dst rest n (failed || o) (tmp || c)

/-- strbuf.c lines 622-624: the second loop of `buffer_vcat`. -/
def vcat_insert (cfg : Cfg) (s : St) (build : Addr) : List View → Res (Addr × St)
  | [] => .ok (build, s)
  | str :: rest => do
    let size ← getSize s.mem build
    let (build, s) ← insert_strview_into_buf cfg s build size str
    vcat_insert cfg s build rest

/-- strbuf.c lines 608-616: the choice of the buffer to build in. Returns `(build_buf, dst_buf, state)`. -/
def vcat_prepare (cfg : Cfg) (s : St) (dst : Addr) (size_needed : Int) (tmp : Bool) : Res (Addr × Addr × St) := do
  let dyn ← buf_is_dynamic s.mem dst
  if tmp ∧ dyn then
    let al ← getAlloc s.mem dst
    let (b, s) ← create_buf s size_needed al
    .ok (b, dst, s)
  else
    let (dst, s) ← ensure_capacity cfg s dst size_needed
    let m ← empty_buf s.mem dst
    .ok (dst, dst, { s with mem := m })

/-- strbuf.c lines 618-626: build the concatenation if there is room. -/
def vcat_build (cfg : Cfg) (s : St) (build : Addr) (size_needed : Int) (tmp : Bool) (args : List View) :
    Res (Addr × St) := do
  let dyn ← buf_is_dynamic s.mem build
  if dyn ∨ !tmp then
    let cap ← getCap s.mem build
    if size_needed ≤ cap then vcat_insert cfg s build args
    else .ok (build, s)
  else .ok (build, s)

/-- strbuf.c lines 628-632: move the result from the temporary buffer. Without a temporary buffer `build_buf` and
`dst_buf` are the same buffer: after `vcat_build` the C code goes on with the value `dst_buf` had before the insertions. -/
def vcat_finish (cfg : Cfg) (s : St) (build dst : Addr) (tmp : Bool) : Res (Addr × St) := do
  let dyn ← buf_is_dynamic s.mem build
  if tmp ∧ dyn then
    let v ← strview_of_buf s.mem build
    let (dst, s) ← assign_strview_to_buf cfg s dst v
    let s ← destroy_buf s build
    .ok (dst, s)
  else .ok (dst, s)

/-- strbuf.c lines 586-641: `buffer_vcat`. -/
def buffer_vcat (cfg : Cfg) (s : St) (dst : Addr) (args : List View) : Res (View × Addr × St) := do
  let (size_needed, failed, tmp) ← vcat_scan cfg s.mem dst args 0 false false
  if !failed then
    let (build, dst, s) ← vcat_prepare cfg s dst size_needed tmp
    let (build, s) ← vcat_build cfg s build size_needed tmp args
    let (dst, s) ← vcat_finish cfg s build dst tmp
    let v ← strview_of_buf s.mem dst
    .ok (v, dst, s)
  else
    let m ← empty_buf s.mem dst
    let v ← strview_of_buf m dst
    .ok (v, dst, { s with mem := m })

/-- The value `*buf_ptr` of a `strbuf_t** buf_ptr` that is not NULL and points to a non-NULL pointer: the guard
`if(buf_ptr && *buf_ptr)` of every public function. -/
def deref (buf_ptr : Option Addr) : Option Addr :=
  match buf_ptr with
  | none => none
  | some p => if p = 0 then none else some p

/-- Result of a public function: the returned view, the new `*buf_ptr`, the new state. -/
abbrev BufRes := Res (View × Option Addr × St)

/-- strbuf.c lines 141-158: `_strbuf_cat` and `strbuf_vcat`. -/
def strbuf_cat (cfg : Cfg) (s : St) (buf_ptr : Option Addr) (args : List View) : BufRes :=
  match deref buf_ptr with
  | some buf => do
    let (v, b, s) ← buffer_vcat cfg s buf args
    .ok (v, some b, s)
  | none => .ok (.invalid, buf_ptr, s)

/-- An allocator argument `strbuf_allocator_t* allocator`: `none` is NULL (strbuf.c lines 87-88, 101-102 then take the
default allocator). -/
def pickAlloc (dflt : Alloc) (allocator : Option Alloc) : Alloc := allocator.getD dflt

/-- strbuf.c lines 83-95: `strbuf_create_empty`. `dflt` is `strbuf_default_allocator`, which has a NULL function
when the library is built without `STRBUF_DEFAULT_ALLOCATOR_STDLIB` (strbuf.c lines 77-81). -/
def strbuf_create_empty (dflt : Alloc) (s : St) (initial_capacity : Nat) (allocator : Option Alloc) :
    Res (Addr × St) :=
  let al := pickAlloc dflt allocator
  if al.fn ≠ 0 ∧ (initial_capacity : Int) ≤ INT_MAX then create_buf s initial_capacity al
  else .ok (0, s)

/-- strbuf.c lines 97-112: `strbuf_create_init`. -/
def strbuf_create_init (cfg : Cfg) (dflt : Alloc) (s : St) (initial_content : View) (allocator : Option Alloc) :
    Res (Addr × St) :=
  let al := pickAlloc dflt allocator
  if al.fn ≠ 0 then do
    let (buf, s) ← create_buf s initial_content.size al
    insert_strview_into_buf cfg s buf 0 initial_content
  else .ok (0, s)

/-- strbuf.c lines 114-138: `strbuf_create_fixed`. -/
def strbuf_create_fixed (m : Mem) (addr : Addr) (addr_size : Nat) : Res (Addr × Mem) :=
  if addr_size > hdrLen ∧ addr ≠ 0 then
    let capacity := addr_size - hdrLen - 1
    if addr % 8 = 0 then do
      let m ← setField m addr 8 8 0
      let m ← setField m addr 16 8 0
      let m ← setCap m addr (if (capacity : Int) ≤ INT_MAX then capacity else INT_MAX)
      let m ← setSize m addr 0
      let m ← empty_buf m addr
      .ok (addr, m)
    else .ok (0, m)
  else .ok (0, m)

/-- strbuf.c lines 308-314: `strbuf_view`. -/
def strbuf_view (m : Mem) (buf_ptr : Option Addr) : Res View :=
  match deref buf_ptr with
  | some buf => strview_of_buf m buf
  | none => .ok .invalid

/-- strbuf.c lines 316-325: `strbuf_append_char`. -/
def strbuf_append_char (cfg : Cfg) (s : St) (buf_ptr : Option Addr) (c : Byte) : BufRes :=
  match deref buf_ptr with
  | some buf => do
    let (buf, s) ← append_char_to_buf cfg s buf c
    let v ← strview_of_buf s.mem buf
    .ok (v, some buf, s)
  | none => .ok (.invalid, buf_ptr, s)

/-- strbuf.c lines 328-338: `strbuf_shrink`. -/
def strbuf_shrink (s : St) (buf_ptr : Option Addr) : BufRes :=
  match deref buf_ptr with
  | some buf => do
    let dyn ← buf_is_dynamic s.mem buf
    if dyn then
      let size ← getSize s.mem buf
      let (buf, s) ← change_buf_capacity s buf size
      let v ← strview_of_buf s.mem buf
      .ok (v, some buf, s)
    else
      let v ← strview_of_buf s.mem buf
      .ok (v, some buf, s)
  | none => .ok (.invalid, buf_ptr, s)

/-- strbuf.c lines 341-354: `strbuf_grow`. -/
def strbuf_grow (s : St) (buf_ptr : Option Addr) (min_size : Int) : BufRes :=
  match deref buf_ptr with
  | some buf => do
    let dyn ← buf_is_dynamic s.mem buf
    if dyn then
      let cap ← getCap s.mem buf
      if min_size > cap then
        let (buf, s) ← change_buf_capacity s buf min_size
        let v ← strview_of_buf s.mem buf
        .ok (v, some buf, s)
      else
        let v ← strview_of_buf s.mem buf
        .ok (v, some buf, s)
    else .ok (.invalid, some buf, s)
  | none => .ok (.invalid, buf_ptr, s)

/-- strbuf.c lines 356-364: `strbuf_destroy`. Returns the new `*buf_ptr` and state. -/
def strbuf_destroy (s : St) (buf_ptr : Option Addr) : Res (Option Addr × St) :=
  match buf_ptr with
  | none => .ok (none, s)
  | some buf =>
    if buf ≠ 0 then do
      let dyn ← buf_is_dynamic s.mem buf
      if dyn then
        let s ← destroy_buf s buf
        .ok (some 0, s)
      else .ok (some 0, s)
    else .ok (some 0, s)

/-- strbuf.c lines 366-387: `strbuf_to_cstr`. Returns the string, the new `*buf_ptr` and the state. -/
def strbuf_to_cstr (cfg : Cfg) (s : St) (buf_ptr : Option Addr) : Res (Addr × Option Addr × St) :=
  match deref buf_ptr with
  | some buf => do
    let len ← getSize s.mem buf
    let dyn ← buf_is_dynamic s.mem buf
    if dyn then
      let al ← getAlloc s.mem buf
      let m ← memmove s.mem buf (cstrOf buf) (sizeT len)
      let n ← addInt cfg len 1
      let (str, s) ← allocCall { s with mem := m } al buf (sizeT n)
      let m ← store s.mem (str + len) 0
      .ok (str, some 0, { s with mem := m })
    else
      let m ← store s.mem (cstrOf buf + len) 0
      .ok (cstrOf buf, some 0, { s with mem := m })
  | none => .ok (0, buf_ptr, s)

/-- strbuf.c lines 389-416: `strbuf_assign`. -/
def strbuf_assign (cfg : Cfg) (s : St) (buf_ptr : Option Addr) (str : View) : BufRes :=
  match deref buf_ptr with
  | some buf => do
    if strview_is_valid str then
      let (buf, s) ← ensure_capacity cfg s buf str.size
      let cap ← getCap s.mem buf
      if str.size ≤ cap then
        let m ← memmove s.mem (cstrOf buf) str.data (sizeT str.size)
        let m ← setSize m buf str.size
        let size ← getSize m buf
        let m ← store m (cstrOf buf + size) 0
        let v ← strview_of_buf m buf
        .ok (v, some buf, { s with mem := m })
      else
        let m ← empty_buf s.mem buf
        let v ← strview_of_buf m buf
        .ok (v, some buf, { s with mem := m })
    else
      let m ← empty_buf s.mem buf
      let v ← strview_of_buf m buf
      .ok (v, some buf, { s with mem := m })
  | none => .ok (.invalid, buf_ptr, s)

/-- `return buf_ptr ? strview_of_buf(*buf_ptr) : STRVIEW_INVALID;` after an insertion at `index`. -/
def insert_and_view (cfg : Cfg) (s : St) (buf : Addr) (index : Int) (str : View) : BufRes := do
  let (buf, s) ← insert_strview_into_buf cfg s buf index str
  let v ← strview_of_buf s.mem buf
  .ok (v, some buf, s)

/-- The same `return` statement when the guard `buf_ptr && *buf_ptr` failed. -/
def view_or_invalid (s : St) (buf_ptr : Option Addr) : BufRes :=
  match buf_ptr with
  | none => .ok (.invalid, none, s)
  | some p => do
    let v ← strview_of_buf s.mem p
    .ok (v, some p, s)

/-- strbuf.c lines 418-423: `strbuf_append_strview`. -/
def strbuf_append_strview (cfg : Cfg) (s : St) (buf_ptr : Option Addr) (str : View) : BufRes :=
  match deref buf_ptr with
  | some buf => do
    let size ← getSize s.mem buf
    insert_and_view cfg s buf size str
  | none => view_or_invalid s buf_ptr

/-- strbuf.c lines 425-428: `strbuf_append_cstr`. -/
def strbuf_append_cstr (cfg : Cfg) (s : St) (buf_ptr : Option Addr) (str : Addr) : BufRes := do
  let v ← cstr s.mem str
  strbuf_append_strview cfg s buf_ptr v

/-- A callback for `strbuf_append_using` (strbuf.h lines 556-571): from the memory, `dst` and `dst_size` it determines
the bytes it writes from `dst` on and its return value. (Bytes it leaves alone can be described as rewritten.) -/
abbrev Fetcher := Mem → Addr → Int → List Byte × Int

/-- Calling the callback. Writing more than `dst_size` bytes breaks the callback's contract. -/
def callFetcher (f : Fetcher) (m : Mem) (dst : Addr) (dst_size : Int) : Res (Int × Mem) :=
  let (l, r) := f m dst dst_size
  if (l.length : Int) ≤ dst_size ∧ INT_MIN ≤ r ∧ r ≤ INT_MAX then do
    let m ← writeBytes m dst l
    .ok (r, m)
  else .env .callback

/-- strbuf.c lines 430-454: `strbuf_append_using`. -/
def strbuf_append_using (cfg : Cfg) (s : St) (buf_ptr : Option Addr) (f : Fetcher) : BufRes :=
  match deref buf_ptr with
  | some buf => do
    let cap ← getCap s.mem buf
    let size ← getSize s.mem buf
    let available_space ← addInt cfg cap (-size)
    let (bytes_appended, m) ← callFetcher f s.mem (cstrOf buf + size) available_space
    if bytes_appended < 0 ∨ bytes_appended > available_space then
      let m ← empty_buf m buf
      .ok (.invalid, some buf, { s with mem := m })
    else
      let size ← getSize m buf
      let n ← addInt cfg size bytes_appended
      let m ← setSize m buf n
      let size ← getSize m buf
      let m ← store m (cstrOf buf + size) 0
      let v ← strview_of_buf m buf
      .ok (v, some buf, { s with mem := m })
  | none => .ok (.invalid, buf_ptr, s)

/-- strbuf.c lines 456-461: `strbuf_prepend_strview`. -/
def strbuf_prepend_strview (cfg : Cfg) (s : St) (buf_ptr : Option Addr) (str : View) : BufRes :=
  match deref buf_ptr with
  | some buf => insert_and_view cfg s buf 0 str
  | none => view_or_invalid s buf_ptr

/-- strbuf.c lines 463-466: `strbuf_prepend_cstr`. -/
def strbuf_prepend_cstr (cfg : Cfg) (s : St) (buf_ptr : Option Addr) (str : Addr) : BufRes := do
  let v ← cstr s.mem str
  strbuf_prepend_strview cfg s buf_ptr v

/-- strbuf.c lines 468-473: `strbuf_insert_at_index_strview`. -/
def strbuf_insert_at_index_strview (cfg : Cfg) (s : St) (buf_ptr : Option Addr) (index : Int) (str : View) : BufRes :=
  match deref buf_ptr with
  | some buf => insert_and_view cfg s buf index str
  | none => view_or_invalid s buf_ptr

/-- strbuf.c lines 475-478: `strbuf_insert_at_index_cstr`. -/
def strbuf_insert_at_index_cstr (cfg : Cfg) (s : St) (buf_ptr : Option Addr) (index : Int) (str : Addr) : BufRes := do
  let v ← cstr s.mem str
  strbuf_insert_at_index_strview cfg s buf_ptr index v

/-- strbuf.c lines 480-493: `strbuf_insert_before_strview`. -/
def strbuf_insert_before_strview (cfg : Cfg) (s : St) (buf_ptr : Option Addr) (dst src : View) : BufRes :=
  match deref buf_ptr with
  | some buf => do
    let size ← getSize s.mem buf
    if cstrOf buf ≤ dst.data ∧ dst.data ≤ cstrOf buf + size then
      insert_and_view cfg s buf (dst.data - cstrOf buf) src
    else view_or_invalid s (some buf)
  | none => view_or_invalid s buf_ptr

/-- strbuf.c lines 495-498: `strbuf_insert_before_cstr`. -/
def strbuf_insert_before_cstr (cfg : Cfg) (s : St) (buf_ptr : Option Addr) (dst : View) (src : Addr) : BufRes := do
  let v ← cstr s.mem src
  strbuf_insert_before_strview cfg s buf_ptr dst v

/-- strbuf.c lines 500-516: `strbuf_insert_after_strview`. -/
def strbuf_insert_after_strview (cfg : Cfg) (s : St) (buf_ptr : Option Addr) (dst src : View) : BufRes :=
  match deref buf_ptr with
  | some buf =>
    if strview_is_valid dst then do
      let dst_ptr := dst.data + dst.size
      let size ← getSize s.mem buf
      if cstrOf buf ≤ dst_ptr ∧ dst_ptr ≤ cstrOf buf + size then
        insert_and_view cfg s buf (dst_ptr - cstrOf buf) src
      else view_or_invalid s (some buf)
    else view_or_invalid s (some buf)
  | none => view_or_invalid s buf_ptr

/-- strbuf.c lines 518-521: `strbuf_insert_after_cstr`. -/
def strbuf_insert_after_cstr (cfg : Cfg) (s : St) (buf_ptr : Option Addr) (dst : View) (src : Addr) : BufRes := do
  let v ← cstr s.mem src
  strbuf_insert_after_strview cfg s buf_ptr dst v

/-- strbuf.c lines 534-544: the loop of `strbuf_strip_strview`. -/
def strip_loop (cfg : Cfg) (stripchars : View) (buf : Addr) : Nat → Mem → Addr → Int → Res Mem
  | 0, _, _, _ => .fuel
  | k + 1, m, ptr, count =>
    if count ≠ 0 then do
      let b ← load m ptr
      let c ← view_contains_char m stripchars b
      if c then
        let m ← memmove m ptr (ptr + 1) (sizeT count)
        let size ← getSize m buf
        let n ← addInt cfg size (-1)
        let m ← setSize m buf n
        strip_loop cfg stripchars buf k m ptr (count - 1)
      else strip_loop cfg stripchars buf k m (ptr + 1) (count - 1)
    else .ok m

/-- strbuf.c lines 523-549: `strbuf_strip_strview`. -/
def strbuf_strip_strview (cfg : Cfg) (s : St) (buf_ptr : Option Addr) (stripchars : View) : BufRes :=
  match deref buf_ptr with
  | some buf =>
    if strview_is_valid stripchars then do
      let count ← getSize s.mem buf
      let m ← strip_loop cfg stripchars buf (count.toNat + 1) s.mem (cstrOf buf) count
      view_or_invalid { s with mem := m } (some buf)
    else view_or_invalid s (some buf)
  | none => view_or_invalid s buf_ptr

/-- strbuf.c lines 551-554: `strbuf_strip_cstr`. -/
def strbuf_strip_cstr (cfg : Cfg) (s : St) (buf_ptr : Option Addr) (stripchars : Addr) : BufRes := do
  let v ← cstr s.mem stripchars
  strbuf_strip_strview cfg s buf_ptr v

/-- Outcome of formatting: the text, or an error with a negative return value after writing some bytes. -/
inductive FmtOut where
  | text (l : List Byte)
  | error (ret : Int) (written : List Byte)
  deriving DecidableEq

/-- A format string with its arguments: the outcome may depend on the memory the arguments point to. -/
abbrev Fmt := Mem → FmtOut

/-- C library `vsnprintf(dst, n, ...)` (C11 7.21.6.12): writes at most `n` bytes, always terminated if `n > 0`, and returns the
length of the whole text, or a negative value on error. A text longer than `INT_MAX` cannot be reported and
must be an error. -/
def vsnprintf (m : Mem) (dst : Addr) (n : Nat) (fmt : Fmt) : Res (Int × Mem) :=
  match fmt m with
  | .text l =>
    if (l.length : Int) ≤ INT_MAX then
      if n = 0 then .ok (l.length, m)
      else do
        let m ← writeBytes m dst (l.take (n - 1) ++ [0])
        .ok (l.length, m)
    else .env .format
  | .error r w =>
    if INT_MIN ≤ r ∧ r < 0 then
      if n = 0 then .ok (r, m)
      else do
        let m ← writeBytes m dst (w.take (n - 1) ++ [0])
        .ok (r, m)
    else .env .format

/-- strbuf.c lines 199-234: `strbuf_append_vprintf` (and `strbuf_append_printf`, lines 185-196). -/
def strbuf_append_printf (cfg : Cfg) (s : St) (buf_ptr : Option Addr) (fmt : Fmt) : BufRes :=
  match deref buf_ptr with
  | some buf => do
    let size ← getSize s.mem buf
    let (append_size, _) ← vsnprintf s.mem 0 0 fmt
    let failed ← add_will_overflow_int cfg size append_size
    if !failed then
      let size ← addInt cfg size append_size
      let (buf, s) ← ensure_capacity cfg s buf size
      let cap ← getCap s.mem buf
      if size > cap then
        let m ← empty_buf s.mem buf
        let v ← strview_of_buf m buf
        .ok (v, some buf, { s with mem := m })
      else
        let size ← getSize s.mem buf
        let space ← addInt cfg cap (-size)
        let space ← addInt cfg space 1
        let (n, m) ← vsnprintf s.mem (cstrOf buf + size) (sizeT space) fmt
        let size ← getSize m buf
        let size ← addInt cfg size n
        let m ← setSize m buf size
        let v ← strview_of_buf m buf
        .ok (v, some buf, { s with mem := m })
    else
      let m ← empty_buf s.mem buf
      let v ← strview_of_buf m buf
      .ok (v, some buf, { s with mem := m })
  | none => .ok (.invalid, buf_ptr, s)

/-- strbuf.c lines 161-183: `strbuf_printf` and `strbuf_vprintf`. -/
def strbuf_printf (cfg : Cfg) (s : St) (buf_ptr : Option Addr) (fmt : Fmt) : BufRes :=
  match deref buf_ptr with
  | some buf => do
    let m ← empty_buf s.mem buf
    strbuf_append_printf cfg { s with mem := m } (some buf) fmt
  | none => .ok (.invalid, buf_ptr, s)

/-- The characters `vfptrprnf` passes to its handler, one call per character (strbuf.c lines 816-819). -/
def prnf_chars (cfg : Cfg) (s : St) (buf : Addr) : List Byte → Res (Addr × St)
  | [] => .ok (buf, s)
  | c :: l => do
    let (buf, s) ← append_char_to_buf cfg s buf c
    prnf_chars cfg s buf l

/-- strbuf.c lines 285-304: `strbuf_append_vprnf` (and `strbuf_append_prnf`, lines 272-283). `text` are the characters
the formatter emits; it returns their number, which must fit an `int`. -/
def strbuf_append_prnf (cfg : Cfg) (s : St) (buf_ptr : Option Addr) (text : List Byte) : BufRes :=
  match deref buf_ptr with
  | some buf => do
    let char_count ← getSize s.mem buf
    let (buf, s) ← prnf_chars cfg s buf text
    if (text.length : Int) ≤ INT_MAX then
      let char_count ← addInt cfg char_count text.length
      let size ← getSize s.mem buf
      if char_count > size ∨ char_count < 0 then
        let m ← empty_buf s.mem buf
        let v ← strview_of_buf m buf
        .ok (v, some buf, { s with mem := m })
      else
        let v ← strview_of_buf s.mem buf
        .ok (v, some buf, s)
    else .env .format
  | none => .ok (.invalid, buf_ptr, s)

/-- strbuf.c lines 238-270: `strbuf_prnf` and `strbuf_vprnf`. -/
def strbuf_prnf (cfg : Cfg) (s : St) (buf_ptr : Option Addr) (text : List Byte) : BufRes :=
  match deref buf_ptr with
  | some buf => do
    let m ← empty_buf s.mem buf
    let (buf, s) ← prnf_chars cfg { s with mem := m } buf text
    if (text.length : Int) ≤ INT_MAX then
      let size ← getSize s.mem buf
      if (text.length : Int) > size then
        let m ← empty_buf s.mem buf
        let v ← strview_of_buf m buf
        .ok (v, some buf, { s with mem := m })
      else
        let v ← strview_of_buf s.mem buf
        .ok (v, some buf, s)
    else .env .format
  | none => .ok (.invalid, buf_ptr, s)

/-- strbuf.h lines 87-116: memory initialised by `STRBUF_STATIC_INIT(cap)` or `STRBUF_FIXED_CAP(cap)`: the header fields and
`cap + 1` zero bytes (members without initialiser are zero, C11 6.7.9p21). -/
def fixedInit (cap : Nat) : List Byte :=
  leBytes 4 0 ++ leBytes 4 cap ++ leBytes 8 0 ++ leBytes 8 0 ++ List.replicate (cap + 1) 0

end CStr
