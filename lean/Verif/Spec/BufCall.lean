import Verif.Spec.BufOp
/-
  The public functions that modify a buffer as one type of calls, and which abstract operation (Spec/BufOp.lean) a call stands for.
-/
namespace CStr

/-- A call of a public function that modifies a buffer, without the buffer argument. -/
inductive BufOp where
  | append (v : View)
  | appendCstr (a : Addr)
  | prepend (v : View)
  | prependCstr (a : Addr)
  | insertAtIndex (i : Int) (v : View)
  | insertAtIndexCstr (i : Int) (a : Addr)
  | insertBefore (dst v : View)
  | insertBeforeCstr (dst : View) (a : Addr)
  | insertAfter (dst v : View)
  | insertAfterCstr (dst : View) (a : Addr)
  | assign (v : View)
  | cat (vs : List View)
  | strip (v : View)
  | stripCstr (a : Addr)
  | appendChar (c : Byte)
  | shrink
  | grow (n : Int)
  | appendUsing (f : Fetcher)
  | printf (fmt : Fmt)
  | appendPrintf (fmt : Fmt)
  | prnf (text : List Byte)
  | appendPrnf (text : List Byte)

/-- The call. -/
def BufOp.run (cfg : Cfg) (s : St) (bp : Option Addr) : BufOp → BufRes
  | .append v => strbuf_append_strview cfg s bp v
  | .appendCstr a => strbuf_append_cstr cfg s bp a
  | .prepend v => strbuf_prepend_strview cfg s bp v
  | .prependCstr a => strbuf_prepend_cstr cfg s bp a
  | .insertAtIndex i v => strbuf_insert_at_index_strview cfg s bp i v
  | .insertAtIndexCstr i a => strbuf_insert_at_index_cstr cfg s bp i a
  | .insertBefore dst v => strbuf_insert_before_strview cfg s bp dst v
  | .insertBeforeCstr dst a => strbuf_insert_before_cstr cfg s bp dst a
  | .insertAfter dst v => strbuf_insert_after_strview cfg s bp dst v
  | .insertAfterCstr dst a => strbuf_insert_after_cstr cfg s bp dst a
  | .assign v => strbuf_assign cfg s bp v
  | .cat vs => strbuf_cat cfg s bp vs
  | .strip v => strbuf_strip_strview cfg s bp v
  | .stripCstr a => strbuf_strip_cstr cfg s bp a
  | .appendChar c => strbuf_append_char cfg s bp c
  | .shrink => strbuf_shrink s bp
  | .grow n => strbuf_grow s bp n
  | .appendUsing f => strbuf_append_using cfg s bp f
  | .printf fmt => strbuf_printf cfg s bp fmt
  | .appendPrintf fmt => strbuf_append_printf cfg s bp fmt
  | .prnf t => strbuf_prnf cfg s bp t
  | .appendPrnf t => strbuf_append_prnf cfg s bp t

/-- The characters for `strip` and formatted output must be outside the buffer. -/
def Outside (p : Addr) (b : Buf) (a : Addr) (n : Nat) : Prop := a + n ≤ p ∨ p + storage b.cap ≤ a

/-- In state `s`, on the buffer `b` at `p`, the arguments of the call are legitimate and it stands for the given abstract operation. -/
inductive Means (s : St) (p : Addr) (b : Buf) : BufOp → Edit → Prop
  | append {v S} (h : Source s p b v S) : Means s p b (.append v) (.insert b.data.length S)
  | appendCstr {a S} (h : CString s.mem a S) (h' : Source s p b ⟨a, S.length⟩ S) :
      Means s p b (.appendCstr a) (.insert b.data.length S)
  | prepend {v S} (h : Source s p b v S) : Means s p b (.prepend v) (.insert 0 S)
  | prependCstr {a S} (h : CString s.mem a S) (h' : Source s p b ⟨a, S.length⟩ S) : Means s p b (.prependCstr a) (.insert 0 S)
  | insertAtIndex {i v S} (h : Source s p b v S) : Means s p b (.insertAtIndex i v) (.insert i S)
  | insertAtIndexCstr {i a S} (h : CString s.mem a S) (h' : Source s p b ⟨a, S.length⟩ S) :
      Means s p b (.insertAtIndexCstr i a) (.insert i S)
  | insertBefore {dst v : View} {k : Nat} {S} (hk : k ≤ b.data.length) (hd : dst.data = p + 24 + k) (h : Source s p b v S) :
      Means s p b (.insertBefore dst v) (.insert k S)
  | insertBeforeNowhere {dst v : View} (hd : dst.data < p + 24 ∨ p + 24 + b.data.length < dst.data) :
      Means s p b (.insertBefore dst v) .keep
  | insertBeforeCstr {dst : View} {k : Nat} {a S} (hk : k ≤ b.data.length) (hd : dst.data = p + 24 + k)
      (h : CString s.mem a S) (h' : Source s p b ⟨a, S.length⟩ S) : Means s p b (.insertBeforeCstr dst a) (.insert k S)
  | insertBeforeCstrNowhere {dst : View} {a S} (hd : dst.data < p + 24 ∨ p + 24 + b.data.length < dst.data) (h : CString s.mem a S) :
      Means s p b (.insertBeforeCstr dst a) .keep
  | insertAfter {dst v : View} {k : Nat} {S} (hk : k ≤ b.data.length) (h0 : dst.data ≠ 0) (hd : dst.data + dst.size = p + 24 + k)
      (h : Source s p b v S) : Means s p b (.insertAfter dst v) (.insert k S)
  | insertAfterNowhere {dst v : View}
      (hd : dst.data = 0 ∨ dst.data + dst.size < p + 24 ∨ p + 24 + b.data.length < dst.data + dst.size) :
      Means s p b (.insertAfter dst v) .keep
  | insertAfterCstr {dst : View} {k : Nat} {a S} (hk : k ≤ b.data.length) (h0 : dst.data ≠ 0) (hd : dst.data + dst.size = p + 24 + k)
      (h : CString s.mem a S) (h' : Source s p b ⟨a, S.length⟩ S) : Means s p b (.insertAfterCstr dst a) (.insert k S)
  | insertAfterCstrNowhere {dst : View} {a S}
      (hd : dst.data = 0 ∨ dst.data + dst.size < p + 24 ∨ p + 24 + b.data.length < dst.data + dst.size) (h : CString s.mem a S) :
      Means s p b (.insertAfterCstr dst a) .keep
  | assign {v S} (h : Source s p b v S) (hv : 0 < v.data) : Means s p b (.assign v) (.assign S)
  | assignInvalid {v} (hv : v.data = 0) : Means s p b (.assign v) (.assign [])
  | cat {args : List (View × List Byte)} (h : ∀ a ∈ args, Source s p b a.1 a.2) :
      Means s p b (.cat (args.map (·.1))) (.cat (args.map (·.2)) (decide (∃ a ∈ args, a.1.Into p b)))
  | strip {v chars} (h : ViewOf s.mem v chars) (ho : chars = [] ∨ Outside p b v.data chars.length) :
      Means s p b (.strip v) (.strip chars)
  | stripInvalid {v} (hv : v.data = 0) : Means s p b (.strip v) (.strip [])
  | stripCstr {a chars} (h : CString s.mem a chars) (ho : Outside p b a chars.length) : Means s p b (.stripCstr a) (.strip chars)
  | appendChar {c} : Means s p b (.appendChar c) (.appendChar c)
  | shrink : Means s p b .shrink .shrink
  | grow {n} : Means s p b (.grow n) (.grow n)
  | appendUsing {f : Fetcher} {l : List Byte} {r : Nat}
      (hf : f s.mem (p + 24 + b.data.length) ((b.cap - b.data.length : Nat) : Int) = (l, (r : Int)))
      (hl : b.data.length + l.length ≤ b.cap) (hr : r ≤ l.length) : Means s p b (.appendUsing f) (.appendUsing (l.take r))
  | usingFault {f : Fetcher} {l : List Byte} {r : Int}
      (hf : f s.mem (p + 24 + b.data.length) ((b.cap - b.data.length : Nat) : Int) = (l, r))
      (hl : b.data.length + l.length ≤ b.cap) (hr : r < 0 ∨ (b.cap : Int) < b.data.length + r)
      (h1 : INT_MIN ≤ r) (h2 : r ≤ INT_MAX) : Means s p b (.appendUsing f) .usingFault
  | printf {fmt : Fmt} {l} (hf : fmt.Gives s p (storage b.cap) l) : Means s p b (.printf fmt) (.printf l)
  | appendPrintf {fmt : Fmt} {l} (hf : fmt.Gives s p (storage b.cap) l) : Means s p b (.appendPrintf fmt) (.appendPrintf l)
  | prnf {t} : Means s p b (.prnf t) (.prnf t)
  | appendPrnf {t} : Means s p b (.appendPrnf t) (.appendPrnf t)

/-- The outcome that every operation has: the abstract result, nothing else changed, the view of the new content (or, where the
operation says so, an invalid view) returned. For a dynamic buffer the allocator may give an illegal answer. -/
def Does (s : St) (p : Addr) (b : Buf) (r : BufRes) (b' : Buf) (view : Prop) [Decidable view] : Prop :=
  (b.Dynamic ∧ r = .env .alloc) ∨
  ∃ p' s', r = .ok (if view then ⟨p' + 24, b'.data.length⟩ else .invalid, some p', s') ∧ b'.al = b.al ∧
    Changed s p b b'.data b'.cap p' s'

end CStr
