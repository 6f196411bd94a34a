import Verif.Spec.Escape
import Verif.Lemmas.BufLog
/-! What allocator functions find when they are called: for most functions, the state at entry. -/
namespace CStr

/-- There has been at most one call, and it has found the state `s`. -/
def First (s s' : St) : Prop := (s'.log = s.log ∧ s'.moments = s.moments) ∨
  ∃ c : Call, s'.log = c :: s.log ∧ s'.moments = ⟨s.mem, s.live, c.size⟩ :: s.moments

theorem First.refl (s : St) : First s s := .inl ⟨rfl, rfl⟩

theorem First.mem {s s' : St} (h : First s s') (m : Mem) : First s { s' with mem := m } := h

theorem allocCall_first (s : St) (al : Alloc) (ptr : Addr) (size : Nat) : Res.Sat (fun r => First s r.2) (allocCall s al ptr size) := by
  refine ⟨fun r e => ?_⟩
  simp only [allocCall] at e
  split at e
  · cases e
  · split at e
    · cases e
    · split at e
      · cases e; exact .inr ⟨_, rfl, rfl⟩
      · split at e
        · cases e; exact .inr ⟨_, rfl, rfl⟩
        · split at e
          · cases e; exact .inr ⟨_, rfl, rfl⟩
          · cases e

/-- Walk through a function whose only call has been made. -/
macro "fwalk" : tactic => `(tactic| repeat' (with_reducible first
  | assumption
  | exact Res.Sat.env
  | exact Res.Sat.ok (by assumption)
  | exact Res.Sat.ok (First.refl _)
  | exact Res.Sat.ok (First.mem (by assumption) _)
  | exact Res.Sat.ok (First.mem (First.refl _) _)
  | (apply Res.Sat.bind; intro _ _)
  | split))

theorem create_buf_first {s : St} (c : Int) (al : Alloc) : Res.Sat (fun r => First s r.2) (create_buf s c al) := by
  rw [create_buf]
  refine Res.Sat.bind' (allocCall_first s _ _ _) ?_
  intro r hr
  fwalk

theorem destroy_buf_first {s : St} (p : Addr) : Res.Sat (First s) (destroy_buf s p) := by
  rw [destroy_buf]
  with_reducible apply Res.Sat.bind; intro _ _; split
  · with_reducible apply Res.Sat.bind; intro _ _
    refine Res.Sat.bind' (allocCall_first s _ _ _) ?_
    intro r hr; fwalk
  · fwalk

theorem change_buf_capacity_first {s : St} (p : Addr) (c : Int) :
    Res.Sat (fun r => First s r.2) (change_buf_capacity s p c) := by
  rw [change_buf_capacity]
  with_reducible apply Res.Sat.bind; intro _ _; split
  · with_reducible apply Res.Sat.bind; intro _ _
    with_reducible apply Res.Sat.bind; intro _ _
    generalize (if c < _ then _ else c) = c'
    split
    · with_reducible apply Res.Sat.bind; intro _ _
      refine Res.Sat.bind' (allocCall_first s _ _ _) ?_
      intro r hr; fwalk
    · fwalk
  · fwalk

theorem ensure_capacity_first {cfg : Cfg} {s : St} (p : Addr) (n : Int) :
    Res.Sat (fun r => First s r.2) (ensure_capacity cfg s p n) := by
  rw [ensure_capacity]
  with_reducible apply Res.Sat.bind; intro _ _
  with_reducible apply Res.Sat.bind; intro _ _
  split
  · with_reducible apply Res.Sat.bind; intro _ _
    exact change_buf_capacity_first _ _
  · fwalk

theorem insert_first {cfg : Cfg} {s : St} (p : Addr) (i : Int) (v : View) :
    Res.Sat (fun r => First s r.2) (insert_strview_into_buf cfg s p i v) := by
  rw [insert_strview_into_buf]
  with_reducible apply Res.Sat.bind; intro _ _
  with_reducible apply Res.Sat.bind; intro _ _
  with_reducible apply Res.Sat.bind; intro _ _
  with_reducible apply Res.Sat.bind; intro _ _
  split
  · with_reducible apply Res.Sat.bind; intro _ _
    refine Res.Sat.bind' (ensure_capacity_first _ _) ?_
    intro r hr; fwalk
  · fwalk

theorem append_char_to_buf_first {cfg : Cfg} {s : St} (p : Addr) (c : Byte) :
    Res.Sat (fun r => First s r.2) (append_char_to_buf cfg s p c) := by
  rw [append_char_to_buf]
  with_reducible apply Res.Sat.bind; intro _ _
  with_reducible apply Res.Sat.bind; intro _ _
  split
  · with_reducible apply Res.Sat.bind; intro _ _
    refine Res.Sat.bind' (ensure_capacity_first _ _) ?_
    intro r hr; fwalk
  · fwalk

theorem insert_and_view_first {cfg : Cfg} {s : St} (p : Addr) (i : Int) (v : View) :
    Res.Sat (fun r => First s r.2.2) (insert_and_view cfg s p i v) := by
  rw [insert_and_view]
  refine Res.Sat.bind' (insert_first _ _ _) ?_
  intro r hr; fwalk

theorem view_or_invalid_of {s s' : St} (h : First s s') (bp : Option Addr) : Res.Sat (fun r => First s r.2.2) (view_or_invalid s' bp) := by
  rw [view_or_invalid.eq_def]
  fwalk

theorem view_or_invalid_first {s : St} (bp : Option Addr) : Res.Sat (fun r => First s r.2.2) (view_or_invalid s bp) := by
  rw [view_or_invalid.eq_def]
  fwalk

theorem append_first {cfg : Cfg} {s : St} (bp : Option Addr) (v : View) :
    Res.Sat (fun r => First s r.2.2) (strbuf_append_strview cfg s bp v) := by
  rw [strbuf_append_strview]
  split
  · with_reducible apply Res.Sat.bind; intro _ _; exact insert_and_view_first _ _ _
  · exact view_or_invalid_first _

theorem prepend_first {cfg : Cfg} {s : St} (bp : Option Addr) (v : View) :
    Res.Sat (fun r => First s r.2.2) (strbuf_prepend_strview cfg s bp v) := by
  rw [strbuf_prepend_strview]
  split
  · exact insert_and_view_first _ _ _
  · exact view_or_invalid_first _

theorem insert_at_first {cfg : Cfg} {s : St} (bp : Option Addr) (i : Int) (v : View) :
    Res.Sat (fun r => First s r.2.2) (strbuf_insert_at_index_strview cfg s bp i v) := by
  rw [strbuf_insert_at_index_strview]
  split
  · exact insert_and_view_first _ _ _
  · exact view_or_invalid_first _

theorem insert_before_first {cfg : Cfg} {s : St} (bp : Option Addr) (d v : View) :
    Res.Sat (fun r => First s r.2.2) (strbuf_insert_before_strview cfg s bp d v) := by
  rw [strbuf_insert_before_strview]
  split
  · with_reducible apply Res.Sat.bind; intro _ _
    split
    · exact insert_and_view_first _ _ _
    · exact view_or_invalid_first _
  · exact view_or_invalid_first _

theorem insert_after_first {cfg : Cfg} {s : St} (bp : Option Addr) (d v : View) :
    Res.Sat (fun r => First s r.2.2) (strbuf_insert_after_strview cfg s bp d v) := by
  rw [strbuf_insert_after_strview]
  split
  · split
    · with_reducible apply Res.Sat.bind; intro _ _
      split
      · exact insert_and_view_first _ _ _
      · exact view_or_invalid_first _
    · exact view_or_invalid_first _
  · exact view_or_invalid_first _

theorem assign_first {cfg : Cfg} {s : St} (bp : Option Addr) (v : View) :
    Res.Sat (fun r => First s r.2.2) (strbuf_assign cfg s bp v) := by
  rw [strbuf_assign]
  split
  · split
    · refine Res.Sat.bind' (ensure_capacity_first _ _) ?_
      intro r hr; fwalk
    · fwalk
  · fwalk

theorem strip_first {cfg : Cfg} {s : St} (bp : Option Addr) (v : View) :
    Res.Sat (fun r => First s r.2.2) (strbuf_strip_strview cfg s bp v) := by
  rw [strbuf_strip_strview]
  split
  · split
    · with_reducible apply Res.Sat.bind; intro _ _
      with_reducible apply Res.Sat.bind; intro _ _
      exact view_or_invalid_of (First.mem (First.refl _) _) _
    · exact view_or_invalid_first _
  · exact view_or_invalid_first _

theorem append_char_first {cfg : Cfg} {s : St} (bp : Option Addr) (c : Byte) :
    Res.Sat (fun r => First s r.2.2) (strbuf_append_char cfg s bp c) := by
  rw [strbuf_append_char]
  split
  · refine Res.Sat.bind' (append_char_to_buf_first _ _) ?_
    intro r hr; fwalk
  · fwalk

theorem shrink_first {s : St} (bp : Option Addr) : Res.Sat (fun r => First s r.2.2) (strbuf_shrink s bp) := by
  rw [strbuf_shrink]
  split
  · with_reducible apply Res.Sat.bind; intro _ _
    split
    · with_reducible apply Res.Sat.bind; intro _ _
      refine Res.Sat.bind' (change_buf_capacity_first _ _) ?_
      intro r hr; fwalk
    · fwalk
  · fwalk

theorem grow_first {s : St} (bp : Option Addr) (n : Int) : Res.Sat (fun r => First s r.2.2) (strbuf_grow s bp n) := by
  rw [strbuf_grow]
  split
  · with_reducible apply Res.Sat.bind; intro _ _
    split
    · with_reducible apply Res.Sat.bind; intro _ _
      split
      · refine Res.Sat.bind' (change_buf_capacity_first _ _) ?_
        intro r hr; fwalk
      · fwalk
    · fwalk
  · fwalk

theorem append_using_first {cfg : Cfg} {s : St} (bp : Option Addr) (f : Fetcher) :
    Res.Sat (fun r => First s r.2.2) (strbuf_append_using cfg s bp f) := by
  rw [strbuf_append_using]
  fwalk

theorem append_printf_first {cfg : Cfg} {s : St} (bp : Option Addr) (f : Fmt) :
    Res.Sat (fun r => First s r.2.2) (strbuf_append_printf cfg s bp f) := by
  rw [strbuf_append_printf]
  split
  · with_reducible apply Res.Sat.bind; intro _ _
    with_reducible apply Res.Sat.bind; intro _ _
    with_reducible apply Res.Sat.bind; intro _ _
    split
    · with_reducible apply Res.Sat.bind; intro _ _
      refine Res.Sat.bind' (ensure_capacity_first _ _) ?_
      intro r hr; fwalk
    · fwalk
  · fwalk

theorem destroy_first {s : St} (bp : Option Addr) : Res.Sat (fun r => First s r.2) (strbuf_destroy s bp) := by
  rw [strbuf_destroy.eq_def]
  split
  · fwalk
  · split
    · with_reducible apply Res.Sat.bind; intro _ _
      split
      · refine Res.Sat.bind' (destroy_buf_first _) ?_
        intro r hr; fwalk
      · fwalk
    · fwalk

theorem create_empty_first {s : St} (d : Alloc) (n : Nat) (o : Option Alloc) :
    Res.Sat (fun r => First s r.2) (strbuf_create_empty d s n o) := by
  rw [strbuf_create_empty]
  have := create_buf_first (s := s) n (pickAlloc d o)
  fwalk

/-- Calls that make at most one request, with everything as it was at entry. -/
def BufOp.Once : BufOp → Prop
  | .cat _ | .printf _ | .prnf _ | .appendPrnf _ => False
  | _ => True

theorem run_first {cfg : Cfg} {s : St} (bp : Option Addr) {op : BufOp} (h : op.Once) :
    Res.Sat (fun r => First s r.2.2) (op.run cfg s bp) := by
  cases op with
  | append v => exact append_first _ _
  | appendCstr a => exact Res.Sat.bind fun _ _ => append_first _ _
  | prepend v => exact prepend_first _ _
  | prependCstr a => exact Res.Sat.bind fun _ _ => prepend_first _ _
  | insertAtIndex i v => exact insert_at_first _ _ _
  | insertAtIndexCstr i a => exact Res.Sat.bind fun _ _ => insert_at_first _ _ _
  | insertBefore d v => exact insert_before_first _ _ _
  | insertBeforeCstr d a => exact Res.Sat.bind fun _ _ => insert_before_first _ _ _
  | insertAfter d v => exact insert_after_first _ _ _
  | insertAfterCstr d a => exact Res.Sat.bind fun _ _ => insert_after_first _ _ _
  | assign v => exact assign_first _ _
  | cat vs => exact h.elim
  | strip v => exact strip_first _ _
  | stripCstr a => exact Res.Sat.bind fun _ _ => strip_first _ _
  | appendChar c => exact append_char_first _ _
  | shrink => exact shrink_first _
  | grow n => exact grow_first _ _
  | appendUsing f => exact append_using_first _ _
  | printf f => exact h.elim
  | appendPrintf f => exact append_printf_first _ _
  | prnf t => exact h.elim
  | appendPrnf t => exact h.elim

/-! Moments and calls are recorded together. -/

/-- As many moments as calls since `s0`. -/
def Grown (s0 s : St) : Prop := ∃ cs ms, s.log = cs ++ s0.log ∧ s.moments = ms ++ s0.moments ∧ cs.length = ms.length

theorem Grown.refl (s : St) : Grown s s := ⟨[], [], rfl, rfl, rfl⟩

theorem Grown.kept (s0 : St) : Kept (Grown s0) := by
  refine ⟨fun h _ => h, ?_⟩
  rintro s ⟨cs, ms, h1, h2, h3⟩ al ptr size
  refine ⟨fun r e => ?_⟩
  simp only [allocCall] at e
  have key : ∀ (c : Call) (m : Moment), ∃ cs' ms', c :: s.log = cs' ++ s0.log ∧ m :: s.moments = ms' ++ s0.moments ∧ cs'.length = ms'.length :=
    fun c m => ⟨c :: cs, m :: ms, by rw [h1]; rfl, by rw [h2]; rfl, by simp [h3]⟩
  split at e
  · cases e
  · split at e
    · cases e
    · split at e
      · cases e; exact key _ _
      · split at e
        · cases e; exact key _ _
        · split at e
          · cases e; exact key _ _
          · cases e

/-- No call, no moment. -/
theorem Grown.quiet {s0 s : St} (h : Grown s0 s) (hl : s.log = s0.log) : s.moments = s0.moments := by
  obtain ⟨cs, ms, h1, h2, h3⟩ := h
  rw [hl] at h1
  have : cs = [] := List.self_eq_append_left.1 h1
  subst this
  have : ms = [] := List.length_eq_zero_iff.1 h3.symm
  subst this
  exact h2

/-- No call. -/
theorem First.none {s s' : St} (h : First s s') (hl : s'.log = s.log) : s'.moments = s.moments := by
  rcases h with h | ⟨c, h1, _⟩
  · exact h.2
  · rw [h1] at hl
    exact absurd (congrArg List.length hl) (by simp)

/-- One call. -/
theorem First.one {s s' : St} (h : First s s') {c : Call} (hl : s'.log = c :: s.log) : s'.moments = ⟨s.mem, s.live, c.size⟩ :: s.moments := by
  rcases h with h | ⟨c', h1, h2⟩
  · rw [h.1] at hl
    exact absurd (congrArg List.length hl) (by simp)
  · rw [h1] at hl
    cases hl
    exact h2

end CStr
