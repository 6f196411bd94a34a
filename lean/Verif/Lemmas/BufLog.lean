import Verif.Spec.BufLog
import Verif.Spec.BufHist
/-! The allocator protocol holds by construction of every function, whatever its arguments. -/
namespace CStr

/-- The log so far follows the protocol, and describes the heap. -/
structure Logged (s : St) : Prop where
  protocol : Protocol s.log
  owner : ∀ q, ownerAfter s.log q = (s.live q).map (·.owner)
  null : s.live 0 = none

/-- `r`, if it ends normally, ends with `Q`. -/
structure Res.Sat {α : Type} (Q : α → Prop) (r : Res α) : Prop where
  out : ∀ a, r = .ok a → Q a

theorem Res.Sat.bind {α β : Type} {Q : β → Prop} {r : Res α} {f : α → Res β} (h : ∀ a, r = .ok a → Res.Sat Q (f a)) :
    Res.Sat Q (r >>= f) := by
  refine ⟨fun b hb => ?_⟩
  cases r with
  | ok a => exact (h a rfl).out b hb
  | ub w => cases hb
  | fuel => cases hb
  | env _ => cases hb

theorem Res.Sat.bind' {α β : Type} {P : α → Prop} {Q : β → Prop} {r : Res α} {f : α → Res β} (hr : Res.Sat P r)
    (h : ∀ a, P a → Res.Sat Q (f a)) : Res.Sat Q (r >>= f) := Res.Sat.bind fun a e => h a (hr.out a e)

theorem Res.Sat.ok {α : Type} {Q : α → Prop} {a : α} (h : Q a) : Res.Sat Q (.ok a) := by
  refine ⟨fun b e => ?_⟩; cases e; exact h

theorem Res.Sat.env {α : Type} {Q : α → Prop} {w : Env} : Res.Sat Q (.env w : Res α) := ⟨fun b e => by cases e⟩

theorem Logged.mem {s : St} (h : Logged s) (m : Mem) : Logged { s with mem := m } := ⟨h.protocol, h.owner, h.null⟩

theorem allocCall_logged {s : St} (h : Logged s) (al : Alloc) (ptr : Addr) (size : Nat) :
    Res.Sat (fun r => Logged r.2) (allocCall s al ptr size) := by
  refine ⟨fun r e => ?_⟩
  simp only [allocCall] at e
  split at e
  · cases e
  · next hfn =>
    split at e
    · cases e
    · next k hold =>
      have hptr : ptr ≠ 0 → ownerAfter s.log ptr = some al := by
        intro h0
        rw [if_neg h0] at hold
        rw [h.owner]
        split at hold
        · next b hb =>
          split at hold
          · next ho => rw [hb, Option.map_some, ho]
          · cases hold
        · cases hold
      split at e
      · next hsz =>
        cases e
        refine ⟨⟨hptr, hfn, h.protocol⟩, ?_, ?_⟩
        · intro q
          simp only [ownerAfter]
          rw [if_neg (by simp)]
          by_cases hq : q = ptr
          · by_cases h0 : ptr = 0
            · rw [if_neg (by simp [h0]), h.owner, if_pos hq, hq, h0, h.null]
            · rw [if_pos ⟨h0, hq, .inl hsz⟩, if_pos hq]; rfl
          · rw [if_neg (fun h => hq h.2.1), if_neg hq]; exact h.owner q
        · simp only; split
          · rfl
          · exact h.null
      · next hsz =>
        split at e
        · cases e
          refine ⟨⟨hptr, hfn, h.protocol⟩, ?_, h.null⟩
          intro q
          simp only [ownerAfter]
          rw [if_neg (by simp), if_neg (by simp [hsz])]
          exact h.owner q
        · next hpk =>
          split at e
          · cases e
            refine ⟨⟨hptr, hfn, h.protocol⟩, ?_, ?_⟩
            · intro q
              simp only [ownerAfter]
              by_cases hq : q = (s.picks s.calls).addr
              · rw [if_pos ⟨hpk, hq⟩, if_pos hq]; rfl
              · rw [if_neg (fun h => hq h.2), if_neg hq]
                by_cases hq' : q = ptr
                · by_cases h0 : ptr = 0
                  · rw [if_neg (by simp [h0]), h.owner, if_pos hq', hq', h0, h.null]
                  · rw [if_pos ⟨h0, hq', .inr hpk⟩, if_pos hq']; rfl
                · rw [if_neg (fun h => hq' h.2.1), if_neg hq']; exact h.owner q
            · simp only
              rw [if_neg (fun h => hpk h.symm)]
              split
              · rfl
              · exact h.null
          · cases e

/-- A property of states that writes to memory and calls of allocator functions keep. -/
structure Kept (I : St → Prop) : Prop where
  mem : ∀ {s : St}, I s → ∀ m : Mem, I { s with mem := m }
  call : ∀ {s : St}, I s → ∀ (al : Alloc) (ptr : Addr) (size : Nat), Res.Sat (fun r => I r.2) (allocCall s al ptr size)

theorem Logged.kept : Kept Logged := ⟨fun h m => h.mem m, fun h al ptr size => allocCall_logged h al ptr size⟩

/-- Walk through a function: results of functions that do not touch the heap are arbitrary, those of functions that do are known to satisfy the invariant. -/
macro "walk" : tactic => `(tactic| repeat' (with_reducible first
  | assumption
  | exact Res.Sat.env
  | exact Res.Sat.ok (by assumption)
  | exact Res.Sat.ok (Kept.mem (by assumption) (by assumption) _)
  | (apply Res.Sat.bind; intro _ _)
  | split))

theorem create_buf_keeps {I : St → Prop} (K : Kept I) {s : St} (h : I s) (c : Int) (al : Alloc) : Res.Sat (fun r => I r.2) (create_buf s c al) := by
  rw [create_buf]
  refine Res.Sat.bind' (K.call h _ _ _) ?_
  intro r hr
  walk

theorem destroy_buf_keeps {I : St → Prop} (K : Kept I) {s : St} (h : I s) (p : Addr) : Res.Sat I (destroy_buf s p) := by
  rw [destroy_buf]
  with_reducible apply Res.Sat.bind; intro _ _; split
  · with_reducible apply Res.Sat.bind; intro _ _
    refine Res.Sat.bind' (K.call h _ _ _) ?_
    intro r hr; walk
  · walk

theorem change_buf_capacity_keeps {I : St → Prop} (K : Kept I) {s : St} (h : I s) (p : Addr) (c : Int) :
    Res.Sat (fun r => I r.2) (change_buf_capacity s p c) := by
  rw [change_buf_capacity]
  with_reducible apply Res.Sat.bind; intro _ _; split
  · with_reducible apply Res.Sat.bind; intro _ _
    with_reducible apply Res.Sat.bind; intro _ _
    generalize (if c < _ then _ else c) = c'
    split
    · with_reducible apply Res.Sat.bind; intro _ _
      refine Res.Sat.bind' (K.call h _ _ _) ?_
      intro r hr; walk
    · walk
  · walk

theorem ensure_capacity_keeps {I : St → Prop} (K : Kept I) {cfg : Cfg} {s : St} (h : I s) (p : Addr) (n : Int) :
    Res.Sat (fun r => I r.2) (ensure_capacity cfg s p n) := by
  rw [ensure_capacity]
  with_reducible apply Res.Sat.bind; intro _ _
  with_reducible apply Res.Sat.bind; intro _ _
  split
  · with_reducible apply Res.Sat.bind; intro _ _
    exact change_buf_capacity_keeps K h _ _
  · walk

theorem insert_keeps {I : St → Prop} (K : Kept I) {cfg : Cfg} {s : St} (h : I s) (p : Addr) (i : Int) (v : View) :
    Res.Sat (fun r => I r.2) (insert_strview_into_buf cfg s p i v) := by
  rw [insert_strview_into_buf]
  with_reducible apply Res.Sat.bind; intro _ _
  with_reducible apply Res.Sat.bind; intro _ _
  with_reducible apply Res.Sat.bind; intro _ _
  with_reducible apply Res.Sat.bind; intro _ _
  split
  · with_reducible apply Res.Sat.bind; intro _ _
    refine Res.Sat.bind' (ensure_capacity_keeps K h _ _) ?_
    intro r hr; walk
  · walk

theorem assign_to_buf_keeps {I : St → Prop} (K : Kept I) {cfg : Cfg} {s : St} (h : I s) (p : Addr) (v : View) :
    Res.Sat (fun r => I r.2) (assign_strview_to_buf cfg s p v) := by
  rw [assign_strview_to_buf]
  with_reducible apply Res.Sat.bind; intro _ _
  exact insert_keeps K (K.mem h _) _ _ _

theorem append_char_to_buf_keeps {I : St → Prop} (K : Kept I) {cfg : Cfg} {s : St} (h : I s) (p : Addr) (c : Byte) :
    Res.Sat (fun r => I r.2) (append_char_to_buf cfg s p c) := by
  rw [append_char_to_buf]
  with_reducible apply Res.Sat.bind; intro _ _
  with_reducible apply Res.Sat.bind; intro _ _
  split
  · with_reducible apply Res.Sat.bind; intro _ _
    refine Res.Sat.bind' (ensure_capacity_keeps K h _ _) ?_
    intro r hr; walk
  · walk

theorem vcat_insert_keeps {I : St → Prop} (K : Kept I) {cfg : Cfg} (args : List View) {s : St} (h : I s) (p : Addr) :
    Res.Sat (fun r => I r.2) (vcat_insert cfg s p args) := by
  induction args generalizing s p with
  | nil => exact Res.Sat.ok h
  | cons v r ih =>
    rw [vcat_insert]
    with_reducible apply Res.Sat.bind; intro _ _
    refine Res.Sat.bind' (insert_keeps K h _ _ _) ?_
    intro r hr
    exact ih hr _

theorem vcat_prepare_keeps {I : St → Prop} (K : Kept I) {cfg : Cfg} {s : St} (h : I s) (p : Addr) (n : Int) (t : Bool) :
    Res.Sat (fun r => I r.2.2) (vcat_prepare cfg s p n t) := by
  rw [vcat_prepare]
  with_reducible apply Res.Sat.bind; intro _ _
  split
  · with_reducible apply Res.Sat.bind; intro _ _
    refine Res.Sat.bind' (create_buf_keeps K h _ _) ?_
    intro r hr; walk
  · refine Res.Sat.bind' (ensure_capacity_keeps K h _ _) ?_
    intro r hr; walk

theorem vcat_build_keeps {I : St → Prop} (K : Kept I) {cfg : Cfg} {s : St} (h : I s) (p : Addr) (n : Int) (t : Bool) (args : List View) :
    Res.Sat (fun r => I r.2) (vcat_build cfg s p n t args) := by
  rw [vcat_build]
  have := vcat_insert_keeps K (cfg := cfg) args h p
  walk

theorem vcat_finish_keeps {I : St → Prop} (K : Kept I) {cfg : Cfg} {s : St} (h : I s) (b d : Addr) (t : Bool) :
    Res.Sat (fun r => I r.2) (vcat_finish cfg s b d t) := by
  rw [vcat_finish]
  with_reducible apply Res.Sat.bind; intro _ _
  split
  · with_reducible apply Res.Sat.bind; intro _ _
    refine Res.Sat.bind' (assign_to_buf_keeps K h _ _) ?_
    intro r hr
    refine Res.Sat.bind' (destroy_buf_keeps K hr _) ?_
    intro r' hr'; walk
  · walk

theorem buffer_vcat_keeps {I : St → Prop} (K : Kept I) {cfg : Cfg} {s : St} (h : I s) (d : Addr) (args : List View) :
    Res.Sat (fun r => I r.2.2) (buffer_vcat cfg s d args) := by
  rw [buffer_vcat]
  with_reducible apply Res.Sat.bind; intro _ _
  simp only
  split
  · refine Res.Sat.bind' (vcat_prepare_keeps K h _ _ _) ?_
    intro r hr
    refine Res.Sat.bind' (vcat_build_keeps K hr _ _ _ _) ?_
    intro r hr
    refine Res.Sat.bind' (vcat_finish_keeps K hr _ _ _) ?_
    intro r hr
    walk
  · walk

theorem prnf_chars_keeps {I : St → Prop} (K : Kept I) {cfg : Cfg} (t : List Byte) {s : St} (h : I s) (p : Addr) :
    Res.Sat (fun r => I r.2) (prnf_chars cfg s p t) := by
  induction t generalizing s p with
  | nil => exact Res.Sat.ok h
  | cons c r ih =>
    rw [prnf_chars]
    refine Res.Sat.bind' (append_char_to_buf_keeps K h _ _) ?_
    intro r hr
    exact ih hr _

theorem insert_and_view_keeps {I : St → Prop} (K : Kept I) {cfg : Cfg} {s : St} (h : I s) (p : Addr) (i : Int) (v : View) :
    Res.Sat (fun r => I r.2.2) (insert_and_view cfg s p i v) := by
  rw [insert_and_view]
  refine Res.Sat.bind' (insert_keeps K h _ _ _) ?_
  intro r hr; walk

theorem view_or_invalid_keeps {I : St → Prop} (K : Kept I) {s : St} (h : I s) (bp : Option Addr) : Res.Sat (fun r => I r.2.2) (view_or_invalid s bp) := by
  rw [view_or_invalid.eq_def]
  walk

/-- The public functions. -/
theorem append_keeps {I : St → Prop} (K : Kept I) {cfg : Cfg} {s : St} (h : I s) (bp : Option Addr) (v : View) :
    Res.Sat (fun r => I r.2.2) (strbuf_append_strview cfg s bp v) := by
  rw [strbuf_append_strview]
  split
  · with_reducible apply Res.Sat.bind; intro _ _; exact insert_and_view_keeps K h _ _ _
  · exact view_or_invalid_keeps K h _

theorem prepend_keeps {I : St → Prop} (K : Kept I) {cfg : Cfg} {s : St} (h : I s) (bp : Option Addr) (v : View) :
    Res.Sat (fun r => I r.2.2) (strbuf_prepend_strview cfg s bp v) := by
  rw [strbuf_prepend_strview]
  split
  · exact insert_and_view_keeps K h _ _ _
  · exact view_or_invalid_keeps K h _

theorem insert_at_keeps {I : St → Prop} (K : Kept I) {cfg : Cfg} {s : St} (h : I s) (bp : Option Addr) (i : Int) (v : View) :
    Res.Sat (fun r => I r.2.2) (strbuf_insert_at_index_strview cfg s bp i v) := by
  rw [strbuf_insert_at_index_strview]
  split
  · exact insert_and_view_keeps K h _ _ _
  · exact view_or_invalid_keeps K h _

theorem insert_before_keeps {I : St → Prop} (K : Kept I) {cfg : Cfg} {s : St} (h : I s) (bp : Option Addr) (d v : View) :
    Res.Sat (fun r => I r.2.2) (strbuf_insert_before_strview cfg s bp d v) := by
  rw [strbuf_insert_before_strview]
  split
  · with_reducible apply Res.Sat.bind; intro _ _
    split
    · exact insert_and_view_keeps K h _ _ _
    · exact view_or_invalid_keeps K h _
  · exact view_or_invalid_keeps K h _

theorem insert_after_keeps {I : St → Prop} (K : Kept I) {cfg : Cfg} {s : St} (h : I s) (bp : Option Addr) (d v : View) :
    Res.Sat (fun r => I r.2.2) (strbuf_insert_after_strview cfg s bp d v) := by
  rw [strbuf_insert_after_strview]
  split
  · split
    · with_reducible apply Res.Sat.bind; intro _ _
      split
      · exact insert_and_view_keeps K h _ _ _
      · exact view_or_invalid_keeps K h _
    · exact view_or_invalid_keeps K h _
  · exact view_or_invalid_keeps K h _

theorem assign_keeps {I : St → Prop} (K : Kept I) {cfg : Cfg} {s : St} (h : I s) (bp : Option Addr) (v : View) :
    Res.Sat (fun r => I r.2.2) (strbuf_assign cfg s bp v) := by
  rw [strbuf_assign]
  split
  · split
    · refine Res.Sat.bind' (ensure_capacity_keeps K h _ _) ?_
      intro r hr; walk
    · walk
  · walk

theorem cat_keeps {I : St → Prop} (K : Kept I) {cfg : Cfg} {s : St} (h : I s) (bp : Option Addr) (vs : List View) :
    Res.Sat (fun r => I r.2.2) (strbuf_cat cfg s bp vs) := by
  rw [strbuf_cat]
  split
  · refine Res.Sat.bind' (buffer_vcat_keeps K h _ _) ?_
    intro r hr; walk
  · walk

theorem strip_keeps {I : St → Prop} (K : Kept I) {cfg : Cfg} {s : St} (h : I s) (bp : Option Addr) (v : View) :
    Res.Sat (fun r => I r.2.2) (strbuf_strip_strview cfg s bp v) := by
  rw [strbuf_strip_strview]
  split
  · split
    · with_reducible apply Res.Sat.bind; intro _ _
      with_reducible apply Res.Sat.bind; intro _ _
      exact view_or_invalid_keeps K (K.mem h _) _
    · exact view_or_invalid_keeps K h _
  · exact view_or_invalid_keeps K h _

theorem append_char_keeps {I : St → Prop} (K : Kept I) {cfg : Cfg} {s : St} (h : I s) (bp : Option Addr) (c : Byte) :
    Res.Sat (fun r => I r.2.2) (strbuf_append_char cfg s bp c) := by
  rw [strbuf_append_char]
  split
  · refine Res.Sat.bind' (append_char_to_buf_keeps K h _ _) ?_
    intro r hr; walk
  · walk

theorem shrink_keeps {I : St → Prop} (K : Kept I) {s : St} (h : I s) (bp : Option Addr) : Res.Sat (fun r => I r.2.2) (strbuf_shrink s bp) := by
  rw [strbuf_shrink]
  split
  · with_reducible apply Res.Sat.bind; intro _ _
    split
    · with_reducible apply Res.Sat.bind; intro _ _
      refine Res.Sat.bind' (change_buf_capacity_keeps K h _ _) ?_
      intro r hr; walk
    · walk
  · walk

theorem grow_keeps {I : St → Prop} (K : Kept I) {s : St} (h : I s) (bp : Option Addr) (n : Int) : Res.Sat (fun r => I r.2.2) (strbuf_grow s bp n) := by
  rw [strbuf_grow]
  split
  · with_reducible apply Res.Sat.bind; intro _ _
    split
    · with_reducible apply Res.Sat.bind; intro _ _
      split
      · refine Res.Sat.bind' (change_buf_capacity_keeps K h _ _) ?_
        intro r hr; walk
      · walk
    · walk
  · walk

theorem append_using_keeps {I : St → Prop} (K : Kept I) {cfg : Cfg} {s : St} (h : I s) (bp : Option Addr) (f : Fetcher) :
    Res.Sat (fun r => I r.2.2) (strbuf_append_using cfg s bp f) := by
  rw [strbuf_append_using]
  walk

theorem append_printf_keeps {I : St → Prop} (K : Kept I) {cfg : Cfg} {s : St} (h : I s) (bp : Option Addr) (f : Fmt) :
    Res.Sat (fun r => I r.2.2) (strbuf_append_printf cfg s bp f) := by
  rw [strbuf_append_printf]
  split
  · with_reducible apply Res.Sat.bind; intro _ _
    with_reducible apply Res.Sat.bind; intro _ _
    with_reducible apply Res.Sat.bind; intro _ _
    split
    · with_reducible apply Res.Sat.bind; intro _ _
      refine Res.Sat.bind' (ensure_capacity_keeps K h _ _) ?_
      intro r hr; walk
    · walk
  · walk

theorem printf_keeps {I : St → Prop} (K : Kept I) {cfg : Cfg} {s : St} (h : I s) (bp : Option Addr) (f : Fmt) :
    Res.Sat (fun r => I r.2.2) (strbuf_printf cfg s bp f) := by
  rw [strbuf_printf]
  split
  · with_reducible apply Res.Sat.bind; intro _ _
    exact append_printf_keeps K (K.mem h _) _ _
  · walk

theorem append_prnf_keeps {I : St → Prop} (K : Kept I) {cfg : Cfg} {s : St} (h : I s) (bp : Option Addr) (t : List Byte) :
    Res.Sat (fun r => I r.2.2) (strbuf_append_prnf cfg s bp t) := by
  rw [strbuf_append_prnf]
  split
  · with_reducible apply Res.Sat.bind; intro _ _
    refine Res.Sat.bind' (prnf_chars_keeps K _ h _) ?_
    intro r hr; walk
  · walk

theorem prnf_keeps {I : St → Prop} (K : Kept I) {cfg : Cfg} {s : St} (h : I s) (bp : Option Addr) (t : List Byte) :
    Res.Sat (fun r => I r.2.2) (strbuf_prnf cfg s bp t) := by
  rw [strbuf_prnf]
  split
  · with_reducible apply Res.Sat.bind; intro _ _
    refine Res.Sat.bind' (prnf_chars_keeps K _ (K.mem h _) _) ?_
    intro r hr; walk
  · walk

theorem destroy_keeps {I : St → Prop} (K : Kept I) {s : St} (h : I s) (bp : Option Addr) : Res.Sat (fun r => I r.2) (strbuf_destroy s bp) := by
  rw [strbuf_destroy.eq_def]
  split
  · walk
  · split
    · with_reducible apply Res.Sat.bind; intro _ _
      split
      · refine Res.Sat.bind' (destroy_buf_keeps K h _) ?_
        intro r hr; walk
      · walk
    · walk

theorem to_cstr_keeps {I : St → Prop} (K : Kept I) {cfg : Cfg} {s : St} (h : I s) (bp : Option Addr) :
    Res.Sat (fun r => I r.2.2) (strbuf_to_cstr cfg s bp) := by
  rw [strbuf_to_cstr]
  split
  · with_reducible apply Res.Sat.bind; intro _ _
    with_reducible apply Res.Sat.bind; intro _ _
    split
    · with_reducible apply Res.Sat.bind; intro _ _
      with_reducible apply Res.Sat.bind; intro m _
      with_reducible apply Res.Sat.bind; intro _ _
      refine Res.Sat.bind' (K.call (K.mem h m) _ _ _) ?_
      intro r hr; walk
    · walk
  · walk

theorem create_empty_keeps {I : St → Prop} (K : Kept I) {s : St} (h : I s) (d : Alloc) (n : Nat) (o : Option Alloc) :
    Res.Sat (fun r => I r.2) (strbuf_create_empty d s n o) := by
  rw [strbuf_create_empty]
  have := create_buf_keeps K h n (pickAlloc d o)
  walk

theorem create_init_keeps {I : St → Prop} (K : Kept I) {cfg : Cfg} {s : St} (h : I s) (d : Alloc) (v : View) (o : Option Alloc) :
    Res.Sat (fun r => I r.2) (strbuf_create_init cfg d s v o) := by
  rw [strbuf_create_init]
  simp only
  split
  · refine Res.Sat.bind' (create_buf_keeps K h _ _) ?_
    intro r hr
    exact insert_keeps K hr _ _ _
  · walk

theorem run_keeps {I : St → Prop} (K : Kept I) {cfg : Cfg} {s : St} (h : I s) (bp : Option Addr) (op : BufOp) :
    Res.Sat (fun r => I r.2.2) (op.run cfg s bp) := by
  cases op with
  | append v => exact append_keeps K h _ _
  | appendCstr a => exact Res.Sat.bind fun _ _ => append_keeps K h _ _
  | prepend v => exact prepend_keeps K h _ _
  | prependCstr a => exact Res.Sat.bind fun _ _ => prepend_keeps K h _ _
  | insertAtIndex i v => exact insert_at_keeps K h _ _ _
  | insertAtIndexCstr i a => exact Res.Sat.bind fun _ _ => insert_at_keeps K h _ _ _
  | insertBefore d v => exact insert_before_keeps K h _ _ _
  | insertBeforeCstr d a => exact Res.Sat.bind fun _ _ => insert_before_keeps K h _ _ _
  | insertAfter d v => exact insert_after_keeps K h _ _ _
  | insertAfterCstr d a => exact Res.Sat.bind fun _ _ => insert_after_keeps K h _ _ _
  | assign v => exact assign_keeps K h _ _
  | cat vs => exact cat_keeps K h _ _
  | strip v => exact strip_keeps K h _ _
  | stripCstr a => exact Res.Sat.bind fun _ _ => strip_keeps K h _ _
  | appendChar c => exact append_char_keeps K h _ _
  | shrink => exact shrink_keeps K h _
  | grow n => exact grow_keeps K h _ _
  | appendUsing f => exact append_using_keeps K h _ _
  | printf f => exact printf_keeps K h _ _
  | appendPrintf f => exact append_printf_keeps K h _ _
  | prnf t => exact prnf_keeps K h _ _
  | appendPrnf t => exact append_prnf_keeps K h _ _

theorem exec_keeps {I : St → Prop} (K : Kept I) {cfg : Cfg} {d : Alloc} {T : Nat → List Byte} {ka : Nat → Addr} {ρ : Vars} {s : St} (h : I s) (c : Cmd) :
    Res.Sat (fun r => I r.2) (c.exec cfg d T ka ρ s) := by
  cases c with
  | createEmpty k n o =>
    exact Res.Sat.bind' (create_empty_keeps K h _ _ _) fun r hr => Res.Sat.ok hr
  | createInit k x o =>
    exact Res.Sat.bind fun _ _ => Res.Sat.bind' (create_init_keeps K h _ _ _) fun r hr => Res.Sat.ok hr
  | createFixed k j n => exact Res.Sat.bind fun _ _ => Res.Sat.ok (K.mem h _)
  | destroy k => exact Res.Sat.bind' (destroy_keeps K h _) fun r hr => Res.Sat.ok hr
  | toCstr k j => exact Res.Sat.bind' (to_cstr_keeps K h _) fun r hr => Res.Sat.ok hr
  | freeStr k al => exact Res.Sat.bind' (K.call h _ _ _) fun r hr => Res.Sat.ok hr
  | op k o => exact Res.Sat.bind fun _ _ => Res.Sat.bind' (run_keeps K h _ _) fun r hr => Res.Sat.ok hr

theorem runExec_keeps {I : St → Prop} (K : Kept I) {cfg : Cfg} {d : Alloc} {T : Nat → List Byte} {ka : Nat → Addr} (cs : List Cmd) {ρ : Vars} {s : St} (h : I s) :
    Res.Sat (fun r => I r.2) (runExec cfg d T ka cs ρ s) := by
  induction cs generalizing ρ s with
  | nil => exact Res.Sat.ok h
  | cons c r ih => exact Res.Sat.bind' (exec_keeps K h c) fun r hr => ih hr

end CStr
