import Verif.Spec.Fail
import Verif.Lemmas.BufHist
import Verif.Lemmas.BufLog
/-! Runs under an allocator that may answer NULL, compared with runs in the stricter environment. -/
namespace CStr

theorem St.strict_sane {s : St} (h : s.WF) : s.strict.Sane := by
  refine ⟨⟨h.block, h.disjoint⟩, fun i => ?_⟩
  simp only [St.strict]
  split
  · exact Int.one_ne_zero
  · assumption

theorem St.strict_mem (s : St) : s.strict.mem = s.mem := rfl
theorem St.strict_live (s : St) : s.strict.live = s.live := rfl
theorem St.strict_calls (s : St) : s.strict.calls = s.calls := rfl
theorem St.strict_log (s : St) : s.strict.log = s.log := rfl
theorem St.strict_moments (s : St) : s.strict.moments = s.moments := rfl

theorem St.strict_eq {s : St} (h : ¬ s.CanFail) : s.strict = s := by
  have : (fun i => if (s.picks i).addr = 0 then (⟨1, (s.picks i).junk⟩ : Pick) else s.picks i) = s.picks := by
    funext i
    rw [if_neg (fun e => h ⟨i, e⟩)]
  simp only [St.strict, this]

/-- `r` is the outcome of a run, `r'` that of the same run in the stricter environment: they are the same, or a request for memory was answered NULL: then the one accesses a
member of NULL where in the other the allocator breaks its contract. -/
def Sim (u : α → α) (r r' : Res α) : Prop := (r = .ub .badHeader ∧ r' = .env .alloc) ∨ r' = (r >>= fun a => .ok (u a))

def up2 (x : α × St) : α × St := (x.1, x.2.strict)
def up3 (x : α × β × St) : α × β × St := (x.1, x.2.1, x.2.2.strict)

theorem Sim.ok {u : α → α} (a : α) : Sim u (.ok a) (.ok (u a)) := .inr rfl

theorem Sim.stop {u : α → α} {w : UB} : Sim u (.ub w) (.ub w) := .inr rfl

theorem Sim.bind {u : α → α} {v : β → β} {r r' : Res α} {k k' : α → Res β} (h : Sim u r r') (hk : ∀ a, Sim v (k a) (k' (u a))) :
    Sim v (r >>= k) (r' >>= k') := by
  rcases h with ⟨rfl, rfl⟩ | rfl
  · exact .inl ⟨rfl, rfl⟩
  · cases r with
    | ok a => exact hk a
    | _ => exact .inr rfl

theorem Sim.same {v : β → β} {r : Res α} {k k' : α → Res β} (hk : ∀ a, Sim v (k a) (k' a)) : Sim v (r >>= k) (r >>= k') := by
  cases r with
  | ok a => exact hk a
  | _ => exact .inr rfl

theorem Sim.ite {v : β → β} {c : Prop} [Decidable c] {a a' b b' : Res β} (h1 : Sim v a a') (h2 : Sim v b b') :
    Sim v (if c then a else b) (if c then a' else b') := by
  split
  · exact h1
  · exact h2

/-- The rest of a function after its last request. -/
macro "quiet" : tactic => `(tactic| repeat' (first
  | exact Sim.ok _
  | (refine Sim.same ?_; intro _)
  | refine Sim.ite ?_ ?_))

theorem allocCall_sim {s : St} {al : Alloc} {p : Addr} {n : Nat} :
    (∃ s1, allocCall s al p n = .ok (0, s1) ∧ allocCall s.strict al p n = .env .alloc ∧ (s.picks s.calls).addr = 0) ∨
      allocCall s.strict al p n = (allocCall s al p n >>= fun a => .ok (up2 a)) := by
  simp only [allocCall, St.strict_mem, St.strict_live, St.strict_calls, St.strict_log, St.strict_moments]
  generalize (if p = 0 then some 0 else _ : Option Nat) = o
  split
  · exact .inr rfl
  · cases o with
    | none => exact .inr rfl
    | some k =>
      simp only
      split
      · exact .inr rfl
      · by_cases h : (s.picks s.calls).addr = 0
        · left
          refine ⟨_, if_pos h, ?_, h⟩
          have e : (s.strict.picks s.calls).addr = 1 := by simp only [St.strict]; rw [if_pos h]
          refine (if_neg (fun h1 => ?_)).trans (if_neg (fun h1 => ?_))
          · rw [e] at h1; exact absurd h1 (by decide)
          · have h2 := h1.2.1
            rw [e] at h2; exact absurd h2 (by decide)
        · right
          have e : s.strict.picks s.calls = s.picks s.calls := by simp only [St.strict]; rw [if_neg h]
          generalize hp : s.picks s.calls = pk at h e
          have ep : s.strict.picks s.calls = pk := e
          simp only [ep, if_neg h]
          split <;> rfl

/-- A request, followed by an access to a member of the answer. -/
theorem request_sim {s : St} {al : Alloc} {p : Addr} {n : Nat} {v : β → β} {k k' : Addr × St → Res β} (h0 : ∀ s1, k (0, s1) = .ub .badHeader)
    (hk : ∀ a, Sim v (k a) (k' (up2 a))) : Sim v (allocCall s al p n >>= k) (allocCall s.strict al p n >>= k') := by
  rcases allocCall_sim (s := s) (al := al) (p := p) (n := n) with ⟨s1, e1, e2, _⟩ | e
  · rw [e1, e2]
    exact .inl ⟨h0 s1, rfl⟩
  · exact Sim.bind (.inr e) hk

theorem create_buf_sim (s : St) (c : Int) (al : Alloc) : Sim up2 (create_buf s c al) (create_buf s.strict c al) := by
  rw [create_buf, create_buf]
  refine request_sim (fun s1 => rfl) ?_
  rintro ⟨b, s1⟩
  simp only [up2]
  quiet

theorem release_sim (s : St) (al : Alloc) (p : Addr) : Sim up2 (allocCall s al p 0) (allocCall s.strict al p 0) := by
  right
  simp only [allocCall, St.strict_mem, St.strict_live, St.strict_calls, St.strict_log, St.strict_moments]
  generalize (if p = 0 then some 0 else _ : Option Nat) = o
  split
  · rfl
  · cases o <;> rfl

theorem destroy_buf_sim (s : St) (p : Addr) : Sim St.strict (destroy_buf s p) (destroy_buf s.strict p) := by
  rw [destroy_buf, destroy_buf]
  refine Sim.same fun d => Sim.ite (Sim.same fun al => ?_) (Sim.ok _)
  refine Sim.bind (release_sim _ _ _) ?_
  rintro ⟨b, s1⟩
  exact Sim.ok _

theorem change_buf_capacity_sim (s : St) (p : Addr) (c : Int) : Sim up2 (change_buf_capacity s p c) (change_buf_capacity s.strict p c) := by
  rw [change_buf_capacity, change_buf_capacity]
  refine Sim.same fun d => Sim.ite (Sim.same fun z => Sim.same fun k => ?_) (Sim.ok _)
  refine Sim.ite (Sim.same fun al => ?_) (Sim.ok _)
  refine request_sim (fun s1 => rfl) ?_
  rintro ⟨b, s1⟩
  simp only [up2]
  quiet

theorem ensure_capacity_sim (cfg : Cfg) (s : St) (p : Addr) (n : Int) : Sim up2 (ensure_capacity cfg s p n) (ensure_capacity cfg s.strict p n) := by
  rw [ensure_capacity, ensure_capacity]
  refine Sim.same fun d => Sim.same fun c => Sim.ite (Sim.same fun k => ?_) (Sim.ok _)
  exact change_buf_capacity_sim _ _ _

theorem insert_sim (cfg : Cfg) (s : St) (p : Addr) (i : Int) (v : View) :
    Sim up2 (insert_strview_into_buf cfg s p i v) (insert_strview_into_buf cfg s.strict p i v) := by
  rw [insert_strview_into_buf, insert_strview_into_buf]
  refine Sim.same fun _ => Sim.same fun _ => Sim.same fun _ => Sim.same fun _ => Sim.ite (Sim.same fun _ => ?_) ?_
  · refine Sim.bind (ensure_capacity_sim _ _ _ _) ?_
    rintro ⟨b, s1⟩
    simp only [up2]
    quiet
  · quiet

theorem assign_to_buf_sim (cfg : Cfg) (s : St) (p : Addr) (v : View) :
    Sim up2 (assign_strview_to_buf cfg s p v) (assign_strview_to_buf cfg s.strict p v) := by
  rw [assign_strview_to_buf, assign_strview_to_buf]
  exact Sim.same fun _ => insert_sim _ _ _ _ _

theorem append_char_to_buf_sim (cfg : Cfg) (s : St) (p : Addr) (c : Byte) :
    Sim up2 (append_char_to_buf cfg s p c) (append_char_to_buf cfg s.strict p c) := by
  rw [append_char_to_buf, append_char_to_buf]
  refine Sim.same fun _ => Sim.same fun _ => Sim.ite (Sim.same fun _ => ?_) ?_
  · refine Sim.bind (ensure_capacity_sim _ _ _ _) ?_
    rintro ⟨b, s1⟩
    simp only [up2]
    quiet
  · quiet

theorem vcat_insert_sim (cfg : Cfg) (args : List View) : ∀ (s : St) (p : Addr), Sim up2 (vcat_insert cfg s p args) (vcat_insert cfg s.strict p args) := by
  induction args with
  | nil => exact fun s p => Sim.ok _
  | cons v l ih =>
    intro s p
    rw [vcat_insert, vcat_insert]
    refine Sim.same fun _ => Sim.bind (insert_sim _ _ _ _ _) ?_
    rintro ⟨b, s1⟩
    exact ih _ _

theorem vcat_prepare_sim (cfg : Cfg) (s : St) (p : Addr) (n : Int) (t : Bool) : Sim up3 (vcat_prepare cfg s p n t) (vcat_prepare cfg s.strict p n t) := by
  rw [vcat_prepare, vcat_prepare]
  refine Sim.same fun _ => Sim.ite (Sim.same fun _ => Sim.bind (create_buf_sim _ _ _) ?_) (Sim.bind (ensure_capacity_sim _ _ _ _) ?_)
  · rintro ⟨b, s1⟩
    exact Sim.ok _
  · rintro ⟨b, s1⟩
    simp only [up2]
    quiet

theorem vcat_build_sim (cfg : Cfg) (s : St) (p : Addr) (n : Int) (t : Bool) (args : List View) :
    Sim up2 (vcat_build cfg s p n t args) (vcat_build cfg s.strict p n t args) := by
  rw [vcat_build, vcat_build]
  exact Sim.same fun _ => Sim.ite (Sim.same fun _ => Sim.ite (vcat_insert_sim _ _ _ _) (Sim.ok _)) (Sim.ok _)

theorem vcat_finish_sim (cfg : Cfg) (s : St) (b d : Addr) (t : Bool) : Sim up2 (vcat_finish cfg s b d t) (vcat_finish cfg s.strict b d t) := by
  rw [vcat_finish, vcat_finish]
  refine Sim.same fun _ => Sim.ite (Sim.same fun _ => Sim.bind (assign_to_buf_sim _ _ _ _) ?_) (Sim.ok _)
  rintro ⟨q, s1⟩
  refine Sim.bind (destroy_buf_sim _ _) ?_
  intro s2
  exact Sim.ok _

theorem buffer_vcat_sim (cfg : Cfg) (s : St) (d : Addr) (args : List View) : Sim up3 (buffer_vcat cfg s d args) (buffer_vcat cfg s.strict d args) := by
  rw [buffer_vcat, buffer_vcat]
  refine Sim.same ?_
  rintro ⟨n, f, t⟩
  refine Sim.ite (Sim.bind (vcat_prepare_sim _ _ _ _ _) ?_) ?_
  · rintro ⟨b, d1, s1⟩
    refine Sim.bind (vcat_build_sim _ _ _ _ _ _) ?_
    rintro ⟨b1, s2⟩
    refine Sim.bind (vcat_finish_sim _ _ _ _ _) ?_
    rintro ⟨d2, s3⟩
    simp only [up2]
    quiet
  · quiet

theorem prnf_chars_sim (cfg : Cfg) (t : List Byte) : ∀ (s : St) (p : Addr), Sim up2 (prnf_chars cfg s p t) (prnf_chars cfg s.strict p t) := by
  induction t with
  | nil => exact fun s p => Sim.ok _
  | cons c l ih =>
    intro s p
    rw [prnf_chars, prnf_chars]
    refine Sim.bind (append_char_to_buf_sim _ _ _ _) ?_
    rintro ⟨b, s1⟩
    exact ih _ _

theorem insert_and_view_sim (cfg : Cfg) (s : St) (p : Addr) (i : Int) (v : View) : Sim up3 (insert_and_view cfg s p i v) (insert_and_view cfg s.strict p i v) := by
  rw [insert_and_view, insert_and_view]
  refine Sim.bind (insert_sim _ _ _ _ _) ?_
  rintro ⟨b, s1⟩
  simp only [up2]
  quiet

theorem view_or_invalid_sim (s : St) (bp : Option Addr) : Sim up3 (view_or_invalid s bp) (view_or_invalid s.strict bp) := by
  cases bp with
  | none => exact Sim.ok _
  | some p => exact Sim.same fun _ => Sim.ok _

theorem append_sim (cfg : Cfg) (s : St) (bp : Option Addr) (v : View) : Sim up3 (strbuf_append_strview cfg s bp v) (strbuf_append_strview cfg s.strict bp v) := by
  simp only [strbuf_append_strview]
  cases deref bp with
  | none => exact view_or_invalid_sim _ _
  | some p => exact Sim.same fun _ => insert_and_view_sim _ _ _ _ _

theorem prepend_sim (cfg : Cfg) (s : St) (bp : Option Addr) (v : View) : Sim up3 (strbuf_prepend_strview cfg s bp v) (strbuf_prepend_strview cfg s.strict bp v) := by
  simp only [strbuf_prepend_strview]
  cases deref bp with
  | none => exact view_or_invalid_sim _ _
  | some p => exact insert_and_view_sim _ _ _ _ _

theorem insert_at_sim (cfg : Cfg) (s : St) (bp : Option Addr) (i : Int) (v : View) :
    Sim up3 (strbuf_insert_at_index_strview cfg s bp i v) (strbuf_insert_at_index_strview cfg s.strict bp i v) := by
  simp only [strbuf_insert_at_index_strview]
  cases deref bp with
  | none => exact view_or_invalid_sim _ _
  | some p => exact insert_and_view_sim _ _ _ _ _

theorem insert_before_sim (cfg : Cfg) (s : St) (bp : Option Addr) (d v : View) :
    Sim up3 (strbuf_insert_before_strview cfg s bp d v) (strbuf_insert_before_strview cfg s.strict bp d v) := by
  simp only [strbuf_insert_before_strview]
  cases deref bp with
  | none => exact view_or_invalid_sim _ _
  | some p => exact Sim.same fun _ => Sim.ite (insert_and_view_sim _ _ _ _ _) (view_or_invalid_sim _ _)

theorem insert_after_sim (cfg : Cfg) (s : St) (bp : Option Addr) (d v : View) :
    Sim up3 (strbuf_insert_after_strview cfg s bp d v) (strbuf_insert_after_strview cfg s.strict bp d v) := by
  simp only [strbuf_insert_after_strview]
  cases deref bp with
  | none => exact view_or_invalid_sim _ _
  | some p => exact Sim.ite (Sim.same fun _ => Sim.ite (insert_and_view_sim _ _ _ _ _) (view_or_invalid_sim _ _)) (view_or_invalid_sim _ _)

theorem assign_sim (cfg : Cfg) (s : St) (bp : Option Addr) (v : View) : Sim up3 (strbuf_assign cfg s bp v) (strbuf_assign cfg s.strict bp v) := by
  simp only [strbuf_assign]
  cases deref bp with
  | none => exact Sim.ok _
  | some p =>
    refine Sim.ite (Sim.bind (ensure_capacity_sim _ _ _ _) ?_) ?_
    · rintro ⟨b, s1⟩
      simp only [up2]
      quiet
    · quiet

theorem cat_sim (cfg : Cfg) (s : St) (bp : Option Addr) (vs : List View) : Sim up3 (strbuf_cat cfg s bp vs) (strbuf_cat cfg s.strict bp vs) := by
  simp only [strbuf_cat]
  cases deref bp with
  | none => exact Sim.ok _
  | some p =>
    refine Sim.bind (buffer_vcat_sim _ _ _ _) ?_
    rintro ⟨v, b, s1⟩
    exact Sim.ok _

theorem strip_sim (cfg : Cfg) (s : St) (bp : Option Addr) (v : View) : Sim up3 (strbuf_strip_strview cfg s bp v) (strbuf_strip_strview cfg s.strict bp v) := by
  simp only [strbuf_strip_strview]
  cases deref bp with
  | none => exact view_or_invalid_sim _ _
  | some p => exact Sim.ite (Sim.same fun _ => Sim.same fun _ => view_or_invalid_sim _ _) (view_or_invalid_sim _ _)

theorem append_char_sim (cfg : Cfg) (s : St) (bp : Option Addr) (c : Byte) : Sim up3 (strbuf_append_char cfg s bp c) (strbuf_append_char cfg s.strict bp c) := by
  simp only [strbuf_append_char]
  cases deref bp with
  | none => exact Sim.ok _
  | some p =>
    refine Sim.bind (append_char_to_buf_sim _ _ _ _) ?_
    rintro ⟨b, s1⟩
    exact Sim.same fun _ => Sim.ok _

theorem shrink_sim (s : St) (bp : Option Addr) : Sim up3 (strbuf_shrink s bp) (strbuf_shrink s.strict bp) := by
  simp only [strbuf_shrink]
  cases deref bp with
  | none => exact Sim.ok _
  | some p =>
    refine Sim.same fun _ => Sim.ite (Sim.same fun _ => Sim.bind (change_buf_capacity_sim _ _ _) ?_) ?_
    · rintro ⟨b, s1⟩
      exact Sim.same fun _ => Sim.ok _
    · exact Sim.same fun _ => Sim.ok _

theorem grow_sim (s : St) (bp : Option Addr) (n : Int) : Sim up3 (strbuf_grow s bp n) (strbuf_grow s.strict bp n) := by
  simp only [strbuf_grow]
  cases deref bp with
  | none => exact Sim.ok _
  | some p =>
    refine Sim.same fun _ => Sim.ite (Sim.same fun _ => Sim.ite (Sim.bind (change_buf_capacity_sim _ _ _) ?_) ?_) ?_
    · rintro ⟨b, s1⟩
      exact Sim.same fun _ => Sim.ok _
    · exact Sim.same fun _ => Sim.ok _
    · exact Sim.ok _

theorem append_using_sim (cfg : Cfg) (s : St) (bp : Option Addr) (f : Fetcher) : Sim up3 (strbuf_append_using cfg s bp f) (strbuf_append_using cfg s.strict bp f) := by
  simp only [strbuf_append_using]
  cases deref bp with
  | none => exact Sim.ok _
  | some p =>
    refine Sim.same fun _ => Sim.same fun _ => Sim.same fun _ => Sim.same ?_
    rintro ⟨n, m⟩
    simp only
    quiet

theorem append_printf_sim (cfg : Cfg) (s : St) (bp : Option Addr) (f : Fmt) : Sim up3 (strbuf_append_printf cfg s bp f) (strbuf_append_printf cfg s.strict bp f) := by
  simp only [strbuf_append_printf]
  cases deref bp with
  | none => exact Sim.ok _
  | some p =>
    refine Sim.same fun _ => Sim.same ?_
    rintro ⟨n, m⟩
    refine Sim.same fun _ => Sim.ite (Sim.same fun _ => Sim.bind (ensure_capacity_sim _ _ _ _) ?_) ?_
    · rintro ⟨b, s1⟩
      simp only [up2]
      quiet
    · quiet

theorem printf_sim (cfg : Cfg) (s : St) (bp : Option Addr) (f : Fmt) : Sim up3 (strbuf_printf cfg s bp f) (strbuf_printf cfg s.strict bp f) := by
  simp only [strbuf_printf]
  cases deref bp with
  | none => exact Sim.ok _
  | some p => exact Sim.same fun _ => append_printf_sim _ _ _ _

theorem append_prnf_sim (cfg : Cfg) (s : St) (bp : Option Addr) (t : List Byte) : Sim up3 (strbuf_append_prnf cfg s bp t) (strbuf_append_prnf cfg s.strict bp t) := by
  simp only [strbuf_append_prnf]
  cases deref bp with
  | none => exact Sim.ok _
  | some p =>
    refine Sim.same fun _ => Sim.bind (prnf_chars_sim _ _ _ _) ?_
    rintro ⟨b, s1⟩
    simp only [up2]
    refine Sim.ite ?_ (.inr rfl)
    quiet

theorem prnf_sim (cfg : Cfg) (s : St) (bp : Option Addr) (t : List Byte) : Sim up3 (strbuf_prnf cfg s bp t) (strbuf_prnf cfg s.strict bp t) := by
  simp only [strbuf_prnf]
  cases deref bp with
  | none => exact Sim.ok _
  | some p =>
    refine Sim.same fun m => Sim.bind (prnf_chars_sim cfg t { s with mem := m } p) ?_
    rintro ⟨b, s1⟩
    simp only [up2]
    refine Sim.ite ?_ (.inr rfl)
    quiet

theorem run_sim (cfg : Cfg) (s : St) (bp : Option Addr) (op : BufOp) : Sim up3 (op.run cfg s bp) (op.run cfg s.strict bp) := by
  cases op with
  | append v => exact append_sim _ _ _ _
  | appendCstr a => exact Sim.same fun _ => append_sim _ _ _ _
  | prepend v => exact prepend_sim _ _ _ _
  | prependCstr a => exact Sim.same fun _ => prepend_sim _ _ _ _
  | insertAtIndex i v => exact insert_at_sim _ _ _ _ _
  | insertAtIndexCstr i a => exact Sim.same fun _ => insert_at_sim _ _ _ _ _
  | insertBefore d v => exact insert_before_sim _ _ _ _ _
  | insertBeforeCstr d a => exact Sim.same fun _ => insert_before_sim _ _ _ _ _
  | insertAfter d v => exact insert_after_sim _ _ _ _ _
  | insertAfterCstr d a => exact Sim.same fun _ => insert_after_sim _ _ _ _ _
  | assign v => exact assign_sim _ _ _ _
  | cat vs => exact cat_sim _ _ _ _
  | strip v => exact strip_sim _ _ _ _
  | stripCstr a => exact Sim.same fun _ => strip_sim _ _ _ _
  | appendChar c => exact append_char_sim _ _ _ _
  | shrink => exact shrink_sim _ _
  | grow n => exact grow_sim _ _ _
  | appendUsing f => exact append_using_sim _ _ _ _
  | printf f => exact printf_sim _ _ _ _
  | appendPrintf f => exact append_printf_sim _ _ _ _
  | prnf t => exact prnf_sim _ _ _ _
  | appendPrnf t => exact append_prnf_sim _ _ _ _

theorem create_empty_sim (d : Alloc) (s : St) (n : Nat) (o : Option Alloc) : Sim up2 (strbuf_create_empty d s n o) (strbuf_create_empty d s.strict n o) :=
  Sim.ite (create_buf_sim _ _ _) (Sim.ok _)

theorem create_init_sim (cfg : Cfg) (d : Alloc) (s : St) (v : View) (o : Option Alloc) :
    Sim up2 (strbuf_create_init cfg d s v o) (strbuf_create_init cfg d s.strict v o) := by
  refine Sim.ite (Sim.bind (create_buf_sim _ _ _) ?_) (Sim.ok _)
  rintro ⟨b, s1⟩
  exact insert_sim _ _ _ _ _

theorem destroy_sim (s : St) (bp : Option Addr) : Sim up2 (strbuf_destroy s bp) (strbuf_destroy s.strict bp) := by
  cases bp with
  | none => exact Sim.ok _
  | some p =>
    refine Sim.ite (Sim.same fun _ => Sim.ite (Sim.bind (destroy_buf_sim _ _) fun s1 => Sim.ok _) (Sim.ok _)) (Sim.ok _)

theorem src_strict (T : Nat → List Byte) (ka : Nat → Addr) (ρ : Vars) (s : St) (x : Src) : x.eval T ka ρ s.strict = x.eval T ka ρ s := by cases x <;> rfl

theorem srcs_strict (T : Nat → List Byte) (ka : Nat → Addr) (ρ : Vars) (s : St) (xs : List Src) : evalSrcs T ka ρ s.strict xs = evalSrcs T ka ρ s xs := by
  induction xs with
  | nil => rfl
  | cons x xs ih => simp only [evalSrcs, src_strict, ih]

theorem pieces_strict (T : Nat → List Byte) (ka : Nat → Addr) (ρ : Vars) (s : St) (xs : List Piece) : evalPieces T ka ρ s.strict xs = evalPieces T ka ρ s xs := by
  induction xs with
  | nil => rfl
  | cons x xs ih => cases x <;> simp only [evalPieces, src_strict, ih]

theorem hop_strict (T : Nat → List Byte) (ka : Nat → Addr) (ρ : Vars) (s : St) (o : HOp) : o.eval T ka ρ s.strict = o.eval T ka ρ s := by
  cases o <;> simp only [HOp.eval, src_strict, srcs_strict, pieces_strict]

theorem exec_sim (cfg : Cfg) (d : Alloc) (T : Nat → List Byte) (ka : Nat → Addr) (ρ : Vars) (s : St) {c : Cmd} (hc : ∀ h k, c ≠ .toCstr h k) :
    Sim up2 (c.exec cfg d T ka ρ s) (c.exec cfg d T ka ρ s.strict) := by
  cases c with
  | createEmpty k n o => exact Sim.bind (create_empty_sim _ _ _ _) fun _ => Sim.ok _
  | createInit k x o => exact Sim.same fun _ => Sim.bind (create_init_sim _ _ _ _ _) fun _ => Sim.ok _
  | createFixed k j n => exact Sim.same fun _ => Sim.ok _
  | destroy k => exact Sim.bind (destroy_sim _ _) fun _ => Sim.ok _
  | toCstr k j => exact absurd rfl (hc k j)
  | freeStr k al => exact Sim.bind (release_sim _ _ _) fun _ => Sim.ok _
  | op k o =>
    simp only [Cmd.exec, hop_strict]
    exact Sim.same fun _ => Sim.bind (run_sim _ _ _ _) fun _ => Sim.ok _

theorem runExec_sim (cfg : Cfg) (d : Alloc) (T : Nat → List Byte) (ka : Nat → Addr) : ∀ (cs : List Cmd) (ρ : Vars) (s : St) (_ : ∀ h k, Cmd.toCstr h k ∉ cs),
    Sim up2 (runExec cfg d T ka cs ρ s) (runExec cfg d T ka cs ρ s.strict) := by
  intro cs
  induction cs with
  | nil => exact fun _ _ _ => Sim.ok _
  | cons c cs ih =>
    intro ρ s hc
    refine Sim.bind (exec_sim cfg d T ka ρ s fun h k e => hc h k (e ▸ List.mem_cons_self)) ?_
    rintro ⟨ρ1, s1⟩
    exact ih ρ1 s1 fun h k hm => hc h k (List.mem_cons_of_mem _ hm)

/-- `strbuf_to_cstr` differs only if it asks and is answered NULL. -/
theorem to_cstr_sim (cfg : Cfg) (s : St) (bp : Option Addr) : Sim up3 (strbuf_to_cstr cfg s bp) (strbuf_to_cstr cfg s.strict bp) ∨
    ∃ p, deref bp = some p ∧ buf_is_dynamic s.mem p = .ok true ∧ (s.picks s.calls).addr = 0 := by
  by_cases h0 : (s.picks s.calls).addr = 0
  · simp only [strbuf_to_cstr]
    cases hd : deref bp with
    | none => exact .inl (Sim.ok _)
    | some p =>
      cases hy : buf_is_dynamic s.mem p with
      | ok d =>
        cases d with
        | true => exact .inr ⟨p, rfl, hy, h0⟩
        | false =>
          left
          simp only [St.strict_mem, hy, Res.bind_ok]
          exact Sim.same fun _ => Sim.same fun _ => Sim.ok _
      | ub w => left; simp only [St.strict_mem, hy]; exact Sim.same fun _ => .inr rfl
      | fuel => left; simp only [St.strict_mem, hy]; exact Sim.same fun _ => .inr rfl
      | env w => left; simp only [St.strict_mem, hy]; exact Sim.same fun _ => .inr rfl
  · left
    simp only [strbuf_to_cstr]
    cases hd : deref bp with
    | none => exact Sim.ok _
    | some p =>
      refine Sim.same fun z => Sim.same fun d => Sim.ite (Sim.same fun al => Sim.same fun m => Sim.same fun n => ?_) ?_
      · rcases allocCall_sim (s := { s with mem := m }) (al := al) (p := p) (n := sizeT n) with ⟨_, _, _, e⟩ | e
        · exact absurd e h0
        · refine Sim.bind (u := up2) (.inr e) ?_
          rintro ⟨q, s1⟩
          simp only [up2]
          quiet
      · quiet

/-- A program: the two runs are alike, or there is a `strbuf_to_cstr` that is answered NULL, and they are alike up to there. -/
theorem runExec_sim_or (cfg : Cfg) (d : Alloc) (T : Nat → List Byte) (ka : Nat → Addr) : ∀ (cs : List Cmd) (ρ : Vars) (s : St),
    Sim up2 (runExec cfg d T ka cs ρ s) (runExec cfg d T ka cs ρ s.strict) ∨
    ∃ cs1 h k cs2 ρ1 s1, cs = cs1 ++ Cmd.toCstr h k :: cs2 ∧ runExec cfg d T ka cs1 ρ s = .ok (ρ1, s1) ∧ runExec cfg d T ka cs1 ρ s.strict = .ok (ρ1, s1.strict) ∧
      ρ1 h ≠ 0 ∧ buf_is_dynamic s1.mem (ρ1 h) = .ok true ∧ (s1.picks s1.calls).addr = 0 := by
  intro cs
  induction cs with
  | nil => exact fun _ _ => .inl (Sim.ok _)
  | cons c cs ih =>
    intro ρ s
    have step : Sim up2 (c.exec cfg d T ka ρ s) (c.exec cfg d T ka ρ s.strict) ∨
        ∃ h k, c = .toCstr h k ∧ ρ h ≠ 0 ∧ buf_is_dynamic s.mem (ρ h) = .ok true ∧ (s.picks s.calls).addr = 0 := by
      by_cases hc : ∃ h k, c = .toCstr h k
      · obtain ⟨h, k, rfl⟩ := hc
        rcases to_cstr_sim cfg s (some (ρ h)) with hs | ⟨p, h1, h2, h3⟩
        · exact .inl (Sim.bind hs fun _ => Sim.ok _)
        · refine .inr ⟨h, k, rfl, ?_⟩
          simp only [deref] at h1
          split at h1
          · cases h1
          · cases h1; exact ⟨by assumption, h2, h3⟩
      · exact .inl (exec_sim cfg d T ka ρ s fun h k e => hc ⟨h, k, e⟩)
    rcases step with hs | ⟨h, k, rfl, h1, h2, h3⟩
    · rcases hs with ⟨e1, e2⟩ | e
      · left; left
        simp only [runExec, e1, e2]
        exact ⟨rfl, rfl⟩
      · cases hr : c.exec cfg d T ka ρ s with
        | ok a =>
          obtain ⟨ρ1, s1⟩ := a
          rw [hr] at e
          rcases ih ρ1 s1 with hs | ⟨cs1, h, k, cs2, ρ2, s2, rfl, g1, g2, g3⟩
          · left
            simp only [runExec, hr, e, up2, Res.bind_ok]
            exact hs
          · right
            refine ⟨c :: cs1, h, k, cs2, ρ2, s2, rfl, ?_, ?_, g3⟩
            · simp only [runExec, hr, Res.bind_ok]; exact g1
            · simp only [runExec, e, up2, Res.bind_ok]; exact g2
        | ub w => left; right; rw [hr] at e; simp only [runExec, hr, e]; rfl
        | fuel => left; right; rw [hr] at e; simp only [runExec, hr, e]; rfl
        | env w => left; right; rw [hr] at e; simp only [runExec, hr, e]; rfl
    · exact .inr ⟨[], h, k, cs, ρ, s, rfl, rfl, rfl, h1, h2, h3⟩

/-- The answers of the allocator from number `n` on, `φ`, that have been used were not NULL. -/
def Answered (φ : Nat → Pick) (n : Nat) (s : St) : Prop := s.picks = φ ∧ ∀ i, n ≤ i → i < s.calls → (φ i).addr % 8 = 0

theorem Answered.kept (φ : Nat → Pick) (hφ : ∀ i, (φ i).addr ≠ 0) (n : Nat) : Kept (Answered φ n) := by
  refine ⟨fun h m => h, fun {s} h al ptr size => ⟨fun r e => ?_⟩⟩
  simp only [allocCall] at e
  split at e
  · cases e
  · split at e
    · cases e
    · split at e
      · cases e; exact h
      · split at e
        · next h0 => rw [h.1] at h0; exact absurd h0 (hφ _)
        · split at e
          · next hl =>
            cases e
            refine ⟨h.1, fun i h1 h2 => ?_⟩
            by_cases hi : i < s.calls
            · exact h.2 i h1 hi
            · have : i = s.calls := by simp only at h2; omega
              subst this
              rw [← h.1]; exact hl.2.1
          · cases e

theorem strict_aligned {s : St} {i : Nat} (h : (s.strict.picks i).addr % 8 = 0) : (s.picks i).addr ≠ 0 := by
  intro h0
  simp only [St.strict, if_pos h0] at h
  exact absurd h (by decide)

/-- The common form of the result. -/
theorem Sim.answered {u : α → α} {r r' : Res α} (h : Sim u r r') {st : α → St} (hu : ∀ a, st (u a) = (st a).strict) {s : St}
    (hk : Res.Sat (fun a => Answered s.strict.picks s.calls (st a)) r') {a : α} (he : r = .ok a) :
    r' = .ok (u a) ∧ (∀ i, s.calls ≤ i → i < (st a).calls → (s.picks i).addr ≠ 0) := by
  subst he
  rcases h with ⟨h, _⟩ | h
  · cases h
  · refine ⟨h, fun i h1 h2 => ?_⟩
    have := (hk.out _ h).2 i h1 (by rw [hu]; exact h2)
    exact strict_aligned this

theorem strict_answered (s : St) : Answered s.strict.picks s.calls s.strict := ⟨rfl, fun i h1 h2 => absurd h2 (by simp only [St.strict]; omega)⟩

theorem strict_noFail (s : St) (i : Nat) : (s.strict.picks i).addr ≠ 0 := by
  simp only [St.strict]
  split
  · exact Int.one_ne_zero
  · assumption

theorem picks_kept (φ : Nat → Pick) : Kept (fun s => s.picks = φ) := by
  refine ⟨fun h m => h, fun {s} h al ptr size => ⟨fun r e => ?_⟩⟩
  simp only [allocCall] at e
  split at e
  · cases e
  · split at e
    · cases e
    · split at e
      · cases e; exact h
      · split at e
        · cases e; exact h
        · split at e
          · cases e; exact h
          · cases e

end CStr
