import Verif.Lemmas.Escape
import Verif.Lemmas.BufHist
/-! What is left when an operation does not come back from the allocator. -/
namespace CStr

theorem LeftWith.entry {s : St} {p : Addr} {b : Buf} (hb : BufAt s p b) (n : Nat) : LeftWith s p (storage b.cap) ⟨s.mem, s.live, n⟩ b :=
  ⟨hb.frame (fun _ _ => rfl) (fun _ => rfl), fun _ _ _ => rfl, fun _ _ h => h⟩

/-- Left at the first call, after writes to the buffer only. -/
theorem LeftWith.after {s s1 : St} {p : Addr} {b : Buf} {d : List Byte} (h : Result s p b d b.cap p s1) {m : Moment}
    {c : Buf} (hl : LeftWith s1 p (storage b.cap) m c) : LeftWith s p (storage b.cap) m c := by
  obtain ⟨_, e1, _, _⟩ := h.same rfl
  refine ⟨hl.buf.frame (fun _ _ => rfl) (fun _ => rfl), ?_, ?_⟩
  · intro a h1 h2
    have e : s1.mem a = s.mem a := h.only.outside a h1 h1
    rw [hl.rest a h1 (by rw [e]; exact h2), e]
  · intro q blk hq
    exact hl.heap q blk (by rw [e1]; exact hq)

/-- From `s` to the moment `m` the only block that changed is the one at `p`, which is at `q` now: if it has moved, there is no block at `p`. -/
structure HeapLeft (s : St) (p q : Addr) (m : Moment) : Prop where
  stale : q ≠ p → m.live p = none
  others : ∀ a, a ≠ p → a ≠ q → m.live a = s.live a

/-- What the bundled formatter leaves at each request. -/
structure PrnfLeft (s : St) (p : Addr) (b : Buf) (t : List Byte) (ms : List Moment) : Prop where
  all : ∀ m ∈ ms, ∃ k q cap, BufAt (s.left m) q ⟨b.data ++ t.take k, cap, b.al⟩ ∧
    (∀ a, ¬ InRange p (storage b.cap) a → (s.mem a).isSome → m.mem a = s.mem a) ∧ HeapLeft s p q m
  first : ∀ m ms', ms = ms' ++ [m] → ∃ k, LeftWith s p (storage b.cap) m ⟨b.data ++ t.take k, b.cap, b.al⟩

theorem prnf_chars_left {cfg : Cfg} (hcfg : cfg.Ok) (t : List Byte) : ∀ {s : St} (_ : s.Sane) {p : Addr} {b : Buf} (_ : BufAt s p b)
    (_ : cfg.Handles b (b.data.length + t.length)) (_ : b.Fits (b.data.length + t.length)) {p' : Addr} {s' : St}
    (_ : prnf_chars cfg s p t = .ok (p', s')), ∃ ms, s'.moments = ms ++ s.moments ∧ PrnfLeft s p b t ms := by
  induction t with
  | nil =>
    intro s hs p b hb hh hf p' s' he
    simp only [prnf_chars] at he
    cases he
    refine ⟨[], rfl, ⟨(fun _ h => by cases h), fun m ms' h => ?_⟩⟩
    have := congrArg List.length h
    simp at this
  | cons c t ih =>
    intro s hs p b hb hh hf p' s' he
    have hfit1 : b.Fits (b.data.length + 1) := by
      simp only [List.length_cons] at hf
      rcases hf with h | h
      · exact .inl (by omega)
      · exact .inr ⟨h.1, by omega⟩
    have h1 := append_char_out hcfg hs hb c (hh.mono (by simp only [List.length_cons]; omega) (Nat.le_refl _) rfl)
    rw [if_pos hfit1] at h1
    simp only [prnf_chars] at he
    rcases h1 with ⟨_, he1⟩ | ⟨p1, s1, e1, r1⟩
    · rw [he1] at he; cases he
    rw [e1, Res.bind_ok] at he
    simp only at he
    have hcl := cap_le_capFor hcfg (b := b) (b.data.length + 1)
    have el : (b.data ++ [c]).length + t.length = b.data.length + (c :: t).length := by
      simp only [List.length_append, List.length_cons, List.length_nil]; omega
    obtain ⟨ms, hm, hp⟩ := ih r1.sane r1.buf (hh.mono (by simp only [el]; omega) hcl rfl)
      (by simp only [el]; rw [Fits_capFor hcfg hb.cap]; exact hf) he
    have f1 := (append_char_to_buf_first (cfg := cfg) (s := s) p c).out _ e1
    have htake : ∀ k, b.data ++ [c] ++ t.take k = b.data ++ (c :: t).take (k + 1) := by intro k; simp
    have hall : ∀ m ∈ ms, ∃ k q cap, BufAt (s.left m) q ⟨b.data ++ (c :: t).take k, cap, b.al⟩ ∧
        (∀ a, ¬ InRange p (storage b.cap) a → (s.mem a).isSome → m.mem a = s.mem a) ∧ HeapLeft s p q m := by
      intro m hmm
      obtain ⟨k, q, cap, g1, g2, g3⟩ := hp.all m hmm
      refine ⟨k + 1, q, cap, ?_, ?_, ?_, ?_⟩
      · rw [← htake]
        exact g1.frame (fun _ _ => rfl) (fun _ => rfl)
      · intro a ha hs1
        have hnew : ¬ InRange p1 (storage (b.capFor cfg (b.data.length + 1))) a := by
          intro hin
          rw [r1.only.fresh a hin ha] at hs1; cases hs1
        have e := r1.only.outside a ha hnew
        rw [g2 a hnew (by rw [e]; exact hs1), e]
      · intro hq
        by_cases hpp : p1 = p
        · rw [← hpp] at hq ⊢; exact g3.stale hq
        · rw [g3.others p (fun h => hpp h.symm) (fun h => hq h.symm), r1.only.liveOld hpp]
      · intro a ha hq
        by_cases hpp : a = p1
        · subst hpp
          rw [g3.stale (fun h => hq h.symm), r1.only.liveNew ha]
        · rw [g3.others a hpp hq, r1.only.live a ha hpp]
    by_cases hc : b.capFor cfg (b.data.length + 1) = b.cap
    · obtain ⟨rfl, e2, e3, _⟩ := r1.same hc
      refine ⟨ms, by rw [hm, f1.none e3], hall, ?_⟩
      intro m ms' hms
      obtain ⟨k, g⟩ := hp.first m ms' hms
      rw [hc] at g r1
      refine ⟨k + 1, ?_⟩
      rw [← htake]
      exact LeftWith.after r1 g
    · refine ⟨ms ++ [⟨s.mem, s.live, storage (b.capFor cfg (b.data.length + 1))⟩], ?_, ?_, ?_⟩
      · rw [hm, f1.one (r1.log hc)]; simp
      · intro m hmm
        rcases List.mem_append.1 hmm with h | h
        · exact hall m h
        · obtain rfl := List.mem_singleton.1 h
          refine ⟨0, p, b.cap, ?_, fun _ _ _ => rfl, fun h => absurd rfl h, fun _ _ _ => rfl⟩
          simpa using (LeftWith.entry hb (storage (b.capFor cfg (b.data.length + 1)))).buf
      · intro m ms' hms
        have h := List.append_inj_right' hms rfl
        cases h
        refine ⟨0, ?_⟩
        simpa using LeftWith.entry hb _

/-- Operations that ask before they change anything. -/
theorem run_asks_first {cfg : Cfg} (hcfg : cfg.Ok) {s : St} (hs : s.Sane) {p : Addr} {b : Buf} (hb : BufAt s p b)
    {op : BufOp} {e : Edit} (hm : Means s p b op e) (hok : e.Ok cfg b) (ha : e.AsksFirst b) :
    Res.Sat (fun r => First s r.2.2) (op.run cfg s (some p)) := by
  cases hm with
  | cat h =>
    refine cat_first hcfg hs hb h ?_ (by have := hok.1; simpa only [Edit.wanted, total] using this)
    by_cases hd : b.Dynamic
    · left
      intro a h1 h2
      have := ha hd
      rw [decide_eq_false_iff_not] at this
      exact this ⟨a, h1, h2⟩
    · exact .inr hd
  | printf _ => exact ha.elim
  | prnf => exact ha.elim
  | appendPrnf => exact ha.elim
  | _ => exact run_first _ trivial

/-- Formatted output: the buffer has been emptied, nothing else. -/
theorem printf_first {cfg : Cfg} {s : St} (hs : s.Sane) {p : Addr} {b : Buf} (hb : BufAt s p b) (fmt : Fmt) :
    ∃ s0, Result s p b [] b.cap p s0 ∧ s0.moments = s.moments ∧ Res.Sat (fun r => First s0 r.2.2) (strbuf_printf cfg s (some p) fmt) := by
  obtain ⟨m', e1, r1⟩ := (ReszOk.refl hs hb).emptied
  refine ⟨_, r1, rfl, ?_⟩
  simp only [strbuf_printf, deref_some hb.pos, e1, Res.bind_ok]
  exact append_printf_first _ _

/-- A fixed buffer: no call. -/
theorem run_fixed {cfg : Cfg} (hcfg : cfg.Ok) {s : St} (hs : s.Sane) {p : Addr} {b : Buf} (hb : BufAt s p b)
    {op : BufOp} {e : Edit} (hm : Means s p b op e) (hok : e.Ok cfg b) (hd : ¬ b.Dynamic) {v : View} {bp : Option Addr} {s' : St}
    (he : op.run cfg s (some p) = .ok (v, bp, s')) : s'.moments = s.moments := by
  rcases run_does hcfg hs hb hm hok with ⟨h, _⟩ | ⟨p1, s1, e1, _, hc⟩
  · exact absurd h hd
  · have hg := (run_keeps (Grown.kept s) (cfg := cfg) (Grown.refl s) (some p) op).out _ he
    rw [e1] at he; cases he
    exact hg.quiet (hc.fixed hd).2.2.2.1

theorem prnf_left {cfg : Cfg} (hcfg : cfg.Ok) {s : St} (hs : s.Sane) {p : Addr} {b : Buf} (hb : BufAt s p b) {t : List Byte}
    (hh : cfg.Handles b t.length) (hf : b.Fits t.length) {v : View} {bp : Option Addr} {s' : St}
    (he : strbuf_prnf cfg s (some p) t = .ok (v, bp, s')) :
    ∃ s0 ms, Result s p b [] b.cap p s0 ∧ s'.moments = ms ++ s.moments ∧ PrnfLeft s0 p ⟨[], b.cap, b.al⟩ t ms := by
  obtain ⟨m', e1, r1⟩ := (ReszOk.refl hs hb).emptied
  simp only [strbuf_prnf, deref_some hb.pos, e1, Res.bind_ok] at he
  cases e2 : prnf_chars cfg { s with mem := m' } p t with
  | ok w =>
    obtain ⟨p1, s1⟩ := w
    obtain ⟨ms, g1, g2⟩ := prnf_chars_left hcfg t r1.sane r1.buf
      (hh.mono (by simp) (Nat.le_refl _) rfl) (by simpa [Buf.Fits, Buf.Dynamic] using hf) e2
    refine ⟨_, ms, r1, ?_, g2⟩
    rw [e2, Res.bind_ok] at he
    simp only at he
    have : s'.moments = s1.moments := by
      split at he
      · cases e3 : getSize s1.mem p1 with
        | ok z =>
          rw [e3, Res.bind_ok] at he
          split at he
          · cases e4 : empty_buf s1.mem p1 with
            | ok m4 =>
              rw [e4, Res.bind_ok] at he
              cases e5 : strview_of_buf m4 p1 with
              | ok v5 => rw [e5, Res.bind_ok] at he; cases he; rfl
              | _ => rw [e5] at he; cases he
            | _ => rw [e4] at he; cases he
          · cases e5 : strview_of_buf s1.mem p1 with
            | ok v5 => rw [e5, Res.bind_ok] at he; cases he; rfl
            | _ => rw [e5] at he; cases he
        | _ => rw [e3] at he; cases he
      · cases he
    rw [this, g1]
  | _ => rw [e2] at he; cases he

theorem append_prnf_left {cfg : Cfg} (hcfg : cfg.Ok) {s : St} (hs : s.Sane) {p : Addr} {b : Buf} (hb : BufAt s p b) {t : List Byte}
    (hh : cfg.Handles b (b.data.length + t.length)) (hf : b.Fits (b.data.length + t.length)) {v : View} {bp : Option Addr} {s' : St}
    (he : strbuf_append_prnf cfg s (some p) t = .ok (v, bp, s')) :
    ∃ ms, s'.moments = ms ++ s.moments ∧ PrnfLeft s p b t ms := by
  simp only [strbuf_append_prnf, deref_some hb.pos, hb.getSize, Res.bind_ok] at he
  cases e2 : prnf_chars cfg s p t with
  | ok w =>
    obtain ⟨p1, s1⟩ := w
    obtain ⟨ms, g1, g2⟩ := prnf_chars_left hcfg t hs hb hh hf e2
    refine ⟨ms, ?_, g2⟩
    rw [e2, Res.bind_ok] at he
    simp only at he
    have : s'.moments = s1.moments := by
      split at he
      · cases e6 : addInt cfg b.data.length t.length with
        | ok cc =>
          rw [e6, Res.bind_ok] at he
          cases e3 : getSize s1.mem p1 with
          | ok z =>
            rw [e3, Res.bind_ok] at he
            split at he
            · cases e4 : empty_buf s1.mem p1 with
              | ok m4 =>
                rw [e4, Res.bind_ok] at he
                cases e5 : strview_of_buf m4 p1 with
                | ok v5 => rw [e5, Res.bind_ok] at he; cases he; rfl
                | _ => rw [e5] at he; cases he
              | _ => rw [e4] at he; cases he
            · cases e5 : strview_of_buf s1.mem p1 with
              | ok v5 => rw [e5, Res.bind_ok] at he; cases he; rfl
              | _ => rw [e5] at he; cases he
          | _ => rw [e3] at he; cases he
        | _ => rw [e6] at he; cases he
      · cases he
    rw [this, g1]
  | _ => rw [e2] at he; cases he

theorem create_init_first {cfg : Cfg} (hcfg : cfg.Ok) {dflt : Alloc} {o : Option Alloc} {s : St} (hs : s.Sane) (hal : (allocFor dflt o).Ok)
    {v : View} {S : List Byte} (hv : Denotes s.mem v S) :
    Res.Sat (fun r => First s r.2) (strbuf_create_init cfg dflt s v o) := by
  refine ⟨fun r e => ?_⟩
  rcases C49_create_init hcfg (dflt := dflt) (o := o) hs hal hv with ⟨_, e'⟩ | ⟨p, s', e', hc⟩
  · rw [e'] at e; cases e
  · rw [e'] at e; cases e
    have hal' : (pickAlloc dflt o).fn ≠ 0 := hal.some
    simp only [strbuf_create_init, if_pos hal'] at e'
    cases e1 : create_buf s v.size (pickAlloc dflt o) with
    | ok w =>
      obtain ⟨p1, s1⟩ := w
      rw [e1, Res.bind_ok] at e'
      simp only at e'
      have f1 := (create_buf_first (s := s) v.size (pickAlloc dflt o)).out _ e1
      have g := (insert_keeps (Grown.kept s1) (cfg := cfg) (Grown.refl s1) p1 0 v).out _ e'
      have hl : ∃ c, s1.log = c :: s.log := by
        refine ⟨?_, ?_⟩
        · exact (s1.log.headD ⟨⟨0, 0⟩, 0, 0, 0⟩)
        · rcases create_ok hs (al := pickAlloc dflt o) hal (cap := S.length) hv.max with ⟨_, h⟩ | ⟨p2, s2, h, c2⟩
          · rw [← hv.size, e1] at h; cases h
          · rw [← hv.size, e1] at h; cases h
            rw [c2.log]; rfl
      obtain ⟨c, hl⟩ := hl
      have hlen : s'.log = s1.log := by
        obtain ⟨cs, ms, h1, _, _⟩ := g
        have h2 := hc.log
        rw [h1, hl] at h2
        have h3 : cs = [] := by
          have := congrArg List.length h2
          simp only [List.length_append, List.length_cons] at this
          exact List.length_eq_zero_iff.1 (by omega)
        rw [h1, h3]; rfl
      right
      exact ⟨c, hlen.trans hl, (g.quiet hlen).trans (f1.one hl)⟩
    | _ => rw [e1] at e'; cases e'

variable {K : Nat → List Byte} {ka : Nat → Addr}

/-- The relation depends on memory, heap and the promise of the allocator only. -/
theorem Rep.same {σ : AState} {ρ : Vars} {s s' : St} (r : Rep K ka σ ρ s) (hm : s'.mem = s.mem) (hl : s'.live = s.live)
    (hn : ∀ i, (s'.picks i).addr ≠ 0) : Rep K ka σ ρ s' := by
  refine ⟨⟨⟨?_, ?_⟩, hn⟩, r.null, ?_, r.apart, ?_, r.constApart, ?_⟩
  · rw [hm, hl]; exact r.sane.wf.block
  · rw [hl]; exact r.sane.wf.disjoint
  · intro h o e
    exact (r.obj h o e).frame (fun _ _ => by rw [hm]) (fun _ => by rw [hl])
  · rw [hm]; exact r.const
  · rw [hl]; exact r.owned

theorem First.rep {σ : AState} {ρ : Vars} {s s' : St} (r : Rep K ka σ ρ s) (h : First s s') (hn : ∀ i, (s'.picks i).addr ≠ 0) :
    ∃ ms, s'.moments = ms ++ s.moments ∧ ∀ m ∈ ms, Rep K ka σ ρ (s'.left m) := by
  rcases h with h | ⟨c, _, h⟩
  · exact ⟨[], h.2, fun _ h => by cases h⟩
  · refine ⟨[_], h, ?_⟩
    intro m hm
    obtain rfl := List.mem_singleton.1 hm
    exact r.same rfl rfl hn

/-- A buffer that has been changed where it is. -/
theorem Rep.change {σ : AState} {ρ : Vars} {s s' : St} (r : Rep K ka σ ρ s) {h : Nat} {b : Buf} (hh : σ h = some (.buf b)) {d : List Byte}
    {cap : Nat} {p' : Addr} (hch : Changed s (ρ h) b d cap p' s') :
    Rep K ka (σ.set h (some (.buf ⟨d, cap, b.al⟩))) (ρ.set h p') s' := by
  have hf := (r.forget hh).fill (o := .buf ⟨d, cap, b.al⟩) (k := h) hch.sane hch.only
    (fun h0 => by simp only [Obj.size, storage] at h0; omega) hch.buf ?_ (AState.set_same _ _ _)
  · rwa [AState.set_set, Vars.set_set] at hf
  · intro h0
    have h0' : b.al.fn = 0 := h0
    have hd : ¬ b.Dynamic := by simp only [Buf.Dynamic]; omega
    obtain ⟨f1, _, f3, _⟩ := hch.fixed hd
    rw [f1, f3]
    exact r.notLive hh h0' (by simp only [InRange, Obj.size, storage]; omega)

/-- One command: left at any request, it leaves the variables and buffers it found (`Cmd.stopped`). -/
theorem exec_left {cfg : Cfg} (hcfg : cfg.Ok) {dflt : Alloc} {σ : AState} {ρ : Vars} {s : St} (r : Rep K ka σ ρ s) {c : Cmd}
    (hl : c.Legal cfg dflt K σ) (hv : c.Leavable σ) {ρ' : Vars} {s' : St} (he : c.exec cfg dflt K ka ρ s = .ok (ρ', s')) :
    ∃ ms, s'.moments = ms ++ s.moments ∧ ∀ m ∈ ms, Rep K ka (c.stopped σ) ρ (s'.left m) := by
  have hr' : Rep K ka (c.step cfg dflt K σ) ρ' s' := by
    rcases exec_ok hcfg r hl with e | ⟨ρ1, s1, e, r1⟩
    · rw [he] at e; cases e
    · rw [he] at e; cases e; exact r1
  have hn := hr'.sane.noFail
  have one : ∀ {α : Type} {x : Res α} {f : α → Res (Vars × St)} {w : Vars × St}, (x >>= f) = .ok w → ∃ a, x = .ok a ∧ f a = .ok w := by
    intro α x f w e
    cases x with
    | ok a => exact ⟨a, rfl, e⟩
    | ub w => cases e
    | fuel => cases e
    | env _ => cases e
  have first : First s s' → ∃ ms, s'.moments = ms ++ s.moments ∧ ∀ m ∈ ms, Rep K ka σ ρ (s'.left m) := fun h => h.rep r hn
  have none' : s'.moments = s.moments → ∀ σ' : AState, ∃ ms, s'.moments = ms ++ s.moments ∧ ∀ m ∈ ms, Rep K ka σ' ρ (s'.left m) :=
    fun h _ => ⟨[], h, fun _ h => by cases h⟩
  cases c with
  | createEmpty h n o =>
    obtain ⟨w, e1, e2⟩ := one he
    cases e2
    exact first ((create_empty_first dflt n o).out _ e1)
  | createInit h x o =>
    obtain ⟨w, e1, e2⟩ := one he
    obtain ⟨w', e3, e4⟩ := one e2
    cases e4
    obtain ⟨v, g1, g2⟩ := Src.facts r hl.2.2
    rw [e1] at g1; cases g1
    exact first ((create_init_first hcfg r.sane hl.2.1 g2.denotes).out _ e3)
  | createFixed h k n =>
    obtain ⟨w, e1, e2⟩ := one he
    cases e2
    exact none' rfl _
  | destroy h =>
    obtain ⟨w, e1, e2⟩ := one he
    cases e2
    exact first ((destroy_first _).out _ e1)
  | freeStr k al =>
    obtain ⟨w, e1, e2⟩ := one he
    cases e2
    exact first ((allocCall_first s _ _ _).out _ e1)
  | toCstr h k =>
    obtain ⟨w, e1, e2⟩ := one he
    cases e2
    cases hh : σ h with
    | none =>
      rw [r.null h hh] at e1
      simp only [strbuf_to_cstr, deref] at e1
      cases e1
      exact none' rfl _
    | some o =>
      obtain ⟨b, rfl⟩ := hl.1 o hh
      have hb : BufAt s (ρ h) b := r.obj h _ hh
      rw [(C44_to_cstr_fixed (cfg := cfg) hb (hv b hh)).1] at e1
      cases e1
      exact none' rfl _
  | op h o =>
    obtain ⟨call, e1, e2⟩ := one he
    obtain ⟨w, e3, e4⟩ := one e2
    obtain ⟨v, bp, s1⟩ := w
    cases e4
    obtain ⟨call', g1, g2, g3⟩ := HOp.facts r hl.2.1
    rw [e1] at g1; cases g1
    cases hh : σ h with
    | none =>
      rw [r.null h hh, C50_null_handle cfg s call g2 (.inr rfl)] at e3
      cases e3
      exact none' rfl _
    | some ob =>
      obtain ⟨b, rfl⟩ := hl.1 ob hh
      have hb : BufAt s (ρ h) b := r.obj h _ hh
      have hm := g3 b hh
      have hok := hl.2.2 b hh
      by_cases hd : b.Dynamic
      · by_cases ha : (o.edit K σ h b).AsksFirst b
        · have hst : Cmd.stopped σ (.op h o) = σ := by
            cases o with
            | printf ps => exact ha.elim
            | _ => rfl
          rw [hst]
          exact first ((run_asks_first hcfg r.sane hb hm hok ha).out _ e3)
        · cases o with
          | printf ps =>
            simp only [HOp.edit] at hm hok
            simp only [Cmd.stopped, hh]
            cases hm with
            | printf hf =>
              rename_i fmt
              obtain ⟨s0, r0, h0, hs0⟩ := printf_first (cfg := cfg) r.sane hb fmt
              have hrep := r.change hh (r0.changed (fun _ => rfl))
              rw [Vars.set_self rfl] at hrep
              have := (hs0.out _ e3).rep hrep hn
              rwa [h0] at this
          | cat xs => exact absurd (fun _ => hv b hh hd) ha
          | prnf t => exact absurd hd (hv b hh)
          | appendPrnf t => exact absurd hd (hv b hh)
          | insertBefore d x => exact absurd (by simp only [HOp.edit]; split <;> trivial) ha
          | insertAfter d x => exact absurd (by simp only [HOp.edit]; split <;> trivial) ha
          | insertBeforeCstr d x => exact absurd (by simp only [HOp.edit]; split <;> trivial) ha
          | insertAfterCstr d x => exact absurd (by simp only [HOp.edit]; split <;> trivial) ha
          | appendUsing t => exact absurd (by simp only [HOp.edit]; split <;> trivial) ha
          | _ => exact absurd trivial ha
      · exact none' (run_fixed hcfg r.sane hb hm hok hd e3) _

end CStr
