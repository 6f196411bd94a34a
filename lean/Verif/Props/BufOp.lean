import Verif.Lemmas.BufOp
/-! Properties C32, C38, C50, C51: statements about all operations on buffers. `BufOp`, `Means` and `Does` are in Spec/BufCall.lean,
`Edit` in Spec/BufOp.lean. -/
namespace CStr

/-- C32. Every operation on a well-formed buffer leaves a well-formed buffer (`0 <= size <= capacity`, NUL after the content), with
exactly the specified content and capacity, and returns the view of exactly that content (or an invalid view, where so specified). -/
theorem C32_every_operation {cfg : Cfg} (hcfg : cfg.Ok) {s : St} (hs : s.Sane) {p : Addr} {b : Buf} (hb : BufAt s p b)
    {op : BufOp} {e : Edit} (hm : Means s p b op e) (hok : e.Ok cfg b) :
    Does s p b (op.run cfg s (some p)) (e.apply cfg b) (e.returns b) :=
  run_does hcfg hs hb hm hok

/-- C32. Spelled out in terms of memory: the new header, content and terminator, and the returned view. -/
theorem C32_terminated {cfg : Cfg} (hcfg : cfg.Ok) {s : St} (hs : s.Sane) {p : Addr} {b : Buf} (hb : BufAt s p b)
    {op : BufOp} {e : Edit} (hm : Means s p b op e) (hok : e.Ok cfg b) :
    (b.Dynamic ∧ op.run cfg s (some p) = .env .alloc) ∨
    ∃ v p' s' size cap, op.run cfg s (some p) = .ok (v, some p', s') ∧
      getSize s'.mem p' = .ok size ∧ getCap s'.mem p' = .ok cap ∧ 0 ≤ size ∧ size ≤ cap ∧ cap ≤ INT_MAX ∧
      load s'.mem (p' + 24 + size) = .ok 0 ∧
      Denotes s'.mem ⟨p' + 24, size⟩ (e.content b) ∧ (v = ⟨p' + 24, size⟩ ∨ (v = .invalid ∧ ¬ e.returns b)) := by
  rcases run_does hcfg hs hb hm hok with h | ⟨p', s', h1, _, h3⟩
  · exact .inl h
  · right
    have hbuf := h3.buf
    have hlen := hbuf.len
    have hmax := hbuf.cap
    simp only [Edit.apply] at hbuf hlen hmax h1
    refine ⟨_, p', s', ((e.content b).length : Int), ((e.cap cfg b) : Int), h1, hbuf.getSize, hbuf.getCap, by omega, by omega, hmax,
      ?_, ⟨rfl, by omega, ?_⟩, ?_⟩
    · have h := hbuf.holds
      rw [Holds.append_iff] at h
      have h2 := h.2 0 (by simp)
      simp only [List.length_append, hdrBytes_length, List.getElem_cons_zero] at h2
      refine load_of_rd ?_
      rw [← h2]; congr 1; omega
    · have h := hbuf.holds
      rw [Holds.append_iff, Holds.append_iff, hdrBytes_length] at h
      exact h.1.2
    · by_cases hr : e.returns b
      · exact .inl (if_pos hr)
      · exact .inr ⟨if_neg hr, hr⟩

/-- C38. No operation on a fixed buffer calls an allocator or changes a byte outside the buffer's storage, and if the wanted content does not fit,
the buffer is emptied. -/
theorem C38_every_operation {cfg : Cfg} (hcfg : cfg.Ok) {s : St} (hs : s.Sane) {p : Addr} {b : Buf} (hb : BufAt s p b)
    (hd : ¬ b.Dynamic) {op : BufOp} {e : Edit} (hm : Means s p b op e) (hok : e.Ok cfg b) :
    ∃ v s', op.run cfg s (some p) = .ok (v, some p, s') ∧ BufAt s' p ⟨e.content b, b.cap, b.al⟩ ∧
      (∀ a, ¬ InRange p (storage b.cap) a → s'.mem a = s.mem a) ∧
      s'.live = s.live ∧ s'.log = s.log ∧ s'.calls = s.calls ∧
      (b.cap < (e.wanted b).length → e.content b = []) := by
  rcases run_does hcfg hs hb hm hok with h | ⟨p', s', h1, _, h3⟩
  · exact absurd h.1 hd
  · obtain ⟨rfl, hc, h5, h6, h7⟩ := h3.fixed hd
    have hbuf := h3.buf
    rw [hc] at hbuf
    refine ⟨_, s', h1, hbuf, ?_, h5, h6, h7, ?_⟩
    · intro a ha
      have := h3.only.outside a ha
      rw [hc] at this
      exact this ha
    · intro hbig
      have hnf := not_fits_fixed hd hbig
      by_cases hne : ∃ l, e = .cat l true
      · obtain ⟨l, rfl⟩ := hne
        exact if_neg (fun h => hd h.1)
      · rw [content_eq (fun l hl => hne ⟨l, hl⟩), if_neg hnf]

/-- C51. An operation on one buffer changes no byte outside its old and new storage and takes new storage only where nothing was mapped. Every
other buffer is unchanged. -/
theorem C51_frame {cfg : Cfg} (hcfg : cfg.Ok) {s : St} (hs : s.Sane) {p : Addr} {b : Buf} (hb : BufAt s p b)
    {op : BufOp} {e : Edit} (hm : Means s p b op e) (hok : e.Ok cfg b) {v : View} {bp : Option Addr} {s' : St}
    (hrun : op.run cfg s (some p) = .ok (v, bp, s')) :
    ∃ p', bp = some p' ∧
      (∀ a, ¬ InRange p (storage b.cap) a → ¬ InRange p' (storage (e.cap cfg b)) a → s'.mem a = s.mem a) ∧
      (∀ a, InRange p' (storage (e.cap cfg b)) a → ¬ InRange p (storage b.cap) a → s.mem a = none) ∧
      (∀ q, q ≠ p → q ≠ p' → s'.live q = s.live q) ∧
      (∀ q c, BufAt s q c → (q + storage c.cap ≤ p ∨ p + storage b.cap ≤ q) →
        BufAt s' q c ∧ (q + storage c.cap ≤ p' ∨ p' + storage (e.cap cfg b) ≤ q)) ∧
      (∀ (w : View) (S : List Byte), Denotes s.mem w S → (w.data + w.size ≤ p ∨ p + storage b.cap ≤ w.data) → Denotes s'.mem w S) := by
  have hpos : ∀ c : Nat, 0 < storage c := fun c => by simp only [storage]; omega
  rcases run_does hcfg hs hb hm hok with h | ⟨p', s'', h1, _, h3⟩
  · rw [hrun] at h; cases h.2
  · rw [hrun] at h1
    obtain ⟨rfl, rfl⟩ : bp = some p' ∧ s' = s'' := by
      injection h1 with h1
      injection h1 with _ h1
      injection h1 with h1 h2
      exact ⟨h1, h2⟩
    refine ⟨p', rfl, h3.only.outside, h3.only.fresh, h3.only.live, ?_, ?_⟩
    · intro q c hq hdj
      exact h3.only.bufAt (hpos _) (hpos _) hq hdj
    · intro w S hw hdj
      have hsz := hw.size
      refine ⟨hw.size, hw.max, ?_⟩
      apply hw.holds.congr
      intro i hi
      have hnp : ¬ InRange p (storage b.cap) (w.data + i) := by
        simp only [InRange]; omega
      have hr := hw.holds i hi
      by_cases hp' : InRange p' (storage (e.cap cfg b)) (w.data + i)
      · have hfr := h3.only.fresh _ hp' hnp
        have h5 := h3.buf.top
        simp only [rd] at hr ⊢
        split at hr
        · cases hr
        · split at hr
          · simp only [Edit.apply, InRange] at h5 hp'
            omega
          · rw [hfr] at hr; cases hr
      · exact h3.only.outside _ hnp hp'

/-- The C string argument of a call, if it has one. -/
def BufOp.cstrArg : BufOp → Option Addr
  | .appendCstr a => some a
  | .prependCstr a => some a
  | .insertAtIndexCstr _ a => some a
  | .insertBeforeCstr _ a => some a
  | .insertAfterCstr _ a => some a
  | .stripCstr a => some a
  | _ => none

/-- C50. Every operation given a NULL `buf_ptr`, or one that points to NULL, returns an invalid view and has no effect. (Functions with a C string
argument look at that string first, so it must be a string or NULL.) -/
theorem C50_null_handle (cfg : Cfg) (s : St) (op : BufOp) (hc : ∀ a, op.cstrArg = some a → a = 0 ∨ ∃ S, CString s.mem a S)
    {bp : Option Addr} (hbp : bp = none ∨ bp = some 0) :
    op.run cfg s bp = .ok (.invalid, bp, s) := by
  have hcs : ∀ a, op.cstrArg = some a → ∃ v, cstr s.mem a = .ok v := by
    intro a ha
    rcases hc a ha with rfl | ⟨S, h⟩
    · exact ⟨.invalid, rfl⟩
    · exact ⟨_, cstr_eq h⟩
  have hd : deref bp = none := by rcases hbp with rfl | rfl <;> rfl
  have hv : view_or_invalid s bp = .ok (.invalid, bp, s) := by rcases hbp with rfl | rfl <;> rfl
  cases op with
  | appendCstr a =>
    obtain ⟨v, h⟩ := hcs a rfl
    simp only [BufOp.run, strbuf_append_cstr, strbuf_append_strview, h, Res.bind_ok, hd, hv]
  | prependCstr a =>
    obtain ⟨v, h⟩ := hcs a rfl
    simp only [BufOp.run, strbuf_prepend_cstr, strbuf_prepend_strview, h, Res.bind_ok, hd, hv]
  | insertAtIndexCstr i a =>
    obtain ⟨v, h⟩ := hcs a rfl
    simp only [BufOp.run, strbuf_insert_at_index_cstr, strbuf_insert_at_index_strview, h, Res.bind_ok, hd, hv]
  | insertBeforeCstr d a =>
    obtain ⟨v, h⟩ := hcs a rfl
    simp only [BufOp.run, strbuf_insert_before_cstr, strbuf_insert_before_strview, h, Res.bind_ok, hd, hv]
  | insertAfterCstr d a =>
    obtain ⟨v, h⟩ := hcs a rfl
    simp only [BufOp.run, strbuf_insert_after_cstr, strbuf_insert_after_strview, h, Res.bind_ok, hd, hv]
  | stripCstr a =>
    obtain ⟨v, h⟩ := hcs a rfl
    simp only [BufOp.run, strbuf_strip_cstr, strbuf_strip_strview, h, Res.bind_ok, hd, hv]
  | append v => simp only [BufOp.run, strbuf_append_strview, hd, hv]
  | prepend v => simp only [BufOp.run, strbuf_prepend_strview, hd, hv]
  | insertAtIndex i v => simp only [BufOp.run, strbuf_insert_at_index_strview, hd, hv]
  | insertBefore d v => simp only [BufOp.run, strbuf_insert_before_strview, hd, hv]
  | insertAfter d v => simp only [BufOp.run, strbuf_insert_after_strview, hd, hv]
  | assign v => simp only [BufOp.run, strbuf_assign, hd]
  | cat vs => simp only [BufOp.run, strbuf_cat, hd]
  | strip v => simp only [BufOp.run, strbuf_strip_strview, hd, hv]
  | appendChar c => simp only [BufOp.run, strbuf_append_char, hd]
  | shrink => simp only [BufOp.run, strbuf_shrink, hd]
  | grow n => simp only [BufOp.run, strbuf_grow, hd]
  | appendUsing f => simp only [BufOp.run, strbuf_append_using, hd]
  | printf fmt => simp only [BufOp.run, strbuf_printf, hd]
  | appendPrintf fmt => simp only [BufOp.run, strbuf_append_printf, hd]
  | prnf t => simp only [BufOp.run, strbuf_prnf, hd]
  | appendPrnf t => simp only [BufOp.run, strbuf_append_prnf, hd]

/-- C50. The same for the functions that read, destroy or convert a buffer. -/
theorem C50_null_handle_others (cfg : Cfg) (s : St) {bp : Option Addr} (hbp : bp = none ∨ bp = some 0) :
    strbuf_view s.mem bp = .ok .invalid ∧ strbuf_destroy s bp = .ok (bp, s) ∧ strbuf_to_cstr cfg s bp = .ok (0, bp, s) := by
  rcases hbp with rfl | rfl <;> exact ⟨rfl, rfl, rfl⟩

-- a fixed buffer asked to insert its own content into itself: does not fit, becomes empty
example : ∃ v s', (BufOp.insertAtIndex 2 ⟨exP + 24 + (0 : Nat), (5 : Nat)⟩).run isoCfg (exSt exF []) (some exP) = .ok (v, some exP, s') ∧
    BufAt s' exP ⟨[], 8, ⟨0, 0⟩⟩ := by
  obtain ⟨v, s', h1, h2, _⟩ := C38_every_operation isoCfg_ok (exSt_sane exF_valid []) (exSt_buf exF_valid _) (by decide)
    (.insertAtIndex (i := 2) ((exSt_buf exF_valid []).partSource 0 5 (by decide)))
    ⟨.inr (.inr (.inl (by decide))), by decide⟩
  exact ⟨v, s', h1, h2⟩

-- a dynamic buffer: 4 characters of formatted text are appended and the view of the result is returned
example : Does (exSt exB []) exP exB ((BufOp.appendPrnf [49, 50, 51, 52]).run isoCfg (exSt exB []) (some exP))
    ⟨[104, 101, 108, 108, 111, 49, 50, 51, 52], 16, ⟨0, 1⟩⟩ True :=
  C32_every_operation isoCfg_ok (exSt_sane exB_valid []) (exSt_buf exB_valid _) .appendPrnf
    ⟨.inr (.inr (.inl (by decide))), by decide, fun _ => by decide⟩

-- the other data is still there after the buffer has moved
example : ∃ v bp s', (BufOp.append ⟨exQ, 5⟩).run isoCfg (exSt exB [1, 2, 3, 4, 5]) (some exP) = .ok (v, bp, s') ∧
    Denotes s'.mem ⟨exQ, 5⟩ [1, 2, 3, 4, 5] := by
  have hok : ((BufOp.append ⟨exQ, 5⟩).run isoCfg (exSt exB [1, 2, 3, 4, 5]) (some exP)).isOk = true := by decide +kernel
  cases h : (BufOp.append ⟨exQ, 5⟩).run isoCfg (exSt exB [1, 2, 3, 4, 5]) (some exP) with
  | ok r =>
    obtain ⟨v, bp, s'⟩ := r
    obtain ⟨_, _, _, _, _, _, hd⟩ := C51_frame isoCfg_ok (exSt_sane exB_valid _) (exSt_buf exB_valid _)
      (.append (exSt_source exB_valid (l := [1, 2, 3, 4, 5]) (by decide))) ⟨.inr (.inr (.inl (by decide))), by decide⟩ h
    exact ⟨v, bp, s', rfl, hd _ _ (exSt_other (by decide)) (by decide)⟩
  | ub w => rw [h] at hok; cases hok
  | fuel => rw [h] at hok; cases hok
  | env _ => rw [h] at hok; cases hok

end CStr
