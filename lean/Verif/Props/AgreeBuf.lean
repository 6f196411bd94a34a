import Verif.Props.BufHist
import Verif.Props.BufSize
import Verif.Props.BufInsert
/-
  C82: the operations on buffers agree with one another.
-/
namespace CStr

theorem insertPos_size (n : Nat) : insertPos n (n : Int) = n := by
  simp only [insertPos]; split <;> omega

/-- C82. Appending is inserting at the size, prepending is inserting at index 0, inserting before or after a part of the content is inserting at
the index where that part starts or ends: the calls have the same outcome, whatever is inserted. -/
theorem C82_insert_forms {cfg : Cfg} {s : St} {p : Addr} {b : Buf} (hb : BufAt s p b) (v : View) :
    strbuf_append_strview cfg s (some p) v = strbuf_insert_at_index_strview cfg s (some p) b.data.length v ∧
    strbuf_prepend_strview cfg s (some p) v = strbuf_insert_at_index_strview cfg s (some p) 0 v ∧
    (∀ (dst : View) (k : Nat), k ≤ b.data.length → dst.data = p + 24 + k →
      strbuf_insert_before_strview cfg s (some p) dst v = strbuf_insert_at_index_strview cfg s (some p) k v) ∧
    (∀ (dst : View) (k : Nat), k ≤ b.data.length → dst.data ≠ 0 → dst.data + dst.size = p + 24 + k →
      strbuf_insert_after_strview cfg s (some p) dst v = strbuf_insert_at_index_strview cfg s (some p) k v) := by
  refine ⟨?_, ?_, ?_, ?_⟩
  · simp only [strbuf_append_strview, strbuf_insert_at_index_strview, deref_some hb.pos, hb.getSize, Res.bind_ok]
  · simp only [strbuf_prepend_strview, strbuf_insert_at_index_strview, deref_some hb.pos]
  · intro dst k hk hd
    simp only [strbuf_insert_before_strview, strbuf_insert_at_index_strview, deref_some hb.pos, hb.getSize, Res.bind_ok]
    rw [if_pos (by simp only [cstrOf, hdrLen]; omega)]
    congr 1
    simp only [cstrOf, hdrLen]; omega
  · intro dst k hk h0 hd
    simp only [strbuf_insert_after_strview, strbuf_insert_at_index_strview, deref_some hb.pos, hb.getSize, Res.bind_ok]
    rw [if_pos (by rw [is_valid_iff]; exact h0), if_pos (by simp only [cstrOf, hdrLen]; omega)]
    congr 1
    simp only [cstrOf, hdrLen]; omega

-- "hello": `ell` appended, or inserted at 5; the calls end normally
example : strbuf_append_strview isoCfg (exSt exB []) (some exP) ⟨exP + 24 + 1, 3⟩ =
      strbuf_insert_at_index_strview isoCfg (exSt exB []) (some exP) 5 ⟨exP + 24 + 1, 3⟩ :=
  (C82_insert_forms (exSt_buf exB_valid []) ⟨exP + 24 + 1, 3⟩).1
example : (strbuf_insert_at_index_strview isoCfg (exSt exB []) (some exP) 5 ⟨exP + 24 + 1, 3⟩).isOk = true := by decide +kernel

/-- Two calls on the buffer at `p` in the state `s` have the same effect: unless the allocator gives an illegal answer to one of them, both return a view of
the same bytes and leave a buffer with the same content, capacity and allocator. (Where the buffer is afterwards may differ.) -/
def SameEffect (r r' : BufRes) : Prop :=
  r = .env .alloc ∨ r' = .env .alloc ∨
    ∃ v v' q q' t t' c, r = .ok (v, some q, t) ∧ r' = .ok (v', some q', t') ∧ BufAt t q c ∧ BufAt t' q' c ∧
      ViewOf t.mem v c.data ∧ ViewOf t'.mem v' c.data

theorem same_effect {cfg : Cfg} (hcfg : cfg.Ok) {s : St} (hs : s.Sane) {p : Addr} {b : Buf} (hb : BufAt s p b) {op op' : BufOp} {e e' : Edit}
    (hm : Means s p b op e) (hm' : Means s p b op' e') (hok : e.Ok cfg b) (hok' : e'.Ok cfg b) (ha : e.apply cfg b = e'.apply cfg b)
    (hr : e.returns b) (hr' : e'.returns b) : SameEffect (op.run cfg s (some p)) (op'.run cfg s (some p)) := by
  rcases run_does hcfg hs hb hm hok with h | ⟨p1, s1, h1, -, c1⟩
  · exact .inl h.2
  · rcases run_does hcfg hs hb hm' hok' with h | ⟨p2, s2, h2, -, c2⟩
    · exact .inr (.inl h.2)
    · refine .inr (.inr ⟨_, _, p1, p2, s1, s2, ⟨(e.apply cfg b).data, (e.apply cfg b).cap, b.al⟩, h1, h2, c1.buf, ?_, ?_, ?_⟩)
      · rw [ha]; exact c2.buf
      · rw [if_pos hr]; exact c1.buf.viewOf
      · rw [if_pos hr', ha]; exact c2.buf.viewOf

/-- C82. Appending one character is appending a view of that character. -/
theorem C82_append_char_is_append {cfg : Cfg} (hcfg : cfg.Ok) {s : St} (hs : s.Sane) {p : Addr} {b : Buf} (hb : BufAt s p b) {c : Byte} {v : View}
    (hv : Source s p b v [c]) (hh : cfg.Handles b (b.data.length + 1)) (hi : (b.data.length : Int) ≤ INT_MAX) :
    SameEffect (strbuf_append_char cfg s (some p) c) (strbuf_append_strview cfg s (some p) v) := by
  have hI : INT_MIN ≤ 0 := by decide
  have w : (Edit.insert b.data.length [c]).wanted b = (Edit.appendChar c).wanted b := by
    simp [Edit.wanted, insertPos_size]
  refine same_effect hcfg hs hb (op := .appendChar c) (op' := .append v) .appendChar (.append hv) ⟨by simpa [Edit.wanted] using hh, trivial⟩
    ⟨by rw [w]; simpa [Edit.wanted] using hh, by omega, hi⟩ ?_ trivial trivial
  simp only [Edit.apply, Edit.content, Edit.cap, w]

/-- C82. Assigning a text that is outside the buffer is concatenating that one text. -/
theorem C82_assign_is_cat {cfg : Cfg} (hcfg : cfg.Ok) {s : St} (hs : s.Sane) {p : Addr} {b : Buf} (hb : BufAt s p b) {v : View} {S : List Byte}
    (hv : Source s p b v S) (h0 : 0 < v.data) (ho : ¬ v.Into p b) (hh : cfg.Handles b S.length) :
    SameEffect (strbuf_assign cfg s (some p) v) (strbuf_cat cfg s (some p) [v]) := by
  have hself : decide (∃ a ∈ [(v, S)], a.1.Into p b) = false := by simpa using ho
  have hm : Means s p b (.cat [v]) (.cat [S] false) := by
    have := Means.cat (s := s) (p := p) (b := b) (args := [(v, S)]) (by simpa using hv)
    rw [hself] at this; exact this
  have w : (Edit.cat [S] false).wanted b = (Edit.assign S).wanted b := by simp [Edit.wanted]
  refine same_effect hcfg hs hb (op := .assign v) (op' := .cat [v]) (.assign hv h0) hm ⟨hh, trivial⟩ ⟨by rw [w]; exact hh, trivial⟩ ?_ trivial trivial
  simp only [Edit.apply, Edit.content, Edit.cap, w]

/-- C82. The bundled formatter and appending produce the same text: printing a text is assigning it, printing at the end is appending it. -/
theorem C82_prnf_is_append {cfg : Cfg} (hcfg : cfg.Ok) {s : St} (hs : s.Sane) {p : Addr} {b : Buf} (hb : BufAt s p b) {v : View} {S : List Byte}
    (hv : Source s p b v S) (h0 : 0 < v.data) (hi : (b.data.length : Int) ≤ INT_MAX) :
    (b.Fits S.length → cfg.Handles b S.length → SameEffect (strbuf_assign cfg s (some p) v) (BufOp.run cfg s (some p) (.prnf S))) ∧
    (b.Fits (b.data.length + S.length) → cfg.Handles b (b.data.length + S.length) →
      SameEffect (strbuf_append_strview cfg s (some p) v) (BufOp.run cfg s (some p) (.appendPrnf S))) := by
  have hI : INT_MIN ≤ 0 := by decide
  constructor
  · intro hf hh
    refine same_effect hcfg hs hb (op := .assign v) (op' := .prnf S) (.assign hv h0) .prnf ⟨hh, trivial⟩ ⟨hh, hv.max, fun _ => hf⟩ ?_ trivial trivial
    rfl
  · intro hf hh
    have w : (Edit.insert b.data.length S).wanted b = (Edit.appendPrnf S).wanted b := by simp [Edit.wanted, insertPos_size]
    have hh' : cfg.Handles b ((Edit.appendPrnf S).wanted b).length := by simpa [Edit.wanted] using hh
    refine same_effect hcfg hs hb (op := .append v) (op' := .appendPrnf S) (.append hv) .appendPrnf ⟨by rw [w]; exact hh', by omega, hi⟩
      ⟨hh', hv.max, fun _ => hf⟩ ?_ trivial trivial
    simp only [Edit.apply, Edit.content, Edit.cap, w]

-- a buffer with "hello" and a text of one character outside it, and of five
example : SameEffect (strbuf_append_char isoCfg (exSt exB [33]) (some exP) 33) (strbuf_append_strview isoCfg (exSt exB [33]) (some exP) ⟨exQ, 1⟩) :=
  C82_append_char_is_append isoCfg_ok (exSt_sane exB_valid _) (exSt_buf exB_valid _) (exSt_source exB_valid (by decide)) (.inr (.inr (.inl (by decide)))) (by decide)
example : SameEffect (strbuf_assign isoCfg (exSt exB [1, 2, 3, 4, 5]) (some exP) ⟨exQ, 5⟩) (strbuf_cat isoCfg (exSt exB [1, 2, 3, 4, 5]) (some exP) [⟨exQ, 5⟩]) :=
  C82_assign_is_cat isoCfg_ok (exSt_sane exB_valid _) (exSt_buf exB_valid _) (exSt_source exB_valid (by decide)) (by decide +kernel) (by decide +kernel)
    (.inr (.inr (.inl (by decide))))
example : SameEffect (strbuf_append_strview isoCfg (exSt exB [1, 2, 3, 4, 5]) (some exP) ⟨exQ, 5⟩)
      (BufOp.run isoCfg (exSt exB [1, 2, 3, 4, 5]) (some exP) (.appendPrnf [1, 2, 3, 4, 5])) :=
  (C82_prnf_is_append isoCfg_ok (exSt_sane exB_valid _) (exSt_buf exB_valid _) (exSt_source exB_valid (by decide)) (by decide +kernel) (by decide)).2
    (by decide) (.inr (.inr (.inl (by decide))))
example : (strbuf_append_char isoCfg (exSt exB [33]) (some exP) 33).isOk = true ∧
    (strbuf_append_strview isoCfg (exSt exB [33]) (some exP) ⟨exQ, 1⟩).isOk = true ∧
    (strbuf_cat isoCfg (exSt exB [1, 2, 3, 4, 5]) (some exP) [⟨exQ, 5⟩]).isOk = true := by decide +kernel

/-! ## Sequences of operations -/

/-- C82. Two legal programs that mean the same are interchangeable: after both, every buffer variable shows the same bytes. -/
theorem C82_exchange {cfg : Cfg} (hcfg : cfg.Ok) {dflt : Alloc} {K : Nat → List Byte} {ka : Nat → Addr} {s : St} (hs : Start K ka s) (cs cs' : List Cmd)
    (hl : LegalRun cfg dflt K cs (fun _ => none)) (hl' : LegalRun cfg dflt K cs' (fun _ => none))
    (h : runAbs cfg dflt K cs (fun _ => none) = runAbs cfg dflt K cs' (fun _ => none)) :
    runExec cfg dflt K ka cs (fun _ => 0) s = .env .alloc ∨ runExec cfg dflt K ka cs' (fun _ => 0) s = .env .alloc ∨
    ∃ ρ t ρ' t', runExec cfg dflt K ka cs (fun _ => 0) s = .ok (ρ, t) ∧ runExec cfg dflt K ka cs' (fun _ => 0) s = .ok (ρ', t') ∧
      ∀ k, (runAbs cfg dflt K cs (fun _ => none) k = none → ρ k = 0 ∧ ρ' k = 0) ∧ ∀ b, runAbs cfg dflt K cs (fun _ => none) k = some (.buf b) → BufAt t (ρ k) b ∧ BufAt t' (ρ' k) b ∧
        ∃ v v', strbuf_view t.mem (some (ρ k)) = .ok v ∧ strbuf_view t'.mem (some (ρ' k)) = .ok v' ∧ ViewOf t.mem v b.data ∧ ViewOf t'.mem v' b.data := by
  rcases run_ok hcfg cs hs.rep hl with e | ⟨ρ, t, e, r⟩
  · exact .inl e
  · rcases run_ok hcfg cs' hs.rep hl' with e' | ⟨ρ', t', e', r'⟩
    · exact .inr (.inl e')
    · refine .inr (.inr ⟨ρ, t, ρ', t', e, e', fun k => ⟨?_, ?_⟩⟩)
      · intro h0; exact ⟨r.null k h0, r'.null k (h ▸ h0)⟩
      · intro b hb
        have h1 : BufAt t (ρ k) b := r.obj k _ hb
        have h2 : BufAt t' (ρ' k) b := by rw [h] at hb; exact r'.obj k _ hb
        exact ⟨h1, h2, _, _, by rw [strbuf_view, deref_some h1.pos]; exact h1.view, by rw [strbuf_view, deref_some h2.pos]; exact h2.view,
          h1.viewOf, h2.viewOf⟩

theorem runAbs_op {cfg : Cfg} {dflt : Alloc} {K : Nat → List Byte} {σ : AState} {h : Nat} {b : Buf} (hb : σ h = some (.buf b)) (o : HOp) (cs : List Cmd) :
    runAbs cfg dflt K (.op h o :: cs) σ = runAbs cfg dflt K cs (σ.set h (some (.buf ((o.edit K σ h b).apply cfg b)))) := by
  simp only [runAbs, Cmd.step, hb]

theorem Buf.Fits.mono {b : Buf} {n m : Nat} (h : b.Fits n) (hm : m ≤ n) : b.Fits m := by
  rcases h with h | ⟨h1, h2⟩
  · exact .inl (by omega)
  · exact .inr ⟨h1, by omega⟩

theorem Buf.Fits.le_max {b : Buf} {n : Nat} (h : b.Fits n) (hc : (b.cap : Int) ≤ INT_MAX) : (n : Int) ≤ INT_MAX := by
  rcases h with h | ⟨h1, h2⟩
  · omega
  · exact h2

theorem content_fits {b : Buf} {e : Edit} {W : List Byte} (hs : e.self = false) (hw : e.wanted b = W) (hf : b.Fits W.length) : e.content b = W := by
  subst hw
  have h : e.content b = if b.Fits (e.wanted b).length then e.wanted b else [] := by
    cases e with
    | cat parts self => simp only [Edit.self] at hs; subst hs; rfl
    | _ => rfl
  rw [h, if_pos hf]

/-- An operation other than shrinking and growing whose result fits. -/
theorem apply_fits {cfg : Cfg} {b : Buf} {e : Edit} {W : List Byte} (hs : e.self = false) (hw : e.wanted b = W) (hf : b.Fits W.length)
    (hc : e.cap cfg b = b.capFor cfg (e.wanted b).length) : e.apply cfg b = ⟨W, b.capFor cfg W.length, b.al⟩ := by
  rw [Edit.apply, hc, content_fits hs hw hf, hw]

theorem append_apply {cfg : Cfg} {K : Nat → List Byte} {σ : AState} {h : Nat} {b : Buf} {k : Nat} (hf : b.Fits (b.data ++ K k).length) :
    (HOp.edit K σ h b (.append (.const k))).apply cfg b = ⟨b.data ++ K k, b.capFor cfg (b.data ++ K k).length, b.al⟩ :=
  apply_fits rfl (by simp [HOp.edit, Src.bytes, Edit.wanted, insertPos_size]) hf rfl

theorem prepend_apply {cfg : Cfg} {K : Nat → List Byte} {σ : AState} {h : Nat} {b : Buf} {k : Nat} (hf : b.Fits (K k ++ b.data).length) :
    (HOp.edit K σ h b (.prepend (.const k))).apply cfg b = ⟨K k ++ b.data, b.capFor cfg (K k ++ b.data).length, b.al⟩ :=
  apply_fits rfl (by simp [HOp.edit, Src.bytes, Edit.wanted, insertPos]) hf rfl

/-- C82. Appending two texts one after the other is appending them joined. -/
theorem C82_append_append {cfg : Cfg} (hcfg : cfg.Ok) {dflt : Alloc} {K : Nat → List Byte} {σ : AState} {h : Nat} {b : Buf} (hb : σ h = some (.buf b))
    (hcap : (b.cap : Int) ≤ INT_MAX) {i j n : Nat} (hK : K n = K i ++ K j) (hf : b.Fits (b.data.length + (K n).length)) (cs : List Cmd) :
    runAbs cfg dflt K (.op h (.append (.const i)) :: .op h (.append (.const j)) :: cs) σ =
      runAbs cfg dflt K (.op h (.append (.const n)) :: cs) σ := by
  have hfi : b.Fits (b.data ++ K i).length := hf.mono (by simp [hK])
  have hfn : b.Fits (b.data ++ K n).length := hf.mono (by simp)
  have e2 : b.data ++ K i ++ K j = b.data ++ K n := by rw [hK, List.append_assoc]
  rw [runAbs_op hb, runAbs_op (AState.set_same _ _ _), runAbs_op hb, AState.set_set, append_apply hfi, append_apply hfn,
    append_apply (b := ⟨b.data ++ K i, _, b.al⟩) ((Fits_capFor hcfg hcap _ _ _).2 (by rw [e2]; exact hfn))]
  dsimp only
  rw [e2, capFor_capFor hcfg _ (by simp [hK]) (hfn.le_max hcap)]

/-- C82. Assigning a text and appending another is concatenating the two. -/
theorem C82_assign_append {cfg : Cfg} (hcfg : cfg.Ok) {dflt : Alloc} {K : Nat → List Byte} {σ : AState} {h : Nat} {b : Buf} (hb : σ h = some (.buf b))
    (hcap : (b.cap : Int) ≤ INT_MAX) {i j : Nat} (hf : b.Fits ((K i).length + (K j).length)) (cs : List Cmd) :
    runAbs cfg dflt K (.op h (.assign (.const i)) :: .op h (.append (.const j)) :: cs) σ =
      runAbs cfg dflt K (.op h (.cat [.const i, .const j]) :: cs) σ := by
  have hfi : b.Fits (K i).length := hf.mono (by omega)
  have hfn : b.Fits (K i ++ K j).length := hf.mono (by simp)
  have e1 : (HOp.edit K σ h b (.assign (.const i))).apply cfg b = ⟨K i, b.capFor cfg (K i).length, b.al⟩ := apply_fits rfl rfl hfi rfl
  have e2 : (HOp.edit K σ h b (.cat [.const i, .const j])).apply cfg b = ⟨K i ++ K j, b.capFor cfg (K i ++ K j).length, b.al⟩ :=
    apply_fits rfl (by simp [HOp.edit, Src.bytes, Edit.wanted]) hfn rfl
  rw [runAbs_op hb, runAbs_op (AState.set_same _ _ _), runAbs_op hb, AState.set_set, e1, e2,
    append_apply (b := ⟨K i, _, b.al⟩) ((Fits_capFor hcfg hcap _ _ _).2 hfn)]
  dsimp only
  rw [capFor_capFor hcfg _ (by simp) (hfn.le_max hcap)]

theorem strip_apply {cfg : Cfg} {K : Nat → List Byte} {σ : AState} {h : Nat} {b : Buf} (hv : b.data.length ≤ b.cap) (i : Nat) :
    (HOp.edit K σ h b (.strip (.const i))).apply cfg b = ⟨b.data.filter (· ∉ K i), b.cap, b.al⟩ := by
  have hl : (b.data.filter (· ∉ K i)).length ≤ b.cap := Nat.le_trans (List.length_filter_le _ _) hv
  rw [apply_fits (W := b.data.filter (· ∉ K i)) rfl rfl (.inl hl) rfl, capFor_same hl]

/-- C82. Removing characters: the order of two removals does not matter, and removing the same characters again changes nothing. -/
theorem C82_strip_strip {cfg : Cfg} {dflt : Alloc} {K : Nat → List Byte} {σ : AState} {h : Nat} {b : Buf} (hb : σ h = some (.buf b))
    (hv : b.data.length ≤ b.cap) (i j : Nat) (cs : List Cmd) :
    runAbs cfg dflt K (.op h (.strip (.const i)) :: .op h (.strip (.const j)) :: cs) σ =
      runAbs cfg dflt K (.op h (.strip (.const j)) :: .op h (.strip (.const i)) :: cs) σ ∧
    runAbs cfg dflt K (.op h (.strip (.const i)) :: .op h (.strip (.const i)) :: cs) σ = runAbs cfg dflt K (.op h (.strip (.const i)) :: cs) σ := by
  have hv' : ∀ i, (⟨b.data.filter (· ∉ K i), b.cap, b.al⟩ : Buf).data.length ≤ b.cap := fun i => Nat.le_trans (List.length_filter_le _ _) hv
  constructor
  · rw [runAbs_op hb, runAbs_op (AState.set_same _ _ _), runAbs_op hb, runAbs_op (AState.set_same _ _ _), AState.set_set, AState.set_set]
    rw [strip_apply hv, strip_apply hv, strip_apply (hv' i), strip_apply (hv' j)]
    simp only [List.filter_filter, Bool.and_comm]
  · rw [runAbs_op hb, runAbs_op (AState.set_same _ _ _), runAbs_op hb, AState.set_set]
    rw [strip_apply hv, strip_apply (hv' i)]
    simp only [List.filter_filter, Bool.and_self]

/-- C82. Shrinking twice is shrinking once. -/
theorem C82_shrink_shrink {cfg : Cfg} {dflt : Alloc} {K : Nat → List Byte} {σ : AState} {h : Nat} {b : Buf} (hb : σ h = some (.buf b))
    (hv : b.data.length ≤ b.cap) (cs : List Cmd) :
    runAbs cfg dflt K (.op h .shrink :: .op h .shrink :: cs) σ = runAbs cfg dflt K (.op h .shrink :: cs) σ := by
  have e : ∀ (σ : AState) (c : Buf), c.data.length ≤ c.cap →
      (HOp.edit K σ h c .shrink).apply cfg c = ⟨c.data, if c.Dynamic then c.data.length else c.cap, c.al⟩ := by
    intro σ c hc
    rw [Edit.apply, content_fits (e := HOp.edit K σ h c .shrink) (W := c.data) rfl rfl (.inl hc)]
    rfl
  rw [runAbs_op hb, runAbs_op (AState.set_same _ _ _), runAbs_op hb, AState.set_set, e _ _ hv, e]
  · by_cases hd : b.Dynamic
    · rw [if_pos hd, if_pos (show Buf.Dynamic ⟨b.data, b.data.length, b.al⟩ from hd)]
    · rw [if_neg hd, if_neg (show ¬ Buf.Dynamic ⟨b.data, b.cap, b.al⟩ from hd)]
  · show b.data.length ≤ if b.Dynamic then b.data.length else b.cap
    split
    · exact Nat.le_refl _
    · exact hv

/-- C82. A text added in front and one added behind can be added in either order. -/
theorem C82_prepend_append {cfg : Cfg} (hcfg : cfg.Ok) {dflt : Alloc} {K : Nat → List Byte} {σ : AState} {h : Nat} {b : Buf} (hb : σ h = some (.buf b))
    (hcap : (b.cap : Int) ≤ INT_MAX) (i j : Nat) (hf : b.Fits (b.data.length + (K i).length + (K j).length)) (cs : List Cmd) :
    runAbs cfg dflt K (.op h (.prepend (.const i)) :: .op h (.append (.const j)) :: cs) σ =
      runAbs cfg dflt K (.op h (.append (.const j)) :: .op h (.prepend (.const i)) :: cs) σ := by
  have hfi : b.Fits (K i ++ b.data).length := hf.mono (by simp; omega)
  have hfj : b.Fits (b.data ++ K j).length := hf.mono (by simp)
  have hfn : b.Fits (K i ++ b.data ++ K j).length := hf.mono (by simp; omega)
  rw [runAbs_op hb, runAbs_op (AState.set_same _ _ _), runAbs_op hb, runAbs_op (AState.set_same _ _ _), AState.set_set, AState.set_set,
    append_apply hfj, prepend_apply hfi,
    append_apply (b := ⟨K i ++ b.data, _, b.al⟩) ((Fits_capFor hcfg hcap _ _ _).2 hfn),
    prepend_apply (b := ⟨b.data ++ K j, _, b.al⟩) ((Fits_capFor hcfg hcap _ _ _).2 (by rw [← List.append_assoc]; exact hfn))]
  dsimp only
  rw [← List.append_assoc, capFor_capFor hcfg _ (by simp) (hfn.le_max hcap), capFor_capFor hcfg _ (by simp) (hfn.le_max hcap)]

/-- Constants "ab", "l", "abl". -/
def agreeK : Nat → List Byte
  | 0 => [97, 98]
  | 1 => [108]
  | 2 => [97, 98, 108]
  | _ => []

/-- A program variable holds a dynamic buffer with "xay" of capacity 3. -/
def agreeσ : AState := fun k => if k = 0 then some (.buf ⟨[120, 97, 121], 3, ⟨0, 1⟩⟩) else none

example : runAbs exCfg ⟨0, 1⟩ agreeK [.op 0 (.append (.const 0)), .op 0 (.append (.const 1))] agreeσ = runAbs exCfg ⟨0, 1⟩ agreeK [.op 0 (.append (.const 2))] agreeσ ∧
    runAbs exCfg ⟨0, 1⟩ agreeK [.op 0 (.assign (.const 0)), .op 0 (.append (.const 1))] agreeσ = runAbs exCfg ⟨0, 1⟩ agreeK [.op 0 (.cat [.const 0, .const 1])] agreeσ ∧
    runAbs exCfg ⟨0, 1⟩ agreeK [.op 0 (.strip (.const 0)), .op 0 (.strip (.const 1))] agreeσ =
      runAbs exCfg ⟨0, 1⟩ agreeK [.op 0 (.strip (.const 1)), .op 0 (.strip (.const 0))] agreeσ ∧
    runAbs exCfg ⟨0, 1⟩ agreeK [.op 0 .shrink, .op 0 .shrink] agreeσ = runAbs exCfg ⟨0, 1⟩ agreeK [.op 0 .shrink] agreeσ ∧
    runAbs exCfg ⟨0, 1⟩ agreeK [.op 0 (.prepend (.const 0)), .op 0 (.append (.const 1))] agreeσ =
      runAbs exCfg ⟨0, 1⟩ agreeK [.op 0 (.append (.const 1)), .op 0 (.prepend (.const 0))] agreeσ ∧
    (runAbs exCfg ⟨0, 1⟩ agreeK [.op 0 (.prepend (.const 0)), .op 0 (.append (.const 1))] agreeσ).data 0 = [97, 98, 120, 97, 121, 108] :=
  ⟨C82_append_append exCfg_ok (b := ⟨[120, 97, 121], 3, ⟨0, 1⟩⟩) rfl (by decide) rfl (by decide) [],
   C82_assign_append exCfg_ok (b := ⟨[120, 97, 121], 3, ⟨0, 1⟩⟩) rfl (by decide) (by decide) [],
   (C82_strip_strip (b := ⟨[120, 97, 121], 3, ⟨0, 1⟩⟩) rfl (by decide) 0 1 []).1,
   C82_shrink_shrink (b := ⟨[120, 97, 121], 3, ⟨0, 1⟩⟩) rfl (by decide) [],
   C82_prepend_append exCfg_ok (b := ⟨[120, 97, 121], 3, ⟨0, 1⟩⟩) rfl (by decide) 0 1 (by decide) [], by decide⟩

-- two programs on the machine: "ab" and "l" appended to an empty buffer, or concatenated
example : (∃ ρ t ρ' t', runExec exCfg ⟨0, 1⟩ demoK demoKa [.createEmpty 0 0 none, .op 0 (.assign (.const 0)), .op 0 (.append (.const 1))] (fun _ => 0) demoSt = .ok (ρ, t) ∧
      runExec exCfg ⟨0, 1⟩ demoK demoKa [.createEmpty 0 0 none, .op 0 (.cat [.const 0, .const 1])] (fun _ => 0) demoSt = .ok (ρ', t') ∧
      ∃ v v', strbuf_view t.mem (some (ρ 0)) = .ok v ∧ strbuf_view t'.mem (some (ρ' 0)) = .ok v' ∧ ViewOf t.mem v [97, 98, 108] ∧ ViewOf t'.mem v' [97, 98, 108]) := by
  have hb : ∀ {b : Buf}, ∀ o, some (Obj.buf b) = some o → ∃ b, o = .buf b := fun o h => ⟨_, (Option.some.inj h).symm⟩
  have hI : INT_MIN ≤ 2 ∧ (2 : Int) ≤ INT_MAX := by decide
  have l1 : LegalRun exCfg ⟨0, 1⟩ demoK [.createEmpty 0 0 none, .op 0 (.assign (.const 0)), .op 0 (.append (.const 1))] (fun _ => none) := by
    refine ⟨⟨rfl, ⟨by decide, by decide, by decide⟩, by decide⟩, ⟨hb, trivial, ?_⟩, ⟨hb, trivial, ?_⟩, trivial⟩
    · intro b e; cases e; exact ⟨.inl rfl, trivial⟩
    · intro b e; cases e; exact ⟨.inl rfl, hI⟩
  have l2 : LegalRun exCfg ⟨0, 1⟩ demoK [.createEmpty 0 0 none, .op 0 (.cat [.const 0, .const 1])] (fun _ => none) := by
    refine ⟨⟨rfl, ⟨by decide, by decide, by decide⟩, by decide⟩, ⟨hb, ?_, ?_⟩, trivial⟩
    · intro x hx
      simp only [List.mem_cons, List.not_mem_nil, or_false] at hx
      rcases hx with rfl | rfl <;> trivial
    · intro b e; cases e; exact ⟨.inl rfl, trivial⟩
  have hm : runAbs exCfg ⟨0, 1⟩ demoK [.createEmpty 0 0 none, .op 0 (.assign (.const 0)), .op 0 (.append (.const 1))] (fun _ => none) =
      runAbs exCfg ⟨0, 1⟩ demoK [.createEmpty 0 0 none, .op 0 (.cat [.const 0, .const 1])] (fun _ => none) := by
    show runAbs exCfg ⟨0, 1⟩ demoK [.op 0 (.assign (.const 0)), .op 0 (.append (.const 1))] _ = runAbs exCfg ⟨0, 1⟩ demoK [.op 0 (.cat [.const 0, .const 1])] _
    exact C82_assign_append exCfg_ok (b := ⟨[], 0, ⟨0, 1⟩⟩) rfl (by decide) (by decide) []
  rcases C82_exchange exCfg_ok demoStart _ _ l1 l2 hm with h | h | ⟨ρ, t, ρ', t', h1, h2, h3⟩
  · exact absurd h (by have : (runExec exCfg ⟨0, 1⟩ demoK demoKa [.createEmpty 0 0 none, .op 0 (.assign (.const 0)), .op 0 (.append (.const 1))] (fun _ => 0) demoSt).isOk = true := by
                          decide +kernel
                       intro e; rw [e] at this; cases this)
  · exact absurd h (by have : (runExec exCfg ⟨0, 1⟩ demoK demoKa [.createEmpty 0 0 none, .op 0 (.cat [.const 0, .const 1])] (fun _ => 0) demoSt).isOk = true := by
                          decide +kernel
                       intro e; rw [e] at this; cases this)
  · obtain ⟨-, -, v, v', e1, e2, e3, e4⟩ := (h3 0).2 ⟨[97, 98, 108], _, _⟩ rfl
    exact ⟨ρ, t, ρ', t', h1, h2, v, v', e1, e2, e3, e4⟩

end CStr
