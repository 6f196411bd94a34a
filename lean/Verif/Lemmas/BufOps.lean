import Verif.Lemmas.BufCore
/-! The public buffer functions that do not create or destroy buffers, on well-formed buffers. -/
namespace CStr

theorem deref_some {p : Addr} (hp : 0 < p) : deref (some p) = some p := by
  simp only [deref]; exact if_neg (by omega)

theorem BufAt.view {s : St} {p : Addr} {b : Buf} (h : BufAt s p b) :
    strview_of_buf s.mem p = .ok ⟨p + 24, b.data.length⟩ := by
  obtain ⟨J, _, hr⟩ := h.raw
  exact hr.view_of

theorem BufAt.getSize {s : St} {p : Addr} {b : Buf} (h : BufAt s p b) : getSize s.mem p = .ok b.data.length := by
  obtain ⟨J, _, hr⟩ := h.raw
  exact hr.getSize

theorem BufAt.getCap {s : St} {p : Addr} {b : Buf} (h : BufAt s p b) : getCap s.mem p = .ok b.cap := by
  obtain ⟨J, _, hr⟩ := h.raw
  exact hr.getCap

theorem BufAt.getAlloc {s : St} {p : Addr} {b : Buf} (h : BufAt s p b) : getAlloc s.mem p = .ok b.al := by
  obtain ⟨J, _, hr⟩ := h.raw
  exact hr.getAlloc

theorem BufAt.is_dynamic {s : St} {p : Addr} {b : Buf} (h : BufAt s p b) :
    buf_is_dynamic s.mem p = .ok (decide (b.al.fn ≠ 0)) := by
  obtain ⟨J, _, hr⟩ := h.raw
  exact hr.is_dynamic

theorem BufAt.sizeMax {s : St} {p : Addr} {b : Buf} (h : BufAt s p b) : (b.data.length : Int) ≤ INT_MAX := by
  have h1 := h.len; have h2 := h.cap; omega

/-- Returning the view of the buffer after an inner function. -/
theorem Out.yields {s : St} {p : Addr} {b : Buf} {r : Res (Addr × St)} {data : List Byte} {cap : Nat}
    (h : Out s p b r data cap) :
    Yields s p b (do
      let (p', s') ← r
      let v ← strview_of_buf s'.mem p'
      .ok (v, some p', s')) data cap := by
  rcases h with ⟨hne, he⟩ | ⟨p', s', he, hres⟩
  · exact .inl ⟨hne, by rw [he]; rfl⟩
  · refine .inr ⟨p', s', ?_, hres⟩
    rw [he]
    simp only [Res.bind_ok, hres.buf.view]

theorem ReszOk.toResult {s : St} {p : Addr} {b : Buf} {cap : Nat} {p' : Addr} {s' : St} (h : ReszOk s p b cap p' s') :
    Result s p b b.data cap p' s' :=
  ⟨h.buf, h.sane, h.only, fun hc => by obtain ⟨e1, e2⟩ := h.same hc; subst e1; subst e2; exact ⟨rfl, rfl, rfl, rfl⟩,
    h.log⟩

theorem Resz.out {s : St} {p : Addr} {b : Buf} {r : Res (Addr × St)} {cap : Nat} (h : Resz s p b r cap) :
    Out s p b r b.data cap := by
  rcases h with h | ⟨p', s', he, hz⟩
  · exact .inl h
  · exact .inr ⟨p', s', he, hz.toResult⟩

/-- Nothing done, the view of the content returned. -/
theorem yields_same {s : St} (hs : s.Sane) {p : Addr} {b : Buf} (hb : BufAt s p b) :
    Yields s p b (.ok (⟨p + 24, b.data.length⟩, some p, s)) b.data b.cap :=
  .inr ⟨p, s, rfl, (ReszOk.refl hs hb).toResult⟩

theorem view_or_invalid_some {s : St} {p : Addr} {b : Buf} (hb : BufAt s p b) :
    view_or_invalid s (some p) = .ok (⟨p + 24, b.data.length⟩, some p, s) := by
  simp only [view_or_invalid, hb.view, Res.bind_ok]

theorem insert_yields {cfg : Cfg} (hcfg : cfg.Ok) {s : St} (hs : s.Sane) {p : Addr} {b : Buf} (hb : BufAt s p b)
    {v : View} {S : List Byte} (hv : Source s p b v S) {i : Int} (hi : INT_MIN ≤ i)
    (hh : cfg.Handles b (b.data.length + S.length)) :
    Yields s p b (insert_and_view cfg s p i v)
      (if b.Fits (b.data.length + S.length) then
        b.data.take (insertPos b.data.length i) ++ S ++ b.data.drop (insertPos b.data.length i) else [])
      (b.capFor cfg (b.data.length + S.length)) :=
  (insert_out hcfg hs hb hv hi hh).yields

theorem insertPos_nat {size k : Nat} (h : k ≤ size) : insertPos size (k : Int) = k := by
  simp only [insertPos]; split <;> omega

theorem intmin_nat (k : Nat) : INT_MIN ≤ (k : Int) := by simp only [INT_MIN]; omega

/-- A buffer in a changed state is still there if its storage and its heap block are. -/
theorem BufAt.frame {s s' : St} {p : Addr} {b : Buf} (h : BufAt s p b)
    (hm : ∀ a, InRange p (storage b.cap) a → s'.mem a = s.mem a) (hl : b.Dynamic → s'.live p = s.live p) :
    BufAt s' p b := by
  refine ⟨h.pos, h.aligned, h.top, h.len, h.cap, h.app, h.fn, ?_, ?_, fun hd => (hl hd).trans (h.heap hd)⟩
  · apply h.holds.congr
    intro i hi
    apply hm
    have := h.len
    simp only [List.length_append, hdrBytes_length, List.length_cons, List.length_nil] at hi
    simp only [InRange, storage]; omega
  · intro i hi
    rw [hm _ (by simp only [InRange]; omega)]
    exact h.mapped i hi

theorem OnlyBlock.trans {s s' s'' : St} {p p' p'' : Addr} {n n' n'' : Nat} (h : OnlyBlock s s' p n p' n')
    (h' : OnlyBlock s' s'' p' n' p'' n'') : OnlyBlock s s'' p n p'' n'' := by
  refine ⟨?_, ?_, ?_, ?_, ?_, ?_, h'.picks.trans h.picks⟩
  · intro a h1 h2
    by_cases hx : InRange p' n' a
    · rw [h'.left a hx h2, h.fresh a hx h1]
    · rw [h'.outside a hx h2, h.outside a h1 hx]
  · intro a h1 h2
    by_cases hx : InRange p' n' a
    · exact h.fresh a hx h2
    · rw [← h.outside a h2 hx]; exact h'.fresh a h1 hx
  · intro a h1 h2
    by_cases hx : InRange p' n' a
    · exact h'.left a hx h2
    · rw [h'.outside a hx h2]; exact h.left a h1 hx
  · intro q h1 h2
    by_cases hx : q = p'
    · subst hx
      rw [h'.liveOld (fun e => h2 e.symm), h.liveNew h1]
    · rw [h'.live q hx h2, h.live q h1 hx]
  · intro hne
    by_cases hx : p'' = p'
    · subst hx; exact h.liveNew hne
    · rw [← h.live p'' hne hx]; exact h'.liveNew hx
  · intro hne
    by_cases hx : p = p'
    · subst hx; exact h'.liveOld hne
    · rw [h'.live p hx (fun e => hne e.symm)]; exact h.liveOld (fun e => hx e.symm)

theorem one_le_max : ((1 : Nat) : Int) ≤ INT_MAX := by simp only [INT_MAX]; omega

theorem addInt_nat (cfg : Cfg) {a b : Int} {n : Nat} (h : a + b = n) (hn : (n : Int) ≤ INT_MAX) :
    addInt cfg a b = .ok (n : Int) := by
  rw [addInt_ok cfg (by rw [h]; exact intmin_nat n) (by rw [h]; exact hn), h]

/-! append_char -/

theorem append_char_out {cfg : Cfg} (hcfg : cfg.Ok) {s : St} (hs : s.Sane) {p : Addr} {b : Buf} (hb : BufAt s p b)
    (c : Byte) (hh : cfg.Handles b (b.data.length + 1)) :
    Out s p b (append_char_to_buf cfg s p c) (if b.Fits (b.data.length + 1) then b.data ++ [c] else [])
      (b.capFor cfg (b.data.length + 1)) := by
  have hszm := hb.sizeMax
  obtain ⟨n, hn⟩ : ∃ n, n = b.data.length + 1 := ⟨_, rfl⟩
  rw [← hn] at hh ⊢
  by_cases hov : (n : Int) ≤ INT_MAX
  · have hf : add_will_overflow_int cfg b.data.length 1 = .ok false := by
      have := add_ovf cfg (a := b.data.length) (b := 1) hszm one_le_max (by right; omega)
      rw [Int.natCast_one] at this
      rw [this, decide_eq_false (by omega)]
    have hadd : addInt cfg b.data.length 1 = .ok (n : Int) := by
      exact addInt_nat cfg (by omega) hov
    rcases ensure_cap hcfg hs hb hov hh with ⟨hne, he⟩ | ⟨p', s', he, hz⟩
    · left
      refine ⟨hne, ?_⟩
      rw [append_char_to_buf, hb.getSize, Res.bind_ok, hf, Res.bind_ok, Bool.not_false, if_pos rfl, hadd, Res.bind_ok, he, Res.bind_env]
    · have hcap := hz.buf.getCap
      have hsz := hz.buf.getSize
      simp only at hcap hsz
      rw [append_char_to_buf, hb.getSize, Res.bind_ok, hf, Res.bind_ok, Bool.not_false, if_pos rfl, hadd, Res.bind_ok, he, Res.bind_ok]
      simp only [hcap, Res.bind_ok]
      by_cases hfit : n ≤ b.capFor cfg n
      · rw [if_neg (by omega), if_pos ((capFor_fits hcfg hov).1 hfit)]
        simp only [hsz, Res.bind_ok, hadd]
        obtain ⟨J', hJ', hr'⟩ := hz.buf.raw
        simp only at hJ' hr'
        obtain ⟨y, J2, rfl⟩ : ∃ y J2, J' = y :: J2 := by
          cases J' with
          | nil => simp only [List.length_nil] at hJ'; omega
          | cons y J2 => exact ⟨y, J2, rfl⟩
        obtain ⟨m1, e1, r1, w1⟩ := hr'.store c
        have r1' : Raw m1 p' b.data.length (b.capFor cfg n) b.al ((b.data ++ [c]) ++ y :: J2) := by
          simpa using r1
        obtain ⟨m2, e2, r2, w2⟩ := r1'.setSize (v := n) hov
        obtain ⟨m3, e3, r3, w3⟩ := r2.store 0
        simp only [List.length_append, List.length_singleton, ← hn] at e3
        rw [e1]
        simp only [Res.bind_ok, e2, r2.getSize, e3]
        have hst : 24 + (b.data ++ 0 :: y :: J2).length = storage (b.capFor cfg n) := by
          simp only [List.length_append, List.length_cons, storage] at hJ' ⊢; omega
        have hst2 : 24 + (b.data ++ [c] ++ y :: J2).length = storage (b.capFor cfg n) := by
          simp only [List.length_append, List.length_cons, storage, List.length_nil] at hJ' ⊢; omega
        rw [hst] at w1
        rw [hst2] at w2 w3
        apply hz.out (data := b.data ++ [c]) (J := J2) (by simpa [hn] using r3) _ ((w1.trans w2).trans w3)
        · simp only [List.length_append, List.length_cons, List.length_nil] at hJ' ⊢; omega
      · rw [if_pos (by omega), if_neg (fun h => hfit ((capFor_fits hcfg hov).2 h))]
        obtain ⟨m', e1, r1⟩ := hz.emptied
        rw [e1]
        exact .inr ⟨p', _, rfl, r1⟩
  · have hw : cfg.wrapv = true := by
      have := hcfg.pos
      have := hb.cap
      rcases hh with h | h | h | h
      · exact h
      · omega
      · omega
      · omega
    have hf : add_will_overflow_int cfg b.data.length 1 = .ok true := by
      have := add_ovf cfg (a := b.data.length) (b := 1) hszm one_le_max (.inl hw)
      rw [Int.natCast_one] at this
      rw [this, decide_eq_true (by omega)]
    have hnf : ¬ b.Fits n := by
      have := hb.cap
      simp only [Buf.Fits]; omega
    have hcf : b.capFor cfg n = b.cap := by
      rw [Buf.capFor, if_neg (fun h => hov h.2)]
    rw [if_neg hnf, hcf]
    obtain ⟨m', e1, r1⟩ := (ReszOk.refl hs hb).emptied
    rw [append_char_to_buf, hb.getSize, Res.bind_ok, hf, Res.bind_ok, Bool.not_true, if_neg Bool.false_ne_true, e1]
    exact .inr ⟨p, _, rfl, r1⟩

/-! assign -/

theorem assign_yields {cfg : Cfg} (hcfg : cfg.Ok) {s : St} (hs : s.Sane) {p : Addr} {b : Buf} (hb : BufAt s p b)
    {v : View} {S : List Byte} (hv : Source s p b v S) (hpos : 0 < v.data) (hh : cfg.Handles b S.length) :
    Yields s p b (strbuf_assign cfg s (some p) v) (if b.Fits S.length then S else []) (b.capFor cfg S.length) := by
  have hval : strview_is_valid v = true := by
    simp only [strview_is_valid]; exact decide_eq_true (by omega)
  simp only [strbuf_assign, deref_some hb.pos, hval, if_true, hv.size]
  rcases ensure_cap hcfg hs hb hv.max hh with ⟨hne, he⟩ | ⟨p', s', he, hz⟩
  · left
    refine ⟨hne, ?_⟩
    rw [he]; rfl
  · have hcap := hz.buf.getCap
    simp only at hcap
    simp only [he, Res.bind_ok, hcap]
    by_cases hfit : S.length ≤ b.capFor cfg S.length
    · rw [if_pos (by omega), if_pos ((capFor_fits hcfg hv.max).1 hfit)]
      obtain ⟨J', hJ', hr'⟩ := hz.buf.raw
      simp only at hJ' hr'
      -- the source bytes are still at the same address
      have hsrc : Holds s'.mem v.data S := by
        rcases hv.place with h | h | h | h
        · subst h; exact Holds.nil _ _
        · exact (hz.only.keeps (by simp [storage]) hz.buf.top hv.holds (.inr (.inl h))).1
        · exact (hz.only.keeps (by simp [storage]) hz.buf.top hv.holds (.inr (.inr h))).1
        · have hle : S.length ≤ b.cap := by have := hb.len; omega
          have hcs : b.capFor cfg S.length = b.cap := by
            simp only [Buf.capFor, grownCap]
            rw [if_pos hle]; split <;> rfl
          obtain ⟨_, e2⟩ := hz.same hcs
          rw [e2]; exact hv.holds
      have hsp : ∃ (Y : List Byte) (y : Byte) (Z : List Byte), b.data ++ 0 :: J' = Y ++ y :: Z ∧ Y.length = S.length := by
        have hlt : S.length < (b.data ++ 0 :: J').length := by
          simp only [List.length_append, List.length_cons]; omega
        refine ⟨(b.data ++ 0 :: J').take S.length, (b.data ++ 0 :: J')[S.length], (b.data ++ 0 :: J').drop (S.length + 1), ?_, ?_⟩
        · rw [← List.drop_eq_getElem_cons hlt, List.take_append_drop]
        · rw [List.length_take]; omega
      obtain ⟨Y, y, Z, hyz, hY⟩ := hsp
      have hlen := congrArg List.length hyz
      simp only [List.length_append, List.length_cons] at hlen
      rw [hyz] at hr'
      have hr2 : Raw s'.mem p' b.data.length (b.capFor cfg S.length) b.al ([] ++ Y ++ (y :: Z)) := by simpa using hr'
      obtain ⟨m1, e1, r1, w1⟩ := hr2.memmove hsrc hY.symm
      have r1' : Raw m1 p' b.data.length (b.capFor cfg S.length) b.al (S ++ y :: Z) := by simpa using r1
      obtain ⟨m2, e2, r2, w2⟩ := r1'.setSize (v := S.length) hv.max
      obtain ⟨m3, e3, r3, w3⟩ := r2.store 0
      simp only [List.length_nil, Int.natCast_zero, Int.add_zero] at e1
      have hsT : sizeT (S.length : Int) = S.length := sizeT_nat _
      rw [hsT, e1]
      simp only [Res.bind_ok, e2, r2.getSize, e3, r3.view_of]
      have hst : 24 + ([] ++ Y ++ (y :: Z)).length = storage (b.capFor cfg S.length) := by
        simp only [List.length_append, List.length_cons, List.length_nil, storage]; omega
      have hst2 : 24 + (S ++ y :: Z).length = storage (b.capFor cfg S.length) := by
        simp only [List.length_append, List.length_cons, storage]; omega
      rw [hst] at w1
      rw [hst2] at w2 w3
      exact .inr ⟨p', _, rfl, hz.result r3 (by omega) ((w1.trans w2).trans w3)⟩
    · rw [if_neg (by omega), if_neg (fun h => hfit ((capFor_fits hcfg hv.max).2 h))]
      obtain ⟨m', e1, r1⟩ := hz.emptied
      have hview := r1.buf.view
      simp only at hview
      rw [e1]
      simp only [Res.bind_ok, hview]
      exact .inr ⟨p', _, rfl, r1⟩

/-- Emptying and returning the view. -/
theorem empty_yields {s : St} (hs : s.Sane) {p : Addr} {b : Buf} (hb : BufAt s p b) :
    Yields s p b (do
      let m ← empty_buf s.mem p
      let v ← strview_of_buf m p
      .ok (v, some p, { s with mem := m })) [] b.cap := by
  obtain ⟨m', e1, r1⟩ := (ReszOk.refl hs hb).emptied
  have hview := r1.buf.view
  simp only at hview
  rw [e1]
  simp only [Res.bind_ok, hview]
  exact .inr ⟨p, _, rfl, r1⟩

theorem assign_invalid {cfg : Cfg} {s : St} (hs : s.Sane) {p : Addr} {b : Buf} (hb : BufAt s p b)
    {v : View} (hv : v.data = 0) :
    Yields s p b (strbuf_assign cfg s (some p) v) [] b.cap := by
  have hval : strview_is_valid v = false := by
    simp only [strview_is_valid]; exact decide_eq_false (by omega)
  simp only [strbuf_assign, deref_some hb.pos, hval, Bool.false_eq_true, if_false]
  exact empty_yields hs hb

/-! shrink and grow -/

theorem shrink_yields {s : St} (hs : s.Sane) {p : Addr} {b : Buf} (hb : BufAt s p b) :
    Yields s p b (strbuf_shrink s (some p)) b.data (if b.Dynamic then b.data.length else b.cap) := by
  simp only [strbuf_shrink, deref_some hb.pos, hb.is_dynamic, hb.getSize, Res.bind_ok]
  by_cases hd : b.Dynamic
  · have hd' : b.al.fn ≠ 0 := hd
    rw [if_pos hd, decide_eq_true hd']
    simp only [if_true]
    exact (change_cap hs hb hd (Nat.le_refl _) hb.sizeMax).out.yields
  · have hd' : ¬ b.al.fn ≠ 0 := hd
    rw [if_neg hd, decide_eq_false hd']
    simp only [Bool.false_eq_true, if_false, hb.view, Res.bind_ok]
    exact yields_same hs hb

theorem grow_yields {s : St} (hs : s.Sane) {p : Addr} {b : Buf} (hb : BufAt s p b) (hd : b.Dynamic) {n : Int}
    (hn : n ≤ INT_MAX) :
    Yields s p b (strbuf_grow s (some p) n) b.data (max b.cap n.toNat) := by
  have hd' : b.al.fn ≠ 0 := hd
  simp only [strbuf_grow, deref_some hb.pos, hb.is_dynamic, hb.getCap, Res.bind_ok, decide_eq_true hd', if_true]
  by_cases hgt : n > b.cap
  · rw [if_pos hgt]
    have e1 : max b.cap n.toNat = n.toNat := by omega
    have e2 : n = (n.toNat : Nat) := by omega
    rw [e1]
    have hlen := hb.len
    have := (change_cap hs hb hd (c := n.toNat) (by omega) (by omega)).out.yields
    rwa [← e2] at this
  · rw [if_neg hgt]
    have e1 : max b.cap n.toNat = b.cap := by omega
    rw [e1]
    simp only [hb.view, Res.bind_ok]
    exact yields_same hs hb

theorem grow_fixed {s : St} {p : Addr} {b : Buf} (hb : BufAt s p b) (hd : ¬ b.Dynamic) (n : Int) :
    strbuf_grow s (some p) n = .ok (.invalid, some p, s) := by
  have hd' : ¬ b.al.fn ≠ 0 := hd
  simp only [strbuf_grow, deref_some hb.pos, hb.is_dynamic, Res.bind_ok, decide_eq_false hd', Bool.false_eq_true, if_false]

end CStr
