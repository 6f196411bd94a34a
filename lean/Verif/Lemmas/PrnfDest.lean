import Verif.Lemmas.PrnfLoop
import Verif.Lemmas.BufText
import Verif.Model.StrbufPrnf
/-! Where the characters of the formatter go: a handler, nowhere, a buffer of characters, a strbuf. -/
namespace CStr

/-- The column after a character. -/
def colStep (c : Int) (x : Byte) : Int := if x = 13 ∨ x = 10 then 0 else if FmtItem.Printable x then c + 1 else c

theorem colStep_bounds {c n : Int} {x : Byte} (h : 0 ≤ c) (h' : c ≤ n) : 0 ≤ colStep c x ∧ colStep c x ≤ n + 1 := by
  simp only [colStep]; split
  · omega
  · split <;> omega

section
variable {σ : Type} {K : Sink σ}

theorem out_col_ok {o : OutInfo σ} (x : Byte) (h : 0 ≤ o.col) (h' : o.col < INT_MAX) :
    out_col o x = .ok { o with col := colStep o.col x } := by
  simp only [out_col, colStep]
  by_cases h1 : x = 13 ∨ x = 10
  · simp only [h1, if_true]
  · simp only [h1, if_false]
    by_cases h2 : FmtItem.Printable x
    · rw [if_pos ((charToInt_printable x).2 h2), ckInt_ok (by simp only [INT_MIN]; omega) (by omega), Res.bind_ok, if_pos h2]
    · rw [if_neg (fun h => h2 ((charToInt_printable x).1 h)), if_neg h2]

/-- One character, once it is known where it goes. -/
theorem out_char_of_dest {o o1 : OutInfo σ} {x : Byte} (h : out_dest K o x = .ok o1) (h0 : 0 ≤ o.col) (h1 : o.col ≤ o.char_cnt)
    (h2 : o.char_cnt < INT_MAX) :
    out_char K o x = .ok { o1 with col := colStep o.col x, char_cnt := o.char_cnt + 1 } := by
  obtain ⟨e1, e2, e3⟩ := out_dest_keep h
  rw [out_char, h, Res.bind_ok, out_col_ok x (by omega) (by omega), Res.bind_ok]
  simp only [e2, e1]
  rw [ckInt_ok (by simp only [INT_MIN]; omega) (by omega), Res.bind_ok]

/-! ### A handler -/

theorem out_list_handler {f : σ → Byte → Res σ} (hf : K.call = some f) (l : List Byte) (o : OutInfo σ) (hb : o.buf = 0)
    (h0 : 0 ≤ o.col) (h1 : o.col ≤ o.char_cnt) (h2 : o.char_cnt + l.length ≤ INT_MAX) :
    out_list K o l = (l.foldlM f o.w >>= fun w =>
      .ok { o with w := w, col := l.foldl colStep o.col, char_cnt := o.char_cnt + l.length }) := by
  induction l generalizing o with
  | nil => simp [out_list]
  | cons x l ih =>
    simp only [List.length_cons] at h2 ⊢
    rw [out_list, List.foldlM_cons, List.foldl_cons, Res.bind_assoc']
    cases hx : f o.w x with
    | ok w =>
      have hd : out_dest K o x = .ok { o with w := w } := by simp [out_dest, hb, hf, hx]
      obtain ⟨b1, b2⟩ := colStep_bounds (x := x) h0 h1
      rw [out_char_of_dest hd h0 h1 (by omega), Res.bind_ok, Res.bind_ok,
        ih { o with w := w, col := colStep o.col x, char_cnt := o.char_cnt + 1 } hb b1 b2 (by simp only; omega)]
      congr 1; funext w'
      simp only [Res.ok.injEq, OutInfo.mk.injEq, true_and, and_true]
      omega
    | ub y => simp [out_char, out_dest, hb, hf, hx]
    | fuel => simp [out_char, out_dest, hb, hf, hx]
    | env y => simp [out_char, out_dest, hb, hf, hx]

/-! ### Nowhere -/

theorem out_list_none (hf : K.call = none) (l : List Byte) (o : OutInfo σ) (hb : o.buf = 0 ∨ o.size_limit ≤ o.char_cnt + 1)
    (h0 : 0 ≤ o.col) (h1 : o.col ≤ o.char_cnt) (h2 : o.char_cnt + l.length ≤ INT_MAX) :
    out_list K o l = .ok { o with col := l.foldl colStep o.col, char_cnt := o.char_cnt + l.length } := by
  induction l generalizing o with
  | nil => simp [out_list]
  | cons x l ih =>
    simp only [List.length_cons] at h2 ⊢
    have hd : out_dest K o x = .ok o := by
      simp only [out_dest, hf]
      split
      · rw [ckInt_ok (by simp only [INT_MIN]; omega) (by omega), Res.bind_ok]
        rcases hb with hb | hb
        · contradiction
        · rw [if_neg (by omega)]
      · rfl
    obtain ⟨b1, b2⟩ := colStep_bounds (x := x) h0 h1
    rw [out_list, out_char_of_dest hd h0 h1 (by omega), Res.bind_ok, ih _ (by simp only; omega) b1 b2 (by simp only; omega), List.foldl_cons]
    simp only [Res.ok.injEq, OutInfo.mk.injEq, true_and, and_true]
    omega

end

/-! ### A buffer of characters -/

theorem out_list_buf {n j : Nat} (l : List Byte) (o : OutInfo Mem) (hb : 0 < o.buf) (hn : o.size_limit = n) (hj : o.char_cnt = j)
    (h0 : 0 ≤ o.col) (h1 : o.col ≤ o.char_cnt) (h2 : o.char_cnt + l.length ≤ INT_MAX)
    (hw : Writable o.w o.buf (l.take (n - 1 - j)).length) :
    out_list memSink o l = .ok { o with
      w := put o.w o.buf (l.take (n - 1 - j))
      buf := o.buf + (l.take (n - 1 - j)).length
      col := l.foldl colStep o.col
      char_cnt := o.char_cnt + l.length } := by
  induction l generalizing o j with
  | nil => simp [out_list, put_nil]
  | cons x l ih =>
    by_cases hlt : j + 1 < n
    · obtain ⟨r, hr⟩ : ∃ r, n - 1 - j = r + 1 := ⟨n - 1 - j - 1, by omega⟩
      rw [hr] at hw ⊢
      simp only [List.take_succ_cons, List.length_cons] at hw h2 ⊢
      have hw1 : Writable o.w o.buf 1 := hw.mono (by omega)
      have hd : out_dest memSink o x = .ok { o with w := put o.w o.buf [x], buf := o.buf + 1 } := by
        simp only [out_dest]
        rw [if_pos (by omega), ckInt_ok (by simp only [INT_MIN]; omega) (by omega), Res.bind_ok, if_pos (by omega)]
        have : store (memSink.mem o.w) o.buf x = .ok (put o.w o.buf [x]) := store_eq x hw1
        rw [this]; rfl
      obtain ⟨b1, b2⟩ := colStep_bounds (x := x) h0 h1
      have e : n - 1 - (j + 1) = r := by omega
      have hw2 : Writable (put o.w o.buf [x]) (o.buf + 1) (l.take r).length := by
        rw [writable_put (by simpa using hw1)]
        have := hw.sub 1 (l.take r).length (by omega)
        simpa using this
      rw [out_list, out_char_of_dest hd h0 h1 (by omega), Res.bind_ok,
        ih (j := j + 1) { o with w := put o.w o.buf [x], buf := o.buf + 1, col := colStep o.col x, char_cnt := o.char_cnt + 1 } (by simp only; omega) hn (by simp only; omega) b1 b2 (by simp only; omega) (by rw [e]; exact hw2)]
      simp only [e, List.foldl_cons, Res.ok.injEq, OutInfo.mk.injEq, true_and]
      refine ⟨by omega, by omega, ?_⟩
      have := put_append o.w o.buf [x] (l.take r)
      simpa using this
    · have e : n - 1 - j = 0 := by omega
      have := out_list_none (K := memSink) rfl (x :: l) o (.inr (by omega)) h0 h1 h2
      simp only [e, List.take_zero, put_nil, List.length_nil]
      rw [this]
      simp

/-- The invariant of printing to a buffer of characters: `j` characters are stored and nothing else has changed. -/
structure BufInv (m : Mem) (dst : Addr) (n lim : Nat) (o : OutInfo Mem) : Prop where
  out : ∀ a, ¬ InRange dst n a → o.w a = m a
  lo : dst ≤ o.buf
  hi : o.buf ≤ dst + o.char_cnt
  lim : o.size_limit = lim

theorem bufInv_stable {m : Mem} {dst : Addr} {n lim : Nat} {L : Int} (hn : lim ≤ n ∨ L ≤ n) : Stable memSink L (BufInv m dst n lim) := by
  intro o x o' ho h hL
  obtain ⟨o1, o2, h1, h2, rfl⟩ := out_char_inv h
  obtain ⟨c1, c2, c3, c4, -⟩ := out_col_keep h2
  simp only at hL
  have key : (∀ a, ¬ InRange dst n a → o1.w a = m a) ∧ dst ≤ o1.buf ∧ o1.buf ≤ dst + (o.char_cnt + 1) ∧ o1.size_limit = lim := by
    obtain ⟨i1, i2, i3, i4⟩ := ho
    have hnone : ∀ o1 : OutInfo Mem, Res.ok o = Res.ok o1 → (∀ a, ¬ InRange dst n a → o1.w a = m a) ∧ dst ≤ o1.buf ∧
        o1.buf ≤ dst + (o.char_cnt + 1) ∧ o1.size_limit = lim := by
      intro o1 e
      simp only [Res.ok.injEq] at e; subst e
      exact ⟨i1, i2, by omega, i4⟩
    simp only [out_dest, memSink] at h1
    split at h1
    · cases hk : ckInt (o.char_cnt + 1) with
      | ok k =>
        rw [hk, Res.bind_ok] at h1
        have := ckInt_inv hk
        split at h1
        · rename_i hlt
          simp only [store, id] at h1
          split at h1
          · rename_i hs
            simp only [Res.bind_ok, Res.ok.injEq] at h1
            subst h1
            refine ⟨fun a ha => ?_, by simp only; omega, by simp only; omega, i4⟩
            simp only
            rw [if_neg, i1 a ha]
            rintro rfl
            apply ha
            simp only [InRange]
            omega
          · cases h1
        · exact hnone _ h1
      | ub y => rw [hk] at h1; cases h1
      | fuel => rw [hk] at h1; cases h1
      | env y => rw [hk] at h1; cases h1
    · exact hnone _ h1
  obtain ⟨k1, k2, k3, k4⟩ := key
  exact ⟨fun a ha => by simp only [c4]; exact k1 a ha, by simp only [c3]; exact k2, by simp only [c3]; exact k3, by simp only [c2]; exact k4⟩

/-! ### The functions -/

section
variable {σ : Type}

theorem vfptrprnf_stable {K : Sink σ} {f : σ → Byte → Res σ} (hf : K.call = some f) {L : Int} {I : OutInfo σ → Prop} (hI : Stable K L I)
    {is : List FmtItem} {fmt : Addr} (more : List VArg) (w : σ) (hw : I { w := w }) (hF : ∀ o, I o → Format (K.mem o.w) fmt is)
    (hlen : ((formatOutput is).length : Int) ≤ INT_MAX) (hL : ((formatOutput is).length : Int) ≤ L) :
    vfptrprnf K w fmt (formatArgs is ++ more) =
      ((formatOutput is).foldlM f w >>= fun w' => .ok (((formatOutput is).length : Int), w')) := by
  rw [vfptrprnf, core_prnf_eq hI more { w := w } hw hF rfl hlen (by simpa using hL),
    out_list_handler hf _ { w := w } rfl (Int.le_refl 0) (Int.le_refl 0) (by simpa using hlen)]
  simp only [Res.bind_assoc']
  congr 1; funext w'
  simp [out_terminate]

end

theorem vsnprnf_buf {m : Mem} {dst : Addr} {n : Nat} {is : List FmtItem} {fmt : Addr} (more : List VArg) (hn : 1 ≤ n) (hmax : (n : Int) ≤ INT_MAX)
    (hw : Writable m dst (min n ((formatOutput is).length + 1)))
    (hF : FormatApart m dst (min n ((formatOutput is).length + 1)) fmt is)
    (hlen : ((formatOutput is).length : Int) ≤ INT_MAX) :
    core_prnf memSink { size_limit := n, buf := dst, w := m } fmt (formatArgs is ++ more) =
      .ok (((formatOutput is).length : Int), put m dst ((formatOutput is).take (n - 1) ++ [0])) := by
  obtain ⟨l, hl⟩ : ∃ l, l = formatOutput is := ⟨_, rfl⟩
  rw [← hl] at hw hF hlen ⊢
  have hpos : 0 < dst := by have := (hw 0 (by omega)).1; omega
  have hI : Stable memSink l.length (BufInv m dst (min n (l.length + 1)) n) := bufInv_stable (by omega)
  have htl : (l.take (n - 1)).length + 1 = min n (l.length + 1) := by simp only [List.length_take]; omega
  have h1 : Writable m dst (l.take (n - 1)).length := hw.mono (by omega)
  rw [core_prnf_eq hI more _ ⟨fun _ _ => rfl, Int.le_refl _, by simp, rfl⟩
    (fun o ho => hF o.w (fun a ha _ => ho.out a ha)) rfl (by rw [← hl]; exact hlen) (by rw [← hl]; simp), ← hl]
  rw [out_list_buf (n := n) (j := 0) l _ hpos rfl rfl (Int.le_refl 0) (Int.le_refl 0) (by simpa using hlen) (by simpa using h1)]
  simp only [Res.bind_ok, out_terminate, Nat.sub_zero]
  rw [if_pos (by omega)]
  have hw1 : Writable (put m dst (l.take (n - 1))) (dst + (l.take (n - 1)).length) 1 := by
    rw [writable_put h1]
    exact hw.sub _ 1 (by omega)
  have : store (memSink.mem (put m dst (l.take (n - 1)))) (dst + (l.take (n - 1)).length) 0 =
      .ok (put (put m dst (l.take (n - 1))) (dst + (l.take (n - 1)).length) [0]) := store_eq 0 hw1
  rw [this, Res.bind_ok, Res.bind_ok, put_append]
  simp [memSink]

theorem core_prnf_count {m : Mem} {dst : Addr} {lim : Int} {is : List FmtItem} {fmt : Addr} (more : List VArg) (h : dst = 0 ∨ lim = 0)
    (hF : Format m fmt is) (hlen : ((formatOutput is).length : Int) ≤ INT_MAX) :
    core_prnf memSink { size_limit := lim, buf := dst, w := m } fmt (formatArgs is ++ more) =
      .ok (((formatOutput is).length : Int), m) := by
  have hI : Stable memSink INT_MAX (fun o : OutInfo Mem => o.w = m ∧ (o.buf = 0 ∨ o.size_limit = 0) ∧ 0 ≤ o.char_cnt) := by
    rintro o x o' ⟨rfl, ho, hc⟩ hx -
    obtain ⟨o1, o2, h1, h2, rfl⟩ := out_char_inv hx
    obtain ⟨c1, c2, c3, c4, -⟩ := out_col_keep h2
    have : o1 = o := by
      simp only [out_dest, memSink] at h1
      split at h1
      · cases hk : ckInt (o.char_cnt + 1) with
        | ok k =>
          rw [hk, Res.bind_ok] at h1
          have := ckInt_inv hk
          rw [if_neg (by omega)] at h1
          simp only [Res.ok.injEq] at h1; exact h1.symm
        | ub y => rw [hk] at h1; cases h1
        | fuel => rw [hk] at h1; cases h1
        | env y => rw [hk] at h1; cases h1
      · simp only [Res.ok.injEq] at h1; exact h1.symm
    subst this
    exact ⟨c4, by simp only [c3, c2]; exact ho, by simp only; omega⟩
  rw [core_prnf_eq hI more _ ⟨rfl, h, Int.le_refl _⟩ (fun o ho => by obtain ⟨rfl, -⟩ := ho; exact hF) rfl hlen (by simpa using hlen),
    out_list_none rfl _ _ (by simp only; omega) (Int.le_refl 0) (Int.le_refl 0) (by simpa using hlen)]
  simp only [Res.bind_ok, out_terminate]
  rw [if_neg (by omega)]
  simp

/-! ### A strbuf -/

theorem prnf_chars_fold (cfg : Cfg) (l : List Byte) (s : St) (p : Addr) :
    l.foldlM (fun (w : Addr × St) c => append_char_to_buf cfg w.2 w.1 c) (p, s) = prnf_chars cfg s p l := by
  induction l generalizing s p with
  | nil => rfl
  | cons x l ih =>
    rw [List.foldlM_cons, prnf_chars]
    congr 1; funext w
    exact ih w.2 w.1

theorem OnlyBlock.apart {s s' : St} {p : Addr} {n : Nat} {p' : Addr} {n' : Nat} (h : OnlyBlock s s' p n p' n') {fmt : Addr} {is : List FmtItem}
    (hF : FormatApart s.mem p n fmt is) : Format s'.mem fmt is := by
  apply hF
  intro a ha hs
  by_cases h' : InRange p' n' a
  · rw [h.fresh a h' ha] at hs; cases hs
  · exact h.outside a ha h'

theorem vfptrprnf_strbuf {cfg : Cfg} (hcfg : cfg.Ok) {s : St} (hs : s.Sane) {p : Addr} {b : Buf} (hb : BufAt s p b)
    {is : List FmtItem} {fmt : Addr} (more : List VArg) (hF : FormatApart s.mem p (storage b.cap) fmt is)
    (hlen : ((formatOutput is).length : Int) ≤ INT_MAX) (hh : cfg.Handles b (b.data.length + (formatOutput is).length)) :
    vfptrprnf (strbufSink cfg) (p, s) fmt (formatArgs is ++ more) =
      (prnf_chars cfg s p (formatOutput is) >>= fun w => .ok (((formatOutput is).length : Int), w)) := by
  have hI : Stable (strbufSink cfg) (formatOutput is).length (fun o => o.buf = 0 ∧ 0 ≤ o.char_cnt ∧
      ∃ d cap, Changed s p b d cap o.w.1 o.w.2 ∧ (d.length : Int) ≤ b.data.length + o.char_cnt ∧ b.cap ≤ cap) := by
    rintro o x o' ⟨hbuf, hc, d, cap, hch, hd, hcap⟩ hx hL
    have hcnt := out_char_cnt hx
    obtain ⟨o1, o2, h1, h2, rfl⟩ := out_char_inv hx
    obtain ⟨c1, c2, c3, c4, -⟩ := out_col_keep h2
    simp only at hL hcnt
    have hb' := append_char_out hcfg hch.sane hch.buf x (hh.mono (by simp only; omega) hcap rfl)
    have h1' : (append_char_to_buf cfg o.w.2 o.w.1 x >>= fun w => .ok { o with w := w }) = .ok o1 := by
      simpa [out_dest, hbuf, strbufSink] using h1
    rcases hb' with ⟨-, he⟩ | ⟨p1, s1, e1, r1⟩
    · rw [he] at h1'; cases h1'
    · rw [e1, Res.bind_ok, Res.ok.injEq] at h1'
      subst h1'
      simp only at c3 c4
      refine ⟨by simp only [c3]; exact hbuf, by simp only; omega, _, _,
        by simp only [c4]; exact hch.trans (r1.changed (fun hd => if_neg (fun h => hd h.1))), ?_, ?_⟩
      · simp only
        split <;> simp <;> omega
      · exact Nat.le_trans hcap (cap_le_capFor hcfg (b := ⟨d, cap, b.al⟩) _)
  rw [vfptrprnf_stable rfl hI more (p, s)
    ⟨rfl, Int.le_refl _, b.data, b.cap, (ReszOk.refl hs hb).toResult.changed (fun _ => rfl), by simp, Nat.le_refl _⟩
    (fun o ho => by
      obtain ⟨-, -, d, cap, hch, -, -⟩ := ho
      exact hch.only.apart hF) hlen (Int.le_refl _), prnf_chars_fold]

theorem strbuf_append_vprnf_eq {cfg : Cfg} (hcfg : cfg.Ok) {s : St} (hs : s.Sane) {p : Addr} {b : Buf} (hb : BufAt s p b)
    {is : List FmtItem} {fmt : Addr} (more : List VArg) (hF : FormatApart s.mem p (storage b.cap) fmt is)
    (hlen : ((formatOutput is).length : Int) ≤ INT_MAX) (hh : cfg.Handles b (b.data.length + (formatOutput is).length)) :
    strbuf_append_vprnf cfg s (some p) fmt (formatArgs is ++ more) = strbuf_append_prnf cfg s (some p) (formatOutput is) := by
  rw [strbuf_append_vprnf, strbuf_append_prnf, deref_some hb.pos]
  simp only
  rw [vfptrprnf_strbuf hcfg hs hb more hF hlen hh]
  simp only [Res.bind_assoc', Res.bind_ok, if_pos hlen]

theorem strbuf_vprnf_eq {cfg : Cfg} (hcfg : cfg.Ok) {s : St} (hs : s.Sane) {p : Addr} {b : Buf} (hb : BufAt s p b)
    {is : List FmtItem} {fmt : Addr} (more : List VArg) (hF : FormatApart s.mem p (storage b.cap) fmt is)
    (hlen : ((formatOutput is).length : Int) ≤ INT_MAX) (hh : cfg.Handles b (formatOutput is).length) :
    strbuf_vprnf cfg s (some p) fmt (formatArgs is ++ more) = strbuf_prnf cfg s (some p) (formatOutput is) := by
  obtain ⟨m1, e1, r1⟩ := (ReszOk.refl hs hb).emptied
  rw [strbuf_vprnf, strbuf_prnf, deref_some hb.pos]
  simp only
  rw [e1, Res.bind_ok, Res.bind_ok]
  rw [vfptrprnf_strbuf hcfg r1.sane r1.buf more
    (fun m' hm' => hF m' (fun a ha hsome => by
      have : m1 a = s.mem a := r1.only.outside a ha ha
      rw [hm' a ha (by simp only [this]; exact hsome)]; exact this)) hlen (by simp only [List.length_nil, Nat.zero_add]; exact hh)]
  simp only [Res.bind_assoc', Res.bind_ok, if_pos hlen]

end CStr
