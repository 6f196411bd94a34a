import Verif.Model.Examples
import Verif.Props.BufHist
import Verif.Props.BufOp
import Verif.Props.BufLife
import Verif.Props.Misc
import Verif.Props.Print
/-! Property C75: the example programs. -/
namespace CStr

/-- Text as `printf` shows it: up to the first NUL. -/
def shown (l : List Byte) : List Byte := l.takeWhile (· ≠ 0)

theorem shown_split (l : List Byte) : ∃ r, l ++ [0] = shown l ++ [0] ++ r := by
  induction l with
  | nil => exact ⟨[], rfl⟩
  | cons b l ih =>
    by_cases h : b = 0
    · exact ⟨l ++ [0], by simp [shown, h]⟩
    · obtain ⟨r, hr⟩ := ih
      refine ⟨r, ?_⟩
      have : shown (b :: l) = b :: shown l := by simp [shown, h]
      rw [this]; simp only [List.cons_append, hr]

theorem shown_noNul (l : List Byte) : (0 : Byte) ∉ shown l := by
  induction l with
  | nil => simp [shown]
  | cons b l ih =>
    by_cases h : b = 0
    · simp [shown, h]
    · have : shown (b :: l) = b :: shown l := by simp [shown, h]
      rw [this, List.mem_cons]
      rintro (e | e)
      · exact h e.symm
      · exact ih e

theorem shown_length (l : List Byte) : (shown l).length ≤ l.length := (List.takeWhile_prefix _).length_le

theorem print_s_eq {m : Mem} {a : Addr} {l : List Byte} (h : Holds m a (l ++ [0])) (hl : (l.length : Int) ≤ INT_MAX) :
    print_s m a = .ok (shown l) := by
  obtain ⟨r, hr⟩ := shown_split l
  have h1 := (Holds.append_iff.1 (hr ▸ h)).1
  have := shown_length l
  rw [print_s, strlen_eq h1 (shown_noNul l) _ (by simp only [INT_MAX] at hl; omega), Res.bind_ok, Int.toNat_natCast]
  exact readBytes_eq (Holds.append_iff.1 h1).1

theorem BufAt.print {s : St} {p : Addr} {b : Buf} (h : BufAt s p b) : print_s s.mem (p + 24) = .ok (shown b.data) := by
  have h1 := (Holds.append_iff.1 (List.append_assoc _ _ _ ▸ h.holds)).2
  rw [hdrBytes_length] at h1
  have := h.len; have := h.cap
  exact print_s_eq h1 (by omega)

theorem BufAt.bufCstr {s : St} {p : Addr} {b : Buf} (h : BufAt s p b) : buf_cstr (some p) = .ok (p + 24) := by
  rw [buf_cstr, if_neg (by have := h.pos; omega)]

/-- Does not overlap the `n` bytes from `p`. -/
def Clear (p : Addr) (n : Nat) (a : Addr) (k : Nat) : Prop := k = 0 ∨ a + k ≤ p ∨ p + n ≤ a

theorem fixed_run {cfg : Cfg} (hcfg : cfg.Ok) {s : St} (hs : s.Sane) {p : Addr} {b : Buf} (hb : BufAt s p b) (hd : ¬ b.Dynamic)
    {op : BufOp} {e : Edit} (hm : Means s p b op e) (hok : e.Ok cfg b) :
    ∃ w s', op.run cfg s (some p) = .ok (w, some p, s') ∧ BufAt s' p ⟨e.content b, b.cap, b.al⟩ ∧ s'.Sane ∧
      ∀ a, ¬ InRange p (storage b.cap) a → s'.mem a = s.mem a := by
  rcases run_does hcfg hs hb hm hok with h | ⟨p', s', h1, _, h3⟩
  · exact absurd h.1 hd
  · obtain ⟨rfl, hcp, _⟩ := h3.fixed hd
    have hbuf := h3.buf
    have hon := h3.only.outside
    rw [hcp] at hbuf hon
    exact ⟨_, s', h1, hbuf, h3.sane, fun a ha => hon a ha ha⟩

theorem fixed_content {b : Buf} (hd : ¬ b.Dynamic) (S : List Byte) : (Edit.assign S).content b = if S.length ≤ b.cap then S else [] := by
  have hfit : b.Fits S.length ↔ S.length ≤ b.cap := by simp [Buf.Fits, hd]
  simp only [Edit.content, Edit.wanted, hfit]

theorem strip_content (b : Buf) (hl : b.data.length ≤ b.cap) (c : Byte) : (Edit.strip [c]).content b = b.data.filter (· ≠ c) := by
  have e : b.data.filter (· ∉ [c]) = b.data.filter (· ≠ c) := by congr 1; funext x; simp
  have hfit : b.Fits (b.data.filter (· ∉ [c])).length := .inl (Nat.le_trans (List.length_filter_le ..) hl)
  exact (if_pos hfit).trans e

/-- A view argument: valid or NULL. -/
theorem means_assign {s : St} {p : Addr} {b : Buf} {v : View} {l : List Byte} (hv : Denotes s.mem v l) (h0 : 0 ≤ v.data)
    (hc : Clear p (storage b.cap) v.data l.length) : Means s p b (.assign v) (.assign l) := by
  by_cases h : v.data = 0
  · cases l with
    | nil => exact .assignInvalid h
    | cons c l =>
      have := hv.holds.load_head
      rw [h] at this
      simp [load, rd] at this
  · refine .assign ⟨hv, ?_⟩ (by omega)
    rcases hc with h | h | h
    · exact .inl (List.length_eq_zero_iff.1 h)
    · exact .inr (.inl h)
    · exact .inr (.inr (.inl h))

theorem Clear.keep {m m' : Mem} {p : Addr} {n : Nat} {a : Addr} {l : List Byte} (h : Clear p n a l.length) (hh : Holds m a l)
    (ho : ∀ a, ¬ InRange p n a → m' a = m a) : Holds m' a l := by
  apply hh.congr
  intro i hi
  apply ho
  rintro ⟨h1, h2⟩
  rcases h with h | h | h <;> omega

theorem assign_and_strip_eq {cfg : Cfg} (hcfg : cfg.Ok) {s : St} (hs : s.Sane) {p : Addr} {b : Buf} (hb : BufAt s p b) (hd : ¬ b.Dynamic)
    {v : View} {l : List Byte} (hv : Denotes s.mem v l) (h0 : 0 ≤ v.data) (hc : Clear p (storage b.cap) v.data l.length)
    {dash : Addr} (hm : CString s.mem dash [45]) (hmc : Clear p (storage b.cap) dash 2) :
    ∃ s', assign_and_strip cfg s (some p) v dash =
        .ok (shown (if l.length ≤ b.cap then l else []), shown ((if l.length ≤ b.cap then l else []).filter (· ≠ 45)), s') := by
  have hcap := hb.cap
  obtain ⟨w, s1, e1, b1, hs1, o1⟩ := fixed_run hcfg hs hb hd (means_assign hv h0 hc) ⟨.inr (.inr (.inr ⟨hd, hv.max⟩)), trivial⟩
  rw [fixed_content hd] at b1
  generalize (if l.length ≤ b.cap then l else []) = t at b1 ⊢
  have hm1 : CString s1.mem dash [45] := ⟨hm.pos, hm.max, hm.noNul, Clear.keep hmc hm.holds o1⟩
  have hl1 := b1.len
  simp only at hl1
  have hout : Outside p ⟨t, b.cap, b.al⟩ dash ([45] : List Byte).length := by
    simp only [Outside, List.length_cons, List.length_nil]
    rcases hmc with h | h | h <;> omega
  have ht : (t.length : Int) ≤ INT_MAX := by omega
  obtain ⟨w2, s2, e2, b2, -, -⟩ := fixed_run hcfg hs1 b1 (by exact hd) (.strip (v := ⟨dash, 1⟩) hm1.viewOf (.inr hout))
    ⟨.inr (.inl (Nat.le_trans (List.length_filter_le ..) hl1)), trivial⟩
  rw [strip_content _ hl1] at b2
  refine ⟨s2, ?_⟩
  have e1' : strbuf_assign cfg s (some p) v = .ok (w, some p, s1) := e1
  have e2' : strbuf_strip_strview cfg s1 (some p) ⟨dash, 1⟩ = .ok (w2, some p, s2) := e2
  have hc1 : cstr s1.mem dash = .ok ⟨dash, 1⟩ := cstr_eq hm1
  have p1 := b1.print
  have p2 := b2.print
  simp only [assign_and_strip, e1', Res.bind_ok, b1.bufCstr, p1, hc1, e2', p2]

/-- C75. Example `stack_buffer`, ex1, for every view: it prints the text and the text without dashes, if the text has no more than 200 characters, else nothing. The view and the literal `-` are not in
the buffer, which is a new local variable. -/
theorem C75_stack_ex1 {cfg : Cfg} (hcfg : cfg.Ok) {s : St} (hs : s.Sane) {space : Addr} (hp : 0 < space) (ha : space % 8 = 0)
    (htop : space + storage 200 ≤ litBase) (hi : Holds s.mem space (fixedInit 200))
    {v : View} {l : List Byte} (hv : Denotes s.mem v l) (h0 : 0 ≤ v.data) (hc : Clear space (storage 200) v.data l.length)
    {dash : Addr} (hm : CString s.mem dash [45]) (hmc : Clear space (storage 200) dash 2) :
    ∃ s', stack_ex1 cfg s space v dash =
      .ok (if l.length ≤ 200 then (shown l, shown (l.filter (· ≠ 45)), s') else ([], [], s')) := by
  have hb := C48_static_init hp ha (cap := 200) (by decide) htop hi
  obtain ⟨s', e⟩ := assign_and_strip_eq hcfg hs hb (by simp [Buf.Dynamic]) hv h0 hc hm hmc
  refine ⟨s', ?_⟩
  rw [stack_ex1, e]
  by_cases h : l.length ≤ 200
  · simp only [if_pos h]
  · simp only [if_neg h]; rfl

/-- C75. Example `stack_buffer`, ex2, for every view shorter than `INT_MAX`: it prints the text and the text without dashes. The `space` is an uninitialised local variable of the size of `strbuf_space_t(v.size)`. -/
theorem C75_stack_ex2 {cfg : Cfg} (hcfg : cfg.Ok) {s : St} (hs : s.Sane) {space : Addr} (hp : 0 < space) (ha : space % 8 = 0)
    {v : View} {l : List Byte} (hv : Denotes s.mem v l) (h0 : 0 ≤ v.data) (hl : (l.length : Int) < INT_MAX)
    (htop : space + space_size l.length ≤ litBase) (hmem : ∀ i : Nat, i < space_size l.length → (s.mem (space + i)).isSome)
    (hfree : ∀ q blk, s.live q = some blk → Clear space (space_size l.length) q blk.size)
    (hc : Clear space (space_size l.length) v.data l.length)
    {dash : Addr} (hm : CString s.mem dash [45]) (hmc : Clear space (space_size l.length) dash 2) :
    ∃ s', stack_ex2 cfg s space v dash = .ok (shown l, shown (l.filter (· ≠ 45)), s') := by
  have hsz : 24 + l.length + 1 ≤ space_size l.length ∧ space_size l.length ≤ 24 + l.length + 8 := by simp only [space_size]; omega
  obtain ⟨m', cap, e, hb, hcap, ho⟩ := C48_create_fixed (s := s) hp ha (n := space_size l.length) (by omega) htop hmem
  have hst : storage cap ≤ space_size l.length := by rcases hcap with h | h <;> omega
  have hfit : l.length ≤ cap := by
    rcases hcap with h | ⟨h, _⟩
    · simp only [storage] at h; omega
    · omega
  have ho' : ∀ a, ¬ InRange space (space_size l.length) a → m' a = s.mem a := by
    intro a hna
    apply ho
    rintro ⟨h1, h2⟩
    exact hna ⟨h1, by omega⟩
  have shrink : ∀ {a : Addr} {k : Nat}, Clear space (space_size l.length) a k → Clear space (storage cap) a k := by
    rintro a k (h | h | h)
    · exact .inl h
    · exact .inr (.inl h)
    · exact .inr (.inr (by omega))
  have hs' : St.Sane { s with mem := m' } := by
    refine ⟨⟨?_, hs.wf.disjoint⟩, hs.noFail⟩
    intro q blk hq
    obtain ⟨h1, h2, h3, h4⟩ := hs.wf.block q blk hq
    refine ⟨h1, h2, h3, fun i hi => ?_⟩
    show (m' (q + i)).isSome
    rw [ho' _ (by rintro ⟨g1, g2⟩; rcases hfree q blk hq with h | h | h <;> omega)]
    exact h4 i hi
  obtain ⟨s', e'⟩ := assign_and_strip_eq hcfg (s := { s with mem := m' }) hs' hb (by simp [Buf.Dynamic])
    (v := v) (l := l) ⟨hv.size, hv.max, Clear.keep hc hv.holds ho'⟩ h0 (shrink hc)
    (dash := dash) ⟨hm.pos, hm.max, hm.noNul, Clear.keep hmc hm.holds ho'⟩ (shrink hmc)
  simp only [if_pos hfit] at e'
  refine ⟨s', ?_⟩
  rw [stack_ex2, hv.size, chk_ok (by simp only [INT_MIN]; omega) (by omega), Res.bind_ok, Int.toNat_natCast, e]
  exact e'

/-- C75. Example `stack_buffer`, ex3, for every view shorter than `INT_MAX`: the text is copied to the array and printed. -/
theorem C75_stack_ex3 {m : Mem} {cbuf : Addr} {v : View} {l : List Byte} (hv : Denotes m v l) (hl : (l.length : Int) < INT_MAX)
    (hw : Writable m cbuf (l.length + 1)) (hc : v.data + l.length ≤ cbuf ∨ cbuf + (l.length + 1 : Nat) ≤ v.data) :
    ∃ m', stack_ex3 m cbuf v = .ok (shown l, m') := by
  obtain ⟨m', e, h, -⟩ := C20_to_cstr hv (by omega) hw hc
  rw [Nat.add_sub_cancel, List.take_length] at h
  refine ⟨m', ?_⟩
  rw [stack_ex3, hv.size, chk_ok (by simp only [INT_MIN]; omega) (by omega), Res.bind_ok]
  rw [show ((l.length : Int) + 1).toNat = l.length + 1 by omega, e, Res.bind_ok, print_s_eq h (by omega)]
  rfl

/-- What successive calls of `ex1` of static-buf.c print, when the buffer holds `old`: the previous text and the new one. A text of more than 200 characters is not stored. -/
def staticShown (old : List Byte) : List (List Byte) → List (List Byte × List Byte)
  | [] => []
  | l :: ls => (shown old, shown l) :: staticShown (if l.length ≤ 200 then l else []) ls

theorem static_calls_eq {cfg : Cfg} (hcfg : cfg.Ok) {p : Addr} (vs : List (View × List Byte)) {s : St} (hs : s.Sane) {old : List Byte}
    (hb : BufAt s p ⟨old, 200, ⟨0, 0⟩⟩)
    (hv : ∀ x ∈ vs, Denotes s.mem x.1 x.2 ∧ 0 ≤ x.1.data ∧ Clear p (storage 200) x.1.data x.2.length) :
    ∃ s', static_calls cfg p (vs.map (·.1)) s = .ok (staticShown old (vs.map (·.2)), s') := by
  induction vs generalizing s old with
  | nil => exact ⟨s, rfl⟩
  | cons x vs ih =>
    obtain ⟨v, l⟩ := x
    obtain ⟨h1, h2, h3⟩ := hv (v, l) (by simp)
    have hd : ¬ Buf.Dynamic ⟨old, 200, ⟨0, 0⟩⟩ := by simp [Buf.Dynamic]
    obtain ⟨w, s1, e1, b1, hs1, o1⟩ := fixed_run hcfg hs hb hd (means_assign h1 h2 h3) ⟨.inr (.inr (.inr ⟨hd, h1.max⟩)), trivial⟩
    rw [fixed_content hd] at b1
    obtain ⟨s', e'⟩ := ih hs1 b1 (by
      intro y hy
      obtain ⟨g1, g2, g3⟩ := hv y (by simp [hy])
      exact ⟨⟨g1.size, g1.max, g3.keep g1.holds o1⟩, g2, g3⟩)
    refine ⟨s', ?_⟩
    have e1' : strbuf_assign cfg s (some p) v = .ok (w, some p, s1) := e1
    have pp := hb.print
    simp only [List.map_cons, static_calls, static_ex1, hb.bufCstr, Res.bind_ok, pp, C73_printf h1, e1', e', staticShown]
    rfl

/-- C75. Example `static_buffer`, for any sequence of calls with any views outside the static buffer. -/
theorem C75_static {cfg : Cfg} (hcfg : cfg.Ok) {s : St} (hs : s.Sane) {p : Addr} (hp : 0 < p) (ha : p % 8 = 0) (htop : p + storage 200 ≤ litBase)
    (hi : Holds s.mem p (fixedInit 200)) (vs : List (View × List Byte))
    (hv : ∀ x ∈ vs, Denotes s.mem x.1 x.2 ∧ 0 ≤ x.1.data ∧ Clear p (storage 200) x.1.data x.2.length) :
    ∃ s', static_calls cfg p (vs.map (·.1)) s = .ok (staticShown [] (vs.map (·.2)), s') :=
  static_calls_eq hcfg vs hs (C48_static_init hp ha (by decide) htop hi) hv

/-! The examples with an allocator. -/

/-- Only slot 0 holds something: the buffer `b`. -/
def only0 (b : Buf) : AState := fun h => if h = 0 then some (.buf b) else none

theorem only0_set (b b' : Buf) : (only0 b).set 0 (some (.buf b')) = only0 b' := by
  funext h
  by_cases e : h = 0 <;> simp [AState.set, only0, e]

theorem only0_handle (b : Buf) : (only0 b).Handle 0 := fun o h => ⟨b, by simpa [only0] using h.symm⟩

/-- Appending constants: legal, and the content grows by them, if the length stays far enough below `INT_MAX`. -/
theorem appends_run {cfg : Cfg} {dflt : Alloc} {K : Nat → List Byte} (ks : List Nat) (rest : List Cmd) {al : Alloc} (hal : al.fn ≠ 0)
    {d : List Byte} {cap : Nat} (hlen : ((d ++ (ks.map K).flatten).length : Int) + cfg.growStep ≤ INT_MAX) (h0 : 0 < cfg.growStep) :
    ∃ cap', runAbs cfg dflt K (ks.map (fun k => .op 0 (.append (.const k))) ++ rest) (only0 ⟨d, cap, al⟩) =
        runAbs cfg dflt K rest (only0 ⟨d ++ (ks.map K).flatten, cap', al⟩) ∧
      (LegalRun cfg dflt K rest (only0 ⟨d ++ (ks.map K).flatten, cap', al⟩) →
        LegalRun cfg dflt K (ks.map (fun k => .op 0 (.append (.const k))) ++ rest) (only0 ⟨d, cap, al⟩)) := by
  induction ks generalizing d cap with
  | nil => exact ⟨cap, by simp⟩
  | cons k ks ih =>
    have hsplit : d ++ ((k :: ks).map K).flatten = (d ++ K k) ++ (ks.map K).flatten := by simp
    rw [hsplit] at hlen ⊢
    have hl1 : ((d ++ K k).length : Int) + cfg.growStep ≤ INT_MAX := by
      simp only [List.length_append] at hlen ⊢; omega
    have hw : (Edit.insert (d.length : Int) (K k)).wanted ⟨d, cap, al⟩ = d ++ K k := by
      simp only [Edit.wanted, insertPos]
      rw [if_neg (by omega)]; simp
    have hstep : Cmd.step cfg dflt K (only0 ⟨d, cap, al⟩) (.op 0 (.append (.const k))) =
        only0 ⟨d ++ K k, (Edit.insert (d.length : Int) (K k)).cap cfg ⟨d, cap, al⟩, al⟩ := by
      show (only0 _).set 0 (some (.buf ((Edit.insert (d.length : Int) (K k)).apply cfg ⟨d, cap, al⟩))) = _
      rw [only0_set]
      congr 1
      simp only [Edit.apply, Edit.content, hw]
      rw [if_pos (.inr ⟨hal, by omega⟩)]
    obtain ⟨cap', e1, e2⟩ := ih (d := d ++ K k) (cap := (Edit.insert (d.length : Int) (K k)).cap cfg ⟨d, cap, al⟩) hlen
    refine ⟨cap', ?_, fun h => ⟨⟨only0_handle _, trivial, ?_⟩, ?_⟩⟩
    · rw [List.map_cons, List.cons_append, runAbs, hstep]; exact e1
    · intro b hb
      have : b = ⟨d, cap, al⟩ := by simpa [only0] using hb.symm
      subst this
      refine ⟨.inr (.inr (.inl ?_)), ?_⟩
      · show (((Edit.insert (d.length : Int) (K k)).wanted ⟨d, cap, al⟩).length : Int) + _ ≤ _
        rw [hw]; exact hl1
      · show INT_MIN ≤ (d.length : Int) ∧ (d.length : Int) ≤ INT_MAX
        simp only [List.length_append, INT_MIN, INT_MAX] at hl1 ⊢; omega
    · rw [hstep]; exact e2 h

/-- The content at the end of the examples with an allocator: texts `0` to `n - 1`, all of them twice between the texts `n` and `n + 1`. -/
def twice (K : Nat → List Byte) (n : Nat) : List Byte :=
  K n ++ ((List.range n).map K).flatten ++ ((List.range n).map K).flatten ++ K (n + 1)

theorem subList_all (d : List Byte) (h : (d.length : Int) ≤ INT_MAX) : subList d 0 2147483647 = d := by
  cases d with
  | nil => rfl
  | cons c d =>
    have hr : subRange (c :: d) 0 2147483647 = some (0, (c :: d).length) := by
      simp only [INT_MAX, List.length_cons] at h
      simp only [subRange, if_neg (List.cons_ne_nil c d), fromEnd, if_neg (show ¬ (0 : Int) < 0 by decide),
        if_neg (show ¬ (2147483647 : Int) < 0 by decide)]
      rw [if_pos ⟨by decide, by simp only [List.length_cons]; omega, by decide⟩]
      congr 2
      simp only [List.length_cons]; omega
    simp only [subList, hr, List.drop_zero, List.take_length]

theorem alloc_main_run {cfg : Cfg} {dflt : Alloc} {K : Nat → List Byte} (n : Nat) (o : Option Alloc) (hal : (allocFor dflt o).Ok)
    (hlen : ((twice K n).length : Int) + cfg.growStep ≤ INT_MAX) (h0 : 0 < cfg.growStep) (rest : List Cmd) :
    ∃ cap', runAbs cfg dflt K (alloc_main n o ++ rest) (fun _ => none) = runAbs cfg dflt K rest (only0 ⟨twice K n, cap', allocFor dflt o⟩) ∧
      (LegalRun cfg dflt K rest (only0 ⟨twice K n, cap', allocFor dflt o⟩) → LegalRun cfg dflt K (alloc_main n o ++ rest) (fun _ => none)) := by
  have hlen' : ((twice K n).length : Int) = (K n).length + 2 * (((List.range n).map K).flatten.length : Int) + (K (n + 1)).length := by
    simp only [twice, List.length_append]; omega
  have e0 : alloc_main n o ++ rest = .createEmpty 0 16 o :: ((List.range n).map (fun k => .op 0 (.append (.const k))) ++
      (.op 0 (.cat [.const n, .sub 0 0 2147483647, .sub 0 0 2147483647, .const (n + 1)]) :: rest)) := by simp [alloc_main]
  have hs0 : Cmd.step cfg dflt K (fun _ => none) (.createEmpty 0 16 o) = only0 ⟨[], 16, allocFor dflt o⟩ := by
    funext h
    by_cases e : h = 0 <;> simp [Cmd.step, AState.set, only0, e]
  generalize htx : ((List.range n).map K).flatten = tx at *
  obtain ⟨cap1, e1, l1⟩ := appends_run (cfg := cfg) (dflt := dflt) (K := K) (List.range n)
    (.op 0 (.cat [.const n, .sub 0 0 2147483647, .sub 0 0 2147483647, .const (n + 1)]) :: rest) hal.some (d := []) (cap := 16)
    (by rw [List.nil_append, htx]; omega) h0
  rw [List.nil_append, htx] at e1 l1
  have hsub : Src.bytes K (only0 ⟨tx, cap1, allocFor dflt o⟩) (.sub 0 0 2147483647) = tx := subList_all tx (by omega)
  have hed : ∃ self, (HOp.cat [.const n, .sub 0 0 2147483647, .sub 0 0 2147483647, .const (n + 1)]).edit K (only0 ⟨tx, cap1, allocFor dflt o⟩) 0
      ⟨tx, cap1, allocFor dflt o⟩ = .cat [K n, tx, tx, K (n + 1)] self := by
    simp only [HOp.edit, List.map_cons, List.map_nil, hsub]
    exact ⟨_, rfl⟩
  obtain ⟨self, hed⟩ := hed
  have hw : (Edit.cat [K n, tx, tx, K (n + 1)] self).wanted ⟨tx, cap1, allocFor dflt o⟩ = twice K n := by
    simp only [Edit.wanted, twice, htx]; simp
  have hfit : Buf.Fits ⟨tx, cap1, allocFor dflt o⟩ (twice K n).length := .inr ⟨hal.some, by omega⟩
  have hcon : (Edit.cat [K n, tx, tx, K (n + 1)] self).content ⟨tx, cap1, allocFor dflt o⟩ = twice K n := by
    cases self
    · simp only [Edit.content]; rw [hw]; exact if_pos hfit
    · simp only [Edit.content]; rw [hw]; exact if_pos ⟨hal.some, hfit⟩
  have hs2 : Cmd.step cfg dflt K (only0 ⟨tx, cap1, allocFor dflt o⟩) (.op 0 (.cat [.const n, .sub 0 0 2147483647, .sub 0 0 2147483647, .const (n + 1)])) =
      only0 ⟨twice K n, (Edit.cat [K n, tx, tx, K (n + 1)] self).cap cfg ⟨tx, cap1, allocFor dflt o⟩, allocFor dflt o⟩ := by
    show (only0 _).set 0 (some (.buf (((HOp.cat [.const n, .sub 0 0 2147483647, .sub 0 0 2147483647, .const (n + 1)]).edit K
      (only0 ⟨tx, cap1, allocFor dflt o⟩) 0 ⟨tx, cap1, allocFor dflt o⟩).apply cfg ⟨tx, cap1, allocFor dflt o⟩))) = _
    rw [only0_set, hed, Edit.apply, hcon]
  refine ⟨(Edit.cat [K n, tx, tx, K (n + 1)] self).cap cfg ⟨tx, cap1, allocFor dflt o⟩, ?_, fun h => ?_⟩
  · rw [e0, runAbs, hs0, e1, runAbs, hs2]
  · rw [e0]
    refine ⟨⟨rfl, hal, by decide⟩, ?_⟩
    rw [hs0]
    apply l1
    refine ⟨⟨only0_handle _, ?_, ?_⟩, by rw [hs2]; exact h⟩
    · intro x hx
      simp only [List.mem_cons, List.not_mem_nil, or_false] at hx
      rcases hx with rfl | rfl | rfl | rfl
      · trivial
      · exact ⟨only0_handle _, by decide⟩
      · exact ⟨only0_handle _, by decide⟩
      · trivial
    · intro b hb
      have : b = ⟨tx, cap1, allocFor dflt o⟩ := by simpa [only0] using hb.symm
      subst this
      rw [hed]
      refine ⟨.inr (.inr (.inl ?_)), trivial⟩
      rw [hw]; exact hlen

/-- C75. The examples with an allocator (`custom_allocator`, `default_custom_allocator`, `default_stdlib_allocator`), for any number of texts: whatever addresses the allocator chooses, before the buffer is destroyed it prints
the texts twice between the two others; afterwards all memory is released. -/
theorem C75_alloc {cfg : Cfg} (hcfg : cfg.Ok) {dflt : Alloc} {K : Nat → List Byte} {ka : Nat → Addr} {s : St} (hs : Start K ka s)
    (n : Nat) (o : Option Alloc) (hal : (allocFor dflt o).Ok) (hlen : ((twice K n).length : Int) + cfg.growStep ≤ INT_MAX) :
    runExec cfg dflt K ka (alloc_main n o) (fun _ => 0) s = .env .alloc ∨
      ∃ ρ s1 s2, runExec cfg dflt K ka (alloc_main n o) (fun _ => 0) s = .ok (ρ, s1) ∧ print_s s1.mem (ρ 0 + 24) = .ok (shown (twice K n)) ∧
        strbuf_destroy s1 (some (ρ 0)) = .ok (some 0, s2) ∧ ∀ q, s2.live q = none := by
  have h0 := hcfg.pos
  obtain ⟨cap, e1, l1⟩ := alloc_main_run (dflt := dflt) n o hal hlen h0 []
  rw [List.append_nil] at e1 l1
  rcases C52_refinement (dflt := dflt) hcfg hs.rep (alloc_main n o) (l1 trivial) with h | ⟨ρ, s1, e, r⟩
  · exact .inl h
  · right
    rw [e1] at r
    have hb : BufAt s1 (ρ 0) ⟨twice K n, cap, allocFor dflt o⟩ := r.obj 0 _ rfl
    obtain ⟨s2, e2, hf, -⟩ := (C43_destroy r.sane hb).1 hal.some
    refine ⟨ρ, s1, s2, e, hb.print, e2, fun q => ?_⟩
    by_cases hq : q = ρ 0
    · subst hq; exact hf.liveGone
    · rw [hf.live q hq]
      cases hl : s1.live q with
      | none => rfl
      | some blk =>
        obtain ⟨h, ob, h1, h2, -⟩ := r.owned q blk hl
        by_cases hh : h = 0
        · subst hh; exact absurd h2.symm hq
        · simp [runAbs, only0, hh] at h1

/-- The literals of the example. -/
def allocTexts : Nat → List Byte
  | 0 => [84, 104, 105, 115, 32]
  | 1 => [98, 117, 102, 102, 101, 114, 32]
  | 2 => [108, 105, 118, 101, 115, 32]
  | 3 => [111, 110, 32]
  | 4 => [116, 104, 101, 32]
  | 5 => [104, 101, 97, 112, 46, 32]
  | 6 => [76, 101, 116, 39, 115, 32, 115, 97, 121, 32, 116, 104, 105, 115, 32, 116, 119, 105, 99, 101, 32, 123]
  | 7 => [125]
  | _ => []

/-- C75. With the texts of the example: "Let's say this twice {This buffer lives on the heap. This buffer lives on the heap. }". -/
theorem C75_alloc_text : twice allocTexts 6 =
    "Let's say this twice {This buffer lives on the heap. This buffer lives on the heap. }".toUTF8.toList := by decide +kernel

/-- C75. Beyond the limit of `C75_stack_ex2`: for a view of INT_MAX bytes the length of the array overflows. -/
theorem C75_stack_ex2_limit (cfg : Cfg) (s : St) (space : Addr) (v : View) (dash : Addr) (h : v.size = INT_MAX) : stack_ex2 cfg s space v dash = .ub .signedOverflow := by
  have : ¬ (INT_MIN ≤ INT_MAX + 1 ∧ INT_MAX + 1 ≤ INT_MAX) := by decide
  simp only [stack_ex2, h, chk, if_neg this]
  rfl

/-! The options of `testnum`. -/

/-- The names of the options and their bits (strnum.h lines 36-71). -/
def optionNames : List (List Byte × UInt32) :=
  [("base-bin".toUTF8.toList, STRNUM_BASE_BIN), ("base-hex".toUTF8.toList, STRNUM_BASE_HEX), ("nobx".toUTF8.toList, STRNUM_NOBX),
   ("nosign".toUTF8.toList, STRNUM_NOSIGN), ("nospace".toUTF8.toList, STRNUM_NOSPACE), ("noexp".toUTF8.toList, STRNUM_NOEXP)]

/-- Equal, ignoring the case of letters. -/
def sameText (a b : List Byte) : Bool := a.map toUpper = b.map toUpper

theorem names_fold {m : Mem} {v : View} {l : List Byte} (hv : Denotes m v l) (ns : List (Addr × List Byte × UInt32))
    (hn : ∀ x ∈ ns, CString m x.1 x.2.1) (o : UInt32) :
    (ns.map fun x => (x.1, x.2.2)).foldlM (init := o) (fun options (name, bit) => do
      let w ← cstr m name
      let r ← strview_is_match_nocase_strview m v w
      .ok (if r then options ||| bit else options)) =
      (.ok (ns.foldl (fun o x => if sameText l x.2.1 then o ||| x.2.2 else o) o) : Res UInt32) := by
  induction ns generalizing o with
  | nil => rfl
  | cons x ns ih =>
    have hx := hn x (by simp)
    simp only [List.map_cons, List.foldlM_cons, cstr_eq hx, Res.bind_ok, C02_is_match_nocase hv hx.viewOf.toDenotes, List.foldl_cons]
    rw [ih fun y hy => hn y (by simp [hy])]
    rfl

theorem flag_fold (ns : List (Addr × List Byte × UInt32)) (l : List Byte) (o k : UInt32) :
    flag (ns.foldl (fun o x => if sameText l x.2.1 then o ||| x.2.2 else o) o) k =
      (flag o k || ns.any fun x => sameText l x.2.1 && flag x.2.2 k) := by
  induction ns generalizing o with
  | nil => simp
  | cons x ns ih =>
    rw [List.foldl_cons, ih, List.any_cons]
    by_cases h : sameText l x.2.1
    · simp only [h, if_true, flag_or, Bool.true_and, Bool.or_assoc]
    · simp only [Bool.not_eq_true] at h
      simp [h]

/-- C75. Example `testnum`: an option is on exactly if its name is among the command line arguments, in upper or lower case; other arguments have no effect. `names` are the addresses of the literals. -/
theorem C75_testnum {m : Mem} {names : List (Addr × List Byte × UInt32)} (hnames : names.map (·.2) = optionNames) (hn : ∀ x ∈ names, CString m x.1 x.2.1)
    (args : List (Addr × List Byte)) (ha : ∀ x ∈ args, CString m x.1 x.2) :
    ∃ o, testnum_options m (names.map fun x => (x.1, x.2.2)) (args.map (·.1)) 0 = .ok o ∧
      ∀ x ∈ optionNames, flag o x.2 = args.any fun a => sameText a.2 x.1 := by
  have key : ∀ (args : List (Addr × List Byte)) (o0 : UInt32), (∀ x ∈ args, CString m x.1 x.2) →
      ∃ o, testnum_options m (names.map fun x => (x.1, x.2.2)) (args.map (·.1)) o0 = .ok o ∧
        ∀ k, flag o k = (flag o0 k || args.any fun a => names.any fun x => sameText a.2 x.2.1 && flag x.2.2 k) := by
    intro args
    induction args with
    | nil => intro o0 _; exact ⟨o0, rfl, by simp⟩
    | cons a args ih =>
      intro o0 ha
      have h1 := ha a (by simp)
      obtain ⟨o, e, ho⟩ := ih (names.foldl (fun o x => if sameText a.2 x.2.1 then o ||| x.2.2 else o) o0) fun x hx => ha x (by simp [hx])
      refine ⟨o, ?_, fun k => ?_⟩
      · simp only [List.map_cons, testnum_options, cstr_eq h1, Res.bind_ok]
        rw [names_fold h1.viewOf.toDenotes names hn o0, Res.bind_ok]
        exact e
      · rw [ho, flag_fold, List.any_cons, Bool.or_assoc]
  obtain ⟨o, e, ho⟩ := key args 0 ha
  refine ⟨o, e, fun x hx => ?_⟩
  rw [ho]
  have h0 : flag 0 x.2 = false := by simp [flag]
  rw [h0, Bool.false_or]
  congr 1
  funext a
  have : (names.any fun y => sameText a.2 y.2.1 && flag y.2.2 x.2) = ((names.map (·.2)).any fun y => sameText a.2 y.1 && flag y.2 x.2) := by
    rw [List.any_map]; rfl
  rw [this, hnames]
  have hb : ∀ x ∈ optionNames, ∀ y ∈ optionNames, flag y.2 x.2 = decide (y = x) := by decide +kernel
  rw [Bool.eq_iff_iff, List.any_eq_true]
  constructor
  · rintro ⟨y, hy, h⟩
    rw [hb x hx y hy, Bool.and_eq_true, decide_eq_true_iff] at h
    exact h.2 ▸ h.1
  · intro h
    exact ⟨x, hx, by rw [hb x hx x hx, h]; simp⟩

/-! Concrete cases. -/

-- stack_buffer, ex1: "12-34" behind the buffer, the literal "-" behind it
def exStackMem (l : List Byte) : Mem := memAt 4096 (l ++ [49, 50, 45, 51, 52] ++ [45, 0])
def exStackSt (l : List Byte) : St := ⟨exStackMem l, fun _ => none, fun _ => ⟨4096, fun _ => 0⟩, 0, [], []⟩

theorem exStackSt_sane (l : List Byte) : (exStackSt l).Sane := ⟨⟨(fun _ _ h => by cases h), (fun _ _ _ _ h => by cases h)⟩, fun _ => by simp [exStackSt]⟩

theorem exStack_parts {l : List Byte} (hl : l.length < 1000000) : Holds (exStackMem l) 4096 l ∧
    ViewOf (exStackMem l) ⟨4096 + l.length, 5⟩ [49, 50, 45, 51, 52] ∧ CString (exStackMem l) (4096 + (l.length + 5 : Nat)) [45] := by
  have h := holds_memAt 4096 (l ++ [49, 50, 45, 51, 52] ++ [45, 0]) (by decide) (by simp only [litBase, List.length_append, List.length_cons, List.length_nil]; omega)
  have h1 := Holds.append_iff.1 h
  have h2 := Holds.append_iff.1 h1.1
  refine ⟨h2.1, { size := rfl, max := by decide, holds := h2.2, pos := by simp only; omega }, ⟨by omega, by decide, by decide, ?_⟩⟩
  have := h1.2
  rw [List.length_append] at this
  exact this

theorem exStack_mapped {m : Mem} (h : Holds m 4096 (List.replicate 32 170)) (i : Nat) (hi : i < 32) : (m (4096 + i)).isSome := by
  have := h i (by simpa using hi)
  simp only [rd] at this
  rw [if_neg (by omega), if_neg (by simp only [litBase]; omega)] at this
  rw [this]; rfl

example : ∃ s', stack_ex1 isoCfg (exStackSt (fixedInit 200)) 4096 ⟨4096 + 225, 5⟩ (4096 + 230) = .ok ([49, 50, 45, 51, 52], [49, 50, 51, 52], s') := by
  have hl : (fixedInit 200).length = 225 := by decide +kernel
  obtain ⟨h1, h2, h3⟩ := exStack_parts (l := fixedInit 200) (by omega)
  rw [hl] at h2 h3
  exact C75_stack_ex1 isoCfg_ok (exStackSt_sane _) (by decide) (by decide) (by decide) h1 h2.toDenotes (by decide) (.inr (.inr (by decide))) h3 (.inr (.inr (by decide)))

example : ∃ s', stack_ex2 isoCfg (exStackSt (List.replicate 32 170)) 4096 ⟨4096 + 32, 5⟩ (4096 + 37) = .ok ([49, 50, 45, 51, 52], [49, 50, 51, 52], s') := by
  obtain ⟨h1, h2, h3⟩ := exStack_parts (l := List.replicate 32 170) (by simp)
  rw [List.length_replicate] at h2 h3
  exact C75_stack_ex2 isoCfg_ok (exStackSt_sane _) (by decide) (by decide) h2.toDenotes (by decide) (by decide) (by decide) (fun i hi => exStack_mapped h1 i hi) (fun _ _ h => by cases h)
    (.inr (.inr (by decide))) h3 (.inr (.inr (by decide)))

-- static_buffer: two texts, the second of them too long for the buffer, would be printed as follows
example : staticShown [] [[49], List.replicate 201 50, [51]] = [([], [49]), ([49], List.replicate 201 50), ([], [51])] := by decide +kernel

/-- The literals of the example with an allocator, one after the other from address 16. -/
def allocLits : List Byte := ((List.range 9).map fun k => allocTexts k ++ [0]).flatten

def allocKa : Nat → Addr
  | 0 => 16 | 1 => 22 | 2 => 30 | 3 => 37 | 4 => 41 | 5 => 46 | 6 => 53 | 7 => 76 | _ => 78

def allocSt : St := ⟨memAt 16 allocLits, fun _ => none, fun i => ⟨4096 + 65536 * i, fun _ => 170⟩, 0, [], []⟩

theorem allocStart : Start allocTexts allocKa allocSt := by
  have h := holds_memAt 16 allocLits (by decide) (by decide)
  refine ⟨fun _ => rfl, fun i => by simp only [allocSt]; omega, fun k => ?_⟩
  show _ ∧ _ ∧ Holds (memAt 16 allocLits) _ _
  generalize memAt 16 allocLits = m at h
  match k with
  | 0 => exact ⟨by decide, by decide, h.take 6⟩
  | 1 => exact ⟨by decide, by decide, (h.drop 6 (by decide)).take 8⟩
  | 2 => exact ⟨by decide, by decide, (h.drop 14 (by decide)).take 7⟩
  | 3 => exact ⟨by decide, by decide, (h.drop 21 (by decide)).take 4⟩
  | 4 => exact ⟨by decide, by decide, (h.drop 25 (by decide)).take 5⟩
  | 5 => exact ⟨by decide, by decide, (h.drop 30 (by decide)).take 7⟩
  | 6 => exact ⟨by decide, by decide, (h.drop 37 (by decide)).take 23⟩
  | 7 => exact ⟨by decide, by decide, (h.drop 60 (by decide)).take 2⟩
  | k + 8 => exact ⟨(by decide : (0 : Int) < 78), (by decide : (0 : Int) ≤ INT_MAX), h.drop 62 (by decide)⟩

theorem allocRuns : (runExec exCfg ⟨0, 1⟩ allocTexts allocKa (alloc_main 6 none) (fun _ => 0) allocSt).isOk = true := by decide +kernel

example : ∃ ρ s1 s2, runExec exCfg ⟨0, 1⟩ allocTexts allocKa (alloc_main 6 none) (fun _ => 0) allocSt = .ok (ρ, s1) ∧
    print_s s1.mem (ρ 0 + 24) = .ok (shown (twice allocTexts 6)) ∧ strbuf_destroy s1 (some (ρ 0)) = .ok (some 0, s2) ∧ ∀ q, s2.live q = none := by
  rcases C75_alloc exCfg_ok (dflt := ⟨0, 1⟩) allocStart 6 none ⟨by decide, by decide, by decide⟩ (by decide +kernel) with h | h
  · have := allocRuns; rw [h] at this; cases this
  · exact h

end CStr
