import Verif.Spec.BufCall
import Verif.Props.BufLife
/-! The theorem that covers all functions that modify a buffer. -/
namespace CStr

/-! A formatted text that fits leaves the buffer in place. -/

theorem prnf_chars_stays {cfg : Cfg} (hcfg : cfg.Ok) (t : List Byte) : ∀ {s : St} (_ : s.Sane) {p : Addr} {b : Buf} (_ : BufAt s p b)
    (_ : b.data.length + t.length ≤ b.cap),
    ∃ s', prnf_chars cfg s p t = .ok (p, s') ∧ Result s p b (b.data ++ t) b.cap p s' := by
  induction t with
  | nil =>
    intro s hs p b hb _
    refine ⟨s, rfl, ?_⟩
    rw [List.append_nil]
    exact (ReszOk.refl hs hb).toResult
  | cons c t ih =>
    intro s hs p b hb hle
    simp only [List.length_cons] at hle
    have h1 := append_char_out hcfg hs hb c (.inr (.inl (by omega)))
    rw [capFor_same (by omega), if_pos (.inl (by omega))] at h1
    rcases h1 with ⟨hne, _⟩ | ⟨p1, s1, e1, r1⟩
    · exact absurd rfl hne.1
    · obtain ⟨rfl, _⟩ := r1.same rfl
      obtain ⟨s2, e2, r2⟩ := ih r1.sane r1.buf (by simp only [List.length_append, List.length_cons, List.length_nil]; omega)
      refine ⟨s2, ?_, ?_⟩
      · simp only [prnf_chars, e1, Res.bind_ok]
        exact e2
      · have := r1.andSame r2
        simpa using this

theorem append_prnf_stays {cfg : Cfg} (hcfg : cfg.Ok) {s : St} (hs : s.Sane) {p : Addr} {b : Buf} (hb : BufAt s p b) {t : List Byte}
    (hle : b.data.length + t.length ≤ b.cap) :
    Yields s p b (strbuf_append_prnf cfg s (some p) t) (b.data ++ t) b.cap := by
  obtain ⟨s', e, r⟩ := prnf_chars_stays hcfg t hs hb hle
  have hcm := hb.cap
  have hsz := r.buf.getSize
  have hview := r.buf.view
  simp only at hsz hview
  rw [strbuf_append_prnf, deref_some hb.pos]
  simp only
  rw [hb.getSize, Res.bind_ok, e, Res.bind_ok]
  simp only
  rw [if_pos (by omega), addInt_nat cfg (n := b.data.length + t.length) (by omega) (by omega), Res.bind_ok, hsz, Res.bind_ok,
    if_neg (by simp only [List.length_append]; omega), hview, Res.bind_ok]
  exact .inr ⟨p, s', rfl, r⟩

theorem prnf_stays {cfg : Cfg} (hcfg : cfg.Ok) {s : St} (hs : s.Sane) {p : Addr} {b : Buf} (hb : BufAt s p b) {t : List Byte}
    (hle : t.length ≤ b.cap) : Yields s p b (strbuf_prnf cfg s (some p) t) t b.cap := by
  obtain ⟨m1, e1, r1⟩ := (ReszOk.refl hs hb).emptied
  obtain ⟨s', e, r⟩ := prnf_chars_stays hcfg t r1.sane r1.buf (by simp only [List.length_nil, Nat.zero_add]; exact hle)
  have hcm := hb.cap
  have r2 := r1.andSame r
  rw [List.nil_append] at r2
  have hsz := r2.buf.getSize
  have hview := r2.buf.view
  simp only at hsz hview
  rw [strbuf_prnf, deref_some hb.pos]
  simp only
  rw [e1, Res.bind_ok, e, Res.bind_ok]
  simp only
  rw [if_pos (by omega), hsz, Res.bind_ok, if_neg (by omega), hview, Res.bind_ok]
  exact .inr ⟨p, s', rfl, r2⟩

/-- Like `Does`; if `P` holds the buffer stays where it is, and if `Q` holds the allocator is not called. -/
def DoesAt (P Q : Prop) (s : St) (p : Addr) (b : Buf) (r : BufRes) (b' : Buf) (view : Prop) [Decidable view] : Prop :=
  (b.Dynamic ∧ ¬ Q ∧ r = .env .alloc) ∨
  ∃ p' s', r = .ok (if view then ⟨p' + 24, b'.data.length⟩ else .invalid, some p', s') ∧ b'.al = b.al ∧
    Changed s p b b'.data b'.cap p' s' ∧ (P → p' = p) ∧ (Q → s'.live = s.live ∧ s'.log = s.log ∧ s'.calls = s.calls)

theorem DoesAt.does {P Q : Prop} {s : St} {p : Addr} {b : Buf} {r : BufRes} {b' : Buf} {view : Prop} [Decidable view]
    (h : DoesAt P Q s p b r b' view) : Does s p b r b' view := by
  rcases h with ⟨h1, _, h2⟩ | ⟨p', s', h1, h2, h3, _⟩
  · exact .inl ⟨h1, h2⟩
  · exact .inr ⟨p', s', h1, h2, h3⟩

theorem Yields.does {cfg : Cfg} {s : St} {p : Addr} {b : Buf} {r : BufRes} {data : List Byte} {cap : Nat} (h : Yields s p b r data cap)
    (e : Edit) (hf : ¬ b.Dynamic → cap = b.cap) (h1 : e.content b = data) (h2 : e.cap cfg b = cap)
    (hv : e.returns b) : DoesAt (e.InPlace cfg b) (e.Quiet cfg b) s p b r (e.apply cfg b) (e.returns b) := by
  subst h1 h2
  rcases h with ⟨h, he⟩ | ⟨p', s', he, hr⟩
  · exact .inl ⟨Decidable.byContradiction fun hd => h.1 (hf hd), fun hp => h.1 hp.1, he⟩
  · exact .inr ⟨p', s', by rw [if_pos hv]; exact he, rfl, hr.changed hf, fun hp => (hr.same hp).1, fun hp => (hr.same hp.1).2⟩

theorem YieldsVia.does {cfg : Cfg} {s : St} {p : Addr} {b : Buf} {r : BufRes} {data : List Byte} {cap : Nat} (h : YieldsVia s p b r data cap)
    (e : Edit) (h1 : e.content b = data) (h2 : e.cap cfg b = cap)
    (hv : e.returns b) (hP : b.Dynamic → ¬ e.InPlace cfg b) : DoesAt (e.InPlace cfg b) (e.Quiet cfg b) s p b r (e.apply cfg b) (e.returns b) := by
  subst h1 h2
  rcases h with h | ⟨p', s', he, hr⟩
  · exact .inl ⟨h.1, fun hq => hP h.1 hq.1, h.2⟩
  · refine .inr ⟨p', s', by rw [if_pos hv]; exact he, rfl, hr, fun hp => ?_, fun hp => ?_⟩
    · exact (hr.fixed (fun hd => hP hd hp)).1
    · exact (hr.fixed (fun hd => hP hd hp.1)).2.2

theorem content_eq {b : Buf} {e : Edit} (hne : ∀ l, e ≠ .cat l true) :
    e.content b = if b.Fits (e.wanted b).length then e.wanted b else [] := by
  cases e with
  | cat l self => cases self with
    | true => exact absurd rfl (hne l)
    | false => rfl
  | _ => rfl

theorem content_nil {b : Buf} {e : Edit} (hne : ∀ l, e ≠ .cat l true) (h : e.wanted b = []) : e.content b = [] := by
  rw [content_eq hne, h]; split <;> rfl

theorem insert_length (l S : List Byte) (k : Nat) : (l.take k ++ S ++ l.drop k).length = l.length + S.length := by
  simp only [List.length_append, List.length_take, List.length_drop]; omega

theorem insert_does {cfg : Cfg} (hcfg : cfg.Ok) {s : St} (hs : s.Sane) {p : Addr} {b : Buf} (hb : BufAt s p b)
    {v : View} {S : List Byte} (hv : Source s p b v S) {i : Int} (hok : (Edit.insert i S).Ok cfg b) :
    DoesAt ((Edit.insert i S).InPlace cfg b) ((Edit.insert i S).Quiet cfg b) s p b (insert_and_view cfg s p i v) ((Edit.insert i S).apply cfg b) ((Edit.insert i S).returns b) := by
  obtain ⟨hh, hi, _⟩ := hok
  simp only [Edit.wanted, insert_length] at hh
  have h := insert_yields hcfg hs hb hv hi hh
  rw [← insert_length b.data S (insertPos b.data.length i)] at h
  exact h.does (.insert i S) (fun hd => capFor_fixed hd cfg _) rfl rfl trivial

theorem keep_does {cfg : Cfg} {s : St} (hs : s.Sane) {p : Addr} {b : Buf} (hb : BufAt s p b) {r : BufRes}
    (hr : r = .ok (⟨p + 24, b.data.length⟩, some p, s)) : DoesAt (Edit.keep.InPlace cfg b) (Edit.keep.Quiet cfg b) s p b r (Edit.keep.apply cfg b) (Edit.keep.returns b) := by
  have h : Yields s p b r b.data b.cap := .inr ⟨p, s, hr, (ReszOk.refl hs hb).toResult⟩
  exact h.does .keep (fun _ => rfl) (if_pos (.inl hb.len)) (capFor_same hb.len) trivial

theorem capFor_eq_cap {cfg : Cfg} (hcfg : cfg.Ok) {b : Buf} {n : Nat} (hd : b.Dynamic) (hf : b.Fits n) (hc : (b.cap : Int) ≤ INT_MAX)
    (h : b.capFor cfg n = b.cap) : n ≤ b.cap := by
  have := hcfg.pos
  have hn : (n : Int) ≤ INT_MAX := by
    rcases hf with h | h
    · omega
    · exact h.2
  rw [Buf.capFor, if_pos ⟨hd, hn⟩] at h
  exact (grownCap_eq_cap (by omega) hn).1 h

/-- Every operation does what the specification says, in place if the specification says so. -/
theorem run_does_at {cfg : Cfg} (hcfg : cfg.Ok) {s : St} (hs : s.Sane) {p : Addr} {b : Buf} (hb : BufAt s p b)
    {op : BufOp} {e : Edit} (hm : Means s p b op e) (hok : e.Ok cfg b) :
    DoesAt (e.InPlace cfg b) (e.Quiet cfg b) s p b (op.run cfg s (some p)) (e.apply cfg b) (e.returns b) := by
  have hfx : ∀ n, ¬ b.Dynamic → b.capFor cfg n = b.cap := fun n hd => capFor_fixed hd cfg n
  cases hm with
  | append h =>
    simp only [BufOp.run, strbuf_append_strview, deref_some hb.pos, hb.getSize, Res.bind_ok]
    exact insert_does hcfg hs hb h hok
  | appendCstr h h' =>
    simp only [BufOp.run, strbuf_append_cstr, cstr_eq h, strbuf_append_strview, deref_some hb.pos, hb.getSize, Res.bind_ok]
    exact insert_does hcfg hs hb h' hok
  | prepend h =>
    simp only [BufOp.run, strbuf_prepend_strview, deref_some hb.pos]
    exact insert_does hcfg hs hb h hok
  | prependCstr h h' =>
    simp only [BufOp.run, strbuf_prepend_cstr, cstr_eq h, strbuf_prepend_strview, deref_some hb.pos, Res.bind_ok]
    exact insert_does hcfg hs hb h' hok
  | insertAtIndex h =>
    simp only [BufOp.run, strbuf_insert_at_index_strview, deref_some hb.pos]
    exact insert_does hcfg hs hb h hok
  | insertAtIndexCstr h h' =>
    simp only [BufOp.run, strbuf_insert_at_index_cstr, cstr_eq h, strbuf_insert_at_index_strview, deref_some hb.pos, Res.bind_ok]
    exact insert_does hcfg hs hb h' hok
  | insertBefore hk hd h =>
    rename_i dst v k S
    simp only [BufOp.run, strbuf_insert_before_strview, deref_some hb.pos, hb.getSize, Res.bind_ok, hd]
    rw [if_pos (by simp only [cstrOf, hdrLen]; omega), show p + 24 + (k : Int) - cstrOf p = k by simp only [cstrOf, hdrLen]; omega]
    exact insert_does hcfg hs hb h hok
  | insertBeforeNowhere hd =>
    rename_i dst v
    exact keep_does hs hb ((C35_not_located cfg hb dst v).1 hd)
  | insertBeforeCstr hk hd h h' =>
    rename_i dst k a S
    simp only [BufOp.run, strbuf_insert_before_cstr, cstr_eq h, strbuf_insert_before_strview, deref_some hb.pos, hb.getSize, Res.bind_ok, hd]
    rw [if_pos (by simp only [cstrOf, hdrLen]; omega), show p + 24 + (k : Int) - cstrOf p = k by simp only [cstrOf, hdrLen]; omega]
    exact insert_does hcfg hs hb h' hok
  | insertBeforeCstrNowhere hd h =>
    rename_i dst a S
    simp only [BufOp.run, strbuf_insert_before_cstr, cstr_eq h, Res.bind_ok]
    exact keep_does hs hb ((C35_not_located cfg hb dst _).1 hd)
  | insertAfter hk h0 hd h =>
    rename_i dst v k S
    have hv' : strview_is_valid dst = true := by simp only [strview_is_valid]; exact decide_eq_true h0
    simp only [BufOp.run, strbuf_insert_after_strview, deref_some hb.pos, hv', if_true, hb.getSize, Res.bind_ok, hd]
    rw [if_pos (by simp only [cstrOf, hdrLen]; omega), show p + 24 + (k : Int) - cstrOf p = k by simp only [cstrOf, hdrLen]; omega]
    exact insert_does hcfg hs hb h hok
  | insertAfterNowhere hd =>
    rename_i dst v
    exact keep_does hs hb ((C35_not_located cfg hb dst v).2 hd)
  | insertAfterCstr hk h0 hd h h' =>
    rename_i dst k a S
    have hv' : strview_is_valid dst = true := by simp only [strview_is_valid]; exact decide_eq_true h0
    simp only [BufOp.run, strbuf_insert_after_cstr, cstr_eq h, strbuf_insert_after_strview, deref_some hb.pos, hv', if_true,
      hb.getSize, Res.bind_ok, hd]
    rw [if_pos (by simp only [cstrOf, hdrLen]; omega), show p + 24 + (k : Int) - cstrOf p = k by simp only [cstrOf, hdrLen]; omega]
    exact insert_does hcfg hs hb h' hok
  | insertAfterCstrNowhere hd h =>
    rename_i dst a S
    simp only [BufOp.run, strbuf_insert_after_cstr, cstr_eq h, Res.bind_ok]
    exact keep_does hs hb ((C35_not_located cfg hb dst _).2 hd)
  | assign h hv => exact (assign_yields hcfg hs hb h hv hok.1).does _ (hfx _) rfl rfl trivial
  | assignInvalid hv =>
    exact (assign_invalid hs hb hv).does _ (fun _ => rfl) (content_nil (fun _ h => by cases h) rfl) (capFor_same (Nat.zero_le _)) trivial
  | cat h =>
    rename_i args
    have hh : cfg.Handles b (total args) := hok.1
    by_cases hal : ∃ a ∈ args, a.1.Into p b
    · simp only [decide_eq_true hal]
      by_cases hd : b.Dynamic
      · by_cases hmax : (total args : Int) ≤ INT_MAX
        · have e1 : (Edit.cat (args.map (·.2)) true).content b = (args.map (·.2)).flatten := if_pos ⟨hd, .inr ⟨hd, hmax⟩⟩
          rcases C37_cat_self hcfg hs hb hd h hal hmax hh with h | ⟨p', s', q, cap, rfl, e, c, -, hst⟩
          · exact .inl ⟨hd, fun hq => Bool.noConfusion (hq.2 hd), h⟩
          · refine .inr ⟨p', s', ?_, rfl, ?_, hst, fun hq => Bool.noConfusion (hq.2 hd)⟩
            · rw [if_pos (show (Edit.cat (args.map (·.2)) true).returns b from trivial), Edit.apply, e1]
              exact e
            · rw [Edit.apply, e1]
              exact c
        · have hnf : ¬ b.Fits (total args) := Buf.over_fits hb.cap (by omega)
          have h1 := cat_over hcfg hs hb (fun a ha => (h a ha).toDenotes) hh hmax []
          rw [if_neg hnf] at h1
          exact h1.does (.cat _ true) (hfx _) (if_neg (fun h => hnf h.2)) rfl trivial
      · exact (C37_cat_self_fixed hcfg hs hb hd h hal hh).does (.cat _ true) (fun _ => rfl) (if_neg (fun h => hd h.1)) (hfx _ hd) trivial
    · simp only [decide_eq_false hal]
      exact (cat_plain hcfg hs hb h (fun a h1 h2 => hal ⟨a, h1, h2⟩) hh).does (.cat _ false) (hfx _) rfl rfl trivial
  | strip h ho =>
    rename_i v chars
    have hl := List.length_filter_le (fun x => decide (x ∉ chars)) b.data
    have hlen := hb.len
    exact (strip_yields hs hb h ho).does _ (fun _ => rfl) (if_pos (.inl (Nat.le_trans hl hlen))) (capFor_same (Nat.le_trans hl hlen)) trivial
  | stripInvalid hv =>
    rename_i v
    have e0 : b.data.filter (fun x => decide (x ∉ ([] : List Byte))) = b.data := by simp
    have h := strip_invalid (cfg := cfg) hs hb hv
    have hlen := hb.len
    rw [← e0] at h hlen
    exact h.does (.strip []) (fun _ => rfl) (if_pos (.inl hlen)) (capFor_same hlen) trivial
  | stripCstr h ho =>
    rename_i a chars
    have hl := List.length_filter_le (fun x => decide (x ∉ chars)) b.data
    have hlen := hb.len
    exact (C40_strip_cstr_partial hs hb h ho).does _ (fun _ => rfl) (if_pos (.inl (Nat.le_trans hl hlen)))
      (capFor_same (Nat.le_trans hl hlen)) trivial
  | appendChar =>
    rename_i c
    have el : b.data.length + 1 = (b.data ++ [c]).length := by simp
    have h := (append_char_out hcfg hs hb c (by rw [el]; exact hok.1)).yields
    simp only [BufOp.run, strbuf_append_char, deref_some hb.pos]
    rw [el] at h
    exact h.does _ (hfx _) rfl rfl trivial
  | shrink => exact (shrink_yields hs hb).does _ (fun hd => if_neg hd) (if_pos (.inl hb.len)) rfl trivial
  | grow =>
    rename_i n
    by_cases hd : b.Dynamic
    · exact (grow_yields hs hb hd hok.2).does (.grow n) (fun h => absurd hd h) (if_pos (.inl hb.len)) (if_pos hd) hd
    · right
      have e1 : (Edit.grow n).content b = b.data := if_pos (.inl hb.len)
      have e2 : (Edit.grow n).cap cfg b = b.cap := if_neg hd
      refine ⟨p, s, ?_, rfl, ?_, fun _ => rfl, fun _ => ⟨rfl, rfl, rfl⟩⟩
      · rw [if_neg (show ¬ (Edit.grow n).returns b from hd)]
        exact grow_fixed hb hd n
      · rw [Edit.apply, e1, e2]
        exact (ReszOk.refl hs hb).toResult.changed (fun _ => rfl)
  | appendUsing hf hl hr =>
    rename_i f l r
    have el : (b.data ++ l.take r).length = b.data.length + r := by
      simp only [List.length_append, List.length_take]; omega
    have hfit : (b.data ++ l.take r).length ≤ b.cap := by omega
    exact ((C45_append_using hs hb hf hl (by omega)).1 hr).does (.appendUsing (l.take r)) (fun _ => rfl) (if_pos (.inl hfit))
      (capFor_same hfit) trivial
  | usingFault hf hl hr h1 h2 =>
    rename_i f l r
    obtain ⟨s', e, hr'⟩ := using_fault (cfg := cfg) hs hb hf hl hr h1 h2
    right
    have e1 : Edit.usingFault.content b = [] := content_nil (fun _ h => by cases h) rfl
    have e2 : Edit.usingFault.cap cfg b = b.cap := capFor_same (Nat.zero_le _)
    refine ⟨p, s', ?_, rfl, ?_, fun _ => rfl, fun _ => (hr'.same rfl).2⟩
    · rw [if_neg (show ¬ Edit.usingFault.returns b from id)]
      exact e
    · rw [Edit.apply, e1, e2]
      exact hr'.changed (fun _ => rfl)
  | printf hf => exact (printf_yields hcfg hs hb hf hok.2.1 hok.1 hok.2.2).does _ (hfx _) rfl rfl trivial
  | appendPrintf hf =>
    rename_i fmt l
    have el : b.data.length + l.length = (b.data ++ l).length := by simp
    have h := append_printf_yields hcfg hs hb hf hok.2.1 (by rw [el]; exact hok.1) hok.2.2
    rw [el] at h
    exact h.does _ (hfx _) rfl rfl trivial
  | prnf =>
    rename_i t
    obtain ⟨cap, hc, h⟩ := prnf_yields hcfg hs hb hok.2.1 hok.1
    by_cases hd : b.Dynamic
    · by_cases hin : t.length ≤ b.cap
      · exact (prnf_stays hcfg hs hb hin).does (.prnf t) (fun _ => rfl) (if_pos (.inl hin)) (capFor_same hin) trivial
      · exact h.does _ rfl (hc (hok.2.2 hd)).symm trivial (fun hd h => hin (capFor_eq_cap hcfg hd (hok.2.2 hd) hb.cap h))
    · rcases h with h | ⟨p', s', e, c⟩
      · exact absurd h.1 hd
      · have hcap : cap = b.cap := (c.fixed hd).2.1
        subst hcap
        have h' : YieldsVia s p b (strbuf_prnf cfg s (some p) t) (if b.Fits t.length then t else []) b.cap := .inr ⟨p', s', e, c⟩
        exact h'.does _ rfl (hfx _ hd) trivial (fun h => absurd h hd)
  | appendPrnf =>
    rename_i t
    have el : b.data.length + t.length = (b.data ++ t).length := by simp
    obtain ⟨cap, hc, h⟩ := append_prnf_yields hcfg hs hb hok.2.1 (by rw [el]; exact hok.1)
    have hfit := hok.2.2
    rw [el] at hc h hfit
    by_cases hd : b.Dynamic
    · by_cases hin : (b.data ++ t).length ≤ b.cap
      · exact (append_prnf_stays hcfg hs hb (el ▸ hin)).does (.appendPrnf t) (fun _ => rfl) (if_pos (.inl hin)) (capFor_same hin) trivial
      · exact h.does _ rfl (hc (hfit hd)).symm trivial (fun hd h => hin (capFor_eq_cap hcfg hd (hfit hd) hb.cap h))
    · rcases h with h | ⟨p', s', e, c⟩
      · exact absurd h.1 hd
      · have hcap : cap = b.cap := (c.fixed hd).2.1
        subst hcap
        have h' : YieldsVia s p b (strbuf_append_prnf cfg s (some p) t)
          (if b.Fits (b.data ++ t).length then b.data ++ t else []) b.cap := .inr ⟨p', s', e, c⟩
        exact h'.does _ rfl (hfx _ hd) trivial (fun h => absurd h hd)

theorem run_does {cfg : Cfg} (hcfg : cfg.Ok) {s : St} (hs : s.Sane) {p : Addr} {b : Buf} (hb : BufAt s p b)
    {op : BufOp} {e : Edit} (hm : Means s p b op e) (hok : e.Ok cfg b) :
    Does s p b (op.run cfg s (some p)) (e.apply cfg b) (e.returns b) := (run_does_at hcfg hs hb hm hok).does

end CStr
