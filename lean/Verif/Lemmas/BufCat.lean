import Verif.Lemmas.BufText
import Verif.Lemmas.Escape
import Verif.Lemmas.BufLife
/- Helper lemmas: `buffer_vcat`. -/
namespace CStr

/-- An argument of `strbuf_cat` with the text it denotes. -/
abbrev Arg := View × List Byte

def total (args : List Arg) : Nat := (args.map (·.2)).flatten.length

theorem total_cons (a : Arg) (args : List Arg) : total (a :: args) = a.2.length + total args := by
  simp only [total, List.map_cons, List.flatten_cons, List.length_append]

theorem contains_eq {s : St} {p : Addr} {b : Buf} (hb : BufAt s p b) (v : View) :
    buf_contains_str s.mem p v = .ok (decide (v.Into p b)) := by
  rw [buf_contains_str, hb.getSize, Res.bind_ok]
  rfl

theorem addInt_wrap_ok {cfg : Cfg} (hw : cfg.wrapv = true) (a b : Int) : ∃ c, addInt cfg a b = .ok c := by
  simp only [addInt]
  by_cases h : INT_MIN ≤ a + b ∧ a + b ≤ INT_MAX
  · exact ⟨_, if_pos h⟩
  · exact ⟨_, by rw [if_neg h, if_pos hw]⟩

theorem scan_failed {cfg : Cfg} (hw : cfg.wrapv = true) {s : St} {p : Addr} {b : Buf} (hb : BufAt s p b) (args : List View) :
    ∀ (n : Int) (t : Bool), ∃ n' t', vcat_scan cfg s.mem p args n true t = .ok (n', true, t') := by
  induction args with
  | nil => intro n t; exact ⟨n, t, rfl⟩
  | cons v args ih =>
    intro n t
    obtain ⟨c, hc⟩ := addInt_wrap_ok hw n v.size
    simp only [vcat_scan, add_will_overflow_int, hc, Res.bind_ok, contains_eq hb, Bool.true_or]
    exact ih _ _

theorem scan_over {cfg : Cfg} (hw : cfg.wrapv = true) {s : St} {p : Addr} {b : Buf} (hb : BufAt s p b) (args : List Arg)
    (ha : ∀ a ∈ args, Denotes s.mem a.1 a.2) :
    ∀ (n : Nat) (t : Bool), (n : Int) ≤ INT_MAX → INT_MAX < ((n + total args : Nat) : Int) →
      ∃ n' t', vcat_scan cfg s.mem p (args.map (·.1)) n false t = .ok (n', true, t') := by
  induction args with
  | nil => intro n t h1 h2; simp only [total, List.map_nil, List.flatten_nil, List.length_nil] at h2; omega
  | cons a args ih =>
    intro n t h1 h2
    have hd := ha a (List.mem_cons_self ..)
    rw [total_cons] at h2
    have hovf := add_ovf cfg (a := n) (b := a.2.length) h1 hd.max (.inl hw)
    simp only [List.map_cons, vcat_scan, hd.size, contains_eq hb]
    by_cases hle : ((n + a.2.length : Nat) : Int) ≤ INT_MAX
    · rw [hovf, Res.bind_ok, addInt_nat cfg (n := n + a.2.length) (by omega) hle, Res.bind_ok, Res.bind_ok]
      have : decide (INT_MAX < (n : Int) + a.2.length) = false := decide_eq_false (by omega)
      rw [this]
      simp only [Bool.false_or]
      exact ih (fun a h => ha a (List.mem_cons_of_mem _ h)) _ _ hle (by omega)
    · obtain ⟨c, hc⟩ := addInt_wrap_ok hw n a.2.length
      rw [hovf, Res.bind_ok, hc, Res.bind_ok, Res.bind_ok]
      have : decide (INT_MAX < (n : Int) + a.2.length) = true := decide_eq_true (by omega)
      rw [this]
      simp only [Bool.false_or]
      exact scan_failed hw hb _ _ _

theorem scan_ok (cfg : Cfg) {s : St} {p : Addr} {b : Buf} (hb : BufAt s p b) (args : List Arg)
    (ha : ∀ a ∈ args, Denotes s.mem a.1 a.2) :
    ∀ (n : Nat) (t : Bool), ((n + total args : Nat) : Int) ≤ INT_MAX →
      vcat_scan cfg s.mem p (args.map (·.1)) n false t =
        .ok (((n + total args : Nat) : Int), false, t || args.any (fun a => decide (a.1.Into p b))) := by
  induction args with
  | nil => intro n t h1; simp [vcat_scan, total]
  | cons a args ih =>
    intro n t h2
    have hd := ha a (List.mem_cons_self ..)
    rw [total_cons] at h2
    have hle : ((n + a.2.length : Nat) : Int) ≤ INT_MAX := by omega
    have hovf := add_ovf cfg (a := n) (b := a.2.length) (by omega) hd.max (.inr (by omega))
    simp only [List.map_cons, vcat_scan, hd.size, contains_eq hb]
    rw [hovf, Res.bind_ok, addInt_nat cfg (n := n + a.2.length) (by omega) hle, Res.bind_ok, Res.bind_ok]
    have : decide (INT_MAX < (n : Int) + a.2.length) = false := decide_eq_false (by omega)
    rw [this, Bool.false_or, ih (fun a h => ha a (List.mem_cons_of_mem _ h)) _ _ (by omega), total_cons,
      List.any_cons, Bool.or_assoc, Nat.add_assoc]

/-- A further operation that keeps the capacity. -/
theorem Result.andSame {s : St} {p : Addr} {b : Buf} {d : List Byte} {cap : Nat} {p1 : Addr} {s1 : St} (h : Result s p b d cap p1 s1)
    {d2 : List Byte} {p2 : Addr} {s2 : St} (h' : Result s1 p1 ⟨d, cap, b.al⟩ d2 cap p2 s2) : Result s p b d2 cap p2 s2 := by
  obtain ⟨e, a2, a3, a4⟩ := h'.same rfl
  subst e
  refine ⟨h'.buf, h'.sane, h.only.trans h'.only, ?_, ?_⟩
  · intro hc
    obtain ⟨b1, b2, b3, b4⟩ := h.same hc
    exact ⟨b1, a2.trans b2, a3.trans b3, a4.trans b4⟩
  · intro hc
    rw [a3]; exact h.log hc

/-- An argument that is not affected by writes to the block. -/
structure Ext (s : St) (p : Addr) (n : Nat) (a : Arg) : Prop where
  den : Denotes s.mem a.1 a.2
  place : a.2 = [] ∨ a.1.data + a.2.length ≤ p ∨ p + n ≤ a.1.data

theorem Ext.keep {s s' : St} {p : Addr} {n : Nat} {p' : Addr} {n' : Nat} {a : Arg} (h : Ext s p n a)
    (ho : OnlyBlock s s' p n p' n') (hn : 0 < n') (ht : p' + n' ≤ litBase) : Ext s' p' n' a := by
  obtain ⟨h1, h2⟩ := ho.keeps hn ht h.den.holds h.place
  exact ⟨⟨h.den.size, h.den.max, h1⟩, h2⟩

theorem vcat_insert_ok {cfg : Cfg} (hcfg : cfg.Ok) {p : Addr} {cap : Nat} {al : Alloc} (args : List Arg) :
    ∀ {s : St} (_ : s.Sane) {acc : List Byte} (_ : BufAt s p ⟨acc, cap, al⟩) (_ : ∀ a ∈ args, Ext s p (storage cap) a)
      (_ : acc.length + total args ≤ cap),
    ∃ s', vcat_insert cfg s p (args.map (·.1)) = .ok (p, s') ∧
      Result s p ⟨acc, cap, al⟩ (acc ++ (args.map (·.2)).flatten) cap p s' := by
  induction args with
  | nil =>
    intro s hs acc hb _ _
    refine ⟨s, rfl, ?_⟩
    have := (ReszOk.refl hs hb).toResult
    simpa using this
  | cons a args ih =>
    intro s hs acc hb ha hn
    rw [total_cons] at hn
    have hx := ha a (List.mem_cons_self ..)
    have hsrc : Source s p ⟨acc, cap, al⟩ a.1 a.2 := ⟨hx.den, by
      rcases hx.place with h | h | h
      · exact .inl h
      · exact .inr (.inl h)
      · exact .inr (.inr (.inl h))⟩
    have h := insert_out hcfg hs hb hsrc (intmin_nat acc.length) (.inr (.inl (by show acc.length + _ ≤ cap; omega)))
    simp only at h
    rw [if_pos (.inl (by show acc.length + _ ≤ cap; omega)), capFor_same (by show acc.length + _ ≤ cap; omega),
      insertPos_nat (Nat.le_refl _), List.take_length, List.drop_length, List.append_nil] at h
    rcases h with ⟨hne, _⟩ | ⟨p', s1, e1, r1⟩
    · exact absurd rfl hne.1
    · obtain rfl : p' = p := (r1.same rfl).1
      simp only at r1
      obtain ⟨s2, e2, r2⟩ := ih r1.sane r1.buf (fun a' h' => (ha a' (List.mem_cons_of_mem _ h')).keep r1.only
        (by simp only [storage]; omega) r1.buf.top) (by rw [List.length_append]; omega)
      refine ⟨s2, ?_, ?_⟩
      · simp only [List.map_cons, vcat_insert, hb.getSize, Res.bind_ok, e1]
        exact e2
      · have := r1.andSame r2
        simpa using this

/-- A buffer elsewhere survives an operation on a block. -/
theorem OnlyBlock.bufAt {s s' : St} {p : Addr} {n : Nat} {p' : Addr} {n' : Nat} (h : OnlyBlock s s' p n p' n') (hn : 0 < n)
    (hn' : 0 < n') {q : Addr} {c : Buf} (hq : BufAt s q c) (hd : q + storage c.cap ≤ p ∨ p + n ≤ q) :
    BufAt s' q c ∧ (q + storage c.cap ≤ p' ∨ p' + n' ≤ q) := by
  have hst : 0 < storage c.cap := by simp only [storage]; omega
  have hm : ∀ a, InRange q (storage c.cap) a → (s.mem a).isSome := by
    intro a ha
    simp only [InRange] at ha
    have := hq.mapped (a - q).toNat (by omega)
    rwa [show q + ((a - q).toNat : Int) = a by omega] at this
  have hnp : ∀ a, InRange q (storage c.cap) a → ¬ InRange p n a := by
    intro a h1 h2
    simp only [InRange] at h1 h2; omega
  have hnp' : ∀ a, InRange q (storage c.cap) a → ¬ InRange p' n' a := by
    intro a h1 h2
    have := hm a h1
    rw [h.fresh a h2 (hnp a h1)] at this
    cases this
  refine ⟨hq.frame (fun a ha => h.outside a (hnp a ha) (hnp' a ha)) ?_, interval_disjoint hst hn' hnp'⟩
  intro hdyn
  have hne : q ≠ p := by omega
  apply h.live q hne
  intro e
  have h1 := hq.heap hdyn
  by_cases hpp : p' = p
  · exact hne (e.trans hpp)
  · rw [e, h.liveNew hpp] at h1
    cases h1

theorem flatten_nil_of {args : List Arg} (h : total args = 0) : (args.map (·.2)).flatten = [] :=
  List.length_eq_zero_iff.1 h

/-- A total length above `INT_MAX`. -/
theorem cat_over {cfg : Cfg} (hcfg : cfg.Ok) {s : St} (hs : s.Sane) {p : Addr} {b : Buf} (hb : BufAt s p b) {args : List Arg}
    (hden : ∀ a ∈ args, Denotes s.mem a.1 a.2) (hh : cfg.Handles b (total args)) (hov : ¬ (total args : Int) ≤ INT_MAX)
    (d : List Byte) :
    Yields s p b (strbuf_cat cfg s (some p) (args.map (·.1)))
      (if b.Fits (total args) then d else []) (b.capFor cfg (total args)) := by
  have hcapm := hb.cap
  have hw : cfg.wrapv = true := by
    rcases hh with h | h | h | h
    · exact h
    · omega
    · have := hcfg.pos; omega
    · omega
  have e1 : b.capFor cfg (total args) = b.cap := by
    rw [Buf.capFor, if_neg (fun h => hov h.2)]
  have e2 : ¬ b.Fits (total args) := by
    rintro (h | h)
    · omega
    · exact hov h.2
  obtain ⟨n', t', hscan⟩ := scan_over hw hb args hden 0 false (by simp only [INT_MAX]; omega) (by omega)
  have h0 : ((0 : Nat) : Int) = 0 := rfl
  rw [h0] at hscan
  rw [e1, if_neg e2]
  have := empty_yields hs hb
  obtain ⟨m', e1, r1⟩ := (ReszOk.refl hs hb).emptied
  right
  refine ⟨p, _, ?_, r1⟩
  simp only [strbuf_cat, deref_some hb.pos, buffer_vcat]
  rw [hscan]
  have hview := r1.buf.view
  simp only at hview
  simp only [Res.bind_ok, Bool.not_true, Bool.false_eq_true, if_false, e1, hview]


/-- Without aliasing. -/
theorem cat_plain {cfg : Cfg} (hcfg : cfg.Ok) {s : St} (hs : s.Sane) {p : Addr} {b : Buf} (hb : BufAt s p b) {args : List Arg}
    (ha : ∀ a ∈ args, Source s p b a.1 a.2) (hno : ∀ a ∈ args, ¬ a.1.Into p b) (hh : cfg.Handles b (total args)) :
    Yields s p b (strbuf_cat cfg s (some p) (args.map (·.1)))
      (if b.Fits (total args) then (args.map (·.2)).flatten else []) (b.capFor cfg (total args)) := by
  have hden : ∀ a ∈ args, Denotes s.mem a.1 a.2 := fun a h => (ha a h).toDenotes
  have hcapm := hb.cap
  by_cases hov : (total args : Int) ≤ INT_MAX
  · have hscan := scan_ok cfg hb args hden 0 false (by rw [Nat.zero_add]; exact hov)
    have hany : args.any (fun a => decide (a.1.Into p b)) = false := by
      rw [List.any_eq_false]
      intro a h; simpa using hno a h
    rw [hany, Nat.zero_add, Bool.or_false] at hscan
    have hext : ∀ a ∈ args, Ext s p (storage b.cap) a := by
      intro a h
      refine ⟨hden a h, ?_⟩
      rcases (ha a h).place with h1 | h1 | h1 | h1
      · exact .inl h1
      · exact .inr (.inl h1)
      · exact .inr (.inr h1)
      · left
        have := hno a h
        simp only [View.Into] at this
        apply List.length_eq_zero_iff.1; omega
    simp only [strbuf_cat, deref_some hb.pos, buffer_vcat]
    have h0 : ((0 : Nat) : Int) = 0 := rfl
    rw [h0] at hscan
    rw [hscan]
    simp only [Res.bind_ok, Bool.not_false, if_true, vcat_prepare, hb.is_dynamic, Bool.false_eq_true, false_and, if_false]
    rcases ensure_cap hcfg hs hb hov hh with ⟨hne, he⟩ | ⟨p', s1, he, hz⟩
    · left
      refine ⟨hne, ?_⟩
      rw [he]; rfl
    · right
      obtain ⟨m2, e2, r2⟩ := hz.emptied
      rw [he, Res.bind_ok]
      simp only
      rw [e2]
      simp only [Res.bind_ok, vcat_build, r2.buf.is_dynamic, r2.buf.getCap, Bool.not_false, or_true, if_true]
      by_cases hf : b.Fits (total args)
      · rw [if_pos hf]
        have hle := (capFor_fits hcfg hov).2 hf
        rw [if_pos (by omega)]
        obtain ⟨s3, e3, r3⟩ := vcat_insert_ok hcfg args r2.sane r2.buf (fun a h => (hext a h).keep r2.only
          (by simp only [storage]; omega) r2.buf.top) (by simpa using hle)
        rw [List.nil_append] at r3
        refine ⟨p', s3, ?_, r2.andSame r3⟩
        rw [e3]
        simp only [Res.bind_ok, vcat_finish, r3.buf.is_dynamic, Bool.false_eq_true, false_and, if_false, r3.buf.view]
      · rw [if_neg hf]
        have hle := mt (capFor_fits hcfg hov).1 hf
        rw [if_neg (by omega)]
        refine ⟨p', _, ?_, r2⟩
        simp only [Res.bind_ok, vcat_finish, r2.buf.is_dynamic, Bool.false_eq_true, false_and, if_false, r2.buf.view]
  · exact cat_over hcfg hs hb hden hh hov _

/-- With aliasing, fixed capacity: the buffer is emptied. -/
theorem cat_alias_fixed {cfg : Cfg} (hcfg : cfg.Ok) {s : St} (hs : s.Sane) {p : Addr} {b : Buf} (hb : BufAt s p b) {args : List Arg}
    (ha : ∀ a ∈ args, Source s p b a.1 a.2) (hal : ∃ a ∈ args, a.1.Into p b) (hd : ¬ b.Dynamic)
    (hh : cfg.Handles b (total args)) :
    Yields s p b (strbuf_cat cfg s (some p) (args.map (·.1))) [] b.cap := by
  have hden : ∀ a ∈ args, Denotes s.mem a.1 a.2 := fun a h => (ha a h).toDenotes
  have ecap : b.capFor cfg (total args) = b.cap := by
    rw [Buf.capFor, if_neg (fun h => hd h.1)]
  by_cases hov : (total args : Int) ≤ INT_MAX
  · have hscan := scan_ok cfg hb args hden 0 false (by rw [Nat.zero_add]; exact hov)
    have hany : args.any (fun a => decide (a.1.Into p b)) = true := by
      rw [List.any_eq_true]
      obtain ⟨a, h1, h2⟩ := hal
      exact ⟨a, h1, by simpa using h2⟩
    rw [hany, Nat.zero_add, Bool.or_true] at hscan
    have h0 : ((0 : Nat) : Int) = 0 := rfl
    rw [h0] at hscan
    have hd' : ¬ b.al.fn ≠ 0 := hd
    have hz := ensure_cap hcfg hs hb hov hh
    rw [ecap] at hz
    rcases hz with ⟨hne, _⟩ | ⟨p', s1, he, hz⟩
    · exact absurd rfl hne.1
    · obtain ⟨m2, e2, r2⟩ := hz.emptied
      have hview := r2.buf.view
      have hdy := r2.buf.is_dynamic
      simp only [decide_eq_false hd'] at hview hdy
      right
      refine ⟨p', _, ?_, r2⟩
      simp only [strbuf_cat, deref_some hb.pos, buffer_vcat]
      rw [hscan]
      simp only [Res.bind_ok, Bool.not_false, if_true, vcat_prepare, hb.is_dynamic, decide_eq_false hd',
        Bool.false_eq_true, and_false, if_false]
      rw [he, Res.bind_ok]
      simp only
      rw [e2]
      simp only [Res.bind_ok, vcat_build, hdy, Bool.not_true, Bool.false_eq_true, or_false, if_false, vcat_finish,
        and_false, hview]
  · have := cat_over hcfg hs hb hden hh hov []
    rw [ecap] at this
    simpa using this

/-- With aliasing, dynamic: through a temporary buffer. -/
theorem cat_alias {cfg : Cfg} (hcfg : cfg.Ok) {s : St} (hs : s.Sane) {p : Addr} {b : Buf} (hb : BufAt s p b) {args : List Arg}
    (ha : ∀ a ∈ args, Source s p b a.1 a.2) (hal : ∃ a ∈ args, a.1.Into p b) (hd : b.Dynamic)
    (hh : cfg.Handles b (total args)) (hov : (total args : Int) ≤ INT_MAX) :
    strbuf_cat cfg s (some p) (args.map (·.1)) = .env .alloc ∨
    ∃ p' s' q, strbuf_cat cfg s (some p) (args.map (·.1)) = .ok (⟨p' + 24, total args⟩, some p', s') ∧
      Changed s p b (args.map (·.2)).flatten (b.capFor cfg (total args)) p' s' ∧
      s'.log = ⟨b.al, q, 0, 0⟩ :: ((if b.capFor cfg (total args) = b.cap then []
          else [⟨b.al, p, storage (b.capFor cfg (total args)), p'⟩]) ++ ⟨b.al, 0, storage (total args), q⟩ :: s.log) ∧
      (b.capFor cfg (total args) = b.cap → p' = p) ∧
      ∃ m2 m3, s'.moments = m3 :: ((if b.capFor cfg (total args) = b.cap then [] else [m2]) ++
          ⟨s.mem, s.live, storage (total args)⟩ :: s.moments) ∧ m3.size = 0 ∧ LeftWith s p (storage b.cap) m2 ⟨[], b.cap, b.al⟩ := by
  have hden : ∀ a ∈ args, Denotes s.mem a.1 a.2 := fun a h => (ha a h).toDenotes
  have hd' : b.al.fn ≠ 0 := hd
  have hscan := scan_ok cfg hb args hden 0 false (by rw [Nat.zero_add]; exact hov)
  have hany : args.any (fun a => decide (a.1.Into p b)) = true := by
    rw [List.any_eq_true]
    obtain ⟨a, h1, h2⟩ := hal
    exact ⟨a, h1, by simpa using h2⟩
  rw [hany, Nat.zero_add, Bool.or_true] at hscan
  have h0 : ((0 : Nat) : Int) = 0 := rfl
  rw [h0] at hscan
  simp only [strbuf_cat, deref_some hb.pos, buffer_vcat]
  rw [hscan]
  simp only [Res.bind_ok, Bool.not_false, if_true, vcat_prepare, hb.is_dynamic, decide_eq_true hd', hb.getAlloc,
    and_self]
  rcases create_ok hs (al := b.al) ⟨hb.app, hb.fn, hd'⟩ hov with ⟨_, he⟩ | ⟨q, s1, e1, c1⟩
  · left; rw [he]; rfl
  -- the temporary buffer is filled
  have hext : ∀ a ∈ args, Ext s1 q (storage (total args)) a := by
    intro a h
    have hsrc := c1.source (hden a h)
    refine ⟨hsrc.toDenotes, ?_⟩
    rcases hsrc.place with h1 | h1 | h1 | h1
    · exact .inl h1
    · exact .inr (.inl h1)
    · exact .inr (.inr h1)
    · left
      simp only [List.length_nil] at h1
      apply List.length_eq_zero_iff.1; omega
  obtain ⟨s2, e2, r2⟩ := vcat_insert_ok hcfg args c1.sane c1.buf hext (by simp)
  rw [List.nil_append] at r2
  have c2 := c1.result r2
  simp only at c2
  have hq2 := c2.buf
  have hp2 : BufAt s2 p b := c2.only.bufAt hb
  have hst : ∀ c, 0 < storage c := fun c => by simp only [storage]; omega
  -- the two buffers are disjoint
  have hdisj : q + storage (total args) ≤ p ∨ p + storage b.cap ≤ q := by
    apply interval_disjoint (hst _) (hst _)
    intro x h1 h2
    have h3 := c2.only.fresh x h1
    simp only [InRange] at h2
    have h4 := hb.mapped (x - p).toNat (by omega)
    rw [show p + ((x - p).toNat : Int) = x by omega, h3] at h4
    cases h4
  -- assign
  obtain ⟨m3, e3, r3⟩ := (ReszOk.refl c2.sane hp2).emptied
  have hq3 := (r3.only.bufAt (hst _) (hst _) hq2 hdisj).1
  have hlen : ((args.map (·.2)).flatten).length = total args := rfl
  have hsrc : Source { s2 with mem := m3 } p ⟨[], b.cap, b.al⟩ ⟨q + 24, total args⟩ (args.map (·.2)).flatten := by
    refine ⟨⟨by rw [hlen], by rw [hlen]; exact hov, ?_⟩, ?_⟩
    · have := (Holds.append_iff.1 (Holds.append_iff.1 hq3.holds).1).2
      rwa [hdrBytes_length] at this
    · right
      simp only [hlen, storage] at hdisj ⊢
      omega
  have hz := insert_out hcfg r3.sane r3.buf hsrc (i := 0) (by simp only [INT_MIN]; omega)
    (hh.mono (by simp only [List.length_nil, hlen]; omega) (Nat.le_refl _) rfl)
  simp only [List.length_nil, Nat.zero_add, hlen, List.take_nil, List.drop_nil, List.append_nil, List.nil_append] at hz
  have ecap : Buf.capFor ⟨[], b.cap, b.al⟩ cfg (total args) = b.capFor cfg (total args) := rfl
  rw [if_pos (.inr ⟨hd, hov⟩), ecap] at hz
  have hbuild : vcat_build cfg s1 q (total args) true (args.map (·.1)) = .ok (q, s2) := by
    simp only [vcat_build, c1.buf.is_dynamic, decide_eq_true hd', Res.bind_ok, true_or, if_true, c1.buf.getCap, Int.le_refl]
    exact e2
  have hfin : vcat_finish cfg s2 q p true = (do
      let (dst, s) ← insert_strview_into_buf cfg { s2 with mem := m3 } p 0 ⟨q + 24, total args⟩
      let s ← destroy_buf s q
      .ok (dst, s)) := by
    simp only [vcat_finish, hq2.is_dynamic, decide_eq_true hd', Res.bind_ok, and_self, if_true, hq2.view,
      assign_strview_to_buf, e3, hlen]
  rw [e1]
  simp only [Res.bind_ok]
  rw [hbuild]
  simp only [Res.bind_ok]
  rw [hfin]
  rcases hz with ⟨_, he⟩ | ⟨p', s4, e4, r4⟩
  · left; rw [he]; rfl
  right
  obtain ⟨hq4, hdisj4⟩ := r4.only.bufAt (hst _) (hst _) hq3 hdisj
  simp only at hdisj4
  obtain ⟨s5, e5, of5, sane5, log5⟩ := destroy_ok r4.sane hq4 hd
  simp only at of5 log5
  have hp5 : BufAt s5 p' ⟨(args.map (·.2)).flatten, b.capFor cfg (total args), b.al⟩ :=
    of5.bufAt r4.sane r4.buf (by simp only; omega) (hq4.heap hd)
  refine ⟨p', s5, q, ?_, ⟨hp5, sane5, ?_, fun h => absurd hd h⟩, ?_, fun h => (r4.same h).1, ?_⟩
  · rw [e4]
    simp only [Res.bind_ok]
    rw [e5]
    simp only [Res.bind_ok, hp5.view, hlen]
  · have h24 := r3.only.trans r4.only
    have hqm : ∀ a, InRange q (storage (total args)) a → s2.mem a ≠ none := by
      intro a h e
      simp only [InRange] at h
      have h4 := hq2.mapped (a - q).toNat (by simp only; omega)
      rw [show q + ((a - q).toNat : Int) = a by omega, e] at h4
      cases h4
    have hql : s2.live q ≠ none := by rw [hq2.heap hd]; exact fun h => by cases h
    refine ⟨?_, ?_, ?_, ?_, ?_, ?_, ?_⟩
    · intro a h1 h2
      by_cases hx : InRange q (storage (total args)) a
      · rw [of5.gone a hx, c2.only.fresh a hx]
      · rw [of5.outside a hx, h24.outside a h1 h2, c2.only.outside a hx]
    · intro a h1 h2
      have h3 := h24.fresh a h1 h2
      have hx : ¬ InRange q (storage (total args)) a := fun h => hqm a h h3
      rw [← c2.only.outside a hx]; exact h3
    · intro a h1 h2
      by_cases hx : InRange q (storage (total args)) a
      · exact of5.gone a hx
      · rw [of5.outside a hx]; exact h24.left a h1 h2
    · intro x h1 h2
      by_cases hx : x = q
      · rw [hx, of5.liveGone, c2.only.liveNew]
      · rw [of5.live x hx, h24.live x h1 h2, c2.only.live x hx]
    · intro hne
      have h3 := h24.liveNew hne
      have hx : p' ≠ q := fun e => hql (e ▸ h3)
      rw [← c2.only.live p' hx]; exact h3
    · intro hne
      by_cases hx : p = q
      · rw [hx]; exact of5.liveGone
      · rw [of5.live p hx]; exact h24.liveOld hne
    · rw [of5.picks, h24.picks, c2.only.picks]
  · have hl3 : St.log { s2 with mem := m3 } = ⟨b.al, 0, storage (total args), q⟩ :: s.log := c2.log
    rw [log5]
    by_cases hc : b.capFor cfg (total args) = b.cap
    · rw [if_pos hc, (r4.same hc).2.2.1, hl3, List.nil_append]
    · rw [if_neg hc, r4.log hc, hl3]; rfl
  · have mom1 := ((create_buf_first (s := s) _ _).out _ e1).one c1.log
    have g2 := ((vcat_insert_keeps (Grown.kept s1) (cfg := cfg) (args.map (·.1)) (Grown.refl s1) q).out _ e2).quiet (r2.same rfl).2.2.1
    have mom2 : s2.moments = ⟨s.mem, s.live, storage (total args)⟩ :: s.moments := g2.trans mom1
    have f4 := (insert_first (cfg := cfg) (s := { s2 with mem := m3 }) p 0 ⟨q + 24, total args⟩).out _ e4
    have f5 := ((destroy_buf_first (s := s4) q).out _ e5).one log5
    have f5' : s5.moments = ⟨s4.mem, s4.live, 0⟩ :: s4.moments := f5
    refine ⟨⟨m3, s2.live, storage (b.capFor cfg (total args))⟩, ⟨s4.mem, s4.live, 0⟩, ?_, rfl, ?_, ?_, ?_⟩
    · rw [f5']
      by_cases hc : b.capFor cfg (total args) = b.cap
      · rw [if_pos hc, f4.none (r4.same hc).2.2.1, List.nil_append]
        exact congrArg _ mom2
      · rw [if_neg hc, f4.one (r4.log hc)]
        exact congrArg _ (congrArg _ mom2)
    · exact r3.buf.frame (fun _ _ => rfl) (fun _ => rfl)
    · intro a h1 h2
      show m3 a = s.mem a
      have e : m3 a = s2.mem a := r3.only.outside a h1 h1
      rw [e]
      apply c2.only.outside
      intro h
      rw [c2.only.fresh a h] at h2; cases h2
    · intro x blk hx
      show s2.live x = some blk
      rw [c2.only.live x, hx]
      rintro rfl
      rw [c2.only.liveNew] at hx; cases hx

/-- Without aliasing, or with a fixed buffer: at most one call, with everything as it was at entry. -/
theorem cat_first {cfg : Cfg} (hcfg : cfg.Ok) {s : St} (hs : s.Sane) {p : Addr} {b : Buf} (hb : BufAt s p b) {args : List Arg}
    (ha : ∀ a ∈ args, Source s p b a.1 a.2) (hno : (∀ a ∈ args, ¬ a.1.Into p b) ∨ ¬ b.Dynamic) (hh : cfg.Handles b (total args)) :
    Res.Sat (fun r => First s r.2.2) (strbuf_cat cfg s (some p) (args.map (·.1))) := by
  have hden : ∀ a ∈ args, Denotes s.mem a.1 a.2 := fun a h => (ha a h).toDenotes
  have hfix : ∀ {d : List Byte} {cap : Nat}, ¬ b.Dynamic → cap = b.cap → Yields s p b (strbuf_cat cfg s (some p) (args.map (·.1))) d cap →
      Res.Sat (fun r => First s r.2.2) (strbuf_cat cfg s (some p) (args.map (·.1))) := by
    intro d cap hd hc hy
    refine ⟨fun r e => ?_⟩
    rcases hy with ⟨_, he⟩ | ⟨p', s', he, hr⟩
    · rw [he] at e; cases e
    · have e' := e
      rw [he] at e'; cases e'
      exact .inl ⟨(hr.same hc).2.2.1, ((cat_keeps (Grown.kept s) (Grown.refl s) _ _).out _ e).quiet (hr.same hc).2.2.1⟩
  by_cases hd : b.Dynamic
  · have hno' : ∀ a ∈ args, ¬ a.1.Into p b := by
      rcases hno with h | h
      · exact h
      · exact absurd hd h
    by_cases hov : (total args : Int) ≤ INT_MAX
    · have hscan := scan_ok cfg hb args hden 0 false (by rw [Nat.zero_add]; exact hov)
      have hany : args.any (fun a => decide (a.1.Into p b)) = false := by
        rw [List.any_eq_false]
        intro a h; simpa using hno' a h
      rw [hany, Nat.zero_add, Bool.or_false] at hscan
      have hext : ∀ a ∈ args, Ext s p (storage b.cap) a := by
        intro a h
        refine ⟨hden a h, ?_⟩
        rcases (ha a h).place with h1 | h1 | h1 | h1
        · exact .inl h1
        · exact .inr (.inl h1)
        · exact .inr (.inr h1)
        · left
          have := hno' a h
          simp only [View.Into] at this
          apply List.length_eq_zero_iff.1; omega
      simp only [strbuf_cat, deref_some hb.pos, buffer_vcat]
      have h0 : ((0 : Nat) : Int) = 0 := rfl
      rw [h0] at hscan
      rw [hscan]
      simp only [Res.bind_ok, Bool.not_false, if_true, vcat_prepare, hb.is_dynamic, Bool.false_eq_true, false_and, if_false]
      rcases ensure_cap hcfg hs hb hov hh with ⟨hne, he⟩ | ⟨p', s1, he, hz⟩
      · rw [he]; exact Res.Sat.env
      · have f1 := (ensure_capacity_first (cfg := cfg) (s := s) p (total args)).out _ he
        obtain ⟨m2, e2, r2⟩ := hz.emptied
        rw [he, Res.bind_ok]
        simp only
        rw [e2]
        simp only [Res.bind_ok, vcat_build, r2.buf.is_dynamic, r2.buf.getCap, Bool.not_false, or_true, if_true]
        by_cases hf : b.Fits (total args)
        · have hle := (capFor_fits hcfg hov).2 hf
          rw [if_pos (by omega)]
          obtain ⟨s3, e3, r3⟩ := vcat_insert_ok hcfg args r2.sane r2.buf (fun a h => (hext a h).keep r2.only
            (by simp only [storage]; omega) r2.buf.top) (by simpa using hle)
          have hl := (r3.same rfl).2.2.1
          have g3 := ((vcat_insert_keeps (Grown.kept { s1 with mem := m2 }) (cfg := cfg) (args.map (·.1)) (Grown.refl _) p').out _ e3).quiet hl
          rw [e3]
          simp only [Res.bind_ok, vcat_finish, r3.buf.is_dynamic, Bool.false_eq_true, false_and, if_false, r3.buf.view]
          refine Res.Sat.ok ?_
          rcases f1 with ⟨a1, a2⟩ | ⟨c, a1, a2⟩
          · exact .inl ⟨hl.trans a1, g3.trans a2⟩
          · exact .inr ⟨c, hl.trans a1, g3.trans a2⟩
        · have hle := mt (capFor_fits hcfg hov).1 hf
          rw [if_neg (by omega)]
          simp only [Res.bind_ok, vcat_finish, r2.buf.is_dynamic, Bool.false_eq_true, false_and, if_false, r2.buf.view]
          exact Res.Sat.ok f1
    · have hy := cat_over hcfg hs hb hden hh hov []
      have ec : b.capFor cfg (total args) = b.cap := by
        rw [Buf.capFor, if_neg (fun h => hov h.2)]
      refine ⟨fun r e => ?_⟩
      rcases hy with ⟨_, he⟩ | ⟨p', s', he, hr⟩
      · rw [he] at e; cases e
      · have e' := e
        rw [he] at e'; cases e'
        exact .inl ⟨(hr.same ec).2.2.1, ((cat_keeps (Grown.kept s) (Grown.refl s) _ _).out _ e).quiet (hr.same ec).2.2.1⟩
  · have ec : b.capFor cfg (total args) = b.cap := by
      rw [Buf.capFor, if_neg (fun h => hd h.1)]
    by_cases hal : ∃ a ∈ args, a.1.Into p b
    · exact hfix hd rfl (cat_alias_fixed hcfg hs hb ha hal hd hh)
    · exact hfix hd ec (cat_plain hcfg hs hb ha (fun a h1 h2 => hal ⟨a, h1, h2⟩) hh)

end CStr
