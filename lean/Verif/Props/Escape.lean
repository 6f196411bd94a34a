import Verif.Lemmas.EscapeOps
import Verif.Props.BufHist
import Verif.Props.BufText
/-! Property C84: what an operation leaves behind when the allocator does not come back. The specification is in Spec/Escape.lean. -/
namespace CStr

theorem First.request {s s' : St} {m : Moment} (h : First s s') (hr : RequestIn s s' m) : m.mem = s.mem ∧ m.live = s.live := by
  obtain ⟨ms, h1, h2, _⟩ := hr
  rcases h with h | ⟨c, _, h⟩
  · rw [h.2] at h1
    have : ms = [] := by
      have := congrArg List.length h1
      simp only [List.length_append] at this
      exact List.length_eq_zero_iff.1 (by omega)
    rw [this] at h2; cases h2
  · rw [h] at h1
    have : ms = [⟨s.mem, s.live, c.size⟩] := (List.append_cancel_right (as := [_]) h1).symm
    rw [this] at h2
    obtain rfl := List.mem_singleton.1 h2
    exact ⟨rfl, rfl⟩

theorem LeftWith.of_eq {s : St} {p : Addr} {b : Buf} (hb : BufAt s p b) {m : Moment} (h : m.mem = s.mem ∧ m.live = s.live) :
    LeftWith s p (storage b.cap) m b := by
  obtain ⟨mm, ml, n⟩ := m
  obtain ⟨h1, h2⟩ := h
  simp only at h1 h2
  subst h1 h2
  exact .entry hb n

/-- C84. Every operation except formatted output and concatenation of a dynamic buffer with itself asks for memory before it has changed a byte: if the
allocator leaves, the program finds memory and heap exactly as before the call. -/
theorem C84_unchanged {cfg : Cfg} (hcfg : cfg.Ok) {s : St} (hs : s.Sane) {p : Addr} {b : Buf} (hb : BufAt s p b)
    {op : BufOp} {e : Edit} (hm : Means s p b op e) (hok : e.Ok cfg b) (ha : e.AsksFirst b) {v : View} {bp : Option Addr} {s' : St}
    (he : op.run cfg s (some p) = .ok (v, bp, s')) {m : Moment} (hr : RequestIn s s' m) : m.mem = s.mem ∧ m.live = s.live :=
  ((run_asks_first hcfg hs hb hm hok ha).out _ he).request hr

/-- C84. The same for creation. -/
theorem C84_unchanged_create {cfg : Cfg} (hcfg : cfg.Ok) {dflt : Alloc} {o : Option Alloc} {s : St} :
    (∀ (n : Nat) (p : Addr) (s' : St), strbuf_create_empty dflt s n o = .ok (p, s') → ∀ m, RequestIn s s' m → m.mem = s.mem ∧ m.live = s.live) ∧
    (s.Sane → (allocFor dflt o).Ok → ∀ (v : View) (S : List Byte), Denotes s.mem v S → ∀ (p : Addr) (s' : St), strbuf_create_init cfg dflt s v o = .ok (p, s') →
      ∀ m, RequestIn s s' m → m.mem = s.mem ∧ m.live = s.live) :=
  ⟨fun n _ _ h _ hr => ((create_empty_first dflt n o).out _ h).request hr,
   fun hs hal _ _ hv _ _ h _ hr => ((create_init_first hcfg hs hal hv).out _ h).request hr⟩

/-- C84. Whatever operation is left at whatever request, except those of the bundled formatter: the caller's pointer still points to a well-formed buffer of
the same capacity, with the content it had or, for formatted output and concatenation with itself, possibly none; everything else is as it was, and no block is lost. -/
theorem C84_request_partial {cfg : Cfg} (hcfg : cfg.Ok) {s : St} (hs : s.Sane) {p : Addr} {b : Buf} (hb : BufAt s p b)
    {op : BufOp} {e : Edit} (hm : Means s p b op e) (hok : e.Ok cfg b) (hp : ¬ e.Piecewise) {v : View} {bp : Option Addr} {s' : St}
    (he : op.run cfg s (some p) = .ok (v, bp, s')) {m : Moment} (hr : RequestIn s s' m) :
    ∃ d, e.Left b d ∧ LeftWith s p (storage b.cap) m ⟨d, b.cap, b.al⟩ := by
  by_cases ha : e.AsksFirst b
  · have h := LeftWith.of_eq hb (C84_unchanged hcfg hs hb hm hok ha he hr)
    refine ⟨b.data, ?_, h⟩
    cases e with
    | printf => exact ha.elim
    | prnf => exact ha.elim
    | appendPrnf => exact ha.elim
    | cat _ self =>
      cases self with
      | true => exact .inl rfl
      | false => exact rfl
    | _ => exact rfl
  · cases hm with
    | printf hf =>
      rename_i fmt l
      obtain ⟨s0, r0, h0, hs0⟩ := printf_first (cfg := cfg) hs hb fmt
      have hr0 : RequestIn s0 s' m := by
        obtain ⟨ms, h1, h2⟩ := hr
        exact ⟨ms, by rw [h1, h0], h2⟩
      have h := LeftWith.of_eq r0.buf ((hs0.out _ he).request hr0)
      exact ⟨[], rfl, LeftWith.after r0 h⟩
    | cat hargs =>
      rename_i args
      have hd : b.Dynamic := Classical.byContradiction fun h => ha (fun h' => absurd h' h)
      have hal : ∃ a ∈ args, a.1.Into p b := Classical.byContradiction fun h => ha (fun _ => decide_eq_false h)
      have hh : cfg.Handles b (total args) := by have := hok.1; simpa only [Edit.wanted, total] using this
      have hdec : decide (∃ a ∈ args, a.1.Into p b) = true := decide_eq_true hal
      rw [hdec]
      by_cases hov : (total args : Int) ≤ INT_MAX
      · rcases cat_alias hcfg hs hb hargs hal hd hh hov with e1 | ⟨p1, s1, q, e1, _, _, _, m2, m3, hms, hz, hl⟩
        · have he' : strbuf_cat cfg s (some p) (args.map (·.1)) = .ok (v, bp, s') := he
          rw [e1] at he'; cases he'
        · have he' : strbuf_cat cfg s (some p) (args.map (·.1)) = .ok (v, bp, s') := he
          rw [e1] at he'; cases he'
          obtain ⟨ms, h1, h2, h3⟩ := hr
          rw [hms] at h1
          have h4 : ms = m3 :: ((if b.capFor cfg (total args) = b.cap then [] else [m2]) ++ [⟨s.mem, s.live, storage (total args)⟩]) := by
            apply (List.append_cancel_right (bs := s.moments) _).symm
            rw [← h1]; simp
          rw [h4] at h2
          rcases List.mem_cons.1 h2 with rfl | h2
          · exact absurd hz h3
          rcases List.mem_append.1 h2 with h2 | h2
          · split at h2
            · cases h2
            · obtain rfl := List.mem_singleton.1 h2
              exact ⟨[], .inr rfl, hl⟩
          · obtain rfl := List.mem_singleton.1 h2
            exact ⟨b.data, .inl rfl, .entry hb _⟩
      · exfalso
        have hg := (run_keeps (Grown.kept s) (cfg := cfg) (Grown.refl s) (some p) (.cat (args.map (·.1)))).out _ he
        have he' : strbuf_cat cfg s (some p) (args.map (·.1)) = .ok (v, bp, s') := he
        rcases cat_over hcfg hs hb (fun a h => (hargs a h).toDenotes) hh hov [] with ⟨_, e1⟩ | ⟨p1, s1, e1, r1⟩
        · rw [e1] at he'; cases he'
        · rw [e1] at he'; cases he'
          have hc : b.capFor cfg (total args) = b.cap := by
            rw [Buf.capFor, if_neg (fun h => hov h.2)]
          have hq := hg.quiet (r1.same hc).2.2.1
          obtain ⟨ms, h1, h2, _⟩ := hr
          rw [hq] at h1
          have : ms = [] := by
            have := congrArg List.length h1
            simp only [List.length_append] at this
            exact List.length_eq_zero_iff.1 (by omega)
          rw [this] at h2; cases h2
    | prnf => exact absurd trivial hp
    | appendPrnf => exact absurd trivial hp
    | _ => exact absurd trivial ha

/-- C84. The bundled formatter grows the buffer as the characters come. Left at any request, there is a well-formed buffer with some prefix of the text, and nothing else
has changed; left at the first, that buffer is where it was. If the buffer has moved, the caller's pointer is to no block of the heap any more (`C84_prnf_stale_pointer`). -/
theorem C84_request_prnf {cfg : Cfg} (hcfg : cfg.Ok) {s : St} (hs : s.Sane) {p : Addr} {b : Buf} (hb : BufAt s p b) (hd : b.Dynamic)
    {op : BufOp} {e : Edit} (hm : Means s p b op e) (hok : e.Ok cfg b) (hp : e.Piecewise) {v : View} {bp : Option Addr} {s' : St}
    (he : op.run cfg s (some p) = .ok (v, bp, s')) :
    (∀ m, RequestIn s s' m → ∃ d q cap, e.Left b d ∧ BufAt (s.left m) q ⟨d, cap, b.al⟩ ∧
      (∀ a, ¬ InRange p (storage b.cap) a → (s.mem a).isSome → m.mem a = s.mem a) ∧
      (q ≠ p → m.live p = none) ∧ ∀ a, a ≠ p → a ≠ q → m.live a = s.live a) ∧
    ∀ m ms, s'.moments = ms ++ m :: s.moments → ∃ d, e.Left b d ∧ LeftWith s p (storage b.cap) m ⟨d, b.cap, b.al⟩ := by
  have mem : ∀ {ms ms' : List Moment}, s'.moments = ms ++ s.moments → s'.moments = ms' ++ s.moments → ms = ms' := by
    intro ms ms' h h'
    rw [h] at h'; exact List.append_cancel_right h'
  cases hm with
  | prnf =>
    rename_i t
    obtain ⟨s0, ms, r0, h1, h2⟩ := prnf_left hcfg hs hb (t := t) hok.1 (hok.2.2 hd) he
    refine ⟨?_, ?_⟩
    · rintro m ⟨ms', g1, g2, _⟩
      rw [mem g1 h1] at g2
      obtain ⟨k, q, cap, a1, a2, a3⟩ := h2.all m g2
      refine ⟨_, q, cap, ⟨k, rfl⟩, a1.frame (fun _ _ => rfl) (fun _ => rfl), ?_, a3.stale, ?_⟩
      · intro a b1 b2
        have e : s0.mem a = s.mem a := r0.only.outside a b1 b1
        rw [a2 a b1 (by rw [e]; exact b2), e]
      · intro a b1 b2
        rw [a3.others a b1 b2, r0.only.live a b1 b1]
    · intro m ms' g
      obtain ⟨k, a1⟩ := h2.first m ms' (mem h1 (by rw [g]; simp))
      exact ⟨_, ⟨k, rfl⟩, LeftWith.after r0 a1⟩
  | appendPrnf =>
    rename_i t
    have e0 : (b.data ++ t).length = b.data.length + t.length := List.length_append
    obtain ⟨ms, h1, h2⟩ := append_prnf_left hcfg hs hb (t := t) (e0 ▸ hok.1) (hok.2.2 hd) he
    refine ⟨?_, ?_⟩
    · rintro m ⟨ms', g1, g2, _⟩
      rw [mem g1 h1] at g2
      obtain ⟨k, q, cap, a1, a2, a3⟩ := h2.all m g2
      exact ⟨_, q, cap, ⟨k, rfl⟩, a1, a2, a3.stale, a3.others⟩
    · intro m ms' g
      obtain ⟨k, a1⟩ := h2.first m ms' (mem h1 (by rw [g]; simp))
      exact ⟨_, ⟨k, rfl⟩, a1⟩
  | _ => exact hp.elim

/-! Concrete calls that ask for memory, to show that the hypotheses can be met. -/

/-- Whether the call ends normally and has asked for memory. -/
def asks (r : BufRes) : Bool :=
  match r with
  | .ok (_, _, s') => s'.moments.any fun m => decide (m.size ≠ 0)
  | _ => false

theorem asks_request {s : St} (h0 : s.moments = []) {r : BufRes} (h : asks r = true) : ∃ v bp s' m, r = .ok (v, bp, s') ∧ RequestIn s s' m := by
  cases r with
  | ok w =>
    obtain ⟨v, bp, s'⟩ := w
    obtain ⟨m, h1, h2⟩ := List.any_eq_true.1 h
    exact ⟨v, bp, s', m, rfl, s'.moments, by rw [h0]; simp, h1, of_decide_eq_true h2⟩
  | _ => cases h

-- appending 5 bytes to `hello`, capacity 8: the request finds everything as it was
example : ∃ v bp s' m, BufOp.run exCfg (exSt exB [1, 2, 3, 4, 5]) (some exP) (.append ⟨exQ, 5⟩) = .ok (v, bp, s') ∧
    RequestIn (exSt exB [1, 2, 3, 4, 5]) s' m ∧ m.mem = (exSt exB [1, 2, 3, 4, 5]).mem ∧ m.live = (exSt exB [1, 2, 3, 4, 5]).live := by
  obtain ⟨v, bp, s', m, h, hr⟩ := asks_request (s := exSt exB [1, 2, 3, 4, 5]) rfl
    (show asks (BufOp.run exCfg (exSt exB [1, 2, 3, 4, 5]) (some exP) (.append ⟨exQ, 5⟩)) = true by decide +kernel)
  exact ⟨v, bp, s', m, h, hr, C84_unchanged exCfg_ok (exSt_sane exB_valid _) (exSt_buf exB_valid _)
    (.append (exSt_source exB_valid (by decide))) ⟨.inl rfl, (by decide : INT_MIN ≤ 5 ∧ 5 ≤ INT_MAX)⟩ trivial h hr⟩

-- creation
example : ∃ p s' m, strbuf_create_empty ⟨0, 1⟩ demoSt 10 none = .ok (p, s') ∧ RequestIn demoSt s' m ∧ m.mem = demoSt.mem ∧ m.live = demoSt.live := by
  have h : (match strbuf_create_empty ⟨0, 1⟩ demoSt 10 none with
    | .ok (_, s') => s'.moments.any fun m => decide (m.size ≠ 0)
    | _ => false) = true := by decide +kernel
  cases e : strbuf_create_empty ⟨0, 1⟩ demoSt 10 none with
  | ok w =>
    obtain ⟨p, s'⟩ := w
    rw [e] at h
    obtain ⟨m, h1, h2⟩ := List.any_eq_true.1 h
    have hr : RequestIn demoSt s' m := ⟨s'.moments, (List.append_nil _).symm, h1, of_decide_eq_true h2⟩
    exact ⟨p, s', m, rfl, hr, (C84_unchanged_create exCfg_ok).1 10 p s' e m hr⟩
  | ub w => rw [e] at h; cases h
  | fuel => rw [e] at h; cases h
  | env w => rw [e] at h; cases h

-- formatted output of 20 bytes: the request finds an empty buffer
example : ∃ v bp s' m, BufOp.run exCfg (exSt exB []) (some exP) (.printf (constFmt (List.replicate 20 97))) = .ok (v, bp, s') ∧
    RequestIn (exSt exB []) s' m ∧ LeftWith (exSt exB []) exP (storage 8) m ⟨[], 8, exB.al⟩ := by
  obtain ⟨v, bp, s', m, h, hr⟩ := asks_request (s := exSt exB []) rfl
    (show asks (BufOp.run exCfg (exSt exB []) (some exP) (.printf (constFmt (List.replicate 20 97)))) = true by decide +kernel)
  obtain ⟨d, rfl, hl⟩ := C84_request_partial exCfg_ok (exSt_sane exB_valid _) (exSt_buf exB_valid _) (.printf (l := List.replicate 20 97) (fun _ _ => rfl))
    ⟨.inl rfl, by decide, .inl rfl⟩ (fun h => h) h hr
  exact ⟨v, bp, s', m, h, hr, hl⟩

-- `hello` concatenated with itself three times
example : ∃ v bp s' m, BufOp.run exCfg (exSt exB []) (some exP) (.cat [⟨exP + 24, 5⟩, ⟨exP + 24, 5⟩, ⟨exP + 24, 5⟩]) = .ok (v, bp, s') ∧
    RequestIn (exSt exB []) s' m ∧ ∃ d, (d = exB.data ∨ d = []) ∧ LeftWith (exSt exB []) exP (storage 8) m ⟨d, 8, exB.al⟩ := by
  obtain ⟨v, bp, s', m, h, hr⟩ := asks_request (s := exSt exB []) rfl
    (show asks (BufOp.run exCfg (exSt exB []) (some exP) (.cat [⟨exP + 24, 5⟩, ⟨exP + 24, 5⟩, ⟨exP + 24, 5⟩])) = true by decide +kernel)
  have hsrc : Source (exSt exB []) exP exB ⟨exP + 24, 5⟩ exB.data := by
    have := (exSt_buf exB_valid []).partSource 0 5 (by decide)
    simp only [Int.natCast_zero, Int.add_zero] at this
    exact this
  have hm : Means (exSt exB []) exP exB (.cat [⟨exP + 24, 5⟩, ⟨exP + 24, 5⟩, ⟨exP + 24, 5⟩]) (.cat [exB.data, exB.data, exB.data] true) :=
    Means.cat (args := [(⟨exP + 24, 5⟩, exB.data), (⟨exP + 24, 5⟩, exB.data), (⟨exP + 24, 5⟩, exB.data)]) (by simp [hsrc])
  obtain ⟨d, hd, hl⟩ := C84_request_partial exCfg_ok (exSt_sane exB_valid _) (exSt_buf exB_valid _) hm ⟨.inl rfl, trivial⟩ (fun h => h) h hr
  exact ⟨v, bp, s', m, h, hr, d, hd, hl⟩

-- the bundled formatter appending 20 bytes
example : ∃ v bp s' m, BufOp.run exCfg (exSt exB []) (some exP) (.appendPrnf (List.replicate 20 97)) = .ok (v, bp, s') ∧
    RequestIn (exSt exB []) s' m ∧ ∃ k q cap, BufAt ((exSt exB []).left m) q ⟨exB.data ++ (List.replicate 20 97).take k, cap, exB.al⟩ := by
  obtain ⟨v, bp, s', m, h, hr⟩ := asks_request (s := exSt exB []) rfl
    (show asks (BufOp.run exCfg (exSt exB []) (some exP) (.appendPrnf (List.replicate 20 97))) = true by decide +kernel)
  obtain ⟨d, q, cap, ⟨k, rfl⟩, hb, _⟩ := (C84_request_prnf exCfg_ok (exSt_sane exB_valid _) (exSt_buf exB_valid _) (by decide) .appendPrnf
    ⟨.inl rfl, by decide, fun _ => by decide⟩ trivial h).1 m hr
  exact ⟨v, bp, s', m, h, hr, k, q, cap, hb⟩

variable {K : Nat → List Byte} {ka : Nat → Addr}

/-- C84. A program of such commands, left at any request whatever: the variables of the program stand for what they stood for before the command that was left
(`Cmd.stopped`: formatted output has emptied its buffer), and the heap holds their blocks and no others. -/
theorem C84_program_partial {cfg : Cfg} (hcfg : cfg.Ok) {dflt : Alloc} : ∀ (cs : List Cmd) {σ : AState} {ρ : Vars} {s : St} (_ : Rep K ka σ ρ s)
    (_ : LegalRun cfg dflt K cs σ) (_ : LeavableRun cfg dflt K cs σ) {ρ' : Vars} {s' : St}
    (_ : runExec cfg dflt K ka cs ρ s = .ok (ρ', s')) {m : Moment} (_ : RequestIn s s' m),
    ∃ cs1 c cs2 ρ1 s1, cs = cs1 ++ c :: cs2 ∧ runExec cfg dflt K ka cs1 ρ s = .ok (ρ1, s1) ∧
      Rep K ka (c.stopped (runAbs cfg dflt K cs1 σ)) ρ1 (s'.left m) := by
  intro cs
  induction cs with
  | nil =>
    intro σ ρ s r hl hv ρ' s' he m hr
    cases he
    obtain ⟨ms, h1, h2, _⟩ := hr
    have : ms = [] := by
      have := congrArg List.length h1
      simp only [List.length_append] at this
      exact List.length_eq_zero_iff.1 (by omega)
    rw [this] at h2; cases h2
  | cons c cs ih =>
    intro σ ρ s r hl hv ρ' s' he m hr
    obtain ⟨⟨ρ1, s1⟩, e1, e2⟩ : ∃ w, c.exec cfg dflt K ka ρ s = .ok w ∧ runExec cfg dflt K ka cs w.1 w.2 = .ok (ρ', s') := by
      simp only [runExec] at he
      cases hx : c.exec cfg dflt K ka ρ s with
      | ok w => rw [hx] at he; exact ⟨w, rfl, he⟩
      | _ => rw [hx] at he; cases he
    have r1 : Rep K ka (c.step cfg dflt K σ) ρ1 s1 := by
      rcases exec_ok hcfg r hl.1 with h | ⟨_, _, h, r1⟩
      · rw [e1] at h; cases h
      · rw [e1] at h; cases h; exact r1
    have r' : Rep K ka (runAbs cfg dflt K cs (c.step cfg dflt K σ)) ρ' s' := by
      rcases run_ok hcfg cs r1 hl.2 with h | ⟨_, _, h, r'⟩
      · have h' : runExec cfg dflt K ka cs ρ1 s1 = .ok (ρ', s') := e2
        rw [h'] at h; cases h
      · have h' : runExec cfg dflt K ka cs ρ1 s1 = .ok (ρ', s') := e2
        rw [h'] at h; cases h; exact r'
    obtain ⟨ms1, g1, g2⟩ := exec_left hcfg r hl.1 hv.1 e1
    obtain ⟨_, ms2, _, g3, _⟩ := (runExec_keeps (Grown.kept s1) cs (Grown.refl s1)).out _ e2
    obtain ⟨ms, h1, h2, h3⟩ := hr
    have h4 : ms = ms2 ++ ms1 := by
      apply List.append_cancel_right (bs := s.moments)
      rw [← h1, g3, g1, List.append_assoc]
    rw [h4] at h2
    rcases List.mem_append.1 h2 with h2 | h2
    · obtain ⟨cs1, c', cs2, ρ2, s2, f1, f2, f3⟩ := ih r1 hl.2 hv.2 e2 ⟨ms2, g3, h2, h3⟩
      refine ⟨c :: cs1, c', cs2, ρ2, s2, by rw [f1]; rfl, ?_, f3⟩
      simp only [runExec, e1, Res.bind_ok]
      exact f2
    · exact ⟨[], c, cs, ρ, s, rfl, rfl, (g2 m h2).same rfl rfl r'.sane.noFail⟩

/-- C84. So the program can go on: after it was left, any program that is legal on what the variables stand for does what it means. -/
theorem C84_goes_on_partial {cfg : Cfg} (hcfg : cfg.Ok) {dflt : Alloc} (cs : List Cmd) {s : St} (hs : Start K ka s)
    (hl : LegalRun cfg dflt K cs (fun _ => none)) (hv : LeavableRun cfg dflt K cs (fun _ => none)) {ρ' : Vars} {s' : St}
    (he : runExec cfg dflt K ka cs (fun _ => 0) s = .ok (ρ', s')) {m : Moment} (hr : RequestIn s s' m) :
    ∃ cs1 c cs2 ρ1 s1, cs = cs1 ++ c :: cs2 ∧ runExec cfg dflt K ka cs1 (fun _ => 0) s = .ok (ρ1, s1) ∧
      ∀ ds, LegalRun cfg dflt K ds (c.stopped (runAbs cfg dflt K cs1 (fun _ => none))) →
        runExec cfg dflt K ka ds ρ1 (s'.left m) = .env .alloc ∨
        ∃ ρ2 s2, runExec cfg dflt K ka ds ρ1 (s'.left m) = .ok (ρ2, s2) ∧
          (∀ h b, runAbs cfg dflt K ds (c.stopped (runAbs cfg dflt K cs1 (fun _ => none))) h = some (.buf b) →
            ∃ v, strbuf_view s2.mem (some (ρ2 h)) = .ok v ∧ ViewOf s2.mem v b.data) ∧
          ∀ q blk, s2.live q = some blk → ∃ h o, runAbs cfg dflt K ds (c.stopped (runAbs cfg dflt K cs1 (fun _ => none))) h = some o ∧ ρ2 h = q := by
  obtain ⟨cs1, c, cs2, ρ1, s1, h1, h2, r⟩ := C84_program_partial hcfg cs hs.rep hl hv he hr
  refine ⟨cs1, c, cs2, ρ1, s1, h1, h2, fun ds hd => ?_⟩
  rcases run_ok hcfg ds r hd with e | ⟨ρ2, s2, e, r2⟩
  · exact .inl e
  · refine .inr ⟨ρ2, s2, e, ?_, ?_⟩
    · intro h b hb
      have hba : BufAt s2 (ρ2 h) b := r2.obj h _ hb
      exact ⟨_, by rw [strbuf_view, deref_some hba.pos]; exact hba.view, hba.viewOf⟩
    · intro q blk hq
      obtain ⟨h, o, a1, a2, _⟩ := r2.owned q blk hq
      exact ⟨h, o, a1, a2⟩

/-- "ab", appended to itself, then replaced by 20 bytes of formatted text. -/
def leaveDemo : List Cmd := [
  .createInit 0 (.const 0) none,
  .op 0 (.append (.sub 0 0 2)),
  .op 0 (.printf [.text (List.replicate 20 97)])]

theorem leaveDemo_legal : LegalRun exCfg ⟨0, 1⟩ demoK leaveDemo (fun _ => none) := by
  have hb : ∀ {b : Buf}, ∀ o, some (Obj.buf b) = some o → ∃ b, o = .buf b := fun o h => ⟨_, (Option.some.inj h).symm⟩
  refine ⟨⟨rfl, ⟨by decide, by decide, by decide⟩, trivial⟩, ⟨hb, ⟨hb, by decide⟩, ?_⟩, ⟨hb, ?_, ?_⟩, trivial⟩
  · intro b e; cases e; exact ⟨.inl rfl, (by decide : INT_MIN ≤ 2 ∧ 2 ≤ INT_MAX)⟩
  · intro x hx
    obtain rfl := List.mem_singleton.1 hx
    trivial
  · intro b e; cases e; exact ⟨.inl rfl, (by decide : ((20 : Nat) : Int) ≤ INT_MAX), .inl rfl⟩

-- the program asks three times; whichever request it is left at, the variables stand for what they stood for before that command
example : ∃ ρ' s', runExec exCfg ⟨0, 1⟩ demoK demoKa leaveDemo (fun _ => 0) demoSt = .ok (ρ', s') ∧ s'.moments.length = 3 ∧
    ∀ m, RequestIn demoSt s' m → ∃ cs1 c cs2 ρ1 s1, leaveDemo = cs1 ++ c :: cs2 ∧
      runExec exCfg ⟨0, 1⟩ demoK demoKa cs1 (fun _ => 0) demoSt = .ok (ρ1, s1) ∧
      Rep demoK demoKa (c.stopped (runAbs exCfg ⟨0, 1⟩ demoK cs1 (fun _ => none))) ρ1 (s'.left m) := by
  have h : (match runExec exCfg ⟨0, 1⟩ demoK demoKa leaveDemo (fun _ => 0) demoSt with
    | .ok (_, s') => decide (s'.moments.length = 3)
    | _ => false) = true := by decide +kernel
  cases e : runExec exCfg ⟨0, 1⟩ demoK demoKa leaveDemo (fun _ => 0) demoSt with
  | ok w =>
    obtain ⟨ρ', s'⟩ := w
    rw [e] at h
    exact ⟨ρ', s', rfl, of_decide_eq_true h, fun m hr => C84_program_partial exCfg_ok leaveDemo demoStart.rep leaveDemo_legal ⟨trivial, trivial, trivial, trivial⟩ e hr⟩
  | ub w => rw [e] at h; cases h
  | fuel => rw [e] at h; cases h
  | env w => rw [e] at h; cases h

theorem to_cstr_moment {cfg : Cfg} {s : St} {p : Addr} {b : Buf} (hb : BufAt s p b) (hd : b.Dynamic)
    (hh : (b.data.length : Int) < INT_MAX) {q : Addr} {bp : Option Addr} {s' : St} (he : strbuf_to_cstr cfg s (some p) = .ok (q, bp, s')) :
    ∃ n, s'.moments = ⟨put s.mem p b.data, s.live, n⟩ :: s.moments ∨ s'.moments = s.moments := by
  obtain ⟨J, hJ, hr⟩ := hb.raw
  have hlen := hb.len
  have hsrc := (Holds.append_iff.1 hr.body).1
  have hwp : Writable s.mem p b.data.length := hr.writable.mono (by simp only [List.length_append]; omega)
  have hmv := memmove_eq hsrc hwp
  have hadd : addInt cfg b.data.length 1 = .ok ((b.data.length + 1 : Nat) : Int) := addInt_nat cfg (by omega) (by omega)
  rw [strbuf_to_cstr, deref_some hb.pos] at he
  simp only at he
  rw [hb.getSize, Res.bind_ok, hb.is_dynamic, Res.bind_ok, decide_eq_true (show b.al.fn ≠ 0 from hd), if_pos rfl,
    hb.getAlloc, Res.bind_ok, sizeT_nat, hmv, Res.bind_ok, hadd, Res.bind_ok, sizeT_nat] at he
  cases e1 : allocCall { s with mem := put s.mem p b.data } b.al p (b.data.length + 1) with
  | ok w =>
    rw [e1, Res.bind_ok] at he
    cases e2 : store w.2.mem (w.1 + b.data.length) 0 with
    | ok m =>
      rw [e2, Res.bind_ok] at he
      cases he
      rcases (allocCall_first _ _ _ _).out _ e1 with h | ⟨c, _, h⟩
      · exact ⟨0, .inr h.2⟩
      · exact ⟨c.size, .inl h⟩
    | _ => rw [e2] at he; cases he
  | _ => rw [e1] at he; cases he

/-- C84. `strbuf_to_cstr` moves the content to the start of the block, over the header, before it asks. Left there, the bytes of the content are at the start of the block, everything outside
the buffer is as it was, and no block is lost. -/
theorem C84_to_cstr {cfg : Cfg} {s : St} {p : Addr} {b : Buf} (hb : BufAt s p b) (hd : b.Dynamic)
    (hh : (b.data.length : Int) < INT_MAX) {q : Addr} {bp : Option Addr} {s' : St} (he : strbuf_to_cstr cfg s (some p) = .ok (q, bp, s'))
    {m : Moment} (hr : RequestIn s s' m) :
    Holds m.mem p b.data ∧ (∀ a, ¬ InRange p b.data.length a → m.mem a = s.mem a) ∧ m.live = s.live := by
  obtain ⟨J, hJ, hraw⟩ := hb.raw
  have hlen := hb.len
  have hwp : Writable s.mem p b.data.length := hraw.writable.mono (by simp only [List.length_append]; omega)
  obtain ⟨ms, h1, h2, _⟩ := hr
  obtain ⟨n, h | h⟩ := to_cstr_moment hb hd hh he
  · rw [h] at h1
    have : ms = [⟨put s.mem p b.data, s.live, n⟩] := (List.append_cancel_right (as := [_]) h1).symm
    rw [this] at h2
    obtain rfl := List.mem_singleton.1 h2
    exact ⟨holds_put hwp, fun a ha => within_put (Int.le_refl _) (Int.le_refl _) a ha, rfl⟩
  · rw [h] at h1
    have : ms = [] := by
      have := congrArg List.length h1
      simp only [List.length_append] at this
      exact List.length_eq_zero_iff.1 (by omega)
    rw [this] at h2; cases h2

/-! ### Where the claim fails -/

/-- 30 bytes `a` on the heap. -/
def exLong : Buf := ⟨List.replicate 30 97, 40, ⟨5, 1⟩⟩

theorem exLong_valid : exLong.Valid := ⟨by decide, by decide, by decide, by decide⟩

theorem requestIn_of {s s' : St} {m : Moment} {ms : List Moment} (h : s.moments = []) (hm : s'.moments = m :: ms) (hz : m.size ≠ 0) : RequestIn s s' m :=
  ⟨s'.moments, by rw [h]; simp, by rw [hm]; simp, hz⟩

/-- Non-vacuity of `C84_to_cstr`: 30 bytes in a block, the allocator asked to reduce it. -/
example : ∃ q bp s' m, strbuf_to_cstr exCfg (exSt exLong []) (some exP) = .ok (q, bp, s') ∧ RequestIn (exSt exLong []) s' m ∧ Holds m.mem exP exLong.data := by
  have hok : (match strbuf_to_cstr exCfg (exSt exLong []) (some exP) with
        | .ok (_, _, s') => match s'.moments with
          | m :: _ => decide (m.size ≠ 0)
          | [] => false
        | _ => false) = true := by decide +kernel
  cases he : strbuf_to_cstr exCfg (exSt exLong []) (some exP) with
  | ok w =>
    obtain ⟨q, bp, s'⟩ := w
    rw [he] at hok
    simp only at hok
    split at hok
    · next m ms h =>
      have hr := requestIn_of (s := exSt exLong []) rfl h (of_decide_eq_true hok)
      exact ⟨q, bp, s', m, rfl, hr, (C84_to_cstr (exSt_buf exLong_valid []) (by decide) (by decide) he hr).1⟩
    · cases hok
  | ub w => rw [he] at hok; cases hok
  | fuel => rw [he] at hok; cases hok
  | env w => rw [he] at hok; cases hok

/-- C84 fails for `strbuf_to_cstr`: left at its request, the caller's pointer, which is not yet NULL, no longer points to a buffer. -/
theorem C84_to_cstr_loses_buffer : ∃ (s : St) (p : Addr) (b : Buf) (q : Addr) (bp : Option Addr) (s' : St) (m : Moment), s.Sane ∧ BufAt s p b ∧ b.Dynamic ∧
    strbuf_to_cstr exCfg s (some p) = .ok (q, bp, s') ∧ RequestIn s s' m ∧ ∀ c, ¬ BufAt (s.left m) p c := by
  have hb := exSt_buf exLong_valid []
  have hok : (strbuf_to_cstr exCfg (exSt exLong []) (some exP)).isOk = true := by decide +kernel
  cases he : strbuf_to_cstr exCfg (exSt exLong []) (some exP) with
  | ok w =>
    obtain ⟨q, bp, s'⟩ := w
    have hreq : ∃ m ms, s'.moments = m :: ms ∧ m.size ≠ 0 := by
      have : (match strbuf_to_cstr exCfg (exSt exLong []) (some exP) with
        | .ok (_, _, s') => match s'.moments with
          | m :: _ => decide (m.size ≠ 0)
          | [] => false
        | _ => false) = true := by decide +kernel
      rw [he] at this
      simp only at this
      split at this
      · next m ms h => exact ⟨m, ms, h, by simpa using this⟩
      · cases this
    obtain ⟨m, ms, h1, h2⟩ := hreq
    have hr : RequestIn (exSt exLong []) s' m := requestIn_of rfl h1 h2
    refine ⟨_, _, _, q, bp, s', m, exSt_sane exLong_valid [], hb, by decide, he, hr, ?_⟩
    intro c hc
    obtain ⟨n, h | h⟩ := to_cstr_moment hb (by decide) (by decide) he
    · rw [h1] at h
      cases h
      have e1 := hc.getCap
      have e2 := hc.getAlloc
      have e3 : getCap (put (exSt exLong []).mem exP exLong.data) exP = .ok 1633771873 := by decide +kernel
      have e4 : getAlloc (put (exSt exLong []).mem exP exLong.data) exP = .ok ⟨7016996765293437281, 7016996765293437281⟩ := by decide +kernel
      simp only [St.left] at e1 e2
      rw [e3] at e1
      rw [e4] at e2
      have e5 : c.al = ⟨7016996765293437281, 7016996765293437281⟩ := (Res.ok.inj e2).symm
      have hl := hc.heap (by rw [Buf.Dynamic, e5]; decide)
      have hl' : (exSt exLong []).live exP = some ⟨storage c.cap, c.al⟩ := hl
      have e6 : (exSt exLong []).live exP = some ⟨storage 40, ⟨5, 1⟩⟩ := by decide +kernel
      rw [e6, e5] at hl'
      simp at hl'
    · rw [h1] at h; cases h
  | ub w => rw [he] at hok; cases hok
  | fuel => rw [he] at hok; cases hok
  | env w => rw [he] at hok; cases hok

/-- C84 fails for the bundled formatter: it keeps the moved buffer in a variable of its own until it is done. Left at a later request, the caller's pointer is still the old one, to a block that
was released. -/
theorem C84_prnf_stale_pointer : ∃ (s : St) (p : Addr) (b : Buf) (t : List Byte) (v : View) (bp : Option Addr) (s' : St) (m : Moment), s.Sane ∧ BufAt s p b ∧
    b.Dynamic ∧ (Edit.appendPrnf t).Ok exCfg b ∧ BufOp.run exCfg s (some p) (.appendPrnf t) = .ok (v, bp, s') ∧ RequestIn s s' m ∧
    m.live p = none ∧ m.mem p = none := by
  have hok : (match BufOp.run exCfg (exSt exB []) (some exP) (.appendPrnf (List.replicate 20 97)) with
        | .ok (_, _, s') => match s'.moments with
          | m :: _ => decide (m.size ≠ 0 ∧ m.live exP = none ∧ m.mem exP = none)
          | [] => false
        | _ => false) = true := by decide +kernel
  cases he : BufOp.run exCfg (exSt exB []) (some exP) (.appendPrnf (List.replicate 20 97)) with
  | ok w =>
    obtain ⟨v, bp, s'⟩ := w
    rw [he] at hok
    simp only at hok
    split at hok
    · next m ms h =>
      obtain ⟨h1, h2, h3⟩ := of_decide_eq_true hok
      exact ⟨_, _, _, _, v, bp, s', m, exSt_sane exB_valid [], exSt_buf exB_valid [], by decide,
        ⟨.inl rfl, by decide, fun _ => by decide⟩, he, requestIn_of rfl h h1, h2, h3⟩
    · cases hok
  | ub w => rw [he] at hok; cases hok
  | fuel => rw [he] at hok; cases hok
  | env w => rw [he] at hok; cases hok

end CStr
