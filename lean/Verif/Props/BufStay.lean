import Verif.Props.HeldViews
/-! Property C81: a buffer stays where it is as long as there is room in it. `Edit.Room` is in Spec/BufOp.lean. -/
namespace CStr

theorem Edit.Room.inPlace {cfg : Cfg} {b : Buf} {e : Edit} (h : e.Room b) : e.InPlace cfg b ∧ e.content b = e.wanted b := by
  obtain ⟨h1, h2⟩ := h
  have hc : b.capFor cfg (e.wanted b).length = b.cap := capFor_same h1
  have hf : b.Fits (e.wanted b).length := .inl h1
  cases e with
  | shrink => exact h2.elim
  | grow n =>
    refine ⟨?_, if_pos hf⟩
    simp only [Edit.InPlace, Edit.cap]
    split
    · simp only at h2; omega
    · rfl
  | cat l self =>
    refine ⟨hc, ?_⟩
    cases self with
    | true => exact if_pos ⟨h2 rfl, hf⟩
    | false => exact if_pos hf
  | usingFault => exact ⟨hc, if_pos (e := []) hf⟩
  | _ => exact ⟨hc, if_pos hf⟩

/-- C81. If there is room in the buffer, no operation moves it: the caller's pointer stays what it is, the content is the wanted one, the capacity is the same, the same blocks are allocated,
and nothing outside the buffer's storage changes. Only concatenation of a buffer with itself asks for memory (for a temporary buffer). -/
theorem C81_stays {cfg : Cfg} (hcfg : cfg.Ok) {s : St} (hs : s.Sane) {p : Addr} {b : Buf} (hb : BufAt s p b)
    {op : BufOp} {e : Edit} (hm : Means s p b op e) (hok : e.Ok cfg b) (hroom : e.Room b) :
    (e.self = true ∧ op.run cfg s (some p) = .env .alloc) ∨
    ∃ v s', op.run cfg s (some p) = .ok (v, some p, s') ∧ BufAt s' p ⟨e.wanted b, b.cap, b.al⟩ ∧
      (v = ⟨p + 24, (e.wanted b).length⟩ ∨ v = .invalid ∧ ¬ e.returns b) ∧
      s'.live = s.live ∧ (∀ a, ¬ InRange p (storage b.cap) a → s'.mem a = s.mem a) ∧
      (e.self = false → s'.log = s.log ∧ s'.calls = s.calls) := by
  obtain ⟨hin, hw⟩ := hroom.inPlace (cfg := cfg)
  rcases run_does_at hcfg hs hb hm hok with ⟨_, h, he⟩ | ⟨p', s', h1, _, h3, h4, h5⟩
  · left
    refine ⟨?_, he⟩
    cases hself : e.self with
    | true => rfl
    | false => exact absurd ⟨hin, fun _ => hself⟩ h
  · obtain rfl := h4 hin
    have hbuf := h3.buf
    have honly := h3.only
    simp only [Edit.apply, hw, (show e.cap cfg b = b.cap from hin)] at hbuf h1 honly
    refine .inr ⟨_, s', h1, hbuf, ?_, ?_, fun a ha => honly.outside a ha ha, fun hself => (h5 ⟨hin, fun _ => hself⟩).2⟩
    · by_cases hr : e.returns b
      · exact .inl (if_pos hr)
      · exact .inr ⟨if_neg hr, hr⟩
    · by_cases hd : b.Dynamic
      · funext q
        by_cases hq : q = p'
        · subst hq
          rw [hb.heap hd, hbuf.heap hd]
        · exact honly.live q hq hq
      · exact (h3.fixed hd).2.2.1

/-- C81. In particular no operation that fits can fail for want of memory, other than concatenation of a buffer with itself: whatever the allocator would answer, it completes without asking. -/
theorem C81_no_allocation {cfg : Cfg} (hcfg : cfg.Ok) {s : St} (hs : s.Sane) {p : Addr} {b : Buf} (hb : BufAt s p b)
    {op : BufOp} {e : Edit} (hm : Means s p b op e) (hok : e.Ok cfg b) (hroom : e.Room b) (hself : e.self = false) :
    ∃ v s', op.run cfg s (some p) = .ok (v, some p, s') ∧ BufAt s' p ⟨e.wanted b, b.cap, b.al⟩ ∧ s'.log = s.log ∧ s'.calls = s.calls := by
  rcases C81_stays hcfg hs hb hm hok hroom with ⟨h, _⟩ | ⟨v, s', h1, h2, -, -, -, h3⟩
  · rw [hself] at h; cases h
  · exact ⟨v, s', h1, h2, h3 hself⟩

/-- C81, read the other way round: when an operation has moved a buffer, the buffer is dynamic and its capacity has changed; when it has called the allocator, that, or the buffer was
concatenated with itself. -/
theorem C81_moves_only {cfg : Cfg} (hcfg : cfg.Ok) {s : St} (hs : s.Sane) {p : Addr} {b : Buf} (hb : BufAt s p b)
    {op : BufOp} {e : Edit} (hm : Means s p b op e) (hok : e.Ok cfg b) {v : View} {bp : Option Addr} {s' : St}
    (hrun : op.run cfg s (some p) = .ok (v, bp, s')) :
    (bp ≠ some p → b.Dynamic ∧ e.cap cfg b ≠ b.cap) ∧
    (s'.log ≠ s.log ∨ s'.calls ≠ s.calls → b.Dynamic ∧ (e.cap cfg b ≠ b.cap ∨ ∃ parts, e = .cat parts true)) := by
  rcases run_does_at hcfg hs hb hm hok with ⟨_, _, h⟩ | ⟨p', s1, h1, _, h3, h4, h5⟩
  · rw [hrun] at h; cases h
  · rw [hrun] at h1
    obtain ⟨rfl, rfl⟩ : bp = some p' ∧ s' = s1 := by
      injection h1 with h1
      injection h1 with _ h1
      injection h1 with h1 h2
      exact ⟨h1, h2⟩
    constructor
    · intro hne
      exact ⟨Decidable.byContradiction fun hd => hne (by rw [(h3.fixed hd).1]), fun hc => hne (by rw [h4 hc])⟩
    · intro hne
      have hn : ∀ {P : Prop}, (P → s'.live = s.live ∧ s'.log = s.log ∧ s'.calls = s.calls) → ¬ P := by
        intro P h hp
        obtain ⟨_, a, c⟩ := h hp
        rcases hne with h | h
        · exact h a
        · exact h c
      refine ⟨Decidable.byContradiction fun hd => hn (P := True) (fun _ => (h3.fixed hd).2.2) trivial, ?_⟩
      have := hn h5
      by_cases hc : e.cap cfg b = b.cap
      · right
        have hs : ¬ e.self = false := fun h => this ⟨hc, fun _ => h⟩
        cases e with
        | cat l self =>
          cases self with
          | true => exact ⟨l, rfl⟩
          | false => exact absurd rfl hs
        | _ => exact absurd rfl hs
      · exact .inl hc

/-- C81. Views of the buffer taken before the operation can be used after it: a view of the bytes `[i, i + n)` shows the bytes that are there now, and those are the same as before if the
operation has not changed them (it changes no byte of the old content when it appends). -/
theorem C81_old_views {cfg : Cfg} (hcfg : cfg.Ok) {s : St} (hs : s.Sane) {p : Addr} {b : Buf} (hb : BufAt s p b)
    {op : BufOp} {e : Edit} (hm : Means s p b op e) (hok : e.Ok cfg b) (hroom : e.Room b) {v : View} {bp : Option Addr} {s' : St}
    (hrun : op.run cfg s (some p) = .ok (v, bp, s')) {i n : Nat} :
    (i + n ≤ (e.wanted b).length → ViewOf s'.mem ⟨p + 24 + i, n⟩ (((e.wanted b).drop i).take n)) ∧
    (∀ t, e.wanted b = b.data ++ t → i + n ≤ b.data.length →
      ViewOf s.mem ⟨p + 24 + i, n⟩ ((b.data.drop i).take n) ∧ ViewOf s'.mem ⟨p + 24 + i, n⟩ ((b.data.drop i).take n)) := by
  obtain ⟨s1, h1, h2⟩ : ∃ s1, s' = s1 ∧ BufAt s1 p ⟨e.wanted b, b.cap, b.al⟩ := by
    rcases C81_stays hcfg hs hb hm hok hroom with ⟨_, h⟩ | ⟨v1, s1, h1, h2, _⟩
    · rw [hrun] at h; cases h
    · rw [hrun] at h1
      refine ⟨s1, ?_, h2⟩
      injection h1 with h1
      injection h1 with _ h1
      injection h1
  subst h1
  have one : ∀ {s : St} {b : Buf}, BufAt s p b → i + n ≤ b.data.length → ViewOf s.mem ⟨p + 24 + i, n⟩ ((b.data.drop i).take n) := by
    intro s b hb h
    exact hb.viewOf.part (i := i) (n := n) h
  refine ⟨fun h => one h2 h, fun t ht h => ⟨one hb h, ?_⟩⟩
  have := one h2 (by simp only [ht, List.length_append]; omega)
  simp only [ht] at this
  rwa [List.drop_append_of_le_length (by omega), List.take_append_of_le_length (by simp only [List.length_drop]; omega)] at this

/-! ## Programs -/

/-- The buffer command that a command stands for. -/
def MCmd.bufCmd (A : Mixed) : MCmd → Option Cmd
  | .cmd c => some c
  | .op h o => some (.op h (o.hop A))
  | .create h i o => some (.createInit h (A.view i).src o)
  | _ => none

/-- As far as the buffer in variable `h` is concerned, the command at most appends to it, with room for that. -/
def Cmd.Appends (K : Nat → List Byte) (σ : AState) (h : Nat) (c : Cmd) : Prop :=
  h ∉ c.changes ∨ ∃ o b t, c = .op h o ∧ σ h = some (.buf b) ∧ (o.edit K σ h b).Room b ∧ (o.edit K σ h b).wanted b = b.data ++ t

/-- All commands of the program at most append to the buffer in variable `h`, with room for that. -/
def OnlyAppends (cfg : Cfg) (dflt : Alloc) (K : Nat → List Byte) (h : Nat) : List MCmd → Mixed → Prop
  | [], _ => True
  | c :: cs, A => (∀ d, c.bufCmd A = some d → d.Appends K A.σ h) ∧ ∀ B, c.Step cfg dflt K A B → OnlyAppends cfg dflt K h cs B

theorem append_leaves {cfg : Cfg} {dflt : Alloc} {K : Nat → List Byte} {A B : Mixed} {c : MCmd} (hs : c.Step cfg dflt K A B) {h i a n : Nat}
    (hi : A.view i = .part (.buf h) a n) (hin : a + n ≤ (A.σ.data h).length) (hm : i ∉ c.moves) (hc : ∀ d, c.bufCmd A = some d → d.Appends K A.σ h) :
    B.view i = .part (.buf h) a n ∧ ∃ t, B.σ.data h = A.σ.data h ++ t := by
  have other : (h ∉ c.changes) → B.view i = .part (.buf h) a n ∧ ∃ t, B.σ.data h = A.σ.data h ++ t := by
    intro hn
    obtain ⟨h1, h2⟩ := step_leaves hs hi hm (fun k hk => by cases hk; exact hn)
    exact ⟨h1, [], by rw [List.append_nil]; exact h2⟩
  have run : ∀ d : Cmd, d.Appends K A.σ h → (h ∉ d.changes → h ∉ c.changes) → B = A.run cfg dflt K d →
      B.view i = .part (.buf h) a n ∧ ∃ t, B.σ.data h = A.σ.data h ++ t := by
    rintro d (hd | ⟨o, b, t, rfl, hb, hr, hw⟩) hx rfl
    · exact other (hx hd)
    · obtain ⟨hip, hcont⟩ := hr.inPlace (cfg := cfg)
      have hdat : A.σ.data h = b.data := by simp only [AState.data, hb]
      rw [hdat] at hin
      have e : (A.run cfg dflt K (.op h o)).σ h = some (.buf ((o.edit K A.σ h b).apply cfg b)) := by
        simp only [Mixed.run, Cmd.step, hb]; exact AState.set_same _ _ _
      refine ⟨?_, t, ?_⟩
      · rw [run_view, hi]
        have : (Cmd.op h o).leaves cfg K A.σ h a n = true := by
          simp only [Cmd.leaves, hb]
          rw [decide_eq_true (⟨hip, by rw [hcont, hw, List.length_append]; omega⟩ : _ ∧ _), Bool.or_true]
        simp only [AView.after, if_pos this]
      · simp only [AState.data, e, hb, Edit.apply, hcont, hw]
  cases c with
  | cmd c => exact run c (hc c rfl) id hs
  | op k o => exact run _ (hc _ rfl) id hs
  | create k j o => exact run _ (hc _ rfl) id hs
  | view k | const k | call k => exact other (by simp [MCmd.changes])

theorem appends_leave {cfg : Cfg} {dflt : Alloc} {K : Nat → List Byte} {A B : Mixed} {cs : List MCmd} (hs : MRun cfg dflt K cs A B) {h i a n : Nat}
    (hi : A.view i = .part (.buf h) a n) (hin : a + n ≤ (A.σ.data h).length) (hm : ∀ c ∈ cs, i ∉ c.moves) (hc : OnlyAppends cfg dflt K h cs A) :
    B.view i = .part (.buf h) a n ∧ ∃ t, B.σ.data h = A.σ.data h ++ t := by
  induction hs with
  | nil => exact ⟨hi, [], by rw [List.append_nil]⟩
  | cons h1 h2 ih =>
    obtain ⟨i1, t, i2⟩ := append_leaves h1 hi hin (hm _ (by simp)) hc.1
    obtain ⟨j1, t', j2⟩ := ih i1 (by rw [i2, List.length_append]; omega) (fun c hc => hm c (by simp [hc])) (hc.2 _ h1)
    exact ⟨j1, t ++ t', by rw [j2, i2, List.append_assoc]⟩

/-- C81. Views of a buffer that is only appended to, with room: after any legal program that does nothing else to that buffer (whatever it does to other buffers and with other views), a view of
it taken before still shows the same bytes. -/
theorem C81_appending_keeps_views {cfg : Cfg} (hcfg : cfg.Ok) {dflt : Alloc} {K : Nat → List Byte} {ka : Nat → Addr} {A : Mixed} {X X' : MState} (r : MRep K ka A X) (cs : List MCmd)
    (hl : LegalMixed cfg dflt K cs A) (he : runMixed cfg dflt K ka cs X = .ok X') {h i a n : Nat} (hi : A.view i = .part (.buf h) a n)
    (hm : ∀ c ∈ cs, i ∉ c.moves) (hc : OnlyAppends cfg dflt K h cs A) :
    ∃ l, l.length = n ∧ ViewOf X.s.mem (viewAt X.views i) l ∧ ViewOf X'.s.mem (viewAt X'.views i) l := by
  rcases C80_refinement hcfg r cs hl with e | ⟨A', X1, h1, h2, r'⟩
  · rw [he] at e; cases e
  · rw [he] at h2; cases h2
    have hv := r.views i
    rw [hi] at hv
    obtain ⟨-, hin, -⟩ := hv
    simp only [Ref.text] at hin
    obtain ⟨j1, t, j2⟩ := appends_leave h1 hi hin hm hc
    have s1 := r.shows hi
    have s2 := r'.shows j1
    simp only [Ref.text] at s1 s2
    rw [j2, List.drop_append_of_le_length (by omega), List.take_append_of_le_length (by simp only [List.length_drop]; omega)] at s2
    refine ⟨_, ?_, s1, s2⟩
    simp only [List.length_take, List.length_drop]
    omega

/-! ### Cases that meet the hypotheses -/

-- "hello" in a dynamic buffer of capacity 8: three formatted characters fit
example : ∃ s', (BufOp.appendPrnf [49, 50, 51]).run isoCfg (exSt exB []) (some exP) = .ok (⟨exP + 24, 8⟩, some exP, s') ∧
    BufAt s' exP ⟨[104, 101, 108, 108, 111, 49, 50, 51], 8, ⟨0, 1⟩⟩ ∧ s'.log = (exSt exB []).log := by
  rcases C81_stays isoCfg_ok (exSt_sane exB_valid []) (exSt_buf exB_valid _) (.appendPrnf (t := [49, 50, 51]))
    ⟨.inr (.inl (by decide)), by decide, fun _ => by decide⟩ ⟨by decide, trivial⟩ with ⟨h, _⟩ | ⟨v, s', h1, h2, h3, -, -, h4⟩
  · cases h
  · rcases h3 with rfl | ⟨-, h⟩
    · exact ⟨s', h1, h2, (h4 rfl).1⟩
    · exact absurd trivial h

-- a view of "ell" taken before
example : ∃ v bp s', (BufOp.appendChar 33).run isoCfg (exSt exB []) (some exP) = .ok (v, bp, s') ∧ ViewOf s'.mem ⟨exP + 24 + (1 : Nat), (3 : Nat)⟩ [101, 108, 108] := by
  have hm : Means (exSt exB []) exP exB (.appendChar 33) (.appendChar 33) := .appendChar
  have hok : (Edit.appendChar 33).Ok isoCfg exB := ⟨.inr (.inl (by decide)), trivial⟩
  obtain ⟨v, s', h1, -⟩ := C81_no_allocation isoCfg_ok (exSt_sane exB_valid []) (exSt_buf exB_valid _) hm hok ⟨by decide, trivial⟩ rfl
  have := (C81_old_views isoCfg_ok (exSt_sane exB_valid []) (exSt_buf exB_valid _) hm hok ⟨by decide, trivial⟩ h1 (i := 1) (n := 3)).2 [33] rfl (by decide)
  exact ⟨v, _, s', h1, this.2⟩

-- nine characters do not fit: the buffer moves, so its capacity has changed
example : ∃ v bp s', (BufOp.appendPrnf [49, 50, 51, 52]).run isoCfg (exSt exB []) (some exP) = .ok (v, bp, s') ∧ bp ≠ some exP ∧
    (Edit.appendPrnf [49, 50, 51, 52]).cap isoCfg exB ≠ exB.cap := by
  have hok : (match (BufOp.appendPrnf [49, 50, 51, 52]).run isoCfg (exSt exB []) (some exP) with
    | .ok (_, bp, _) => decide (bp ≠ some exP) | _ => false) = true := by decide +kernel
  split at hok
  · next v bp s' h =>
    refine ⟨v, bp, s', h, of_decide_eq_true hok, ?_⟩
    exact ((C81_moves_only isoCfg_ok (exSt_sane exB_valid []) (exSt_buf exB_valid _) (.appendPrnf (t := [49, 50, 51, 52]))
      ⟨.inr (.inr (.inl (by decide))), by decide, fun _ => by decide⟩ h).1 (of_decide_eq_true hok)).2
  · cases hok

-- "hello" := "he" ++ "hel": the buffer stays where it is, a temporary buffer was asked for and released
example : ∃ v s', (BufOp.cat [⟨exP + 24 + (0 : Nat), (2 : Nat)⟩, ⟨exP + 24 + (0 : Nat), (3 : Nat)⟩]).run isoCfg (exSt exB []) (some exP) = .ok (v, some exP, s') ∧
    BufAt s' exP ⟨[104, 101, 104, 101, 108], 8, ⟨0, 1⟩⟩ ∧ s'.live = (exSt exB []).live ∧ s'.log.length = 2 := by
  have hm : Means (exSt exB []) exP exB (.cat [⟨exP + 24 + (0 : Nat), (2 : Nat)⟩, ⟨exP + 24 + (0 : Nat), (3 : Nat)⟩]) (.cat [[104, 101], [104, 101, 108]] true) :=
    .cat (args := [(⟨exP + 24 + (0 : Nat), (2 : Nat)⟩, [104, 101]), (⟨exP + 24 + (0 : Nat), (3 : Nat)⟩, [104, 101, 108])]) (by
      intro a h
      simp only [List.mem_cons, List.not_mem_nil, or_false] at h
      rcases h with rfl | rfl
      · exact (exSt_buf exB_valid _).partSource 0 2 (by decide)
      · exact (exSt_buf exB_valid _).partSource 0 3 (by decide))
  have hok : (match (BufOp.cat [⟨exP + 24 + (0 : Nat), (2 : Nat)⟩, ⟨exP + 24 + (0 : Nat), (3 : Nat)⟩]).run isoCfg (exSt exB []) (some exP) with
    | .ok (_, _, s') => decide (s'.log.length = 2) | _ => false) = true := by decide +kernel
  rcases C81_stays isoCfg_ok (exSt_sane exB_valid []) (exSt_buf exB_valid _) hm ⟨.inr (.inl (by decide)), trivial⟩ ⟨by decide, fun _ => by decide⟩ with
    ⟨_, h⟩ | ⟨v, s', h1, h2, -, h3, -⟩
  · rw [h] at hok; cases hok
  · rw [h1] at hok
    exact ⟨v, s', h1, h2, h3, of_decide_eq_true hok⟩

/-- Buffer 0 of capacity 8, "ab" in it and a view of that; buffer 1 is created, "l" is appended to buffer 0, then the view of "ab" is appended to both. -/
def roomDemo : List MCmd := [
  .cmd (.createEmpty 0 8 none),
  .cmd (.op 0 (.append (.const 0))),
  .view 0,
  .create 1 0 (some ⟨7, 9⟩),
  .cmd (.op 0 (.append (.const 1))),
  .op 0 (.append 0),
  .op 1 (.append 0)]

theorem roomDemo_legal : LegalMixed exCfg ⟨0, 1⟩ demoK roomDemo .start := by
  have hb : ∀ {b : Buf}, ∀ o, some (Obj.buf b) = some o → ∃ b, o = .buf b := fun o h => ⟨_, (Option.some.inj h).symm⟩
  have hf : ∀ {A : Mixed} {i : Nat} (t : Ref) (a n : Nat), A.view i = .part t a n → A.Fresh i := by
    intro A i t a n h h'; rw [h] at h'; cases h'
  have hu : ∀ {A : Mixed}, A.view 0 = .part (.buf 0) 0 2 → ∀ i ∈ (WOp.append 0).uses, A.Fresh i := by
    intro A h i hi
    simp only [WOp.uses, List.mem_cons, List.not_mem_nil, or_false] at hi
    subst hi; exact hf _ _ _ h
  refine ⟨⟨rfl, ⟨by decide, by decide, by decide⟩, by decide⟩, ?_⟩
  rintro B rfl
  refine ⟨⟨hb, trivial, ?_⟩, ?_⟩
  · intro b e; cases e; exact ⟨.inl rfl, (by decide : INT_MIN ≤ 0 ∧ 0 ≤ INT_MAX)⟩
  rintro B rfl
  refine ⟨hb, ?_⟩
  rintro B rfl
  refine ⟨⟨hf (.buf 0) 0 2 rfl, rfl, ⟨by decide, by decide, by decide⟩, ⟨_, rfl⟩, Nat.le_refl 2⟩, ?_⟩
  rintro B rfl
  refine ⟨⟨hb, trivial, ?_⟩, ?_⟩
  · intro b e; cases e; exact ⟨.inl rfl, (by decide : INT_MIN ≤ 2 ∧ 2 ≤ INT_MAX)⟩
  rintro B rfl
  refine ⟨⟨hu rfl, hb, ⟨⟨_, rfl⟩, (by decide : 2 ≤ 3)⟩, ?_⟩, ?_⟩
  · intro b e; cases e; exact ⟨.inl rfl, (by decide : INT_MIN ≤ 3 ∧ 3 ≤ INT_MAX)⟩
  rintro B rfl
  refine ⟨⟨hu rfl, hb, ⟨⟨_, rfl⟩, (by decide : 2 ≤ 5)⟩, ?_⟩, fun _ _ => trivial⟩
  intro b e; cases e; exact ⟨.inl rfl, (by decide : INT_MIN ≤ 2 ∧ 2 ≤ INT_MAX)⟩

-- the last four commands only append to buffer 0, with room; so the view of "ab" survives
example : ∃ A X X', runMixed exCfg ⟨0, 1⟩ demoK demoKa (roomDemo.take 3) (.start demoSt) = .ok X ∧ MRep demoK demoKa A X ∧
    LegalMixed exCfg ⟨0, 1⟩ demoK (roomDemo.drop 3) A ∧ OnlyAppends exCfg ⟨0, 1⟩ demoK 0 (roomDemo.drop 3) A ∧
    runMixed exCfg ⟨0, 1⟩ demoK demoKa (roomDemo.drop 3) X = .ok X' ∧ A.view 0 = .part (.buf 0) 0 2 ∧
    ∃ l, l.length = 2 ∧ ViewOf X.s.mem (viewAt X.views 0) l ∧ ViewOf X'.s.mem (viewAt X'.views 0) l := by
  have split : ∀ {cs ds : List MCmd} {A B : Mixed}, LegalMixed exCfg ⟨0, 1⟩ demoK (cs ++ ds) A → MRun exCfg ⟨0, 1⟩ demoK cs A B →
      LegalMixed exCfg ⟨0, 1⟩ demoK cs A ∧ LegalMixed exCfg ⟨0, 1⟩ demoK ds B := by
    intro cs
    induction cs with
    | nil => intro ds A B h hr; cases hr; exact ⟨trivial, h⟩
    | cons c cs ih =>
      intro ds A B h hr
      cases hr with
      | cons h1 h2 =>
        refine ⟨⟨h.1, fun B' hB => ?_⟩, (ih (h.2 _ h1) h2).2⟩
        have : B' = _ := C80_deterministic (cs := [c]) (.cons hB (.nil _)) (.cons h1 (.nil _))
        subst this
        exact (ih (h.2 _ h1) h2).1
  have hrun : MRun exCfg ⟨0, 1⟩ demoK (roomDemo.take 3) .start _ := .cons rfl (.cons rfl (.cons rfl (.nil _)))
  obtain ⟨l1, l2⟩ := split (ds := roomDemo.drop 3) (by rw [List.take_append_drop]; exact roomDemo_legal) hrun
  have ok1 : (runMixed exCfg ⟨0, 1⟩ demoK demoKa (roomDemo.take 3) (.start demoSt)).isOk = true := by decide +kernel
  have ok2 : (runMixed exCfg ⟨0, 1⟩ demoK demoKa roomDemo (.start demoSt)).isOk = true := by decide +kernel
  rcases C80_refinement exCfg_ok demoStart.mrep _ l1 with e | ⟨A, X, h1, h2, r⟩
  · rw [e] at ok1; cases ok1
  · cases C80_deterministic h1 hrun
    have e : runMixed exCfg ⟨0, 1⟩ demoK demoKa roomDemo (.start demoSt) = runMixed exCfg ⟨0, 1⟩ demoK demoKa (roomDemo.drop 3) X := by
      have app : ∀ {cs ds : List MCmd} {X Y : MState}, runMixed exCfg ⟨0, 1⟩ demoK demoKa cs X = .ok Y →
          runMixed exCfg ⟨0, 1⟩ demoK demoKa (cs ++ ds) X = runMixed exCfg ⟨0, 1⟩ demoK demoKa ds Y := by
        intro cs
        induction cs with
        | nil => intro ds X Y h; cases h; rfl
        | cons c cs ih =>
          intro ds X Y h
          obtain ⟨Z, e1, e2⟩ := Res.ok_of_bind h
          simp only [List.cons_append, runMixed, e1, Res.bind_ok]
          exact ih e2
      have := app (ds := roomDemo.drop 3) h2
      rwa [List.take_append_drop] at this
    rw [e] at ok2
    cases he : runMixed exCfg ⟨0, 1⟩ demoK demoKa (roomDemo.drop 3) X with
    | ok X' =>
      refine ⟨_, X, X', h2, r, l2, ?_, he, rfl, C81_appending_keeps_views exCfg_ok r _ l2 he (h := 0) (a := 0) rfl (by
        intro c hc; simp only [roomDemo, List.drop_succ_cons, List.drop_zero, List.mem_cons, List.not_mem_nil, or_false] at hc
        rcases hc with rfl | rfl | rfl | rfl <;> simp [MCmd.moves]) ?_⟩
      all_goals
        refine ⟨?_, ?_⟩
        · intro d hd; cases hd; exact .inl (by decide)
        rintro B rfl
        refine ⟨?_, ?_⟩
        · intro d hd; cases hd; exact .inr ⟨_, _, [108], rfl, rfl, ⟨(by decide : 3 ≤ 8), trivial⟩, rfl⟩
        rintro B rfl
        refine ⟨?_, ?_⟩
        · intro d hd; cases hd; exact .inr ⟨_, _, [97, 98], rfl, rfl, ⟨(by decide : 5 ≤ 8), trivial⟩, rfl⟩
        rintro B rfl
        refine ⟨?_, fun _ _ => trivial⟩
        intro d hd; cases hd; exact .inl (by simp [Cmd.changes])
    | ub w => rw [he] at ok2; cases ok2
    | fuel => rw [he] at ok2; cases ok2
    | env w => rw [he] at ok2; cases ok2

end CStr
