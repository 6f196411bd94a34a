import Verif.Lemmas.Fail
import Verif.Props.BufHist
import Verif.Props.BufLife
import Verif.Props.BufInsert
import Verif.Lemmas.BufExamples
/-! C92: allocators that may answer NULL. Everywhere else (`St.Sane`) the allocator is assumed to catch a failed request itself, as strbuf.h line 210 asks; here it is not. -/
namespace CStr

/-- The state with the buffer "hello" (capacity 8, dynamic) and the bytes `l`, and an allocator that always answers NULL. -/
def nullSt (l : List Byte) : St := { exSt exB l with picks := fun _ => ⟨0, fun _ => 0⟩ }

theorem nullSt_buf (l : List Byte) : BufAt (nullSt l) exP exB := (exSt_buf exB_valid l).frame (fun _ _ => rfl) (fun _ => rfl)

theorem nullSt_wf (l : List Byte) : (nullSt l).WF := ⟨(exSt_sane exB_valid l).wf.block, (exSt_sane exB_valid l).wf.disjoint⟩

theorem nullSt_source {l : List Byte} (hl : (l.length : Int) ≤ INT_MAX) : Source (nullSt l) exP exB ⟨exQ, l.length⟩ l :=
  ⟨(exSt_source exB_valid hl).toDenotes, (exSt_source exB_valid hl).place⟩

/-- C92. A call that returns has had no request answered NULL, and has done exactly what it does when the allocator never answers NULL: all operations, all arguments, all states. -/
theorem C92_returned {cfg : Cfg} {s : St} {bp : Option Addr} {op : BufOp} {v : View} {bp' : Option Addr} {s' : St} (he : op.run cfg s bp = .ok (v, bp', s')) :
    (∀ i, s.calls ≤ i → i < s'.calls → (s.picks i).addr ≠ 0) ∧ op.run cfg s.strict bp = .ok (v, bp', s'.strict) := by
  have := (run_sim cfg s bp op).answered (st := fun r => r.2.2) (s := s) (fun _ => rfl)
    (run_keeps (Answered.kept _ (strict_noFail s) s.calls) (strict_answered s) bp op) he
  exact ⟨this.2, this.1⟩

/-- Three more characters fit: the call returns although the allocator would answer NULL. -/
example : ((BufOp.append ⟨exQ, 3⟩).run exCfg (nullSt [33, 33, 33]) (some exP)).isOk = true := by decide +kernel

/-- C92. The same for the functions that create a buffer. -/
theorem C92_created {cfg : Cfg} {dflt : Alloc} {o : Option Alloc} {s : St} {q : Addr} {s' : St} :
    (∀ n : Nat, strbuf_create_empty dflt s n o = .ok (q, s') →
      (∀ i, s.calls ≤ i → i < s'.calls → (s.picks i).addr ≠ 0) ∧ strbuf_create_empty dflt s.strict n o = .ok (q, s'.strict)) ∧
    (∀ v : View, strbuf_create_init cfg dflt s v o = .ok (q, s') →
      (∀ i, s.calls ≤ i → i < s'.calls → (s.picks i).addr ≠ 0) ∧ strbuf_create_init cfg dflt s.strict v o = .ok (q, s'.strict)) := by
  constructor
  · intro n he
    have := (create_empty_sim dflt s n o).answered (st := fun r => r.2) (s := s) (fun _ => rfl)
      (create_empty_keeps (Answered.kept _ (strict_noFail s) s.calls) (strict_answered s) _ _ _) he
    exact ⟨this.2, this.1⟩
  · intro v he
    have := (create_init_sim cfg dflt s v o).answered (st := fun r => r.2) (s := s) (fun _ => rfl)
      (create_init_keeps (Answered.kept _ (strict_noFail s) s.calls) (strict_answered s) _ _ _) he
    exact ⟨this.2, this.1⟩

/-- A NULL answer is met by an access to a member of NULL; creation that returns had an answer. -/
example : strbuf_create_empty ⟨0, 1⟩ (nullSt []) 4 none = .ub .badHeader := by rfl

example : (strbuf_create_empty ⟨0, 1⟩ (exSt exB []) 4 none).isOk = true := by decide +kernel

theorem source_strict {s : St} {p : Addr} {b : Buf} {v : View} {S : List Byte} (h : Source s p b v S) : Source s.strict p b v S := ⟨h.toDenotes, h.place⟩

theorem means_strict {s : St} {p : Addr} {b : Buf} {op : BufOp} {e : Edit} (h : Means s p b op e) : Means s.strict p b op e := by
  cases h with
  | assignInvalid h => exact .assignInvalid h
  | stripInvalid h => exact .stripInvalid h
  | cat h => exact .cat fun a ha => source_strict (h a ha)
  | _ => constructor <;> first | assumption | exact source_strict (by assumption)

/-- C92. Any operation on any buffer, with an allocator that may answer NULL: either a request is answered NULL, and the call accesses a member of NULL at once; or the call does its
whole work on the buffer and nothing else. (The third case is an allocator that breaks its contract in another way.) -/
theorem C92_operation {cfg : Cfg} (hcfg : cfg.Ok) {s : St} (hs : s.WF) {p : Addr} {b : Buf} (hb : BufAt s p b) {op : BufOp} {e : Edit} (hm : Means s p b op e)
    (hok : e.Ok cfg b) :
    (s.CanFail ∧ b.Dynamic ∧ op.run cfg s (some p) = .ub .badHeader) ∨ (b.Dynamic ∧ op.run cfg s (some p) = .env .alloc) ∨
    ∃ p' s', op.run cfg s (some p) = .ok (if e.returns b then ⟨p' + 24, (e.apply cfg b).data.length⟩ else .invalid, some p', s') ∧
      BufAt s' p' (e.apply cfg b) ∧ s'.WF ∧ OnlyBlock s s' p (storage b.cap) p' (storage (e.apply cfg b).cap) := by
  have hd := run_does hcfg (s := s.strict) (St.strict_sane hs) (hb.frame (fun _ _ => rfl) (fun _ => rfl)) (means_strict hm) hok
  rcases run_sim cfg s (some p) op with ⟨h1, h2⟩ | h
  · left
    refine ⟨Classical.not_not.1 fun hn => ?_, ?_, h1⟩
    · rw [St.strict_eq hn, h1] at h2; cases h2
    · rcases hd with ⟨h, _⟩ | ⟨_, _, h, _⟩
      · exact h
      · rw [h2] at h; cases h
  · right
    rcases hd with ⟨g1, g2⟩ | ⟨p', s1, g1, g2, g3⟩
    · left
      rw [g2] at h
      refine ⟨g1, ?_⟩
      cases hr : op.run cfg s (some p) with
      | ok a => rw [hr] at h; cases h
      | ub w => rw [hr] at h; cases h
      | fuel => rw [hr] at h; cases h
      | env w => rw [hr] at h; cases h; rfl
    · right
      rw [g1] at h
      cases hr : op.run cfg s (some p) with
      | ok a =>
        obtain ⟨v, bp, s'⟩ := a
        rw [hr] at h
        have h' := Res.ok.inj h
        simp only [up3, Prod.mk.injEq] at h'
        obtain ⟨rfl, rfl, rfl⟩ := h'
        have hp := (run_keeps (picks_kept s.picks) (cfg := cfg) (s := s) rfl (some p) op).out _ hr
        have eb : (⟨(e.apply cfg b).data, (e.apply cfg b).cap, b.al⟩ : Buf) = e.apply cfg b := by rw [← g2]
        refine ⟨p', s', rfl, ?_, ⟨g3.sane.wf.block, g3.sane.wf.disjoint⟩, ?_⟩
        · rw [← eb]; exact g3.buf.frame (fun _ _ => rfl) (fun _ => rfl)
        · exact ⟨g3.only.outside, g3.only.fresh, g3.only.left, g3.only.live, g3.only.liveNew, g3.only.liveOld, hp⟩
      | ub w => rw [hr] at h; cases h
      | fuel => rw [hr] at h; cases h
      | env w => rw [hr] at h; cases h

/-- Both ends of it: four more characters do not fit, three do. -/
example : (match (BufOp.append ⟨exQ, 4⟩).run exCfg (nullSt [33, 33, 33, 33]) (some exP) with | .ub .badHeader => true | _ => false) = true := by decide +kernel

example : ∃ p' s', (BufOp.append ⟨exQ, 3⟩).run exCfg (nullSt [33, 33, 33]) (some exP) = .ok (⟨p' + 24, 8⟩, some p', s') ∧
    BufAt s' p' ⟨[104, 101, 108, 108, 111, 33, 33, 33], 8, ⟨0, 1⟩⟩ := by
  have hr : ((BufOp.append ⟨exQ, 3⟩).run exCfg (nullSt [33, 33, 33]) (some exP)).isOk = true := by decide +kernel
  rcases C92_operation exCfg_ok (nullSt_wf _) (nullSt_buf _) (.append (nullSt_source (l := [33, 33, 33]) (by decide))) ⟨.inl (by decide), by decide⟩ with
    ⟨_, _, h⟩ | ⟨_, h⟩ | ⟨p', s', h, h2, _⟩
  · rw [show (3 : Int) = (([33, 33, 33] : List Byte).length : Int) from rfl, h] at hr; cases hr
  · rw [show (3 : Int) = (([33, 33, 33] : List Byte).length : Int) from rfl, h] at hr; cases hr
  · exact ⟨p', s', h, h2⟩

/-- C92. If the next answer is NULL, a call that returns has not asked. -/
theorem C92_next_answer {cfg : Cfg} {s : St} (hn : (s.picks s.calls).addr = 0) {bp : Option Addr} {op : BufOp} {v : View} {bp' : Option Addr} {s' : St}
    (he : op.run cfg s bp = .ok (v, bp', s')) : s'.calls ≤ s.calls := by
  have h := (C92_returned he).1 s.calls (Nat.le_refl _)
  exact Nat.le_of_not_lt fun hl => h hl hn

/-- It returns and the counter stays. -/
example {v : View} {bp' : Option Addr} {s' : St} (he : (BufOp.append ⟨exQ, 3⟩).run exCfg (nullSt [33, 33, 33]) (some exP) = .ok (v, bp', s')) : s'.calls ≤ 0 :=
  C92_next_answer rfl he

variable {K : Nat → List Byte} {ka : Nat → Addr}

theorem LegalRun_split {cfg : Cfg} {dflt : Alloc} {cs ds : List Cmd} {σ : AState} (h : LegalRun cfg dflt K (cs ++ ds) σ) :
    LegalRun cfg dflt K cs σ ∧ LegalRun cfg dflt K ds (runAbs cfg dflt K cs σ) := by
  induction cs generalizing σ with
  | nil => exact ⟨trivial, h⟩
  | cons c cs ih => exact ⟨⟨h.1, (ih h.2).1⟩, (ih h.2).2⟩

theorem program_of_sim {cfg : Cfg} (hcfg : cfg.Ok) {dflt : Alloc} {s : St} (hblk : ∀ q, s.live q = none)
    (hconst : ∀ k, 0 < ka k ∧ ((K k).length : Int) ≤ INT_MAX ∧ Holds s.mem (ka k) (K k ++ [0])) (cs : List Cmd) (hl : LegalRun cfg dflt K cs (fun _ => none))
    (hsim : Sim up2 (runExec cfg dflt K ka cs (fun _ => 0) s) (runExec cfg dflt K ka cs (fun _ => 0) s.strict)) :
    (s.CanFail ∧ runExec cfg dflt K ka cs (fun _ => 0) s = .ub .badHeader) ∨ runExec cfg dflt K ka cs (fun _ => 0) s = .env .alloc ∨
      ∃ ρ' s', runExec cfg dflt K ka cs (fun _ => 0) s = .ok (ρ', s') ∧ (∀ i, s.calls ≤ i → i < s'.calls → (s.picks i).addr ≠ 0) ∧
        (∀ h b, runAbs cfg dflt K cs (fun _ => none) h = some (.buf b) →
          ∃ v, strbuf_view s'.mem (some (ρ' h)) = .ok v ∧ ViewOf s'.mem v b.data) ∧
        (∀ h, runAbs cfg dflt K cs (fun _ => none) h = none → ρ' h = 0) ∧
        ∀ q blk, s'.live q = some blk ↔ ∃ h o, runAbs cfg dflt K cs (fun _ => none) h = some o ∧ ρ' h = q ∧ blk = ⟨o.size, o.owner⟩ ∧ o.owner.fn ≠ 0 := by
  have hst : Start K ka s.strict := ⟨hblk, strict_noFail s, hconst⟩
  cases hr : runExec cfg dflt K ka cs (fun _ => 0) s with
  | ok a =>
    obtain ⟨ρ', s'⟩ := a
    obtain ⟨g1, g2⟩ := hsim.answered (st := fun r => r.2) (s := s) (fun _ => rfl)
      (runExec_keeps (Answered.kept _ (strict_noFail s) s.calls) cs (strict_answered s)) hr
    refine .inr (.inr ⟨ρ', s', rfl, g2, ?_⟩)
    rcases C52_contents hcfg hst cs hl with h | ⟨ρ1, s1, h1, h2, _, h4⟩
    · rw [g1] at h; cases h
    · rw [g1] at h1; cases h1
      exact ⟨h2, h4, C43_no_leak (s' := s'.strict) hcfg hst cs hl g1⟩
  | ub w =>
    left
    rcases hsim with ⟨h1, h2⟩ | h
    · rw [hr] at h1; cases h1
      refine ⟨Classical.not_not.1 fun hn => ?_, rfl⟩
      rw [St.strict_eq hn, hr] at h2; cases h2
    · rw [hr] at h
      rcases C52_contents hcfg hst cs hl with h' | ⟨_, _, h', _⟩ <;> · rw [h] at h'; cases h'
  | fuel =>
    rcases hsim with ⟨h1, h2⟩ | h
    · rw [hr] at h1; cases h1
    · rw [hr] at h
      rcases C52_contents hcfg hst cs hl with h' | ⟨_, _, h', _⟩ <;> · rw [h] at h'; cases h'
  | env w =>
    right; left
    rcases hsim with ⟨h1, h2⟩ | h
    · rw [hr] at h1; cases h1
    · rw [hr] at h
      rcases C52_contents hcfg hst cs hl with h' | ⟨_, _, h', _⟩
      · rw [h] at h'; cases h'; rfl
      · rw [h] at h'; cases h'

/-- C92. Whole programs of buffer functions, `strbuf_to_cstr` excepted, with an allocator that may answer NULL at any request: either some request is answered NULL, and the program accesses a
member of NULL there; or it ends with every buffer variable holding what the program says. -/
theorem C92_program_partial {cfg : Cfg} (hcfg : cfg.Ok) {dflt : Alloc} {s : St} (hblk : ∀ q, s.live q = none)
    (hconst : ∀ k, 0 < ka k ∧ ((K k).length : Int) ≤ INT_MAX ∧ Holds s.mem (ka k) (K k ++ [0])) (cs : List Cmd) (hno : ∀ h k, Cmd.toCstr h k ∉ cs)
    (hl : LegalRun cfg dflt K cs (fun _ => none)) :
    (s.CanFail ∧ runExec cfg dflt K ka cs (fun _ => 0) s = .ub .badHeader) ∨ runExec cfg dflt K ka cs (fun _ => 0) s = .env .alloc ∨
      ∃ ρ' s', runExec cfg dflt K ka cs (fun _ => 0) s = .ok (ρ', s') ∧ (∀ i, s.calls ≤ i → i < s'.calls → (s.picks i).addr ≠ 0) ∧
        (∀ h b, runAbs cfg dflt K cs (fun _ => none) h = some (.buf b) →
          ∃ v, strbuf_view s'.mem (some (ρ' h)) = .ok v ∧ ViewOf s'.mem v b.data) ∧
        (∀ h, runAbs cfg dflt K cs (fun _ => none) h = none → ρ' h = 0) ∧
        ∀ q blk, s'.live q = some blk ↔ ∃ h o, runAbs cfg dflt K cs (fun _ => none) h = some o ∧ ρ' h = q ∧ blk = ⟨o.size, o.owner⟩ ∧ o.owner.fn ≠ 0 := by
  exact program_of_sim hcfg hblk hconst cs hl (runExec_sim cfg dflt K ka cs (fun _ => 0) s hno)

/-- The program of C52, when the third request is answered NULL, and when the hundredth is. -/
def failAt (n : Nat) : St := { demoSt with picks := fun i => if i = n then ⟨0, fun _ => 0⟩ else demoSt.picks i }

theorem demo_no_cstr : ∀ h k, Cmd.toCstr h k ∉ demo := by
  intro h k hm
  simp only [demo, List.mem_cons, List.not_mem_nil, or_false] at hm
  rcases hm with hm | hm | hm | hm | hm | hm | hm <;> cases hm

example : (match runExec exCfg ⟨0, 1⟩ demoK demoKa demo (fun _ => 0) (failAt 2) with | .ub .badHeader => true | _ => false) = true := by decide +kernel

example : ∃ ρ' s' v, runExec exCfg ⟨0, 1⟩ demoK demoKa demo (fun _ => 0) (failAt 100) = .ok (ρ', s') ∧
    strbuf_view s'.mem (some (ρ' 0)) = .ok v ∧ ViewOf s'.mem v [97, 98, 97] := by
  have hr : (runExec exCfg ⟨0, 1⟩ demoK demoKa demo (fun _ => 0) (failAt 100)).isOk = true := by decide +kernel
  rcases C92_program_partial exCfg_ok (dflt := ⟨0, 1⟩) (s := failAt 100) (fun _ => rfl) demoStart.const demo demo_no_cstr demo_legal with ⟨_, h⟩ | h | ⟨ρ', s', h, _, h2, _⟩
  · rw [h] at hr; cases hr
  · rw [h] at hr; cases hr
  · obtain ⟨v, g1, g2⟩ := h2 0 _ rfl
    exact ⟨ρ', s', v, h, g1, g2⟩

/-- C92. Every program of buffer functions, `strbuf_to_cstr` included. The only way to go on after a NULL answer is a call of `strbuf_to_cstr` on a dynamic buffer (what it does then is in
`C92_to_cstr_deviation`), and up to that call everything is as it should be. -/
theorem C92_every_program_partial {cfg : Cfg} (hcfg : cfg.Ok) {dflt : Alloc} {s : St} (hblk : ∀ q, s.live q = none)
    (hconst : ∀ k, 0 < ka k ∧ ((K k).length : Int) ≤ INT_MAX ∧ Holds s.mem (ka k) (K k ++ [0])) (cs : List Cmd) (hl : LegalRun cfg dflt K cs (fun _ => none)) :
    (s.CanFail ∧ runExec cfg dflt K ka cs (fun _ => 0) s = .ub .badHeader) ∨ runExec cfg dflt K ka cs (fun _ => 0) s = .env .alloc ∨
    (∃ ρ' s', runExec cfg dflt K ka cs (fun _ => 0) s = .ok (ρ', s') ∧ (∀ i, s.calls ≤ i → i < s'.calls → (s.picks i).addr ≠ 0) ∧
      (∀ h b, runAbs cfg dflt K cs (fun _ => none) h = some (.buf b) →
        ∃ v, strbuf_view s'.mem (some (ρ' h)) = .ok v ∧ ViewOf s'.mem v b.data) ∧
      (∀ h, runAbs cfg dflt K cs (fun _ => none) h = none → ρ' h = 0) ∧
      ∀ q blk, s'.live q = some blk ↔ ∃ h o, runAbs cfg dflt K cs (fun _ => none) h = some o ∧ ρ' h = q ∧ blk = ⟨o.size, o.owner⟩ ∧ o.owner.fn ≠ 0) ∨
    ∃ cs1 h k cs2 ρ1 s1 b, cs = cs1 ++ Cmd.toCstr h k :: cs2 ∧ runExec cfg dflt K ka cs1 (fun _ => 0) s = .ok (ρ1, s1) ∧
      runAbs cfg dflt K cs1 (fun _ => none) h = some (.buf b) ∧ b.Dynamic ∧ BufAt s1 (ρ1 h) b ∧ (s1.picks s1.calls).addr = 0 ∧
      ∀ h' b', runAbs cfg dflt K cs1 (fun _ => none) h' = some (.buf b') → BufAt s1 (ρ1 h') b' := by
  rcases runExec_sim_or cfg dflt K ka cs (fun _ => 0) s with hsim | ⟨cs1, h, k, cs2, ρ1, s1, rfl, h1, h2, h3, h4, h5⟩
  · rcases program_of_sim hcfg hblk hconst cs hl hsim with g | g | g
    · exact .inl g
    · exact .inr (.inl g)
    · exact .inr (.inr (.inl g))
  · right; right; right
    have hst : Start K ka s.strict := ⟨hblk, strict_noFail s, hconst⟩
    obtain ⟨hl1, hl2⟩ := LegalRun_split hl
    rcases run_ok hcfg cs1 hst.rep hl1 with e | ⟨ρ2, s2, e, r⟩
    · rw [h2] at e; cases e
    · rw [h2] at e; cases e
      have hbuf : ∀ h' b', runAbs cfg dflt K cs1 (fun _ => none) h' = some (.buf b') → BufAt s1 (ρ1 h') b' := fun h' b' hb =>
        BufAt.frame (s := s1.strict) (r.obj h' _ hb) (fun _ _ => rfl) (fun _ => rfl)
      cases ho : runAbs cfg dflt K cs1 (fun _ => none) h with
      | none => exact absurd (r.null h ho) h3
      | some o =>
        obtain ⟨b, rfl⟩ := hl2.1.1 o ho
        have hb := hbuf h b ho
        have hd := hb.is_dynamic
        rw [h4] at hd
        exact ⟨cs1, h, k, cs2, ρ1, s1, b, rfl, h1, ho, of_decide_eq_true (Res.ok.inj hd).symm, hb, h5, hbuf⟩

/-- The program of C52 that converts a buffer and releases everything, when the third request, which is that of `strbuf_to_cstr`, is answered NULL. -/
example : (match runExec exCfg ⟨0, 1⟩ demoK demoKa (demo2.take 2) (fun _ => 0) (failAt 2) with | .ok (_, s1) => (s1.picks s1.calls).addr == 0 | _ => false) = true := by decide +kernel

example : (runExec exCfg ⟨0, 1⟩ demoK demoKa demo2 (fun _ => 0) (failAt 100)).isOk = true := by decide +kernel

example := C92_every_program_partial exCfg_ok (dflt := ⟨0, 1⟩) (s := failAt 2) (fun _ => rfl) demoStart.const demo2 demo2_legal

/-- C92 fails for `strbuf_to_cstr`, which accesses no member of the answer but stores a NUL `size` bytes behind it. For every dynamic buffer and an answer of NULL: when there is an object at
the address `size`, one byte of it is overwritten and the call returns NULL; the pointer to the buffer is NULL too, so its block is lost. When there is none, the store is undefined behaviour. -/
theorem C92_to_cstr_deviation {cfg : Cfg} {s : St} {p : Addr} {b : Buf} (hb : BufAt s p b) (hd : b.Dynamic) (hh : (b.data.length : Int) < INT_MAX)
    (hn : (s.picks s.calls).addr = 0) :
    (0 < b.data.length ∧ (s.mem b.data.length).isSome → ∃ s', strbuf_to_cstr cfg s (some p) = .ok (0, some 0, s') ∧ s'.mem b.data.length = some 0 ∧
      s'.live p = some ⟨storage b.cap, b.al⟩ ∧ ∀ a : Addr, a ≠ (b.data.length : Int) → ¬ InRange p b.data.length a → s'.mem a = s.mem a) ∧
    (b.data.length = 0 ∨ s.mem b.data.length = none → strbuf_to_cstr cfg s (some p) = .ub .badWrite) := by
  obtain ⟨J, hJ, hr⟩ := hb.raw
  have hlen := hb.len
  have hsrc := (Holds.append_iff.1 hr.body).1
  have hwp : Writable s.mem p b.data.length := hr.writable.mono (by simp only [List.length_append]; omega)
  have hmv := memmove_eq hsrc hwp
  have hadd : addInt cfg b.data.length 1 = .ok ((b.data.length + 1 : Nat) : Int) := by
    rw [addInt, if_pos (by simp only [INT_MIN, INT_MAX] at *; omega)]; rfl
  have hin := holds_put hwp
  have hout : ∀ a, ¬ InRange p b.data.length a → put s.mem p b.data a = s.mem a := fun a ha => within_put (Int.le_refl _) (Int.le_refl _) a ha
  obtain ⟨s1, hs1⟩ : ∃ s1 : St, s1 = ⟨put s.mem p b.data, s.live, s.picks, s.calls + 1, ⟨b.al, p, b.data.length + 1, 0⟩ :: s.log,
      ⟨put s.mem p b.data, s.live, b.data.length + 1⟩ :: s.moments⟩ := ⟨_, rfl⟩
  have hcall : allocCall { s with mem := put s.mem p b.data } b.al p (b.data.length + 1) = .ok (0, s1) := by
    have hp := hb.pos
    rw [hs1]
    simp only [allocCall]
    rw [if_neg hd]
    simp only [if_neg (show ¬ p = 0 by omega), hb.heap hd, if_true]
    rw [if_neg (by omega), if_pos hn]
  have key : strbuf_to_cstr cfg s (some p) = (store (put s.mem p b.data) b.data.length 0 >>= fun m => .ok (0, some 0, { s1 with mem := m })) := by
    rw [strbuf_to_cstr, deref_some hb.pos]
    simp only
    rw [hb.getSize, Res.bind_ok, hb.is_dynamic, Res.bind_ok, decide_eq_true (show b.al.fn ≠ 0 from hd), if_pos rfl,
      hb.getAlloc, Res.bind_ok, sizeT_nat, hmv, Res.bind_ok, hadd, Res.bind_ok, sizeT_nat, hcall, Res.bind_ok]
    simp only [Int.zero_add, hs1]
  rw [key]
  have hmax : (b.data.length : Int) < litBase := by simp only [INT_MAX, litBase] at *; omega
  have hsome : (put s.mem p b.data b.data.length).isSome = (s.mem b.data.length).isSome := by
    by_cases hi : InRange p b.data.length b.data.length
    · have h1 := hi.1
      have h2 := hi.2
      obtain ⟨i, hi'⟩ : ∃ i : Nat, (b.data.length : Int) = p + i := ⟨((b.data.length : Int) - p).toNat, by omega⟩
      have hm := hb.mapped i (by simp only [storage]; omega)
      rw [hi', hm]
      have hlt : i < b.data.length := by omega
      simp only [put]
      rw [if_pos (by omega), show (p + (i : Int) - p).toNat = i by omega, List.getElem?_eq_getElem hlt]; rfl
    · rw [hout _ hi]
  constructor
  · rintro ⟨h0, hm⟩
    rw [store, if_pos ⟨by omega, hmax, by rw [hsome]; exact hm⟩]
    refine ⟨_, rfl, if_pos rfl, ?_, ?_⟩
    · rw [hs1]; exact hb.heap hd
    · intro a h1 h2
      simp only [if_neg h1]
      exact hout a h2
  · intro h
    rw [store, if_neg]
    · rfl
    · rintro ⟨h1, _, h3⟩
      rcases h with h | h
      · rw [h] at h1; exact absurd h1 (by decide)
      · rw [hsome, h] at h3; cases h3

/-- Nothing at address 5: undefined behaviour. An object there: its byte becomes 0, the result is NULL, the block of the buffer stays allocated and nothing points to it. -/
example : strbuf_to_cstr exCfg (nullSt []) (some exP) = .ub .badWrite :=
  (C92_to_cstr_deviation (nullSt_buf []) (by decide) (by decide) rfl).2 (.inr (by decide +kernel))

example : ∃ s', strbuf_to_cstr exCfg { nullSt [] with mem := fun a => if a = 5 then some 7 else (nullSt []).mem a } (some exP) = .ok (0, some 0, s') ∧
    s'.mem 5 = some 0 ∧ s'.live exP = some ⟨storage 8, ⟨0, 1⟩⟩ := by
  have hb : BufAt { nullSt [] with mem := fun a => if a = 5 then some 7 else (nullSt []).mem a } exP exB :=
    (nullSt_buf []).frame (fun a ha => if_neg fun h => by rw [h] at ha; exact absurd ha.1 (by decide)) (fun _ => rfl)
  obtain ⟨s', h1, h2, h3, _⟩ := (C92_to_cstr_deviation (cfg := exCfg) hb (by decide) (by decide) rfl).1 ⟨by decide, rfl⟩
  exact ⟨s', h1, h2, h3⟩

end CStr
