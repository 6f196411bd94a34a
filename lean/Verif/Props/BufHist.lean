import Verif.Lemmas.BufHist
/-! Properties C52, C43, C32 over whole programs: any number of buffers, any sequence of operations. -/
namespace CStr

/-- C52. A legal program, started in a state that represents `σ`, ends in a state that represents what the program means on byte strings alone (Spec/BufHist.lean),
whatever addresses the allocator chooses and wherever it moves blocks. It cannot go wrong in any other way than by an illegal answer of the allocator (`env .alloc`, see `allocCall`). -/
theorem C52_refinement {cfg : Cfg} (hcfg : cfg.Ok) {dflt : Alloc} {K : Nat → List Byte} {ka : Nat → Addr} {σ : AState} {ρ : Vars} {s : St}
    (r : Rep K ka σ ρ s) (cs : List Cmd) (hl : LegalRun cfg dflt K cs σ) :
    runExec cfg dflt K ka cs ρ s = .env .alloc ∨
      ∃ ρ' s', runExec cfg dflt K ka cs ρ s = .ok (ρ', s') ∧ Rep K ka (runAbs cfg dflt K cs σ) ρ' s' :=
  run_ok hcfg cs r hl

/-- A state at the start of a program: no heap blocks; the constants are in memory. -/
structure Start (K : Nat → List Byte) (ka : Nat → Addr) (s : St) : Prop where
  noBlocks : ∀ q, s.live q = none
  noFail : ∀ i, (s.picks i).addr ≠ 0
  const : ∀ k, 0 < ka k ∧ ((K k).length : Int) ≤ INT_MAX ∧ Holds s.mem (ka k) (K k ++ [0])

theorem Start.rep {K : Nat → List Byte} {ka : Nat → Addr} {s : St} (h : Start K ka s) :
    Rep K ka (fun _ => none) (fun _ => 0) s := by
  refine ⟨⟨⟨?_, ?_⟩, h.noFail⟩, fun _ _ => rfl, ?_, ?_, h.const, ?_, ?_⟩
  · intro q b hq; rw [h.noBlocks] at hq; cases hq
  · intro q b q' b' hq; rw [h.noBlocks] at hq; cases hq
  · intro _ _ h; cases h
  · intro _ _ _ _ h; cases h
  · intro _ _ _ h; cases h
  · intro q b hq; rw [h.noBlocks] at hq; cases hq

/-- C52. After a legal program, `strbuf_view` of every buffer variable shows exactly the bytes that the map from variables to byte strings has there, and the
variables without a buffer are NULL. (Every prefix of a program is a program, so this holds after every step.) -/
theorem C52_contents {cfg : Cfg} (hcfg : cfg.Ok) {dflt : Alloc} {K : Nat → List Byte} {ka : Nat → Addr} {s : St}
    (hs : Start K ka s) (cs : List Cmd) (hl : LegalRun cfg dflt K cs (fun _ => none)) :
    runExec cfg dflt K ka cs (fun _ => 0) s = .env .alloc ∨
      ∃ ρ' s', runExec cfg dflt K ka cs (fun _ => 0) s = .ok (ρ', s') ∧
        (∀ h b, runAbs cfg dflt K cs (fun _ => none) h = some (.buf b) →
          ∃ v, strbuf_view s'.mem (some (ρ' h)) = .ok v ∧ ViewOf s'.mem v b.data) ∧
        (∀ h l al, runAbs cfg dflt K cs (fun _ => none) h = some (.str l al) → Holds s'.mem (ρ' h) (l ++ [0])) ∧
        (∀ h, runAbs cfg dflt K cs (fun _ => none) h = none → ρ' h = 0) := by
  rcases run_ok hcfg cs hs.rep hl with e | ⟨ρ', s', e, r⟩
  · exact .inl e
  · refine .inr ⟨ρ', s', e, ?_, ?_, r.null⟩
    · intro h b hb
      have hba : BufAt s' (ρ' h) b := r.obj h _ hb
      exact ⟨_, by rw [strbuf_view, deref_some hba.pos]; exact hba.view, hba.viewOf⟩
    · intro h l al hh
      exact (r.obj h _ hh).2.2.2.1

/-- C32. After a legal program every buffer is well-formed in memory: size within capacity, content followed by a NUL byte, storage mapped. -/
theorem C32_program {cfg : Cfg} (hcfg : cfg.Ok) {dflt : Alloc} {K : Nat → List Byte} {ka : Nat → Addr} {s : St}
    (hs : Start K ka s) (cs : List Cmd) (hl : LegalRun cfg dflt K cs (fun _ => none)) {ρ' : Vars} {s' : St}
    (he : runExec cfg dflt K ka cs (fun _ => 0) s = .ok (ρ', s')) {h : Nat} {b : Buf}
    (hb : runAbs cfg dflt K cs (fun _ => none) h = some (.buf b)) :
    BufAt s' (ρ' h) b ∧
      ∃ size cap : Nat, getSize s'.mem (ρ' h) = .ok size ∧ getCap s'.mem (ρ' h) = .ok cap ∧ size ≤ cap ∧
        load s'.mem (ρ' h + 24 + size) = .ok 0 := by
  rcases run_ok hcfg cs hs.rep hl with e | ⟨ρ1, s1, e, r⟩
  · rw [he] at e; cases e
  · rw [he] at e; cases e
    have hba : BufAt s' (ρ' h) b := r.obj h _ hb
    refine ⟨hba, b.data.length, b.cap, hba.getSize, hba.getCap, hba.len, ?_⟩
    have h1 := (Holds.append_iff.1 hba.holds).2
    simp only [List.length_append, hdrBytes_length] at h1
    have h2 := h1.load 0 (by simp)
    rwa [show ρ' h + ((24 + b.data.length : Nat) : Int) + ((0 : Nat) : Int) = ρ' h + 24 + b.data.length by omega] at h2

/-- C43. After a legal program the heap blocks are exactly the storage of the dynamic buffers, and of the strings obtained from them, that the program still holds; each is owned by
the allocator it was created with. Nothing has leaked, temporary buffers included. -/
theorem C43_no_leak {cfg : Cfg} (hcfg : cfg.Ok) {dflt : Alloc} {K : Nat → List Byte} {ka : Nat → Addr} {s : St}
    (hs : Start K ka s) (cs : List Cmd) (hl : LegalRun cfg dflt K cs (fun _ => none)) {ρ' : Vars} {s' : St}
    (he : runExec cfg dflt K ka cs (fun _ => 0) s = .ok (ρ', s')) (q : Addr) (blk : LiveBlk) :
    s'.live q = some blk ↔ ∃ h o, runAbs cfg dflt K cs (fun _ => none) h = some o ∧ ρ' h = q ∧ blk = ⟨o.size, o.owner⟩ ∧ o.owner.fn ≠ 0 := by
  rcases run_ok hcfg cs hs.rep hl with e | ⟨ρ1, s1, e, r⟩
  · rw [he] at e; cases e
  · rw [he] at e; cases e
    constructor
    · exact r.owned q blk
    · rintro ⟨h, o, h1, rfl, rfl, h4⟩
      exact (r.obj h o h1).facts.2.2.2.2 h4

/-- C43. If at the end of a legal program all buffers are destroyed and all strings released, the heap is empty. -/
theorem C43_all_released {cfg : Cfg} (hcfg : cfg.Ok) {dflt : Alloc} {K : Nat → List Byte} {ka : Nat → Addr} {s : St}
    (hs : Start K ka s) (cs : List Cmd) (hl : LegalRun cfg dflt K cs (fun _ => none)) {ρ' : Vars} {s' : St}
    (he : runExec cfg dflt K ka cs (fun _ => 0) s = .ok (ρ', s')) (hall : ∀ h, runAbs cfg dflt K cs (fun _ => none) h = none) :
    (∀ q, s'.live q = none) ∧ ∀ h, ρ' h = 0 := by
  rcases run_ok hcfg cs hs.rep hl with e | ⟨ρ1, s1, e, r⟩
  · rw [he] at e; cases e
  · rw [he] at e; cases e
    refine ⟨?_, fun h => r.null h (hall h)⟩
    intro q
    cases hq : s'.live q with
    | none => rfl
    | some blk =>
      obtain ⟨h, o, h1, _⟩ := r.owned q blk hq
      rw [hall h] at h1; cases h1

/-! A program, to show that the hypotheses can be met and the runs do not end in `env`. -/

/-- Constants "ab", "l", "" at fixed addresses. -/
def demoK : Nat → List Byte
  | 0 => [97, 98]
  | 1 => [108]
  | _ => []

def demoKa : Nat → Addr
  | 0 => 16
  | 1 => 24
  | _ => 32

/-- Memory with the constants; the allocator answers with ever higher addresses. -/
def demoSt : St where
  mem := fun a => if a = 16 then some 97 else if a = 17 then some 98 else if a = 18 then some 0 else if a = 24 then some 108
    else if a = 25 then some 0 else if a = 32 then some 0 else none
  live := fun _ => none
  picks := fun i => ⟨4096 + 65536 * i, fun _ => 170⟩
  calls := 0
  log := []

theorem demoStart : Start demoK demoKa demoSt := by
  refine ⟨fun _ => rfl, fun i => by simp only [demoSt]; omega, ?_⟩
  intro k
  match k with
  | 0 => exact ⟨by decide, by decide, by intro i hi; match i, hi with | 0, _ => rfl | 1, _ => rfl | 2, _ => rfl⟩
  | 1 => exact ⟨by decide, by decide, by intro i hi; match i, hi with | 0, _ => rfl | 1, _ => rfl⟩
  | k + 2 => exact ⟨(by decide : (0 : Int) < 32), (by decide : (0 : Int) ≤ INT_MAX), by intro i hi; match i, hi with | 0, _ => rfl⟩

/-- Two buffers; one is built from the other and from itself; `cat` onto itself; conversion to a string; everything released. -/
def demo : List Cmd := [
  .createInit 0 (.const 0) none,
  .createEmpty 1 0 (some ⟨7, 9⟩),
  .op 1 (.append (.sub 0 0 2147483647)),
  .op 1 (.insertAtIndex (-1) (.sub 1 0 2)),
  .op 0 (.cat [.sub 1 1 3, .const 1, .sub 0 0 1]),
  .op 1 (.printf [.text [60], .arg (.sub 0 0 2147483647), .text [62]]),
  .op 0 (.strip (.const 1))]

theorem demo_legal : LegalRun exCfg ⟨0, 1⟩ demoK demo (fun _ => none) := by
  have hb : ∀ {b : Buf}, ∀ o, some (Obj.buf b) = some o → ∃ b, o = .buf b := fun o h => ⟨_, (Option.some.inj h).symm⟩
  refine ⟨⟨rfl, ⟨by decide, by decide, by decide⟩, trivial⟩, ⟨rfl, ⟨by decide, by decide, by decide⟩, by decide⟩,
    ⟨hb, ⟨hb, by decide⟩, ?_⟩, ⟨hb, ⟨hb, by decide⟩, ?_⟩, ⟨hb, ?_, ?_⟩, ⟨hb, ?_, ?_⟩, ⟨hb, ⟨trivial, rfl⟩, ?_⟩, trivial⟩
  · intro b e; cases e; exact ⟨.inl rfl, (by decide : INT_MIN ≤ 0 ∧ 0 ≤ INT_MAX)⟩
  · intro b e; cases e; exact ⟨.inl rfl, (by decide : INT_MIN ≤ -1 ∧ -1 ≤ INT_MAX)⟩
  · intro x hx
    simp only [List.mem_cons, List.not_mem_nil, or_false] at hx
    rcases hx with rfl | rfl | rfl
    · exact ⟨hb, by decide⟩
    · trivial
    · exact ⟨hb, by decide⟩
  · intro b e; cases e; exact ⟨.inl rfl, trivial⟩
  · intro x hx
    simp only [List.mem_cons, List.not_mem_nil, or_false] at hx
    rcases hx with rfl | rfl | rfl
    · trivial
    · exact ⟨⟨hb, by decide⟩, rfl⟩
    · trivial
  · intro b e; cases e; exact ⟨.inl rfl, (by decide : ((6 : Nat) : Int) ≤ INT_MAX), .inl rfl⟩
  · intro b e; cases e; exact ⟨.inl rfl, trivial⟩

/-- What the program means: slot 0 is "aba", slot 1 is "<abla>". -/
example : ∃ b0 b1, runAbs exCfg ⟨0, 1⟩ demoK demo (fun _ => none) 0 = some (.buf b0) ∧
    runAbs exCfg ⟨0, 1⟩ demoK demo (fun _ => none) 1 = some (.buf b1) ∧ b0.data = [97, 98, 97] ∧
    b1.data = [60, 97, 98, 108, 97, 62] ∧ b1.al = ⟨7, 9⟩ := ⟨_, _, rfl, rfl, by decide +kernel, by decide +kernel, rfl⟩

/-- The run does not end in `env`. -/
theorem demo_runs : (runExec exCfg ⟨0, 1⟩ demoK demoKa demo (fun _ => 0) demoSt).isOk = true := by decide +kernel

/-- So the machine shows the same. -/
example : ∃ ρ' s' v, runExec exCfg ⟨0, 1⟩ demoK demoKa demo (fun _ => 0) demoSt = .ok (ρ', s') ∧
    strbuf_view s'.mem (some (ρ' 0)) = .ok v ∧ ViewOf s'.mem v [97, 98, 97] := by
  rcases C52_contents exCfg_ok demoStart demo demo_legal with e | ⟨ρ', s', e, h, _⟩
  · have := demo_runs; rw [e] at this; cases this
  · obtain ⟨v, h1, h2⟩ := h 0 _ rfl
    exact ⟨ρ', s', v, e, h1, h2⟩

/-- A program that releases everything: one buffer is turned into a string, which is used and released, the other is destroyed. -/
def demo2 : List Cmd := [
  .createInit 0 (.const 0) (some ⟨7, 9⟩),
  .createEmpty 1 3 none,
  .toCstr 0 2,
  .op 1 (.appendCstr (.str 2)),
  .freeStr 2 ⟨7, 9⟩,
  .destroy 1,
  .destroy 1]

theorem demo2_legal : LegalRun exCfg ⟨0, 1⟩ demoK demo2 (fun _ => none) := by
  have hb : ∀ {b : Buf}, ∀ o, some (Obj.buf b) = some o → ∃ b, o = .buf b := fun o h => ⟨_, (Option.some.inj h).symm⟩
  refine ⟨⟨rfl, ⟨by decide, by decide, by decide⟩, trivial⟩, ⟨rfl, ⟨by decide, by decide, by decide⟩, by decide⟩,
    ⟨hb, rfl, by decide, ?_⟩, ⟨hb, ⟨(by decide : (0 : Byte) ∉ [97, 98]), _, _, rfl⟩, ?_⟩, ⟨⟨_, rfl⟩, by decide⟩, hb, (fun _ h => by cases h), trivial⟩
  · intro b e _; cases e; exact (by decide : ((2 : Nat) : Int) < INT_MAX)
  · intro b e; cases e; exact ⟨.inl rfl, (by decide : INT_MIN ≤ 0 ∧ 0 ≤ INT_MAX)⟩

example : ∃ ρ' s', runExec exCfg ⟨0, 1⟩ demoK demoKa demo2 (fun _ => 0) demoSt = .ok (ρ', s') ∧ (∀ q, s'.live q = none) ∧ ∀ h, ρ' h = 0 := by
  rcases C52_contents exCfg_ok demoStart demo2 demo2_legal with e | ⟨ρ', s', e, _⟩
  · have : (runExec exCfg ⟨0, 1⟩ demoK demoKa demo2 (fun _ => 0) demoSt).isOk = true := by decide +kernel
    rw [e] at this; cases this
  · refine ⟨ρ', s', e, C43_all_released exCfg_ok demoStart demo2 demo2_legal e ?_⟩
    intro h
    match h with
    | 0 => rfl
    | 1 => rfl
    | 2 => rfl
    | h + 3 => rfl

/-- A state with a memory area of 40 bytes in slot 0, for a fixed buffer. -/
def areaSt : St := { demoSt with mem := fun a => if 1024 ≤ a ∧ a < 1064 then some 170 else demoSt.mem a }

theorem areaRep : Rep demoK demoKa (fun h => if h = 0 then some (.mem 40) else none) (fun h => if h = 0 then 1024 else 0) areaSt := by
  have hc : ∀ k, 0 < demoKa k ∧ demoKa k + ((demoK k).length + 1 : Nat) ≤ 40 := by
    intro k
    match k with
    | 0 => exact by decide
    | 1 => exact by decide
    | k + 2 => exact ⟨(by decide : (0 : Int) < 32), (by decide : (32 : Int) + ((0 + 1 : Nat) : Int) ≤ 40)⟩
  refine ⟨⟨⟨(fun _ _ h => by cases h), (fun _ _ _ _ h => by cases h)⟩, demoStart.noFail⟩, ?_, ?_, ?_, ?_, ?_, (fun _ _ h => by cases h)⟩
  · intro h e
    split at e
    · cases e
    · next e' => exact if_neg e'
  · intro h o e
    split at e
    · next e' =>
      cases e
      simp only [if_pos e']
      refine ⟨by decide, by decide, by decide, by decide, ?_⟩
      intro i hi
      simp only [areaSt]
      rw [if_pos (by omega)]; rfl
    · cases e
  · intro h k o o' e1 e2 hne
    split at e1
    · split at e2
      · omega
      · cases e2
    · cases e1
  · intro k
    obtain ⟨c1, c2, c3⟩ := demoStart.const k
    refine ⟨c1, c2, ?_⟩
    apply c3.congr
    intro i hi
    have := hc k
    simp only [List.length_append, List.length_cons, List.length_nil] at hi
    simp only [areaSt]
    rw [if_neg (by omega)]
  · intro k h o e
    split at e
    · next e' =>
      cases e
      have := hc k
      left
      simp only [if_pos e']; omega
    · cases e

/-- A fixed buffer of capacity 15 on that area: text that fits is stored; text that does not fit leaves it empty. -/
def demo3 : List Cmd := [.createFixed 1 0 40, .op 1 (.append (.const 0)), .op 1 (.insertAtIndex 1 (.sub 1 0 2)), .op 1 (.cat [.const 0, .const 1]),
  .op 1 (.printf [.text [1, 2, 3, 4, 5, 6, 7, 8, 9, 10, 11, 12, 13, 14, 15, 16]]), .op 1 (.appendChar 97), .destroy 1]

theorem demo3_legal : LegalRun exCfg ⟨0, 1⟩ demoK demo3 (fun h => if h = 0 then some (.mem 40) else none) := by
  have hb : ∀ {b : Buf}, ∀ o, some (Obj.buf b) = some o → ∃ b, o = .buf b := fun o h => ⟨_, (Option.some.inj h).symm⟩
  refine ⟨⟨rfl, rfl, by decide⟩, ⟨hb, trivial, ?_⟩, ⟨hb, ⟨hb, by decide⟩, ?_⟩, ⟨hb, ?_, ?_⟩, ⟨hb, ?_, ?_⟩, ⟨hb, trivial, ?_⟩, hb, trivial⟩
  · intro b e; cases e; exact ⟨.inl rfl, (by decide : INT_MIN ≤ 0 ∧ 0 ≤ INT_MAX)⟩
  · intro b e; cases e; exact ⟨.inl rfl, (by decide : INT_MIN ≤ 1 ∧ 1 ≤ INT_MAX)⟩
  · intro x hx
    simp only [List.mem_cons, List.not_mem_nil, or_false] at hx
    rcases hx with rfl | rfl <;> trivial
  · intro b e; cases e; exact ⟨.inl rfl, trivial⟩
  · intro x hx
    simp only [List.mem_cons, List.not_mem_nil, or_false] at hx
    subst hx; trivial
  · intro b e; cases e; exact ⟨.inl rfl, (by decide : ((16 : Nat) : Int) ≤ INT_MAX), .inl rfl⟩
  · intro b e; cases e; exact ⟨.inl rfl, trivial⟩

example : ∃ ρ' s', runExec exCfg ⟨0, 1⟩ demoK demoKa (demo3.take 4) (fun h => if h = 0 then 1024 else 0) areaSt = .ok (ρ', s') ∧
    BufAt s' (ρ' 1) ⟨[97, 98, 108], 15, ⟨0, 0⟩⟩ := by
  rcases C52_refinement (dflt := ⟨0, 1⟩) exCfg_ok areaRep (demo3.take 4)
    ⟨demo3_legal.1, demo3_legal.2.1, demo3_legal.2.2.1, demo3_legal.2.2.2.1, trivial⟩ with e | ⟨ρ', s', e, r⟩
  · have : (runExec exCfg ⟨0, 1⟩ demoK demoKa (demo3.take 4) (fun h => if h = 0 then 1024 else 0) areaSt).isOk = true := by decide +kernel
    rw [e] at this; cases this
  · exact ⟨ρ', s', e, r.obj 1 _ rfl⟩

end CStr
