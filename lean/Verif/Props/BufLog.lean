import Verif.Lemmas.BufLog
import Verif.Props.BufHist
/-! Property C43: the calls of the allocator functions, judged from the calls alone. -/
namespace CStr

/-- C43. In every legal program each call of an allocator function that passes a block passes one that this same allocator has returned and that has not been released or
moved since: no double release, no release with a foreign allocator, no use of the allocator after the last reference is gone. -/
theorem C43_allocator_protocol {cfg : Cfg} (hcfg : cfg.Ok) {dflt : Alloc} {K : Nat → List Byte} {ka : Nat → Addr} {s : St}
    (hs : Start K ka s) (hlog : s.log = []) (cs : List Cmd) (hl : LegalRun cfg dflt K cs (fun _ => none)) :
    runExec cfg dflt K ka cs (fun _ => 0) s = .env .alloc ∨
      ∃ ρ' s', runExec cfg dflt K ka cs (fun _ => 0) s = .ok (ρ', s') ∧ Protocol s'.log ∧
        ∀ q al, ownerAfter s'.log q = some al ↔
          ∃ h o, runAbs cfg dflt K cs (fun _ => none) h = some o ∧ ρ' h = q ∧ o.owner = al ∧ al.fn ≠ 0 := by
  rcases run_ok hcfg cs hs.rep hl with e | ⟨ρ', s', e, r⟩
  · exact .inl e
  · have h0 : Logged s := ⟨by rw [hlog]; trivial, by intro q; rw [hlog, hs.noBlocks]; rfl, hs.noBlocks 0⟩
    have hL : Logged s' := (runExec_keeps Logged.kept cs h0).out _ e
    refine .inr ⟨ρ', s', e, hL.protocol, ?_⟩
    intro q al
    rw [hL.owner]
    constructor
    · intro h
      cases hq : s'.live q with
      | none => rw [hq] at h; cases h
      | some blk =>
        rw [hq] at h; cases h
        obtain ⟨k, o, h1, h2, h3, h4⟩ := (C43_no_leak hcfg hs cs hl e q blk).1 hq
        exact ⟨k, o, h1, h2, by rw [h3], by rw [h3]; exact h4⟩
    · rintro ⟨k, o, h1, h2, h3, h4⟩
      have := (C43_no_leak hcfg hs cs hl e q ⟨o.size, o.owner⟩).2 ⟨k, o, h1, h2, rfl, by rw [h3]; exact h4⟩
      rw [this, Option.map_some, h3]

/-- C43. When everything has been destroyed or released, the calls balance: the calls alone show no block left. -/
theorem C43_balanced {cfg : Cfg} (hcfg : cfg.Ok) {dflt : Alloc} {K : Nat → List Byte} {ka : Nat → Addr} {s : St}
    (hs : Start K ka s) (hlog : s.log = []) (cs : List Cmd) (hl : LegalRun cfg dflt K cs (fun _ => none)) {ρ' : Vars} {s' : St}
    (he : runExec cfg dflt K ka cs (fun _ => 0) s = .ok (ρ', s')) (hall : ∀ h, runAbs cfg dflt K cs (fun _ => none) h = none) (q : Addr) :
    ownerAfter s'.log q = none := by
  rcases C43_allocator_protocol hcfg hs hlog cs hl with e | ⟨ρ1, s1, e, _, h⟩
  · rw [he] at e; cases e
  · rw [he] at e; cases e
    cases hq : ownerAfter s'.log q with
    | none => rfl
    | some al =>
      obtain ⟨k, o, h1, _⟩ := (h q al).1 hq
      rw [hall k] at h1; cases h1

/-- The log of a program with two allocators: five calls, balanced. -/
example : ∃ ρ' s', runExec exCfg ⟨0, 1⟩ demoK demoKa demo2 (fun _ => 0) demoSt = .ok (ρ', s') ∧ Protocol s'.log ∧ s'.log.length = 5 := by
  rcases C43_allocator_protocol exCfg_ok demoStart rfl demo2 demo2_legal with e | ⟨ρ', s', e, h, _⟩
  · have : (runExec exCfg ⟨0, 1⟩ demoK demoKa demo2 (fun _ => 0) demoSt).isOk = true := by decide +kernel
    rw [e] at this; cases this
  · refine ⟨ρ', s', e, h, ?_⟩
    have h2 : (match runExec exCfg ⟨0, 1⟩ demoK demoKa demo2 (fun _ => 0) demoSt with
      | .ok (_, s') => s'.log.length | _ => 0) = 5 := by decide +kernel
    rw [e] at h2; exact h2

end CStr
