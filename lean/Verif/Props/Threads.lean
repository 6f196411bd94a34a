import Verif.Spec.Threads
import Verif.Props.BufHist
/-! Property C76: threads that use different buffers do not influence each other. -/
namespace CStr

/-- The states agree on the variables in `P`. -/
def Agree (P : Nat → Prop) (σ σ' : AState) : Prop := ∀ h, P h → σ h = σ' h

section
variable {P : Nat → Prop} {σ σ' : AState} {K : Nat → List Byte}

theorem Agree.data (a : Agree P σ σ') {h : Nat} (hh : P h) : σ.data h = σ'.data h := by simp only [AState.data, a h hh]
theorem Agree.handle (a : Agree P σ σ') {h : Nat} (hh : P h) : σ.Handle h ↔ σ'.Handle h := by simp only [AState.Handle, a h hh]

theorem Src.bytes_congr (a : Agree P σ σ') {x : Src} (hx : ∀ h ∈ x.slots, P h) : x.bytes K σ = x.bytes K σ' := by
  cases x with
  | const k => rfl
  | sub h b e => simp only [Src.bytes, a.data (hx h (by simp [Src.slots]))]
  | null => rfl
  | part r i n =>
    cases r with
    | buf h => simp only [Src.bytes, Ref.text, a.data (hx h (by simp [Src.slots]))]
    | const k => rfl

theorem Src.placeIn_congr (a : Agree P σ σ') {x : Src} {h : Nat} (hh : P h) : x.placeIn σ h = x.placeIn σ' h := by
  cases x with
  | const k => rfl
  | sub k b e => simp only [Src.placeIn, a.data hh]
  | null => rfl
  | part r i n => rfl

theorem Src.own_congr (a : Agree P σ σ') {x : Src} {h : Nat} (hh : P h) : x.own σ h = x.own σ' h := by
  simp only [Src.own, Src.placeIn_congr a hh, a.data hh]

theorem Src.legal_congr (a : Agree P σ σ') {x : Src} (hx : ∀ h ∈ x.slots, P h) : x.Legal K σ ↔ x.Legal K σ' := by
  cases x with
  | const k => exact Iff.rfl
  | sub h b e => simp only [Src.Legal, a.handle (hx h (by simp [Src.slots]))]
  | null => exact Iff.rfl
  | part r i n =>
    cases r with
    | buf h => simp only [Src.Legal, Ref.There, Ref.text, a h (hx h (by simp [Src.slots])), a.data (hx h (by simp [Src.slots]))]
    | const k => exact Iff.rfl

theorem CSrc.bytes_congr (a : Agree P σ σ') {x : CSrc} (hx : ∀ h ∈ x.slots, P h) : x.bytes K σ = x.bytes K σ' := by
  cases x with
  | const k => rfl
  | tail h i => simp only [CSrc.bytes, a.data (hx h (by simp [CSrc.slots]))]
  | str h => simp only [CSrc.bytes, a h (hx h (by simp [CSrc.slots]))]

theorem CSrc.legal_congr (a : Agree P σ σ') {x : CSrc} (hx : ∀ h ∈ x.slots, P h) : x.Legal K σ ↔ x.Legal K σ' := by
  unfold CSrc.Legal
  rw [CSrc.bytes_congr a hx]
  cases x with
  | const k => exact Iff.rfl
  | tail h i => simp only [a h (hx h (by simp [CSrc.slots]))]
  | str h => simp only [a h (hx h (by simp [CSrc.slots]))]

theorem Piece.bytes_congr (a : Agree P σ σ') {x : Piece} (hx : ∀ h ∈ x.slots, P h) : x.bytes K σ = x.bytes K σ' := by
  cases x with
  | text l => rfl
  | arg x => simp only [Piece.bytes, Src.bytes_congr a hx]

theorem Piece.legal_congr (a : Agree P σ σ') {x : Piece} {h : Nat} (hh : P h) (hx : ∀ h ∈ x.slots, P h) : x.Legal K σ h ↔ x.Legal K σ' h := by
  cases x with
  | text l => exact Iff.rfl
  | arg x => simp only [Piece.Legal, Src.legal_congr a hx, Src.own_congr a hh]

theorem slots_left {α : Type} {l l' : List α} {Q : α → Prop} (h : ∀ x ∈ l ++ l', Q x) : ∀ x ∈ l, Q x := fun x hx => h x (by simp [hx])
theorem slots_right {α : Type} {l l' : List α} {Q : α → Prop} (h : ∀ x ∈ l ++ l', Q x) : ∀ x ∈ l', Q x := fun x hx => h x (by simp [hx])
theorem slots_mem {α β : Type} {f : α → List β} {l : List α} {Q : β → Prop} (h : ∀ y ∈ l.flatMap f, Q y) {x : α} (hx : x ∈ l) : ∀ y ∈ f x, Q y :=
  fun y hy => h y (List.mem_flatMap.2 ⟨x, hx, hy⟩)

theorem HOp.edit_congr (a : Agree P σ σ') {o : HOp} {h : Nat} (hh : P h) (ho : ∀ k ∈ o.slots, P k) (b : Buf) : o.edit K σ h b = o.edit K σ' h b := by
  cases o with
  | append x | prepend x | insertAtIndex i x | assign x | strip x => simp only [HOp.edit, Src.bytes_congr a ho]
  | appendCstr x | prependCstr x | insertAtIndexCstr i x | stripCstr x => simp only [HOp.edit, CSrc.bytes_congr a ho]
  | insertBefore dst x | insertAfter dst x => simp only [HOp.edit, Src.bytes_congr a (slots_right ho), Src.placeIn_congr a hh]
  | insertBeforeCstr dst x | insertAfterCstr dst x => simp only [HOp.edit, CSrc.bytes_congr a (slots_right ho), Src.placeIn_congr a hh]
  | cat xs =>
    simp only [HOp.edit]
    congr 1
    · exact List.map_congr_left fun x hx => Src.bytes_congr a (slots_mem ho hx)
    · congr 1; funext x; exact Src.own_congr a hh
  | printf ps | appendPrintf ps =>
    simp only [HOp.edit]
    congr 2
    exact List.map_congr_left fun x hx => Piece.bytes_congr a (slots_mem ho hx)
  | appendChar c | shrink | grow n | appendUsing t | prnf t | appendPrnf t => rfl

theorem HOp.args_congr (a : Agree P σ σ') {o : HOp} {h : Nat} (hh : P h) (ho : ∀ k ∈ o.slots, P k) : o.Args K σ h ↔ o.Args K σ' h := by
  cases o with
  | append x | prepend x | insertAtIndex i x | assign x => simp only [HOp.Args, Src.legal_congr a ho]
  | strip x => simp only [HOp.Args, Src.legal_congr a ho, Src.own_congr a hh]
  | appendCstr x | prependCstr x | insertAtIndexCstr i x | stripCstr x => simp only [HOp.Args, CSrc.legal_congr a ho]
  | insertBefore dst x | insertAfter dst x => simp only [HOp.Args, Src.legal_congr a (slots_left ho), Src.legal_congr a (slots_right ho)]
  | insertBeforeCstr dst x | insertAfterCstr dst x => simp only [HOp.Args, Src.legal_congr a (slots_left ho), CSrc.legal_congr a (slots_right ho)]
  | cat xs => exact forall_congr' fun x => forall_congr' fun hx => Src.legal_congr a (slots_mem ho hx)
  | printf ps | appendPrintf ps => exact forall_congr' fun x => forall_congr' fun hx => Piece.legal_congr a hh (slots_mem ho hx)
  | appendChar c | shrink | grow n | appendUsing t | prnf t | appendPrnf t => exact Iff.rfl

theorem Cmd.legal_congr {cfg : Cfg} {dflt : Alloc} (a : Agree P σ σ') {c : Cmd} (hc : ∀ k ∈ c.slots, P k) :
    c.Legal cfg dflt K σ ↔ c.Legal cfg dflt K σ' := by
  cases c with
  | createEmpty h n o => simp only [Cmd.Legal, a h (hc h (by simp [Cmd.slots]))]
  | createInit h x o =>
    simp only [Cmd.Legal, a h (hc h (by simp [Cmd.slots])), Src.legal_congr a (x := x) fun k hk => hc k (by simp [Cmd.slots, hk])]
  | createFixed h k n => simp only [Cmd.Legal, a h (hc h (by simp [Cmd.slots])), a k (hc k (by simp [Cmd.slots]))]
  | destroy h => simp only [Cmd.Legal, a.handle (hc h (by simp [Cmd.slots]))]
  | toCstr h k => simp only [Cmd.Legal, a.handle (hc h (by simp [Cmd.slots])), a h (hc h (by simp [Cmd.slots])), a k (hc k (by simp [Cmd.slots]))]
  | freeStr k al => simp only [Cmd.Legal, a k (hc k (by simp [Cmd.slots]))]
  | op h o =>
    have hh := hc h (by simp [Cmd.slots])
    have ho : ∀ k ∈ o.slots, P k := fun k hk => hc k (by simp [Cmd.slots, hk])
    simp only [Cmd.Legal, a.handle hh, HOp.args_congr a hh ho, a h hh, HOp.edit_congr a hh ho]

theorem Agree.set (a : Agree P σ σ') (h : Nat) (o : Option Obj) : Agree P (σ.set h o) (σ'.set h o) := by
  intro k hk
  simp only [AState.set]
  split
  · rfl
  · exact a k hk

theorem Cmd.step_congr {cfg : Cfg} {dflt : Alloc} (a : Agree P σ σ') {c : Cmd} (hc : ∀ k ∈ c.slots, P k) :
    Agree P (c.step cfg dflt K σ) (c.step cfg dflt K σ') := by
  cases c with
  | createEmpty h n o => exact a.set _ _
  | createInit h x o =>
    simp only [Cmd.step, Src.bytes_congr a (x := x) fun k hk => hc k (by simp [Cmd.slots, hk])]
    exact a.set _ _
  | createFixed h k n => exact (a.set _ _).set _ _
  | destroy h => exact a.set _ _
  | toCstr h k =>
    simp only [Cmd.step, a h (hc h (by simp [Cmd.slots]))]
    split
    · exact (a.set _ _).set _ _
    · exact a
  | freeStr k al => exact a.set _ _
  | op h o =>
    have hh := hc h (by simp [Cmd.slots])
    have ho : ∀ k ∈ o.slots, P k := fun k hk => hc k (by simp [Cmd.slots, hk])
    simp only [Cmd.step, a h hh, HOp.edit_congr a hh ho]
    split
    · exact a.set _ _
    · exact a

theorem set_other {h : Nat} {o : Option Obj} (hp : ¬ P h) : Agree P (σ.set h o) σ := by
  intro k hk
  have : k ≠ h := fun e => hp (e ▸ hk)
  simp only [AState.set, if_neg this]

theorem Agree.trans {σ'' : AState} (a : Agree P σ σ') (b : Agree P σ' σ'') : Agree P σ σ'' := fun h hh => (a h hh).trans (b h hh)

theorem Cmd.step_other {cfg : Cfg} {dflt : Alloc} {c : Cmd} (hc : ∀ k ∈ c.slots, ¬ P k) : Agree P (c.step cfg dflt K σ) σ := by
  cases c with
  | createEmpty h n o => exact set_other (hc h (by simp [Cmd.slots]))
  | createInit h x o => exact set_other (hc h (by simp [Cmd.slots]))
  | createFixed h k n => exact (set_other (hc h (by simp [Cmd.slots]))).trans (set_other (hc k (by simp [Cmd.slots])))
  | destroy h => exact set_other (hc h (by simp [Cmd.slots]))
  | toCstr h k =>
    simp only [Cmd.step]
    split
    · exact (set_other (hc k (by simp [Cmd.slots]))).trans (set_other (hc h (by simp [Cmd.slots])))
    · exact fun _ _ => rfl
  | freeStr k al => exact set_other (hc k (by simp [Cmd.slots]))
  | op h o =>
    simp only [Cmd.step]
    split
    · exact set_other (hc h (by simp [Cmd.slots]))
    · exact fun _ _ => rfl

theorem runAbs_congr {cfg : Cfg} {dflt : Alloc} (a : Agree P σ σ') {cs : List Cmd} (hc : ∀ c ∈ cs, ∀ k ∈ c.slots, P k) :
    Agree P (runAbs cfg dflt K cs σ) (runAbs cfg dflt K cs σ') ∧ (LegalRun cfg dflt K cs σ ↔ LegalRun cfg dflt K cs σ') := by
  induction cs generalizing σ σ' with
  | nil => exact ⟨a, Iff.rfl⟩
  | cons c cs ih =>
    have h1 := hc c (by simp)
    have := ih (Cmd.step_congr (cfg := cfg) (dflt := dflt) (K := K) a h1) fun d hd => hc d (by simp [hd])
    exact ⟨this.1, and_congr (Cmd.legal_congr a h1) this.2⟩
end

theorem threadProgram_cons_same (t : Nat) (c : Cmd) (run : List TCmd) : threadProgram ((t, c) :: run) t = c :: threadProgram run t := by
  simp [threadProgram]

theorem threadProgram_cons_other {t u : Nat} (h : u ≠ t) (c : Cmd) (run : List TCmd) : threadProgram ((u, c) :: run) t = threadProgram run t := by
  simp [threadProgram, h]

theorem threadProgram_slots {owner : Nat → Nat} {run : List TCmd} (h : OwnVariables owner run) (t : Nat) :
    ∀ c ∈ threadProgram run t, ∀ k ∈ c.slots, owner k = t := by
  intro c hc k hk
  simp only [threadProgram, List.mem_map, List.mem_filter, decide_eq_true_eq] at hc
  obtain ⟨tc, ⟨h1, rfl⟩, rfl⟩ := hc
  exact h tc h1 k hk

theorem interleaved {cfg : Cfg} {dflt : Alloc} {K : Nat → List Byte} {owner : Nat → Nat} {run : List TCmd} (h : OwnVariables owner run) (σ : AState) :
    (∀ t, Agree (fun k => owner k = t) (runAbs cfg dflt K (run.map (·.2)) σ) (runAbs cfg dflt K (threadProgram run t) σ)) ∧
    (LegalRun cfg dflt K (run.map (·.2)) σ ↔ ∀ t, LegalRun cfg dflt K (threadProgram run t) σ) := by
  induction run generalizing σ with
  | nil => exact ⟨fun _ _ _ => rfl, ⟨fun _ _ => trivial, fun _ => trivial⟩⟩
  | cons tc run ih =>
    obtain ⟨u, c⟩ := tc
    have hc : ∀ k ∈ c.slots, owner k = u := h (u, c) (by simp)
    have hr : OwnVariables owner run := fun d hd => h d (by simp [hd])
    obtain ⟨i1, i2⟩ := ih hr (c.step cfg dflt K σ)
    have other : ∀ t, u ≠ t → Agree (fun k => owner k = t) (c.step cfg dflt K σ) σ := fun t ht =>
      Cmd.step_other fun k hk e => ht ((hc k hk).symm.trans e)
    have rest : ∀ t, u ≠ t → _ := fun t ht => runAbs_congr (cfg := cfg) (dflt := dflt) (K := K) (other t ht) (threadProgram_slots hr t)
    constructor
    · intro t
      by_cases ht : u = t
      · subst ht
        rw [threadProgram_cons_same]
        exact i1 u
      · rw [threadProgram_cons_other ht]
        exact (i1 t).trans (rest t ht).1
    · constructor
      · rintro ⟨h1, h2⟩ t
        by_cases ht : u = t
        · subst ht
          rw [threadProgram_cons_same]
          exact ⟨h1, i2.1 h2 u⟩
        · rw [threadProgram_cons_other ht]
          exact (rest t ht).2.1 (i2.1 h2 t)
      · intro hl
        have hu := hl u
        rw [threadProgram_cons_same] at hu
        refine ⟨hu.1, i2.2 fun t => ?_⟩
        by_cases ht : u = t
        · subst ht; exact hu.2
        · have := hl t
          rw [threadProgram_cons_other ht] at this
          exact (rest t ht).2.2 this

/-- C76. Threads use their own buffers only, and their calls alternate in any order `run`. If the program of each thread, taken alone, is legal, then the whole run is free of undefined behaviour,
whatever the allocator answers; and at the end the buffers, strings and NULL variables of each thread are exactly what its program gives when it runs alone. -/
theorem C76_schedule {cfg : Cfg} (hcfg : cfg.Ok) {dflt : Alloc} {K : Nat → List Byte} {ka : Nat → Addr} {s : St} (hs : Start K ka s)
    {owner : Nat → Nat} {run : List TCmd} (h : OwnVariables owner run) (hl : ∀ t, LegalRun cfg dflt K (threadProgram run t) (fun _ => none)) :
    runExec cfg dflt K ka (run.map (·.2)) (fun _ => 0) s = .env .alloc ∨
      ∃ ρ' s', runExec cfg dflt K ka (run.map (·.2)) (fun _ => 0) s = .ok (ρ', s') ∧
        ∀ k, (∀ b, runAbs cfg dflt K (threadProgram run (owner k)) (fun _ => none) k = some (.buf b) →
            ∃ v, strbuf_view s'.mem (some (ρ' k)) = .ok v ∧ ViewOf s'.mem v b.data) ∧
          (∀ l al, runAbs cfg dflt K (threadProgram run (owner k)) (fun _ => none) k = some (.str l al) → Holds s'.mem (ρ' k) (l ++ [0])) ∧
          (runAbs cfg dflt K (threadProgram run (owner k)) (fun _ => none) k = none → ρ' k = 0) := by
  obtain ⟨i1, i2⟩ := interleaved (cfg := cfg) (dflt := dflt) (K := K) h (fun _ => none)
  rcases C52_contents hcfg hs (run.map (·.2)) (i2.2 hl) with e | ⟨ρ', s', e, h1, h2, h3⟩
  · exact .inl e
  · refine .inr ⟨ρ', s', e, fun k => ?_⟩
    rw [← i1 (owner k) k rfl]
    exact ⟨h1 k, h2 k, h3 k⟩

/-- C76. In particular two runs of the same threads in different orders leave the same contents. -/
theorem C76_order {cfg : Cfg} (hcfg : cfg.Ok) {dflt : Alloc} {K : Nat → List Byte} {ka ka' : Nat → Addr} {s1 s2 : St} (hs1 : Start K ka s1) (hs2 : Start K ka' s2)
    {owner : Nat → Nat} {run1 run2 : List TCmd} (h1 : OwnVariables owner run1) (h2 : OwnVariables owner run2)
    (same : ∀ t, threadProgram run1 t = threadProgram run2 t) (hl : ∀ t, LegalRun cfg dflt K (threadProgram run1 t) (fun _ => none))
    {ρ1 ρ2 : Vars} {t1 t2 : St} (e1 : runExec cfg dflt K ka (run1.map (·.2)) (fun _ => 0) s1 = .ok (ρ1, t1))
    (e2 : runExec cfg dflt K ka' (run2.map (·.2)) (fun _ => 0) s2 = .ok (ρ2, t2)) {k : Nat} {v : View} {l : List Byte}
    (hb : ∃ b, runAbs cfg dflt K (run1.map (·.2)) (fun _ => none) k = some (.buf b))
    (hv : strbuf_view t1.mem (some (ρ1 k)) = .ok v) (hd : ViewOf t1.mem v l) :
    ∃ w, strbuf_view t2.mem (some (ρ2 k)) = .ok w ∧ ViewOf t2.mem w l := by
  obtain ⟨b, hb⟩ := hb
  rw [(interleaved (cfg := cfg) (dflt := dflt) (K := K) h1 (fun _ => none)).1 (owner k) k rfl] at hb
  rcases C76_schedule hcfg hs1 h1 hl with e | ⟨ρ', s', e, g1⟩
  · rw [e1] at e; cases e
  rw [e1] at e; cases e
  rcases C76_schedule hcfg hs2 h2 (fun t => same t ▸ hl t) with e | ⟨ρ', s', e, g2⟩
  · rw [e2] at e; cases e
  rw [e2] at e; cases e
  obtain ⟨v', hv', hd'⟩ := (g1 k).1 b hb
  rw [hv] at hv'; cases hv'
  rw [same (owner k)] at hb
  obtain ⟨w, hw, hwd⟩ := (g2 k).1 b hb
  have : l = b.data := hd.holds.unique hd'.holds (by have := hd.size; have := hd'.size; omega)
  exact ⟨w, hw, this ▸ hwd⟩

/-- Thread 0 uses variables 0 and 2, thread 1 uses variable 1: two strings are built at the same time, and one is turned into a C string. -/
def demoRun : List TCmd := [
  (0, .createInit 0 (.const 0) none),
  (1, .createEmpty 1 1 (some ⟨7, 9⟩)),
  (0, .op 0 (.append (.const 1))),
  (1, .op 1 (.append (.const 0))),
  (1, .op 1 (.prepend (.sub 1 0 1))),
  (0, .toCstr 0 2),
  (1, .op 1 (.append (.const 1)))]

theorem demoRun_own : OwnVariables (fun h => if h = 1 then 1 else 0) demoRun := by unfold OwnVariables; decide

theorem demoRun_legal (t : Nat) : LegalRun exCfg ⟨0, 1⟩ demoK (threadProgram demoRun t) (fun _ => none) := by
  have hb : ∀ {b : Buf}, ∀ o, some (Obj.buf b) = some o → ∃ b, o = .buf b := fun o h => ⟨_, (Option.some.inj h).symm⟩
  match t with
  | 0 =>
    refine ⟨⟨rfl, ⟨by decide, by decide, by decide⟩, trivial⟩, ⟨hb, trivial, ?_⟩, ⟨hb, rfl, by decide, ?_⟩, trivial⟩
    · intro b e; cases e; exact ⟨.inl rfl, (by decide : INT_MIN ≤ 2 ∧ 2 ≤ INT_MAX)⟩
    · intro b e _; cases e; exact (by decide : ((3 : Nat) : Int) < INT_MAX)
  | 1 =>
    refine ⟨⟨rfl, ⟨by decide, by decide, by decide⟩, by decide⟩, ⟨hb, trivial, ?_⟩, ⟨hb, ⟨hb, by decide⟩, ?_⟩, ⟨hb, trivial, ?_⟩, trivial⟩
    · intro b e; cases e; exact ⟨.inl rfl, (by decide : INT_MIN ≤ 0 ∧ 0 ≤ INT_MAX)⟩
    · intro b e; cases e; exact ⟨.inl rfl, (by decide : INT_MIN ≤ 0 ∧ 0 ≤ INT_MAX)⟩
    · intro b e; cases e; exact ⟨.inl rfl, (by decide : INT_MIN ≤ 3 ∧ 3 ≤ INT_MAX)⟩
  | t + 2 =>
    have : threadProgram demoRun (t + 2) = [] := by simp [threadProgram, demoRun]
    rw [this]; trivial

-- afterwards thread 0 has the C string `abl` and thread 1 the buffer `aabl`
example : ∃ ρ' s', runExec exCfg ⟨0, 1⟩ demoK demoKa (demoRun.map (·.2)) (fun _ => 0) demoSt = .ok (ρ', s') ∧ ρ' 0 = 0 ∧ Holds s'.mem (ρ' 2) [97, 98, 108, 0] ∧
    ∃ v, strbuf_view s'.mem (some (ρ' 1)) = .ok v ∧ ViewOf s'.mem v [97, 97, 98, 108] := by
  rcases C76_schedule exCfg_ok demoStart demoRun_own demoRun_legal with e | ⟨ρ', s', e, h⟩
  · have : (runExec exCfg ⟨0, 1⟩ demoK demoKa (demoRun.map (·.2)) (fun _ => 0) demoSt).isOk = true := by decide +kernel
    rw [e] at this; cases this
  · exact ⟨ρ', s', e, (h 0).2.2 rfl, (h 2).2.1 [97, 98, 108] _ rfl, (h 1).1 _ rfl⟩

end CStr
