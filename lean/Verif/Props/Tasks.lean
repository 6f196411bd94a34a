import Verif.Lemmas.Instances
import Verif.Props.Filter
import Verif.Props.Grep
/-! Property C89: programs with input and output that run at the same time (Spec/Tasks.lean). -/
namespace CStr

section
variable {cfg : Cfg} {dflt : Alloc} {K : Nat → List Byte} {ka : Nat → Addr} {owner : Nat → Nat}

/-- The machine represents what the tasks hold: task `i` holds `A i`, all variables together are `σ`. -/
structure TasksRep (K : Nat → List Byte) (ka : Nat → Addr) (owner : Nat → Nat) (σ : AState) (A : Nat → Mixed) (T : Tasks) : Prop where
  rep : ∀ i, MRep K ka ((A i).on σ) (T.state i)
  agree : ∀ i, Agree (fun h => owner h = i) (A i).σ σ
  own : ∀ i, (A i).Own fun h => owner h = i

theorem Agree.symm {P : Nat → Prop} {σ τ : AState} (a : Agree P σ τ) : Agree P τ σ := fun h hh => (a h hh).symm

theorem LegalIPlay.stopped {os : Nat → Option Nat} {p : IProgram} {t : List Answer} {A : Mixed} {w : World} (h : p t = none) (n : Nat) : LegalIPlay cfg dflt K os p n t A w := by
  cases n with
  | zero => trivial
  | succ n => intro x hx; rw [h] at hx; cases hx

theorem tasks_run (hcfg : cfg.Ok) {os : Nat → Nat → Option Nat} {ps : Nat → IProgram} (hp : OwnPrograms owner ps) (sched : List Nat) {σ : AState} {A : Nat → Mixed} {T : Tasks}
    (r : TasksRep K ka owner σ A T) (hl : ∀ i, LegalIPlay cfg dflt K (os i) (ps i) (sched.count i) (T.task i).answers (A i) (T.task i).world) :
    T.run cfg dflt K ka os ps sched = .env .alloc ∨
    ∃ T' σ' A', T.run cfg dflt K ka os ps sched = .ok T' ∧ TasksRep K ka owner σ' A' T' ∧
      ∀ i, IPlays cfg dflt K (os i) (ps i) (sched.count i) (T.task i).answers (A i) (T.task i).world (T'.task i).answers (A' i) (T'.task i).world := by
  induction sched generalizing σ A T with
  | nil => exact .inr ⟨T, σ, A, rfl, r, fun i => .zero _ _ _⟩
  | cons i sched ih =>
    cases hpi : ps i (T.task i).answers with
    | none =>
      have e : T.turn cfg dflt K ka os ps i = .ok T := by simp only [Tasks.turn, hpi]
      rcases ih r (fun j => by
        by_cases hj : j = i
        · subst hj; exact .stopped hpi _
        · have := hl j
          rwa [List.count_cons_of_ne (Ne.symm hj)] at this) with h | ⟨T', σ', A', h1, h2, h3⟩
      · left; simp only [Tasks.run, e, Res.bind_ok]; exact h
      · refine .inr ⟨T', σ', A', by simp only [Tasks.run, e, Res.bind_ok]; exact h1, h2, fun j => ?_⟩
        by_cases hj : j = i
        · subst hj
          rw [List.count_cons_self]
          have := h3 j
          generalize sched.count j = n at this
          have same : (T'.task j).answers = (T.task j).answers ∧ A' j = A j ∧ (T'.task j).world = (T.task j).world := by
            generalize (T'.task j).answers = t' at this
            generalize A' j = C at this
            generalize (T'.task j).world = w' at this
            cases this with
            | zero => exact ⟨rfl, rfl, rfl⟩
            | stop _ => exact ⟨rfl, rfl, rfl⟩
            | next h _ _ => rw [hpi] at h; cases h
          rw [same.1, same.2.1, same.2.2]
          exact .stop hpi
        · rw [List.count_cons_of_ne (Ne.symm hj)]; exact h3 j
    | some x =>
      have hx := hp i _ x hpi
      have hli := hl i
      rw [List.count_cons_self] at hli
      obtain ⟨g1, g2⟩ := hli x hpi
      have g1' := (iact_legal (r.own i) (r.agree i) hx).1 g1
      rcases iact_ok hcfg (r.rep i) (T.task i).world (os i (T.task i).answers.length) g1' with h | ⟨a, B, Y, w1, i1, i2, i3⟩
      · left; simp only [Tasks.run, Tasks.turn, hpi, h]; rfl
      · obtain ⟨τ, j1, j2⟩ := iact_on (A := (A i).on σ) (σ := (A i).σ) (P := fun h => owner h = i) (r.own i) (r.agree i).symm hx i1
        have j1 : x.Step cfg dflt K (os i (T.task i).answers.length) (A i) (T.task i).world a (B.on τ) w1 := j1
        have hkeep := (iact_vars (cfg := cfg) (dflt := dflt) (K := K) (ka := ka) x (os i (T.task i).answers.length) (T.state i) (T.task i).world).out _ i2
        let T1 : Tasks := ⟨Y.ρ, Y.s, fun j => if j = i then ⟨(T.task i).answers ++ [a], Y.views, Y.eol, w1⟩ else T.task j⟩
        let A1 : Nat → Mixed := fun j => if j = i then B.on τ else A j
        have e : T.turn cfg dflt K ka os ps i = .ok T1 := by simp only [Tasks.turn, hpi, i2, Res.bind_ok]; rfl
        have ti : T1.task i = ⟨(T.task i).answers ++ [a], Y.views, Y.eol, w1⟩ := if_pos rfl
        have tj : ∀ {j}, j ≠ i → T1.task j = T.task j := fun h => if_neg h
        have ai : A1 i = B.on τ := if_pos rfl
        have aj : ∀ {j}, j ≠ i → A1 j = A j := fun h => if_neg h
        have hag : ∀ {j}, j ≠ i → Agree (fun h => owner h = j) σ B.σ := fun hj h hh => (j2.frame h fun e => hj (hh.symm.trans e)).symm
        have r1 : TasksRep K ka owner B.σ A1 T1 := by
          refine ⟨fun j => ?_, fun j => ?_, fun j => ?_⟩
          · by_cases hj : j = i
            · subst hj
              simp only [Tasks.state, ti, ai]
              exact i3
            · simp only [Tasks.state, tj hj, aj hj]
              have rj := r.rep j
              refine ⟨i3.rep, rj.number, fun k => ?_, rj.eol, rj.eolOk⟩
              exact (rj.views k).congr ((r.own j).view k) (hag hj) fun h hh => hkeep h fun hm => hj (hh.symm.trans (hx h hm))
          · by_cases hj : j = i
            · subst hj; rw [ai]; exact j2.agree.symm
            · rw [aj hj]; exact fun h hh => (r.agree j h hh).trans (hag hj h hh)
          · by_cases hj : j = i
            · subst hj; rw [ai]; exact j2.own
            · rw [aj hj]; exact r.own j
        rcases ih r1 (fun j => by
          by_cases hj : j = i
          · subst hj; rw [ti, ai]; exact g2 a _ w1 j1
          · rw [tj hj, aj hj]
            have := hl j
            rwa [List.count_cons_of_ne (Ne.symm hj)] at this) with h | ⟨T', σ', A', h1, h2, h3⟩
        · left; simp only [Tasks.run, e, Res.bind_ok]; exact h
        · refine .inr ⟨T', σ', A', by simp only [Tasks.run, e, Res.bind_ok]; exact h1, h2, fun j => ?_⟩
          have h3 := h3 j
          by_cases hj : j = i
          · subst hj
            rw [List.count_cons_self]
            rw [ti, ai] at h3
            exact .next hpi j1 h3
          · rw [List.count_cons_of_ne (Ne.symm hj)]
            rwa [tj hj, aj hj] at h3

/-- The tasks before they start: no answers, no views. -/
def Tasks.start (ρ : Vars) (s : St) (w : Nat → World) : Tasks := ⟨ρ, s, fun i => ⟨[], [], 0, w i⟩⟩

/-- C89. Any number of programs with input and output, each of which uses variables and views of its own, run at the same time on one heap, a call at a time, in an arbitrary order: each of them gets
the answers, reads, holds and writes what Spec/Filter.lean says of that program alone, executing as many actions as it gets turns, and in the end the machine holds, for every program, the buffers
and the views it would have. The only other outcome is an illegal answer of the allocator. -/
theorem C89_schedule (hcfg : cfg.Ok) {os : Nat → Nat → Option Nat} {ps : Nat → IProgram} (hp : OwnPrograms owner ps) (sched : List Nat) {σ : AState} {ρ : Vars} {s : St} (r : Rep K ka σ ρ s)
    (w : Nat → World) (hl : ∀ i, LegalIPlay cfg dflt K (os i) (ps i) (sched.count i) [] ⟨σ.only owner i, [], 0⟩ (w i)) :
    (Tasks.start ρ s w).run cfg dflt K ka os ps sched = .env .alloc ∨
    ∃ T' σ', (Tasks.start ρ s w).run cfg dflt K ka os ps sched = .ok T' ∧
      ∀ i, ∃ A', IPlays cfg dflt K (os i) (ps i) (sched.count i) [] ⟨σ.only owner i, [], 0⟩ (w i) (T'.task i).answers A' (T'.task i).world ∧
        (∀ h, owner h = i → A'.σ h = σ' h) ∧ MRep K ka { A' with σ := σ' } (T'.state i) := by
  have r0 : TasksRep K ka owner σ (fun i => ⟨σ.only owner i, [], 0⟩) (.start ρ s w) := by
    refine ⟨fun i => ⟨r, rfl, fun k => rfl, rfl, .inl rfl⟩, fun i h hh => if_pos hh, fun i => ?_⟩
    intro v hv; cases hv
  rcases tasks_run hcfg hp sched r0 hl with h | ⟨T', σ', A', h1, h2, h3⟩
  · exact .inl h
  · exact .inr ⟨T', σ', h1, fun i => ⟨A' i, h3 i, h2.agree i, h2.rep i⟩⟩

/-- C89. As if alone: what a program answers to the world does not depend on the other programs, on the schedule, or on where the heap is. -/
theorem C89_alone (hcfg : cfg.Ok) {os : Nat → Nat → Option Nat} {ps : Nat → IProgram} (hp : OwnPrograms owner ps) (sched : List Nat) {s s' : St} {ka' : Nat → Addr} (hs : Start K ka s)
    (hs' : Start K ka' s') (w : Nat → World) (hl : ∀ i, LegalIPlay cfg dflt K (os i) (ps i) (sched.count i) [] .start (w i)) (i : Nat) :
    (Tasks.start (fun _ => 0) s w).run cfg dflt K ka os ps sched = .env .alloc ∨ iplay cfg dflt K ka' (os i) (ps i) (sched.count i) [] (.start s') (w i) = .env .alloc ∨
    ∃ T X, (Tasks.start (fun _ => 0) s w).run cfg dflt K ka os ps sched = .ok T ∧
      iplay cfg dflt K ka' (os i) (ps i) (sched.count i) [] (.start s') (w i) = .ok ((T.task i).answers, X, (T.task i).world) := by
  have e : ∀ i, AState.only owner i (fun _ => none) = fun _ => none := fun i => by funext h; simp only [AState.only, ite_self]
  rcases C89_schedule (σ := fun _ => none) hcfg hp sched hs.rep w (fun i => by rw [e]; exact hl i) with h | ⟨T, σ', h1, h2⟩
  · exact .inl h
  rcases C87_refinement hcfg (os i) (ps i) (sched.count i) hs'.mrep (w i) [] (hl i) with h | ⟨t, A, X, w1, g1, g2, -⟩
  · exact .inr (.inl h)
  obtain ⟨A', h3, -⟩ := h2 i
  rw [e] at h3
  obtain ⟨rfl, -, rfl⟩ := C87_deterministic g1 h3
  exact .inr (.inr ⟨T, X, h1, g2⟩)

/-- C89. The order in which the programs get their turns, and where their heap is, makes no difference to what they answer to the world, if each gets as many turns. -/
theorem C89_order (hcfg : cfg.Ok) {os : Nat → Nat → Option Nat} {ps : Nat → IProgram} (hp : OwnPrograms owner ps) (sched sched' : List Nat) (hc : ∀ i, sched.count i = sched'.count i) {s s' : St}
    {ka' : Nat → Addr} (hs : Start K ka s) (hs' : Start K ka' s') (w : Nat → World) (hl : ∀ i, LegalIPlay cfg dflt K (os i) (ps i) (sched.count i) [] .start (w i)) {T T' : Tasks}
    (h : (Tasks.start (fun _ => 0) s w).run cfg dflt K ka os ps sched = .ok T) (h' : (Tasks.start (fun _ => 0) s' w).run cfg dflt K ka' os ps sched' = .ok T') (i : Nat) :
    (T.task i).answers = (T'.task i).answers ∧ (T.task i).world = (T'.task i).world := by
  have e : ∀ i, AState.only owner i (fun _ => none) = fun _ => none := fun i => by funext h; simp only [AState.only, ite_self]
  rcases C89_schedule (σ := fun _ => none) hcfg hp sched hs.rep w (fun i => by rw [e]; exact hl i) with g | ⟨T1, σ1, g1, g2⟩
  · rw [g] at h; cases h
  rw [h] at g1; cases g1
  rcases C89_schedule (σ := fun _ => none) hcfg hp sched' hs'.rep w (fun i => by rw [e, ← hc]; exact hl i) with g | ⟨T2, σ2, g3, g4⟩
  · rw [g] at h'; cases h'
  rw [h'] at g3; cases g3
  obtain ⟨A, a1, -⟩ := g2 i
  obtain ⟨B, b1, -⟩ := g4 i
  rw [hc] at a1
  obtain ⟨e1, -, e2⟩ := C87_deterministic a1 b1
  exact ⟨e1, e2⟩

end

/-! ### Several instances of one program -/

section
variable {cfg : Cfg} {dflt : Alloc} {K : Nat → List Byte} {ka : Nat → Addr}

/-- C89. Programs need not be written for each other: `ps i` is any program, with variables numbered as it likes, and it is executed with the variables `f i h`, which no other program has. Each
gets the answers, reads, holds and writes what it would alone, under its own names; variables that no program has keep what they hold. So several instances of the same program can run at the same time. -/
theorem C89_instances (hcfg : cfg.Ok) {f : Nat → Nat → Nat} (hf : ∀ i j h k, f i h = f j k → i = j ∧ h = k) {os : Nat → Nat → Option Nat} (ps : Nat → IProgram) (sched : List Nat)
    {σ : AState} {ρ : Vars} {s : St} (r : Rep K ka σ ρ s) (w : Nat → World) (hl : ∀ i, LegalIPlay cfg dflt K (os i) (ps i) (sched.count i) [] ⟨fun h => σ (f i h), [], 0⟩ (w i)) :
    (Tasks.start ρ s w).run cfg dflt K ka os (fun i => (ps i).rename (f i)) sched = .env .alloc ∨
    ∃ T' σ', (Tasks.start ρ s w).run cfg dflt K ka os (fun i => (ps i).rename (f i)) sched = .ok T' ∧ Rep K ka σ' T'.ρ T'.s ∧
      (∀ k, (∀ i h, f i h ≠ k) → σ' k = σ k) ∧
      ∀ i, ∃ A', IPlays cfg dflt K (os i) (ps i) (sched.count i) [] ⟨fun h => σ (f i h), [], 0⟩ (w i) (T'.task i).answers A' (T'.task i).world ∧ ∀ h, A'.σ h = σ' (f i h) := by
  classical
  let owner : Nat → Nat := fun k => if h : ∃ i h, f i h = k then h.choose else 0
  have ho : ∀ i h, owner (f i h) = i := by
    intro i h
    have hex : ∃ j k, f j k = f i h := ⟨i, h, rfl⟩
    have : owner (f i h) = hex.choose := dif_pos hex
    obtain ⟨k, hk⟩ := hex.choose_spec
    rw [this]
    exact (hf _ _ _ _ hk).1
  have hinj : ∀ i, (f i).Injective := fun i h k e => (hf i i h k e).2
  have hp : OwnPrograms owner fun i => (ps i).rename (f i) := by
    intro i t x hx h hh
    obtain ⟨y, -, rfl⟩ := Option.map_eq_some_iff.1 hx
    rw [iact_slots_named] at hh
    obtain ⟨k, -, rfl⟩ := List.mem_map.1 hh
    exact ho i k
  have hn : ∀ i, Named (f i) ⟨σ.only owner i, [], 0⟩ ⟨fun h => σ (f i h), [], 0⟩ := fun i => ⟨by funext h; exact if_pos (ho i h), rfl, rfl⟩
  rcases C89_schedule (os := os) hcfg hp sched r w (fun i => legal_named (hinj i) _ (hn i) (hl i)) with h | ⟨T', σ', h1, h2⟩
  · exact .inl h
  · refine .inr ⟨T', σ', h1, (h2 0).choose_spec.2.2.rep, fun k hk => ?_, fun i => ?_⟩
    · have hk0 : owner k = 0 := dif_neg fun ⟨i, h, e⟩ => hk i h e
      obtain ⟨A', g1, g2, -⟩ := h2 0
      rw [← g2 k hk0]
      refine (iplays_frame (P := fun j => ∃ h, f 0 h = j) ?_ ?_ g1 k fun ⟨h, e⟩ => hk 0 h e).trans (if_pos hk0)
      · intro t x hx h hh
        obtain ⟨y, -, rfl⟩ := Option.map_eq_some_iff.1 hx
        rw [iact_slots_named] at hh
        obtain ⟨j, -, rfl⟩ := List.mem_map.1 hh
        exact ⟨j, rfl⟩
      · intro v hv; cases hv
    obtain ⟨A', g1, g2, -⟩ := h2 i
    obtain ⟨B', g3, g4⟩ := plays_named (hinj i) (hn i) g1
    exact ⟨B', g3, fun h => by rw [← g4.at]; exact g2 _ (ho i h)⟩

/-- C89. Any number of filters at the same time, each with an input of its own: whatever the order of their calls, each one that has got enough turns has finished, has read its input, and has
written exactly those of its lines that contain the text. -/
theorem C89_greps (hcfg : cfg.Ok) (hd : dflt.Ok) {s : St} (hs : Start K ka s) (hK : K 0 = [10]) {f : Nat → Nat → Nat} (hf : ∀ i j h k, f i h = f j k → i = j ∧ h = k)
    {os : Nat → Nat → Option Nat} (hos : ∀ i k, ∃ j, os i k = some (j + 1)) {ls : Nat → List (List Byte)} {r : Nat → List Byte} (hls : ∀ i, ∀ l ∈ ls i, (10 : Byte) ∉ l) (hr : ∀ i, (10 : Byte) ∉ r i)
    (hi : ∀ i, ((joinLines (ls i) ++ r i).length : Int) + cfg.growStep ≤ INT_MAX) (sched : List Nat) :
    (Tasks.start (fun _ => 0) s fun i => ⟨joinLines (ls i) ++ r i, []⟩).run cfg dflt K ka os (fun i => grep.rename (f i)) sched = .env .alloc ∨
    ∃ T, (Tasks.start (fun _ => 0) s fun i => ⟨joinLines (ls i) ++ r i, []⟩).run cfg dflt K ka os (fun i => grep.rename (f i)) sched = .ok T ∧
      ∀ i, 16 * (joinLines (ls i) ++ r i).length + 11 < sched.count i →
        (T.task i).world.inp = [] ∧ (T.task i).world.out = joinLines ((ls i).filter fun l => decide (K 1 <:+: l)) ++ (if K 1 <:+: r i then r i else []) := by
  have hos' : ∀ i, Honest (os i) := fun i k h => by obtain ⟨j, e⟩ := hos i k; rw [h] at e; cases e
  rcases C89_instances (os := os) hcfg hf (fun _ => grep) sched hs.rep (fun i => ⟨joinLines (ls i) ++ r i, []⟩) (fun i => (grep_runs hcfg hd hK (hos' i) (hi i) _).1) with h | ⟨T, σ', h1, -, -, h2⟩
  · exact .inl h
  · refine .inr ⟨T, h1, fun i hc => ?_⟩
    obtain ⟨A, g, -⟩ := h2 i
    exact grep_done hcfg hd hK (hos' i) (hls i) (hr i) (hi i) g (grep_ends hcfg hd hK (hos i) (hi i) hc g)

end

/-! ### Non-vacuity -/

/-- Variable `h` of task `i`. -/
def demoNames : Nat → Nat → Nat := fun i h => 2 ^ i * (2 * h + 1)

theorem demoNames_inj : ∀ i j h k, demoNames i h = demoNames j k → i = j ∧ h = k := by
  intro i
  induction i with
  | zero =>
    intro j h k e
    cases j with
    | zero => exact ⟨rfl, by simp only [demoNames] at e; omega⟩
    | succ j =>
      simp only [demoNames, Nat.pow_succ, Nat.mul_comm (2 ^ j) 2, Nat.mul_assoc] at e
      generalize 2 ^ j * (2 * k + 1) = x at e
      omega
  | succ i ih =>
    intro j h k e
    cases j with
    | zero =>
      simp only [demoNames, Nat.pow_succ, Nat.mul_comm (2 ^ i) 2, Nat.mul_assoc] at e
      generalize 2 ^ i * (2 * h + 1) = x at e
      omega
    | succ j =>
      obtain ⟨rfl, rfl⟩ := ih j h k (by
        simp only [demoNames, Nat.pow_succ, Nat.mul_comm _ 2, Nat.mul_assoc] at e ⊢
        omega)
      exact ⟨rfl, rfl⟩

/-- Two filters; task 0 reads "ab\nx", task 1 reads "c\nab". -/
def twoInputs : Nat → World := fun i => if i = 0 then ⟨[97, 98, 10, 120], []⟩ else ⟨[99, 10, 97, 98], []⟩

/-- Two turns of one, then one of the other, and so on. -/
def twoTurns : List Nat := (List.replicate 120 [0, 0, 1]).flatten

/-- Both filters have finished: one has written "ab\n", the other "ab". -/
example : (((Tasks.start (fun _ => 0) grepSt twoInputs).run exCfg ⟨0, 1⟩ grepK grepKa (fun _ _ => some 1) (fun i => grep.rename (demoNames i)) twoTurns).bind fun T =>
    .ok ((grep (T.task 0).answers).isNone, (T.task 0).world.out, (grep (T.task 1).answers).isNone, (T.task 1).world.out)) = .ok (true, [97, 98, 10], true, [97, 98]) := by decide +kernel

/-- The hypotheses of `C89_greps` hold of them. -/
example : ∀ i, 16 * (twoInputs i).inp.length + 11 < twoTurns.count i ∨ 2 ≤ i := by
  intro i
  match i with
  | 0 => exact .inl (by decide +kernel)
  | 1 => exact .inl (by decide +kernel)
  | i + 2 => exact .inr (by omega)

end CStr
