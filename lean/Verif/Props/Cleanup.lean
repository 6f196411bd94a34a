import Verif.Lemmas.Cleanup
import Verif.Props.Tasks
import Verif.Props.Sealed
/-! Property C90: programs with input and output, one or many at the same time, release each block exactly once. -/
namespace CStr

section
variable {cfg : Cfg} {dflt : Alloc} {K : Nat → List Byte} {ka : Nat → Addr}

/-- The heap blocks are exactly the storage of what the variables hold, each under the allocator it was created with. -/
def HeapIs (s : St) (ρ : Vars) (σ : AState) : Prop :=
  (∀ q blk, s.live q = some blk ↔ ∃ h o, σ h = some o ∧ ρ h = q ∧ blk = ⟨o.size, o.owner⟩ ∧ o.owner.fn ≠ 0) ∧
  ∀ q al, ownerAfter s.log q = some al ↔ ∃ h o, σ h = some o ∧ ρ h = q ∧ o.owner = al ∧ al.fn ≠ 0

/-- No block is left, and the calls made show none. -/
def HeapEmpty (s : St) : Prop := (∀ q, s.live q = none) ∧ ∀ q, ownerAfter s.log q = none

theorem Rep.heapIs {σ : AState} {ρ : Vars} {s : St} (r : Rep K ka σ ρ s) (hL : Logged s) : HeapIs s ρ σ := by
  have h1 : ∀ q blk, s.live q = some blk ↔ ∃ h o, σ h = some o ∧ ρ h = q ∧ blk = ⟨o.size, o.owner⟩ ∧ o.owner.fn ≠ 0 := fun q blk =>
    ⟨r.owned q blk, by rintro ⟨h, o, h1, rfl, rfl, h4⟩; exact (r.obj h o h1).facts.2.2.2.2 h4⟩
  refine ⟨h1, fun q al => ?_⟩
  rw [hL.owner, Option.map_eq_some_iff]
  constructor
  · rintro ⟨blk, h, rfl⟩
    obtain ⟨k, o, g1, g2, rfl, g4⟩ := (h1 q blk).1 h
    exact ⟨k, o, g1, g2, rfl, g4⟩
  · rintro ⟨k, o, g1, g2, rfl, g4⟩
    exact ⟨_, (h1 q _).2 ⟨k, o, g1, g2, rfl, g4⟩, rfl⟩

theorem HeapIs.empty {s : St} {ρ : Vars} {σ : AState} (h : HeapIs s ρ σ) (hn : ∀ k o, σ k = some o → o.owner.fn = 0) : HeapEmpty s := by
  constructor
  · intro q
    cases e : s.live q with
    | none => rfl
    | some blk =>
      obtain ⟨k, o, h1, -, -, h4⟩ := (h.1 q blk).1 e
      exact absurd (hn k o h1) h4
  · intro q
    cases e : ownerAfter s.log q with
    | none => rfl
    | some al =>
      obtain ⟨k, o, h1, -, rfl, h4⟩ := (h.2 q al).1 e
      exact absurd (hn k o h1) h4

theorem Logged.first {s : St} (hlog : s.log = []) (hb : ∀ q, s.live q = none) : Logged s := ⟨by rw [hlog]; trivial, by intro q; rw [hlog, hb]; rfl, hb 0⟩

/-- C90. In every legal program with input and output, whatever it asks, packs, encrypts, reads or writes, each call of an allocator function that passes a block passes one that this same
allocator has returned and that has not been released or moved since, and at every moment the heap holds exactly the storage of the buffers and strings the program still has. Encryption releases
the context it allocates. -/
theorem C90_protocol (hcfg : cfg.Ok) (os : Nat → Option Nat) (p : IProgram) (n : Nat) {A : Mixed} {X : MState} (r : MRep K ka A X) (hlog : X.s.log = []) (hb : ∀ q, X.s.live q = none)
    (w : World) (hl : LegalIPlay cfg dflt K os p n [] A w) :
    iplay cfg dflt K ka os p n [] X w = .env .alloc ∨
    ∃ t A' X' w', IPlays cfg dflt K os p n [] A w t A' w' ∧ iplay cfg dflt K ka os p n [] X w = .ok (t, X', w') ∧ Protocol X'.s.log ∧ HeapIs X'.s X'.ρ A'.σ := by
  rcases C87_refinement hcfg os p n r w [] hl with e | ⟨t, A', X', w', h1, h2, h3⟩
  · exact .inl e
  · have hL : Logged X'.s := (iplay_keeps Logged.kept n (Logged.first hlog hb) w).out _ h2
    exact .inr ⟨t, A', X', w', h1, h2, hL.protocol, h3.rep.heapIs hL⟩

/-- C90. The same for programs that run at the same time on one heap, in any order of their turns. -/
theorem C90_tasks (hcfg : cfg.Ok) {f : Nat → Nat → Nat} (hf : ∀ i j h k, f i h = f j k → i = j ∧ h = k) {os : Nat → Nat → Option Nat} (ps : Nat → IProgram) (sched : List Nat)
    {σ : AState} {ρ : Vars} {s : St} (r : Rep K ka σ ρ s) (hlog : s.log = []) (hb : ∀ q, s.live q = none) (w : Nat → World)
    (hl : ∀ i, LegalIPlay cfg dflt K (os i) (ps i) (sched.count i) [] ⟨fun h => σ (f i h), [], 0⟩ (w i)) :
    (Tasks.start ρ s w).run cfg dflt K ka os (fun i => (ps i).rename (f i)) sched = .env .alloc ∨
    ∃ (T : Tasks) (A' : Nat → Mixed), (Tasks.start ρ s w).run cfg dflt K ka os (fun i => (ps i).rename (f i)) sched = .ok T ∧ Protocol T.s.log ∧
      (∀ i, IPlays cfg dflt K (os i) (ps i) (sched.count i) [] ⟨fun h => σ (f i h), [], 0⟩ (w i) (T.task i).answers (A' i) (T.task i).world) ∧
      (∀ q blk, T.s.live q = some blk ↔ ∃ i h o, (A' i).σ h = some o ∧ T.ρ (f i h) = q ∧ blk = ⟨o.size, o.owner⟩ ∧ o.owner.fn ≠ 0) ∧
      ((∀ i h o, (A' i).σ h = some o → o.owner.fn = 0) → HeapEmpty T.s) := by
  rcases C89_instances (os := os) hcfg hf ps sched r w hl with e | ⟨T, σ', h1, h2, h3, h4⟩
  · exact .inl e
  · have hL : Logged T.s := (tasks_keeps Logged.kept sched (Y := Tasks.start ρ s w) (Logged.first hlog hb)).out _ h1
    obtain ⟨A', h4⟩ := Classical.axiomOfChoice h4
    have g1 := fun i => (h4 i).1
    have g2 := fun i => (h4 i).2
    have hh := h2.heapIs hL
    have named : ∀ k o, σ' k = some o → o.owner.fn = 0 ∨ ∃ i h, f i h = k ∧ (A' i).σ h = some o := by
      intro k o ho
      by_cases hk : ∃ i h, f i h = k
      · obtain ⟨i, h, rfl⟩ := hk
        exact .inr ⟨i, h, rfl, by rw [g2]; exact ho⟩
      · rw [h3 k fun i h e => hk ⟨i, h, e⟩] at ho
        refine .inl (Classical.byContradiction fun hne => ?_)
        have := (r.obj k o ho).facts.2.2.2.2 hne
        rw [hb] at this; cases this
    refine .inr ⟨T, A', h1, hL.protocol, g1, fun q blk => ?_, fun hn => hh.empty fun k o ho => ?_⟩
    · rw [hh.1]
      constructor
      · rintro ⟨k, o, ho, hq, hb1, hb2⟩
        rcases named k o ho with h0 | ⟨i, h, rfl, hA⟩
        · exact absurd h0 hb2
        · exact ⟨i, h, o, hA, hq, hb1, hb2⟩
      · rintro ⟨i, h, o, ho, hq, hb⟩
        exact ⟨f i h, o, by rw [← g2]; exact ho, hq, hb⟩
    · rcases named k o ho with h0 | ⟨i, h, rfl, hA⟩
      · exact h0
      · exact hn i h o hA

theorem free_none {p : IProgram} {hs : List Nat} {os : Nat → Option Nat} (hp : p.BuffersIn hs) {A A1 A2 : Mixed} (h0 : A.σ.BuffersIn hs) {k : Nat} {w w' : World} {t : List Answer}
    (h : IPlays cfg dflt K os p k [] A w t A1 w') (h2 : ∀ j, A2.σ j = if j ∈ hs then none else A1.σ j) : ∀ j o, A2.σ j = some o → o.owner.fn = 0 := by
  intro j o ho
  rw [h2] at ho
  by_cases hj : j ∈ hs
  · rw [if_pos hj] at ho; cases ho
  · rw [if_neg hj] at ho
    obtain ⟨n, rfl⟩ := (iplays_buffers hp h h0).2 j o hj ho
    rfl

/-- C90. A program followed by `strbuf_destroy` of its buffers does what the program does and leaves nothing behind. If the program creates buffers in the variables `hs` only and keeps them as
buffers, then it may be followed by their destruction wherever it finishes: when this is done, the input that is left and the output are those of the finished program, no block is left and the
calls balance. It finishes if the program does. -/
theorem C90_cleanup (hcfg : cfg.Ok) (os : Nat → Option Nat) {p : IProgram} {hs : List Nat} (hp : p.BuffersIn hs) (n : Nat) {A : Mixed} {X : MState} (r : MRep K ka A X) (h0 : A.σ.BuffersIn hs)
    (hlog : X.s.log = []) (hb : ∀ q, X.s.live q = none) (w : World) (hl : LegalIPlay cfg dflt K os p n [] A w) :
    iplay cfg dflt K ka os (p.andFree hs) n [] X w = .env .alloc ∨
    ∃ t X' w', iplay cfg dflt K ka os (p.andFree hs) n [] X w = .ok (t, X', w') ∧ Protocol X'.s.log ∧
      (p.andFree hs t = none → HeapEmpty X'.s ∧ ∃ k t1 A1, k ≤ n ∧ IPlays cfg dflt K os p k [] A w t1 A1 w' ∧ p t1 = none) ∧
      ∀ k, k + hs.length ≤ n → (∀ t' A' w', IPlays cfg dflt K os p k [] A w t' A' w' → p t' = none) → p.andFree hs t = none := by
  rcases C90_protocol hcfg os (p.andFree hs) n r hlog hb w (andFree_legal n .nil hl fun k t' A' w' _ h1 _ => (iplays_buffers hp h1 h0).1) with e | ⟨t, A', X', w', h1, h2, h3, h4⟩
  · exact .inl e
  · refine .inr ⟨t, X', w', h2, h3, fun hn => ?_, fun k hk hfin => andFree_ends .nil hfin hk h1⟩
    obtain ⟨k, t1, A1, g1, g2, g3, g4⟩ := andFree_plays .nil h1 hn
    exact ⟨h4.empty (free_none hp h0 g2 g4), k, t1, A1, g1, g2, g3⟩

/-- C90. The same for programs that run at the same time: when each of them that has been given turns has been given enough, all have finished, and the heap they share is empty. -/
theorem C90_tasks_cleanup (hcfg : cfg.Ok) {f : Nat → Nat → Nat} (hf : ∀ i j h k, f i h = f j k → i = j ∧ h = k) {os : Nat → Nat → Option Nat} {ps : Nat → IProgram} {hs : Nat → List Nat}
    (hp : ∀ i, (ps i).BuffersIn (hs i)) (sched : List Nat) {σ : AState} {ρ : Vars} {s : St} (r : Rep K ka σ ρ s) (h0 : ∀ i, AState.BuffersIn (fun h => σ (f i h)) (hs i)) (hlog : s.log = [])
    (hb : ∀ q, s.live q = none) (w : Nat → World) (hl : ∀ i, LegalIPlay cfg dflt K (os i) (ps i) (sched.count i) [] ⟨fun h => σ (f i h), [], 0⟩ (w i)) {k : Nat → Nat}
    (hk : ∀ i ∈ sched, k i + (hs i).length ≤ sched.count i)
    (hfin : ∀ i ∈ sched, ∀ t' A' w', IPlays cfg dflt K (os i) (ps i) (k i) [] ⟨fun h => σ (f i h), [], 0⟩ (w i) t' A' w' → ps i t' = none) :
    (Tasks.start ρ s w).run cfg dflt K ka os (fun i => ((ps i).andFree (hs i)).rename (f i)) sched = .env .alloc ∨
    ∃ T, (Tasks.start ρ s w).run cfg dflt K ka os (fun i => ((ps i).andFree (hs i)).rename (f i)) sched = .ok T ∧ Protocol T.s.log ∧ HeapEmpty T.s ∧
      ∀ i ∈ sched, ∃ m t1 A1, IPlays cfg dflt K (os i) (ps i) m [] ⟨fun h => σ (f i h), [], 0⟩ (w i) t1 A1 (T.task i).world ∧ ps i t1 = none := by
  rcases C90_tasks (os := os) hcfg hf (fun i => (ps i).andFree (hs i)) sched r hlog hb w (fun i => andFree_legal _ .nil (hl i) fun k t' A' w' _ h1 _ => (iplays_buffers (hp i) h1 (h0 i)).1)
    with h | ⟨T, A', h1, h2, h3, -, h5⟩
  · exact .inl h
  · have fin : ∀ i ∈ sched, ∃ m t1 A1, IPlays cfg dflt K (os i) (ps i) m [] ⟨fun h => σ (f i h), [], 0⟩ (w i) t1 A1 (T.task i).world ∧ ps i t1 = none ∧
        ∀ j, (A' i).σ j = if j ∈ hs i then none else A1.σ j := by
      intro i hi
      obtain ⟨m, t1, A1, -, g2, g3, g4⟩ := andFree_plays .nil (h3 i) (andFree_ends .nil (hfin i hi) (hk i hi) (h3 i))
      exact ⟨m, t1, A1, g2, g3, g4⟩
    refine .inr ⟨T, h1, h2, h5 fun i h o ho => ?_, fun i hi => ?_⟩
    · by_cases hi : i ∈ sched
      · obtain ⟨m, t1, A1, g2, g3, g4⟩ := fin i hi
        exact free_none (hp i) (h0 i) g2 g4 h o ho
      · have := h3 i
        rw [List.count_eq_zero_of_not_mem hi] at this
        generalize A' i = B at this ho
        generalize (T.task i).world = w' at this
        generalize (T.task i).answers = t' at this
        cases this with
        | zero =>
          refine Classical.byContradiction fun hne => ?_
          have := (r.obj (f i h) o ho).facts.2.2.2.2 hne
          rw [hb] at this; cases this
    · obtain ⟨m, t1, A1, g2, g3, -⟩ := fin i hi
      exact ⟨m, t1, A1, g2, g3⟩

/-! ### The programs of C87 and C88 -/

theorem grep_buffers : grep.BuffersIn [0, 1] := by
  intro t x hx
  have hx : Place.act ((Machine.mk .empty0 Place.act Place.next).state t) = some x := hx
  cases hp : (Machine.mk .empty0 Place.act Place.next).state t <;> rw [hp] at hx <;> cases hx <;> exact ⟨by simp [IAct.creates], by simp⟩

theorem sealer_buffers : sealer.BuffersIn [0, 1, 2, 3] := by
  intro t x hx
  have hx : Seal.act ((Machine.mk .key Seal.act Seal.next).state t) = some x := hx
  cases hp : (Machine.mk .key Seal.act Seal.next).state t <;> rw [hp] at hx <;> cases hx <;> exact ⟨by simp [IAct.creates], by simp⟩

theorem opener_buffers : opener.BuffersIn [0, 2, 3] := by
  intro t x hx
  have hx : Unseal.act ((Machine.mk .key Unseal.act Unseal.next).state t) = some x := hx
  cases hp : (Machine.mk .key Unseal.act Unseal.next).state t <;> rw [hp] at hx <;> cases hx <;> exact ⟨by simp [IAct.creates], by simp⟩

theorem start_buffers (hs : List Nat) : AState.BuffersIn (fun _ => none) hs := ⟨(fun _ _ o e => by cases e), (fun _ o _ e => by cases e)⟩

theorem sealStart_buffers {n : Nat} {hs : List Nat} (h : 9 ∉ hs) : (sealStart n).σ.BuffersIn hs := by
  have hσ : ∀ k o, (sealStart n).σ k = some o → k = 9 ∧ o = .mem n := by
    intro k o e
    by_cases hk : k = 9
    · subst hk; cases e; exact ⟨rfl, rfl⟩
    · simp [sealStart, hk] at e
  exact ⟨fun k hk o e => absurd ((hσ k o e).1 ▸ hk) h, fun k o _ e => ⟨n, (hσ k o e).2⟩⟩

/-- C90. The filter followed by the release of its two buffers: for every input, every text to look for and every division of the transfers it writes what it must, and when it has finished the
heap is empty. If no call fails it does finish. -/
theorem C90_grep (hcfg : cfg.Ok) (hd : dflt.Ok) {s : St} (hs : Start K ka s) (hlog : s.log = []) (hK : K 0 = [10])
    {os : Nat → Option Nat} (hos : Honest os) {ls : List (List Byte)} {r : List Byte} (hls : ∀ l ∈ ls, (10 : Byte) ∉ l) (hr : (10 : Byte) ∉ r)
    (hi : ((joinLines ls ++ r).length : Int) + cfg.growStep ≤ INT_MAX) (n : Nat) :
    iplay cfg dflt K ka os (grep.andFree [0, 1]) n [] (.start s) ⟨joinLines ls ++ r, []⟩ = .env .alloc ∨
    ∃ t X w, iplay cfg dflt K ka os (grep.andFree [0, 1]) n [] (.start s) ⟨joinLines ls ++ r, []⟩ = .ok (t, X, w) ∧ Protocol X.s.log ∧
      (grep.andFree [0, 1] t = none →
        HeapEmpty X.s ∧ w.inp = [] ∧ w.out = joinLines (ls.filter fun l => decide (K 1 <:+: l)) ++ (if K 1 <:+: r then r else [])) ∧
      ((∀ k, ∃ j, os k = some (j + 1)) → 16 * (joinLines ls ++ r).length + 14 ≤ n → grep.andFree [0, 1] t = none) := by
  rcases C90_cleanup hcfg os grep_buffers n hs.mrep (start_buffers _) hlog hs.noBlocks ⟨joinLines ls ++ r, []⟩ (grep_runs hcfg hd hK hos hi n).1 with e | ⟨t, X, w, h1, h2, h3, h4⟩
  · exact .inl e
  · refine .inr ⟨t, X, w, h1, h2, fun hn => ?_, fun hos' hlen => ?_⟩
    · obtain ⟨g1, k, t1, A1, -, g2, g3⟩ := h3 hn
      exact ⟨g1, grep_done hcfg hd hK hos hls hr hi g2 g3⟩
    · exact h4 (16 * (joinLines ls ++ r).length + 12) hlen fun t' A' w' g => grep_ends hcfg hd hK hos' hi (by omega) g

/-- C90. Any number of filters on one heap: when each of them has got enough turns, or none, the outputs are right and the heap is empty. -/
theorem C90_greps (hcfg : cfg.Ok) (hd : dflt.Ok) {s : St} (hs : Start K ka s) (hlog : s.log = []) (hK : K 0 = [10]) {f : Nat → Nat → Nat} (hf : ∀ i j h k, f i h = f j k → i = j ∧ h = k)
    {os : Nat → Nat → Option Nat} (hos : ∀ i k, ∃ j, os i k = some (j + 1)) {ls : Nat → List (List Byte)} {r : Nat → List Byte} (hls : ∀ i, ∀ l ∈ ls i, (10 : Byte) ∉ l) (hr : ∀ i, (10 : Byte) ∉ r i)
    (hi : ∀ i, ((joinLines (ls i) ++ r i).length : Int) + cfg.growStep ≤ INT_MAX) (sched : List Nat) (hsched : ∀ i ∈ sched, 16 * (joinLines (ls i) ++ r i).length + 14 ≤ sched.count i) :
    (Tasks.start (fun _ => 0) s fun i => ⟨joinLines (ls i) ++ r i, []⟩).run cfg dflt K ka os (fun i => (grep.andFree [0, 1]).rename (f i)) sched = .env .alloc ∨
    ∃ T, (Tasks.start (fun _ => 0) s fun i => ⟨joinLines (ls i) ++ r i, []⟩).run cfg dflt K ka os (fun i => (grep.andFree [0, 1]).rename (f i)) sched = .ok T ∧
      Protocol T.s.log ∧ HeapEmpty T.s ∧ ∀ i ∈ sched,
        (T.task i).world.inp = [] ∧ (T.task i).world.out = joinLines ((ls i).filter fun l => decide (K 1 <:+: l)) ++ (if K 1 <:+: r i then r i else []) := by
  have hos' : ∀ i, Honest (os i) := fun i k h => by obtain ⟨j, e⟩ := hos i k; rw [h] at e; cases e
  rcases C90_tasks_cleanup (os := os) (k := fun i => 16 * (joinLines (ls i) ++ r i).length + 12) hcfg hf (fun _ => grep_buffers) sched hs.rep (fun _ => start_buffers _) hlog hs.noBlocks
    (fun i => ⟨joinLines (ls i) ++ r i, []⟩) (fun i => (grep_runs hcfg hd hK (hos' i) (hi i) _).1) hsched
    (fun i _ t' A' w' g => grep_ends hcfg hd hK (hos i) (hi i) (by omega) g) with h | ⟨T, h1, h2, h3, h4⟩
  · exact .inl h
  · refine .inr ⟨T, h1, h2, h3, fun i hi' => ?_⟩
    obtain ⟨m, t1, A1, g2, g3⟩ := h4 i hi'
    exact grep_done hcfg hd hK (hos' i) (hls i) (hr i) (hi i) g2 g3

/-- C90. The program that seals a message, followed by the release of its four buffers, leaves no block behind: neither its buffers nor the contexts of the encryption. -/
theorem C90_seal (hcfg : cfg.Ok) (hd : dflt.Ok) {s : St} {a : Addr} (hr : Ready K ka s a) (hlog : s.log = []) {os : Nat → Option Nat} (hos : Honest os) {m : List Byte}
    (hm : (m.length : Int) + 64 + cfg.growStep ≤ INT_MAX) (n : Nat) :
    iplay cfg dflt K ka os (sealer.andFree [0, 1, 2, 3]) n [] (readyState s a) ⟨m, []⟩ = .env .alloc ∨
    ∃ t X w, iplay cfg dflt K ka os (sealer.andFree [0, 1, 2, 3]) n [] (readyState s a) ⟨m, []⟩ = .ok (t, X, w) ∧ Protocol X.s.log ∧
      (sealer.andFree [0, 1, 2, 3] t = none → HeapEmpty X.s ∧ w.inp = [] ∧ IsSealed (K 0) (K 1) m w.out) ∧
      ((∀ k, ∃ j, os k = some (j + 1)) → 2 * paddedLen (m.length + 4) + 4 * m.length + 33 ≤ n → sealer.andFree [0, 1, 2, 3] t = none) := by
  rcases C90_cleanup hcfg os sealer_buffers n hr.mrep (sealStart_buffers (by decide)) hlog hr.noBlocks ⟨m, []⟩ (seal_runs hcfg hd hr.key hr.iv hos hm n).1 with e | ⟨t, X, w, h1, h2, h3, h4⟩
  · exact .inl e
  · refine .inr ⟨t, X, w, h1, h2, fun hn => ?_, fun hos' hlen => ?_⟩
    · obtain ⟨g1, k, t1, A1, -, g2, g3⟩ := h3 hn
      exact ⟨g1, seal_done hcfg hd hr.key hr.iv hos hm g2 g3⟩
    · exact h4 (2 * paddedLen (m.length + 4) + 4 * m.length + 29) hlen fun t' A' w' g => seal_ends hcfg hd hr.key hr.iv hos' hm (by omega) g

/-- C90. The same for the program that opens a sealed message. -/
theorem C90_open (hcfg : cfg.Ok) (hd : dflt.Ok) {s : St} {a : Addr} (hr : Ready K ka s a) (hlog : s.log = []) {os : Nat → Option Nat} (hos : Honest os) {m c : List Byte}
    (hm : (m.length : Int) + 64 + cfg.growStep ≤ INT_MAX) (hc : IsSealed (K 0) (K 1) m c) (n : Nat) :
    iplay cfg dflt K ka os (opener.andFree [0, 2, 3]) n [] (readyState s a) ⟨c, []⟩ = .env .alloc ∨
    ∃ t X w, iplay cfg dflt K ka os (opener.andFree [0, 2, 3]) n [] (readyState s a) ⟨c, []⟩ = .ok (t, X, w) ∧ Protocol X.s.log ∧
      (opener.andFree [0, 2, 3] t = none → HeapEmpty X.s ∧ w.inp = [] ∧ w.out = m) ∧
      ((∀ k, ∃ j, os k = some (j + 1)) → 2 * m.length + 4 * c.length + 19 ≤ n → opener.andFree [0, 2, 3] t = none) := by
  rcases C90_cleanup hcfg os opener_buffers n hr.mrep (sealStart_buffers (by decide)) hlog hr.noBlocks ⟨c, []⟩ (unseal_runs hcfg hd hr.key hr.iv hos hc hm n).1 with e | ⟨t, X, w, h1, h2, h3, h4⟩
  · exact .inl e
  · refine .inr ⟨t, X, w, h1, h2, fun hn => ?_, fun hos' hlen => ?_⟩
    · obtain ⟨g1, k, t1, A1, -, g2, g3⟩ := h3 hn
      exact ⟨g1, unseal_done hcfg hd hr.key hr.iv hos hc hm g2 g3⟩
    · exact h4 (2 * m.length + 4 * c.length + 16) hlen fun t' A' w' g => unseal_ends hcfg hd hr.key hr.iv hos' hc hm (by omega) g

end

/-! ### Non-vacuity -/

/-- Two filters, with the release of their buffers, in turns: both outputs, and what is left on the heap. -/
example : (((Tasks.start (fun _ => 0) grepSt twoInputs).run exCfg ⟨0, 1⟩ grepK grepKa (fun _ _ => some 1) (fun i => (grep.andFree [0, 1]).rename (demoNames i)) twoTurns).bind fun T =>
    .ok ((T.task 0).world.out, (T.task 1).world.out, decide (0 < T.s.log.length), (List.range 6).map fun k => T.ρ k)) = .ok ([97, 98, 10], [97, 98], true, [0, 0, 0, 0, 0, 0]) := by decide +kernel

/-- The filter is one of the programs of `C90_cleanup`, and a program that leaves a buffer out of the list is not. -/
example : grep.BuffersIn [0, 1] ∧ ¬ grep.BuffersIn [0] := by
  refine ⟨grep_buffers, fun h => ?_⟩
  have := (h [.done] _ rfl).1 1 rfl
  simp at this

/-- A filter alone: after the end nothing is left; without the two calls of `strbuf_destroy` its blocks are. -/
example : ((iplay exCfg ⟨0, 1⟩ grepK grepKa (fun _ => some 1) (grep.andFree [0, 1]) 90 [] (.start grepSt) (twoInputs 0)).bind fun r =>
      .ok ((grep.andFree [0, 1] r.1).isNone, r.2.2.out, (r.2.1.ρ 0, r.2.1.ρ 1))) = .ok (true, [97, 98, 10], (0, 0)) ∧
    ((iplay exCfg ⟨0, 1⟩ grepK grepKa (fun _ => some 1) grep 90 [] (.start grepSt) (twoInputs 0)).bind fun r =>
      .ok ((grep r.1).isNone, (r.2.1.s.live (r.2.1.ρ 0)).isSome, (r.2.1.s.live (r.2.1.ρ 1)).isSome)) = .ok (true, true, true) := by decide +kernel

end CStr
