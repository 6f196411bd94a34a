import Verif.Lemmas.FailIO
import Verif.Props.Fail
import Verif.Props.Grep
import Verif.Props.Crypt
import Verif.Props.Tasks
/-! C92 for the accessories and for programs with input and output. -/
namespace CStr

/-- C92. Encryption and decryption, which take a context from the allocator besides: a call that returns has had no request answered NULL and has done exactly what it does when the
allocator never answers NULL. -/
theorem C92_crypt {cfg : Cfg} {h : Host} {s : St} {bp : Option Addr} {key iv stack : Addr} {v : View} {bp' : Option Addr} {s' : St} :
    (strbuf_encrypt cfg h s bp key iv stack = .ok (v, bp', s') →
      (∀ i, s.calls ≤ i → i < s'.calls → (s.picks i).addr ≠ 0) ∧ strbuf_encrypt cfg h s.strict bp key iv stack = .ok (v, bp', s'.strict)) ∧
    (strbuf_decrypt cfg h s bp key iv stack = .ok (v, bp', s') →
      (∀ i, s.calls ≤ i → i < s'.calls → (s.picks i).addr ≠ 0) ∧ strbuf_decrypt cfg h s.strict bp key iv stack = .ok (v, bp', s'.strict)) := by
  constructor
  · intro he
    have := (crypt_sim (cfg := cfg) (enc_context cfg h) s bp key iv stack).answered (st := fun r => r.2.2) (s := s) (fun _ => rfl)
      (crypt_keeps (Answered.kept _ (strict_noFail s) s.calls) (strict_answered s) _ _ _ _ _) he
    exact ⟨this.2, this.1⟩
  · intro he
    have := (crypt_sim (cfg := cfg) (dec_context cfg h) s bp key iv stack).answered (st := fun r => r.2.2) (s := s) (fun _ => rfl)
      (crypt_keeps (Answered.kept _ (strict_noFail s) s.calls) (strict_answered s) _ _ _ _ _) he
    exact ⟨this.2, this.1⟩

/-- The state with the buffer "hello" of capacity `cap`, key and init vector, and an allocator that answers NULL at request `n`. -/
def cryptFail (cap n : Nat) : St :=
  { exSt ⟨[104, 101, 108, 108, 111], cap, ⟨7, 4660⟩⟩ (fipsKey 32 ++ fipsPlain.bytes) with picks := fun i => ⟨if i = n then 0 else 1099511627776 + 68719476736 * i, fun _ => 0xAA⟩ }

/-- The request that grows the buffer is answered NULL; that for the context is; none is. -/
example : (match strbuf_encrypt exCfg .little (cryptFail 8 0) (some exP) exQ (exQ + 32) 0 with | .ub .badHeader => true | _ => false) = true := by decide +kernel

example : (match strbuf_encrypt exCfg .little (cryptFail 8 1) (some exP) exQ (exQ + 32) 0 with | .ub .badWrite => true | _ => false) = true := by decide +kernel

example : (strbuf_encrypt exCfg .little (cryptFail 8 2) (some exP) exQ (exQ + 32) 0).isOk = true := by decide +kernel

/-- C92. `strbuf_write`, which assigns the rest to the buffer. -/
theorem C92_write {cfg : Cfg} {s : St} {bp : Option Addr} {d : Option Nat} {out : List Byte} {n : Int} {bp' : Option Addr} {s' : St} {out' : List Byte}
    (he : strbuf_write cfg s bp d out = .ok (n, bp', s', out')) :
    (∀ i, s.calls ≤ i → i < s'.calls → (s.picks i).addr ≠ 0) ∧ strbuf_write cfg s.strict bp d out = .ok (n, bp', s'.strict, out') := by
  have := (write_sim cfg s bp d out).answered (st := fun r => r.2.2.1) (s := s) (fun _ => rfl)
    (write_keeps (Answered.kept _ (strict_noFail s) s.calls) (strict_answered s) _ _ _) he
  exact ⟨this.2, this.1⟩

/-- Three bytes written, two left, no memory needed. -/
example : (strbuf_write exCfg (nullSt []) (some exP) (some 3) []).isOk = true := by decide +kernel

/-- C92. Programs with input and output, `strbuf_to_cstr` excepted, with an allocator that may answer NULL at any request. The first `n` actions, for every `n`: either a request was answered NULL,
and the program went no further; or no request was, and every answer, every byte read and every byte written is what it should be. -/
theorem C92_interactive_partial {cfg : Cfg} (hcfg : cfg.Ok) {dflt : Alloc} {K : Nat → List Byte} {ka : Nat → Addr} {s : St} (hblk : ∀ q, s.live q = none)
    (hconst : ∀ k, 0 < ka k ∧ ((K k).length : Int) ≤ INT_MAX ∧ Holds s.mem (ka k) (K k ++ [0])) (os : Nat → Option Nat) {p : IProgram}
    (hp : ∀ t h k, p t ≠ some (.act (.cmd (.cmd (.toCstr h k))))) (n : Nat) (w : World) (hl : LegalIPlay cfg dflt K os p n [] .start w) :
    (s.CanFail ∧ ∃ u, iplay cfg dflt K ka os p n [] (.start s) w = .ub u) ∨ iplay cfg dflt K ka os p n [] (.start s) w = .env .alloc ∨
      ∃ t A' X' w', IPlays cfg dflt K os p n [] .start w t A' w' ∧ iplay cfg dflt K ka os p n [] (.start s) w = .ok (t, X', w') ∧
        ∀ i, s.calls ≤ i → i < X'.s.calls → (s.picks i).addr ≠ 0 := by
  have hst : Start K ka s.strict := ⟨hblk, strict_noFail s, hconst⟩
  have hsim := iplay_sim cfg dflt K ka os hp n [] (.start s) w
  have href := C87_refinement hcfg os p n hst.mrep w [] hl
  change SimW _ _ (iplay cfg dflt K ka os p n [] (.start s.strict) w) at hsim
  cases hr : iplay cfg dflt K ka os p n [] (.start s) w with
  | ok a =>
    obtain ⟨t, X', w'⟩ := a
    obtain ⟨g1, g2⟩ := hsim.answered (st := fun r => r.2.1.s) (s := s) (fun _ => rfl)
      (iplay_keeps (Answered.kept _ (strict_noFail s) s.calls) n (strict_answered s) w) hr
    rcases href with h | ⟨t1, A1, X1, w1, h1, h2, _⟩
    · rw [g1] at h; cases h
    · rw [g1] at h2; cases h2
      exact .inr (.inr ⟨t, A1, X', w', h1, rfl, g2⟩)
  | ub u =>
    left
    refine ⟨Classical.not_not.1 fun hn => ?_, u, rfl⟩
    rw [St.strict_eq hn, hr] at href
    rcases href with h | ⟨_, _, _, _, _, h, _⟩ <;> cases h
  | fuel =>
    rw [hr] at hsim
    rcases hsim with ⟨⟨_, h⟩, _⟩ | h
    · cases h
    · rw [h] at href
      rcases href with h | ⟨_, _, _, _, _, h, _⟩ <;> cases h
  | env e =>
    right; left
    rw [hr] at hsim
    rcases hsim with ⟨⟨_, h⟩, _⟩ | h
    · cases h
    · rw [h] at href
      rcases href with h | ⟨_, _, _, _, _, h, _⟩
      · cases h; rfl
      · cases h

/-- The machine of the filter of C87, with an allocator that answers NULL at request `n`. -/
def grepFail (n : Nat) : St := { grepSt with picks := fun i => if i = n then ⟨0, fun _ => 0⟩ else grepSt.picks i }

/-- Answered NULL at the second request: it stops. At the hundredth, which is never made: it does not. -/
example : (match iplay exCfg ⟨0, 1⟩ grepK grepKa grepOs grep 1000 [] (.start (grepFail 1)) ⟨grepText, []⟩ with | .ub _ => true | _ => false) = true := by decide +kernel

example : (iplay exCfg ⟨0, 1⟩ grepK grepKa grepOs grep 1000 [] (.start (grepFail 100)) ⟨grepText, []⟩).isOk = true := by decide +kernel

/-- C92. The filter of C87 with an allocator that may answer NULL: whatever it has written, as long as it runs, is the beginning of the right output; it never writes a line that was damaged because
memory ran out. -/
theorem C92_grep {cfg : Cfg} (hcfg : cfg.Ok) {dflt : Alloc} (hd : dflt.Ok) {K : Nat → List Byte} {ka : Nat → Addr} {s : St} (hblk : ∀ q, s.live q = none)
    (hconst : ∀ k, 0 < ka k ∧ ((K k).length : Int) ≤ INT_MAX ∧ Holds s.mem (ka k) (K k ++ [0])) (hK : K 0 = [10])
    {os : Nat → Option Nat} (hos : Honest os) {ls : List (List Byte)} {r : List Byte} (hls : ∀ l ∈ ls, (10 : Byte) ∉ l) (hr : (10 : Byte) ∉ r)
    (hi : ((joinLines ls ++ r).length : Int) + cfg.growStep ≤ INT_MAX) {n : Nat} {t : List Answer} {X : MState} {w : World}
    (h : iplay cfg dflt K ka os grep n [] (.start s) ⟨joinLines ls ++ r, []⟩ = .ok (t, X, w)) :
    w.out <+: joinLines (ls.filter fun l => decide (K 1 <:+: l)) ++ (if K 1 <:+: r then r else []) ∧
    (grep t = none → w.inp = [] ∧ w.out = joinLines (ls.filter fun l => decide (K 1 <:+: l)) ++ (if K 1 <:+: r then r else [])) := by
  have hst : Start K ka s.strict := ⟨hblk, strict_noFail s, hconst⟩
  have hg : ∀ t h k, grep t ≠ some (.act (.cmd (.cmd (.toCstr h k)))) := by
    intro t h k e
    have hx : Place.act ((Machine.mk .empty0 Place.act Place.next).state t) = some (.act (.cmd (.cmd (.toCstr h k)))) := e
    cases hp : (Machine.mk .empty0 Place.act Place.next).state t <;> rw [hp] at hx <;> cases hx
  have hsim := iplay_sim cfg dflt K ka os hg n [] (.start s) ⟨joinLines ls ++ r, []⟩
  rw [h] at hsim
  have h' : iplay cfg dflt K ka os grep n [] (.start s.strict) ⟨joinLines ls ++ r, []⟩ = .ok (t, X.strict, w) := by
    rcases hsim with ⟨⟨_, e⟩, _⟩ | e
    · cases e
    · exact e
  refine ⟨C87_grep_prefix hcfg hd hst hK hos hls hr hi h', ?_⟩
  rcases C87_grep hcfg hd hst hK hos hls hr hi n with e | ⟨t1, X1, w1, e, h2⟩
  · rw [h'] at e; cases e
  · rw [h'] at e; cases e; exact h2

example : ((iplay exCfg ⟨0, 1⟩ grepK grepKa grepOs grep 1000 [] (.start (grepFail 100)) ⟨grepText, []⟩).bind fun r => .ok (grep r.1 |>.isNone, r.2.2.inp, r.2.2.out)) =
    .ok (true, [], [99, 97, 98, 10, 97, 98, 97, 98, 10, 97, 98]) := by decide +kernel

/-- C92. Families of programs with variables of their own and one allocator that may answer NULL, in every schedule: a run that has not stopped has had no request answered NULL, and every program
has seen and written what it would have alone with an allocator that never fails. -/
theorem C92_tasks_partial {cfg : Cfg} (hcfg : cfg.Ok) {dflt : Alloc} {K : Nat → List Byte} {ka : Nat → Addr} {owner : Nat → Nat} {s : St} (hblk : ∀ q, s.live q = none)
    (hconst : ∀ k, 0 < ka k ∧ ((K k).length : Int) ≤ INT_MAX ∧ Holds s.mem (ka k) (K k ++ [0])) {os : Nat → Nat → Option Nat} {ps : Nat → IProgram} (hp : OwnPrograms owner ps)
    (hn : ∀ i t h k, ps i t ≠ some (.act (.cmd (.cmd (.toCstr h k))))) (sched : List Nat) (w : Nat → World)
    (hl : ∀ i, LegalIPlay cfg dflt K (os i) (ps i) (sched.count i) [] .start (w i)) :
    (s.CanFail ∧ ∃ u, (Tasks.start (fun _ => 0) s w).run cfg dflt K ka os ps sched = .ub u) ∨ (Tasks.start (fun _ => 0) s w).run cfg dflt K ka os ps sched = .env .alloc ∨
      ∃ T, (Tasks.start (fun _ => 0) s w).run cfg dflt K ka os ps sched = .ok T ∧ (∀ i, s.calls ≤ i → i < T.s.calls → (s.picks i).addr ≠ 0) ∧
        ∀ i, ∃ A', IPlays cfg dflt K (os i) (ps i) (sched.count i) [] .start (w i) (T.task i).answers A' (T.task i).world := by
  have hst : Start K ka s.strict := ⟨hblk, strict_noFail s, hconst⟩
  have hsim := tasks_sim cfg dflt K ka os hn sched (Tasks.start (fun _ => 0) s w)
  have href := C89_schedule (owner := owner) hcfg hp sched hst.rep w (os := os) (dflt := dflt) (by
    intro i
    have : (AState.only owner i fun _ => none) = fun _ => none := by funext h; simp only [AState.only, ite_self]
    rw [this]; exact hl i)
  change SimW _ _ ((Tasks.start (fun _ => 0) s.strict w).run cfg dflt K ka os ps sched) at hsim
  cases hr : (Tasks.start (fun _ => 0) s w).run cfg dflt K ka os ps sched with
  | ok T =>
    obtain ⟨g1, g2⟩ := hsim.answered (st := fun r => r.s) (s := s) (fun _ => rfl)
      (tasks_keeps (Answered.kept _ (strict_noFail s) s.calls) sched (strict_answered s)) hr
    rcases href with h | ⟨T1, σ1, h1, h2⟩
    · rw [g1] at h; cases h
    · rw [g1] at h1; cases h1
      refine .inr (.inr ⟨T, rfl, g2, fun i => ?_⟩)
      obtain ⟨A', h3, _⟩ := h2 i
      have : (AState.only owner i fun _ => none) = fun _ => none := by funext h; simp only [AState.only, ite_self]
      rw [this] at h3
      exact ⟨A', h3⟩
  | ub u =>
    left
    refine ⟨Classical.not_not.1 fun hn => ?_, u, rfl⟩
    rw [St.strict_eq hn, hr] at href
    rcases href with h | ⟨_, _, h, _⟩ <;> cases h
  | fuel =>
    rw [hr] at hsim
    rcases hsim with ⟨⟨_, h⟩, _⟩ | h
    · cases h
    · rw [h] at href
      rcases href with h | ⟨_, _, h, _⟩ <;> cases h
  | env e =>
    right; left
    rw [hr] at hsim
    rcases hsim with ⟨⟨_, h⟩, _⟩ | h
    · cases h
    · rw [h] at href
      rcases href with h | ⟨_, _, h, _⟩
      · cases h; rfl
      · cases h

/-- Two filters, when the fourth request is answered NULL, and when none is. -/
example : (match (Tasks.start (fun _ => 0) (grepFail 3) twoInputs).run exCfg ⟨0, 1⟩ grepK grepKa (fun _ _ => some 1) (fun i => grep.rename (demoNames i)) twoTurns with
    | .ub _ => true | _ => false) = true := by decide +kernel

example : ((Tasks.start (fun _ => 0) (grepFail 100) twoInputs).run exCfg ⟨0, 1⟩ grepK grepKa (fun _ _ => some 1) (fun i => grep.rename (demoNames i)) twoTurns).isOk = true := by
  decide +kernel

end CStr
