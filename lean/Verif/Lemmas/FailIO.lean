import Verif.Lemmas.Fail
import Verif.Lemmas.Cleanup
/-! Programs with input and output under an allocator that may answer NULL. -/
namespace CStr

/-- As `Sim`, without saying which undefined behaviour follows a NULL answer. -/
def SimW (u : α → α) (r r' : Res α) : Prop := ((∃ w, r = .ub w) ∧ r' = .env .alloc) ∨ r' = (r >>= fun a => .ok (u a))

theorem Sim.weak {u : α → α} {r r' : Res α} (h : Sim u r r') : SimW u r r' := by
  rcases h with ⟨h1, h2⟩ | h
  · exact .inl ⟨⟨_, h1⟩, h2⟩
  · exact .inr h

theorem SimW.ok {u : α → α} (a : α) : SimW u (.ok a) (.ok (u a)) := .inr rfl

theorem SimW.bind {u : α → α} {v : β → β} {r r' : Res α} {k k' : α → Res β} (h : SimW u r r') (hk : ∀ a, SimW v (k a) (k' (u a))) :
    SimW v (r >>= k) (r' >>= k') := by
  rcases h with ⟨⟨w, rfl⟩, rfl⟩ | rfl
  · exact .inl ⟨⟨w, rfl⟩, rfl⟩
  · cases r with
    | ok a => exact hk a
    | _ => exact .inr rfl

theorem SimW.same {v : β → β} {r : Res α} {k k' : α → Res β} (hk : ∀ a, SimW v (k a) (k' a)) : SimW v (r >>= k) (r >>= k') := by
  cases r with
  | ok a => exact hk a
  | _ => exact .inr rfl

theorem SimW.ite {v : β → β} {c : Prop} [Decidable c] {a a' b b' : Res β} (h1 : SimW v a a') (h2 : SimW v b b') :
    SimW v (if c then a else b) (if c then a' else b') := by
  split
  · exact h1
  · exact h2

macro "quietW" : tactic => `(tactic| repeat' (first
  | exact SimW.ok _
  | (refine SimW.same ?_; intro _)
  | refine SimW.ite ?_ ?_))

theorem SimW.answered {u : α → α} {r r' : Res α} (h : SimW u r r') {st : α → St} (hu : ∀ a, st (u a) = (st a).strict) {s : St}
    (hk : Res.Sat (fun a => Answered s.strict.picks s.calls (st a)) r') {a : α} (he : r = .ok a) :
    r' = .ok (u a) ∧ (∀ i, s.calls ≤ i → i < (st a).calls → (s.picks i).addr ≠ 0) := by
  subst he
  rcases h with ⟨⟨w, h⟩, _⟩ | h
  · cases h
  · refine ⟨h, fun i h1 h2 => ?_⟩
    have := (hk.out _ h).2 i h1 (by rw [hu]; exact h2)
    exact strict_aligned this

/-! ### Writing to the context at NULL -/

theorem bind_ub {r : Res α} {k : α → Res β} (h : (∃ w, r = .ub w) ∨ ((∃ a, r = .ok a) ∧ ∀ a, ∃ w, k a = .ub w)) : ∃ w, (r >>= k) = .ub w := by
  rcases h with ⟨w, rfl⟩ | ⟨⟨a, rfl⟩, h⟩
  · exact ⟨w, rfl⟩
  · exact h a

theorem readBytes_cases (m : Mem) (a : Addr) (n : Nat) : (∃ w, readBytes m a n = .ub w) ∨ ∃ l, readBytes m a n = .ok l ∧ l.length = n := by
  induction n generalizing a with
  | zero => exact .inr ⟨[], rfl, rfl⟩
  | succ n ih =>
    rw [readBytes, load]
    split
    · rcases ih (a + 1) with ⟨w, h⟩ | ⟨l, h, hl⟩
      · left; exact ⟨w, by rw [Res.bind_ok, h]; rfl⟩
      · right; exact ⟨_, by rw [Res.bind_ok, h]; rfl, by rw [List.length_cons, hl]⟩
    · left; exact ⟨_, rfl⟩

theorem init_null (h : Host) (m : Mem) (key : Addr) : ∃ w, aes256_init_at h m key 0 = .ub w := by
  have : ∃ w, memcpy m 0 key 32 = .ub w := by
    rw [memcpy]
    split
    · exact ⟨_, rfl⟩
    · rw [memmove]
      rcases readBytes_cases m key 32 with ⟨w, e⟩ | ⟨l, e, hl⟩
      · exact ⟨w, by rw [e]; rfl⟩
      · cases l with
        | nil => cases hl
        | cons x l => exact ⟨.badWrite, by rw [e]; rfl⟩
  obtain ⟨w, e⟩ := this
  exact ⟨w, by rw [aes256_init_at, e]; rfl⟩

/-- A function that does not return when the context is NULL. -/
def NeedsContext (f : EncDec) : Prop := ∀ m buf len key iv, ∃ w, f m buf len key iv 0 = .ub w

theorem mulInt_cases (cfg : Cfg) (a b : Int) : (∃ w, mulInt cfg a b = .ub w) ∨ ∃ c, mulInt cfg a b = .ok c := by
  rw [mulInt]; split
  · exact .inr ⟨_, rfl⟩
  · split
    · exact .inr ⟨_, rfl⟩
    · exact .inl ⟨_, rfl⟩

theorem addInt_cases (cfg : Cfg) (a b : Int) : (∃ w, addInt cfg a b = .ub w) ∨ ∃ c, addInt cfg a b = .ok c := by
  rw [addInt]; split
  · exact .inr ⟨_, rfl⟩
  · split
    · exact .inr ⟨_, rfl⟩
    · exact .inl ⟨_, rfl⟩

theorem enc_context (cfg : Cfg) (h : Host) : NeedsContext (enc256cbc cfg h) := by
  intro m buf len key iv
  rw [enc256cbc]
  refine bind_ub ((mulInt_cases _ _ _).imp id fun hc => ⟨hc, fun c => bind_ub ((addInt_cases _ _ _).imp id fun hd => ⟨hd, fun d => ?_⟩)⟩)
  exact bind_ub (.inl (init_null h m key))

theorem dec_context (cfg : Cfg) (h : Host) : NeedsContext (dec256cbc cfg h) := by
  intro m buf len key iv
  rw [dec256cbc]
  exact bind_ub (.inl (init_null h m key))

theorem getSize_cases (m : Mem) (p : Addr) : (∃ w, getSize m p = .ub w) ∨ ∃ c, getSize m p = .ok c := by
  rw [getSize, getField, checkPtr]
  split
  · exact .inl ⟨_, rfl⟩
  · rcases readBytes_cases m (p + (0 : Nat)) 4 with ⟨w, h⟩ | ⟨l, h, _⟩
    · left; exact ⟨w, by simp only [Res.bind_ok, h]; rfl⟩
    · right; exact ⟨_, by simp only [Res.bind_ok, h]; rfl⟩

/-! ### The functions -/

theorem crypt_sim {cfg : Cfg} {f : EncDec} (hf : NeedsContext f) (s : St) (bp : Option Addr) (key iv stack : Addr) :
    SimW up3 (strbuf_crypt cfg f s bp key iv stack) (strbuf_crypt cfg f s.strict bp key iv stack) := by
  simp only [strbuf_crypt]
  cases deref bp with
  | none => exact SimW.ok _
  | some p =>
    refine SimW.same fun d => SimW.ite (SimW.same fun z => SimW.same fun n => SimW.bind (grow_sim _ _ _).weak ?_) ?_
    · rintro ⟨v, bp, s1⟩
      simp only [up3]
      cases bp with
      | none => exact .inr rfl
      | some q =>
        refine SimW.same fun al => ?_
        rcases allocCall_sim (s := s1) (al := al) (p := 0) (n := 240) with ⟨s2, e1, e2, _⟩ | e
        · left
          refine ⟨?_, by rw [e2]; rfl⟩
          rw [e1, Res.bind_ok]
          refine bind_ub ((getSize_cases _ _).imp id fun hc => ⟨hc, fun z => bind_ub (.inl (hf _ _ _ _ _))⟩)
        · refine SimW.bind (u := up2) (.inr e) ?_
          rintro ⟨c, s2⟩
          refine SimW.same fun z => SimW.same ?_
          rintro ⟨n, m⟩
          refine SimW.same fun m1 => SimW.same fun al' => SimW.bind (release_sim _ _ _).weak ?_
          rintro ⟨x, s3⟩
          simp only [up2]
          quietW
    · quietW

theorem read_sim (cfg : Cfg) (s : St) (bp : Option Addr) (d : Option Nat) (inp : List Byte) :
    SimW (fun r => (r.1, r.2.1.strict, r.2.2)) (strbuf_append_read cfg s bp d inp) (strbuf_append_read cfg s.strict bp d inp) := by
  simp only [strbuf_append_read]
  cases deref bp with
  | none => exact SimW.ok _
  | some p =>
    refine SimW.same fun _ => SimW.same fun _ => SimW.same fun _ => SimW.same ?_
    rintro ⟨n, m, inp'⟩
    simp only
    quietW

theorem write_sim (cfg : Cfg) (s : St) (bp : Option Addr) (d : Option Nat) (out : List Byte) :
    SimW (fun r => (r.1, r.2.1, r.2.2.1.strict, r.2.2.2)) (strbuf_write cfg s bp d out) (strbuf_write cfg s.strict bp d out) := by
  simp only [strbuf_write]
  cases deref bp with
  | none => exact SimW.ok _
  | some p =>
    refine SimW.same fun _ => SimW.same ?_
    rintro ⟨n, out'⟩
    refine SimW.ite (SimW.same fun _ => SimW.same fun _ => SimW.bind (assign_sim _ _ _ _).weak ?_) (SimW.ok _)
    rintro ⟨v, b, s1⟩
    exact SimW.ok _

/-- The same, in the stricter environment. -/
def MState.strict (X : MState) : MState := { X with s := X.s.strict }

theorem mcmd_sim (cfg : Cfg) (d : Alloc) (T : Nat → List Byte) (ka : Nat → Addr) (X : MState) {c : MCmd} (hc : ∀ h k, c ≠ .cmd (.toCstr h k)) :
    SimW MState.strict (c.exec cfg d T ka X) (c.exec cfg d T ka X.strict) := by
  cases c with
  | cmd c => exact SimW.bind (exec_sim cfg d T ka X.ρ X.s fun h k e => hc h k (e ▸ rfl)).weak fun _ => SimW.ok _
  | op k o => exact SimW.bind (run_sim _ _ _ _).weak fun _ => SimW.ok _
  | create k i o => exact SimW.bind (create_init_sim _ _ _ _ _).weak fun _ => SimW.ok _
  | view k => exact SimW.same fun _ => SimW.ok _
  | const k => exact SimW.ok _
  | call c => exact SimW.same fun _ => SimW.ok _

theorem query_sim (q : Query) (X : MState) : SimW (fun r => (r.1, r.2.strict)) (q.ask X) (q.ask X.strict) := by
  have conv : ∀ i r, SimW (fun r => (r.1, r.2.strict)) (converted X i r) (converted X.strict i r) := by
    rintro i ⟨e, _ | d, _ | v⟩ <;> exact .inr rfl
  cases q with
  | valid i | viewSize i | isNull k => exact SimW.ok _
  | viewChar i k | isMatch i j | isMatchNocase i j | startsWith i j | startsWithNocase i j | contains i j | containsNocase i j | compare i j | bufSize k | capacity k | bufChar k i | strChar k i =>
    exact SimW.same fun _ => SimW.ok _
  | popChar i =>
    refine SimW.same fun r => ?_
    rcases r with ⟨c, _ | v⟩ <;> exact .inr rfl
  | unsigned t i o d => exact SimW.same fun _ => conv i _
  | signed t i o d => exact SimW.same fun _ => conv i _

theorem iact_sim (cfg : Cfg) (d : Alloc) (T : Nat → List Byte) (ka : Nat → Addr) (X : MState) (os : Option Nat) (w : World) {x : IAct}
    (hx : ∀ h k, x ≠ .act (.cmd (.cmd (.toCstr h k)))) :
    SimW (fun r => (r.1, r.2.1.strict, r.2.2)) (x.exec cfg d T ka os X w) (x.exec cfg d T ka os X.strict w) := by
  cases x with
  | act x =>
    refine SimW.bind (u := fun r => (r.1, r.2.strict)) ?_ fun r => SimW.ok _
    cases x with
    | cmd c => exact SimW.bind (mcmd_sim cfg d T ka X fun h k e => hx h k (e ▸ rfl)) fun _ => SimW.ok _
    | ask q => exact query_sim q X
  | read k => exact SimW.bind (read_sim _ _ _ _ _) fun _ => SimW.ok _
  | write k => exact SimW.bind (write_sim _ _ _ _ _) fun _ => SimW.ok _
  | writeView i =>
    refine SimW.same fun r => ?_
    rcases r with ⟨n, _ | v, out⟩ <;> exact .inr rfl
  | pack k j o t x => exact SimW.bind (u := up3) (SimW.same fun _ => (append_sim _ _ _ _).weak) fun _ => SimW.ok _
  | unpack i k o t => exact SimW.same fun _ => SimW.ok _
  | encrypt k key iv j => exact SimW.bind (crypt_sim (enc_context _ _) _ _ _ _ _) fun _ => SimW.ok _
  | decrypt k key iv j => exact SimW.bind (crypt_sim (dec_context _ _) _ _ _ _ _) fun _ => SimW.ok _

theorem iplay_sim (cfg : Cfg) (d : Alloc) (T : Nat → List Byte) (ka : Nat → Addr) (os : Nat → Option Nat) {p : IProgram}
    (hp : ∀ t h k, p t ≠ some (.act (.cmd (.cmd (.toCstr h k))))) (n : Nat) : ∀ (t : List Answer) (X : MState) (w : World),
    SimW (fun r => (r.1, r.2.1.strict, r.2.2)) (iplay cfg d T ka os p n t X w) (iplay cfg d T ka os p n t X.strict w) := by
  induction n with
  | zero => exact fun _ _ _ => SimW.ok _
  | succ n ih =>
    intro t X w
    simp only [iplay]
    cases h : p t with
    | none => exact SimW.ok _
    | some x =>
      refine SimW.bind (iact_sim cfg d T ka X _ w fun h' k e => hp t h' k (e ▸ h)) ?_
      rintro ⟨a, Y, w1⟩
      exact ih _ _ _

def Tasks.strict (T : Tasks) : Tasks := { T with s := T.s.strict }

theorem tasks_sim (cfg : Cfg) (d : Alloc) (T : Nat → List Byte) (ka : Nat → Addr) (os : Nat → Nat → Option Nat) {ps : Nat → IProgram}
    (hp : ∀ i t h k, ps i t ≠ some (.act (.cmd (.cmd (.toCstr h k))))) (sched : List Nat) : ∀ Y : Tasks,
    SimW Tasks.strict (Y.run cfg d T ka os ps sched) (Y.strict.run cfg d T ka os ps sched) := by
  induction sched with
  | nil => exact fun _ => SimW.ok _
  | cons i sched ih =>
    intro Y
    simp only [Tasks.run]
    refine SimW.bind (u := Tasks.strict) ?_ fun Z => ih Z
    simp only [Tasks.turn]
    change SimW _ _ (match ps i (Y.task i).answers with | none => .ok Y.strict | some x => _)
    cases h : ps i (Y.task i).answers with
    | none => exact SimW.ok _
    | some x =>
      refine SimW.bind (iact_sim cfg d T ka (Y.state i) _ (Y.task i).world fun h' k e => hp i _ h' k (e ▸ h)) ?_
      rintro ⟨a, X, w⟩
      exact SimW.ok _

end CStr
