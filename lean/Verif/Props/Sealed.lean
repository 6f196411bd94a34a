import Verif.Lemmas.Sealed
import Verif.Props.Grep
/-! Property C88: a message goes from one program to another, with its length, padded and encrypted (Spec/Sealed.lean). -/
namespace CStr

/-- Where both programs start: the key and the init vector are constants 0 and 1, of 32 and 16 bytes, and there is a variable of at least 4 bytes at `a`, apart from the constants. -/
structure Ready (K : Nat → List Byte) (ka : Nat → Addr) (s : St) (a : Addr) : Prop extends Start K ka s where
  key : (K 0).length = 32
  iv : (K 1).length = 16
  aligned : a % 8 = 0
  var : Variable s.mem a 4
  apart : ∀ k, ka k + ((K k).length + 1 : Nat) ≤ a ∨ a + 4 ≤ ka k

/-- The state there. -/
def readyState (s : St) (a : Addr) : MState := ⟨fun h => if h = 9 then a else 0, s, [], 0⟩

theorem Ready.mrep {K : Nat → List Byte} {ka : Nat → Addr} {s : St} {a : Addr} (h : Ready K ka s a) : MRep K ka (sealStart 4) (readyState s a) := by
  have hσ : ∀ k o, (sealStart 4).σ k = some o → k = 9 ∧ o = .mem 4 := by
    intro k o e
    simp only [sealStart] at e
    split at e
    · next e' => cases e; exact ⟨e', rfl⟩
    · cases e
  refine ⟨⟨⟨⟨(fun q b hq => by rw [show (readyState s a).s.live q = none from h.noBlocks q] at hq; cases hq), (fun q b _ _ hq => by rw [show (readyState s a).s.live q = none from h.noBlocks q] at hq; cases hq)⟩, h.noFail⟩, ?_, ?_, ?_, h.const, ?_, ?_⟩,
    rfl, ?_, rfl, .inl rfl⟩
  · intro k e
    simp only [sealStart] at e
    split at e
    · cases e
    · next e' => exact if_neg e'
  · intro k o e
    obtain ⟨rfl, rfl⟩ := hσ k o e
    exact ⟨h.var.1, h.aligned, by decide, h.var.2⟩
  · intro k k' o o' e e' hne
    exact absurd ((hσ k o e).1.trans (hσ k' o' e').1.symm) hne
  · intro k k' o e
    obtain ⟨rfl, rfl⟩ := hσ k' o e
    exact h.apart k
  · intro q b hq
    rw [show (readyState s a).s.live q = none from h.noBlocks q] at hq; cases hq
  · intro i
    simp [sealStart, readyState, Mixed.view, viewAt, ViewRep]

section

variable {cfg : Cfg} (hcfg : cfg.Ok) {dflt : Alloc} (hd : dflt.Ok) {K : Nat → List Byte} {ka : Nat → Addr} {s : St} {a : Addr} (hr : Ready K ka s a) {os : Nat → Option Nat} {m : List Byte}
  (hm : (m.length : Int) + 64 + cfg.growStep ≤ INT_MAX)

/-- The first program is legal for ever, and its invariant holds. -/
theorem seal_runs {cfg : Cfg} (hcfg : cfg.Ok) {dflt : Alloc} (hd : dflt.Ok) {K : Nat → List Byte} (hK0 : (K 0).length = 32) (hK1 : (K 1).length = 16) {os : Nat → Option Nat} (hos : Honest os)
    {m : List Byte} (hm : (m.length : Int) + 64 + cfg.growStep ≤ INT_MAX) (n : Nat) :
    LegalIPlay cfg dflt K os sealer n [] (sealStart 4) ⟨m, []⟩ ∧
    ∀ t A w, IPlays cfg dflt K os sealer n [] (sealStart 4) ⟨m, []⟩ t A w → ∃ μ, SealInv dflt K m 4 ((Machine.mk .key Seal.act Seal.next).state t) A w μ := by
  have h0 : SealInv dflt K m 4 ((Machine.mk .key Seal.act Seal.next).state []) (sealStart 4) ⟨m, []⟩ (2 * paddedLen (m.length + 4) + 4 * m.length + 28) := ⟨rfl, rfl, rfl⟩
  refine machine_inv (m := ⟨.key, Seal.act, Seal.next⟩) (Good := (· ≠ some 0)) hos (Inv := fun p A w => ∃ μ, SealInv dflt K m 4 p A w μ) ?_ n ⟨_, h0⟩
  rintro p A w x ⟨μ, h⟩ hx
  obtain ⟨h1, h2⟩ := seal_step hd (by decide) hK0 hK1 hm hcfg.pos h hx
  refine ⟨h1, fun d a B w1 hd hs => ?_⟩
  obtain ⟨μ', -, h3⟩ := h2 d a B w1 hd hs
  exact ⟨μ', h3⟩

theorem unseal_runs {cfg : Cfg} (hcfg : cfg.Ok) {dflt : Alloc} (hd : dflt.Ok) {K : Nat → List Byte} (hK0 : (K 0).length = 32) (hK1 : (K 1).length = 16) {os : Nat → Option Nat} (hos : Honest os)
    {m c : List Byte} (hs : IsSealed (K 0) (K 1) m c) (hm : (m.length : Int) + 64 + cfg.growStep ≤ INT_MAX) (n : Nat) :
    LegalIPlay cfg dflt K os opener n [] (sealStart 4) ⟨c, []⟩ ∧
    ∀ t A w, IPlays cfg dflt K os opener n [] (sealStart 4) ⟨c, []⟩ t A w → ∃ μ, UnsealInv dflt K m c 4 ((Machine.mk .key Unseal.act Unseal.next).state t) A w μ := by
  have h0 : UnsealInv dflt K m c 4 ((Machine.mk .key Unseal.act Unseal.next).state []) (sealStart 4) ⟨c, []⟩ (2 * m.length + 4 * c.length + 15) := ⟨rfl, rfl, rfl⟩
  refine machine_inv (m := ⟨.key, Unseal.act, Unseal.next⟩) (Good := (· ≠ some 0)) hos (Inv := fun p A w => ∃ μ, UnsealInv dflt K m c 4 p A w μ) ?_ n ⟨_, h0⟩
  rintro p A w x ⟨μ, h⟩ hx
  obtain ⟨h1, h2⟩ := unseal_step hd (by decide) hK0 hK1 hs hm hcfg.pos h hx
  refine ⟨h1, fun d a B w1 hd hs => ?_⟩
  obtain ⟨μ', -, h3⟩ := h2 d a B w1 hd hs
  exact ⟨μ', h3⟩

theorem seal_done {cfg : Cfg} (hcfg : cfg.Ok) {dflt : Alloc} (hd : dflt.Ok) {K : Nat → List Byte} (hK0 : (K 0).length = 32) (hK1 : (K 1).length = 16) {os : Nat → Option Nat} (hos : Honest os)
    {m : List Byte} (hm : (m.length : Int) + 64 + cfg.growStep ≤ INT_MAX) {n : Nat} {t : List Answer} {A : Mixed} {w : World}
    (h1 : IPlays cfg dflt K os sealer n [] (sealStart 4) ⟨m, []⟩ t A w) (hn : sealer t = none) : w.inp = [] ∧ IsSealed (K 0) (K 1) m w.out := by
  obtain ⟨μ, h⟩ := (seal_runs hcfg hd hK0 hK1 hos hm n).2 t A w h1
  have hn : Seal.act ((Machine.mk .key Seal.act Seal.next).state t) = none := hn
  cases hp : (Machine.mk .key Seal.act Seal.next).state t <;> rw [hp] at hn <;> try cases hn
  rw [hp] at h
  obtain ⟨b0, b1, c, g, hc, hb, -⟩ := h
  have ho := g.out
  rw [hb, List.append_nil] at ho
  exact ⟨g.inp, by rw [ho]; exact hc⟩

theorem seal_ends {cfg : Cfg} (hcfg : cfg.Ok) {dflt : Alloc} (hd : dflt.Ok) {K : Nat → List Byte} (hK0 : (K 0).length = 32) (hK1 : (K 1).length = 16) {os : Nat → Option Nat}
    (hos : ∀ k, ∃ j, os k = some (j + 1)) {m : List Byte} (hm : (m.length : Int) + 64 + cfg.growStep ≤ INT_MAX) {n : Nat} (hn : 2 * paddedLen (m.length + 4) + 4 * m.length + 28 < n)
    {t : List Answer} {A : Mixed} {w : World} (h1 : IPlays cfg dflt K os sealer n [] (sealStart 4) ⟨m, []⟩ t A w) : sealer t = none := by
  have h0 : SealInv dflt K m 4 ((Machine.mk .key Seal.act Seal.next).state []) (sealStart 4) ⟨m, []⟩ (2 * paddedLen (m.length + 4) + 4 * m.length + 28) := ⟨rfl, rfl, rfl⟩
  refine machine_ends (m := ⟨.key, Seal.act, Seal.next⟩) (Good := fun d => ∃ j, d = some (j + 1)) hos (Inv := SealInv dflt K m 4) ?_ n h0 hn _ _ _ h1
  rintro p A w μ x h hx d a B w1 ⟨j, rfl⟩ hs
  obtain ⟨μ', h4, h5⟩ := (seal_step hd (by decide) hK0 hK1 hm hcfg.pos h hx).2 _ a B w1 (by simp) hs
  exact ⟨μ', h4 (by simp), h5⟩

theorem unseal_done {cfg : Cfg} (hcfg : cfg.Ok) {dflt : Alloc} (hd : dflt.Ok) {K : Nat → List Byte} (hK0 : (K 0).length = 32) (hK1 : (K 1).length = 16) {os : Nat → Option Nat} (hos : Honest os)
    {m c : List Byte} (hs : IsSealed (K 0) (K 1) m c) (hm : (m.length : Int) + 64 + cfg.growStep ≤ INT_MAX) {n : Nat} {t : List Answer} {A : Mixed} {w : World}
    (h1 : IPlays cfg dflt K os opener n [] (sealStart 4) ⟨c, []⟩ t A w) (hn : opener t = none) : w.inp = [] ∧ w.out = m := by
  obtain ⟨μ, h⟩ := (unseal_runs hcfg hd hK0 hK1 hos hs hm n).2 t A w h1
  have hn : Unseal.act ((Machine.mk .key Unseal.act Unseal.next).state t) = none := hn
  cases hp : (Machine.mk .key Unseal.act Unseal.next).state t <;> rw [hp] at hn <;> try cases hn
  rw [hp] at h
  exact ⟨h.1, h.2.1⟩

theorem unseal_ends {cfg : Cfg} (hcfg : cfg.Ok) {dflt : Alloc} (hd : dflt.Ok) {K : Nat → List Byte} (hK0 : (K 0).length = 32) (hK1 : (K 1).length = 16) {os : Nat → Option Nat}
    (hos : ∀ k, ∃ j, os k = some (j + 1)) {m c : List Byte} (hs : IsSealed (K 0) (K 1) m c) (hm : (m.length : Int) + 64 + cfg.growStep ≤ INT_MAX) {n : Nat} (hn : 2 * m.length + 4 * c.length + 15 < n)
    {t : List Answer} {A : Mixed} {w : World} (h1 : IPlays cfg dflt K os opener n [] (sealStart 4) ⟨c, []⟩ t A w) : opener t = none := by
  have h0 : UnsealInv dflt K m c 4 ((Machine.mk .key Unseal.act Unseal.next).state []) (sealStart 4) ⟨c, []⟩ (2 * m.length + 4 * c.length + 15) := ⟨rfl, rfl, rfl⟩
  refine machine_ends (m := ⟨.key, Unseal.act, Unseal.next⟩) (Good := fun d => ∃ j, d = some (j + 1)) hos (Inv := UnsealInv dflt K m c 4) ?_ n h0 hn _ _ _ h1
  rintro p A w μ x h hx d a B w1 ⟨j, rfl⟩ hs'
  obtain ⟨μ', h4, h5⟩ := (unseal_step hd (by decide) hK0 hK1 hs hm hcfg.pos h hx).2 _ a B w1 (by simp) hs'
  exact ⟨μ', h4 (by simp), h5⟩

include hcfg hd hr hm

/-- C88. The first program is correct for every message, key and init vector, and every way in which the operating system divides the transfers or lets them fail: it never does anything
illegal, for any number of actions, and when it has finished it has read all the message and written the message sealed: the encryption with AES-256, in cipher block chaining mode and padded, of the length in
four bytes followed by the message. -/
theorem C88_seal (hos : Honest os) (n : Nat) :
    iplay cfg dflt K ka os sealer n [] (readyState s a) ⟨m, []⟩ = .env .alloc ∨
    ∃ t X w, iplay cfg dflt K ka os sealer n [] (readyState s a) ⟨m, []⟩ = .ok (t, X, w) ∧ (sealer t = none → w.inp = [] ∧ IsSealed (K 0) (K 1) m w.out) := by
  rcases C87_refinement hcfg os sealer n hr.mrep _ [] (seal_runs hcfg hd hr.key hr.iv hos hm n).1 with e | ⟨t, A, X, w, h1, h2, -⟩
  · exact .inl e
  · exact .inr ⟨t, X, w, h2, seal_done hcfg hd hr.key hr.iv hos hm h1⟩

/-- C88. Wherever the first program is stopped, what it has written so far is the beginning of the sealed message. -/
theorem C88_seal_prefix (hos : Honest os) {n : Nat} {t : List Answer} {X : MState} {w : World} (h : iplay cfg dflt K ka os sealer n [] (readyState s a) ⟨m, []⟩ = .ok (t, X, w))
    {c : List Byte} (hc : IsSealed (K 0) (K 1) m c) : w.out <+: c := by
  obtain ⟨hl, hinv⟩ := seal_runs hcfg hd hr.key hr.iv hos hm n
  rcases C87_refinement hcfg os sealer n hr.mrep _ [] hl with e | ⟨t', A, X', w', h1, h2, -⟩
  · rw [h] at e; cases e
  rw [h] at h2; cases h2
  obtain ⟨μ, hp⟩ := hinv t A w h1
  have none' : w.out = [] → w.out <+: c := fun e => by rw [e]; exact List.nil_prefix
  cases hq : (Machine.mk .key Seal.act Seal.next).state t <;> rw [hq] at hp
  case key => obtain ⟨-, rfl, -⟩ := hp; exact none' rfl
  case iv => obtain ⟨-, -, -, -, -, -, rfl, -⟩ := hp; exact none' rfl
  case inp => obtain ⟨-, -, -, -, -, -, rfl, -⟩ := hp; exact none' rfl
  case out => obtain ⟨-, -, -, rfl, -⟩ := hp; exact none' rfl
  case top | grow | read => obtain ⟨b0, b1, g, -⟩ := hp; exact none' g.out
  case size | pack => obtain ⟨b0, b1, g, -⟩ := hp; exact none' (List.append_eq_nil_iff.1 g.out).1
  case view | append | crypt => obtain ⟨b0, b1, -, ho, -⟩ := hp; exact none' ho
  case flush | write | stop =>
    obtain ⟨b0, b1, c', g, hc', -⟩ := hp
    rw [C56_cbc_unique hc hc']
    exact ⟨_, g.out⟩

/-- C88. If no call fails the first program finishes, with an output that is complete. -/
theorem C88_seal_finishes (hos : ∀ k, ∃ j, os k = some (j + 1)) (n : Nat) (hn : 2 * paddedLen (m.length + 4) + 4 * m.length + 28 < n) :
    iplay cfg dflt K ka os sealer n [] (readyState s a) ⟨m, []⟩ = .env .alloc ∨
    ∃ t X w, iplay cfg dflt K ka os sealer n [] (readyState s a) ⟨m, []⟩ = .ok (t, X, w) ∧ sealer t = none ∧ w.inp = [] ∧ IsSealed (K 0) (K 1) m w.out := by
  have hos' : Honest os := fun k h => by obtain ⟨j, e⟩ := hos k; rw [h] at e; cases e
  obtain ⟨hl, -⟩ := seal_runs hcfg hd hr.key hr.iv hos' hm n
  rcases C88_seal hcfg hd hr hm hos' n with e | ⟨t, X, w, h2, h3⟩
  · exact .inl e
  rcases C87_refinement hcfg os sealer n hr.mrep _ [] hl with e | ⟨t', A, X', w', h1, h2', -⟩
  · exact .inl e
  rw [h2] at h2'; cases h2'
  have fin : sealer t = none := seal_ends hcfg hd hr.key hr.iv hos hm hn h1
  exact .inr ⟨t, X, w, h2, fin, h3 fin⟩

/-- C88. The second program is correct for every sealed message: it never does anything illegal, and when it has finished it has read everything and written the message. -/
theorem C88_open (hos : Honest os) {c : List Byte} (hc : IsSealed (K 0) (K 1) m c) (n : Nat) :
    iplay cfg dflt K ka os opener n [] (readyState s a) ⟨c, []⟩ = .env .alloc ∨
    ∃ t X w, iplay cfg dflt K ka os opener n [] (readyState s a) ⟨c, []⟩ = .ok (t, X, w) ∧ (opener t = none → w.inp = [] ∧ w.out = m) := by
  rcases C87_refinement hcfg os opener n hr.mrep _ [] (unseal_runs hcfg hd hr.key hr.iv hos hc hm n).1 with e | ⟨t, A, X, w, h1, h2, -⟩
  · exact .inl e
  · exact .inr ⟨t, X, w, h2, unseal_done hcfg hd hr.key hr.iv hos hc hm h1⟩

/-- C88. Wherever the second program is stopped, what it has written so far is the beginning of the message. -/
theorem C88_open_prefix (hos : Honest os) {c : List Byte} (hc : IsSealed (K 0) (K 1) m c) {n : Nat} {t : List Answer} {X : MState} {w : World}
    (h : iplay cfg dflt K ka os opener n [] (readyState s a) ⟨c, []⟩ = .ok (t, X, w)) : w.out <+: m := by
  obtain ⟨hl, hinv⟩ := unseal_runs hcfg hd hr.key hr.iv hos hc hm n
  rcases C87_refinement hcfg os opener n hr.mrep _ [] hl with e | ⟨t', A, X', w', h1, h2, -⟩
  · rw [h] at e; cases e
  rw [h] at h2; cases h2
  obtain ⟨μ, hp⟩ := hinv t A w h1
  have none' : w.out = [] → w.out <+: m := fun e => by rw [e]; exact List.nil_prefix
  cases hq : (Machine.mk .key Unseal.act Unseal.next).state t <;> rw [hq] at hp
  case key => obtain ⟨-, rfl, -⟩ := hp; exact none' rfl
  case iv => obtain ⟨-, -, -, -, -, rfl, -⟩ := hp; exact none' rfl
  case inp => obtain ⟨-, -, -, -, -, rfl, -⟩ := hp; exact none' rfl
  case top | grow | read => obtain ⟨b0, -, -, -, ho, -⟩ := hp; exact none' ho
  case crypt | view => obtain ⟨b0, -, -, -, rfl, -⟩ := hp; exact none' rfl
  case unpack | check => obtain ⟨-, -, rfl, -⟩ := hp; exact none' rfl
  case left => obtain ⟨t, -, -, ho, -⟩ := hp; exact ⟨_, ho⟩
  case write => obtain ⟨t, -, -, ho, -⟩ := hp; exact ⟨_, ho⟩
  case stop => exact hp.2.1 ▸ List.prefix_refl _

/-- C88. If no call fails the second program finishes. -/
theorem C88_open_finishes (hos : ∀ k, ∃ j, os k = some (j + 1)) {c : List Byte} (hc : IsSealed (K 0) (K 1) m c) (n : Nat) (hn : 2 * m.length + 4 * c.length + 15 < n) :
    iplay cfg dflt K ka os opener n [] (readyState s a) ⟨c, []⟩ = .env .alloc ∨
    ∃ t X w, iplay cfg dflt K ka os opener n [] (readyState s a) ⟨c, []⟩ = .ok (t, X, w) ∧ opener t = none ∧ w.inp = [] ∧ w.out = m := by
  have hos' : Honest os := fun k h => by obtain ⟨j, e⟩ := hos k; rw [h] at e; cases e
  obtain ⟨hl, -⟩ := unseal_runs hcfg hd hr.key hr.iv hos' hc hm n
  rcases C88_open hcfg hd hr hm hos' hc n with e | ⟨t, X, w, h2, h3⟩
  · exact .inl e
  rcases C87_refinement hcfg os opener n hr.mrep _ [] hl with e | ⟨t', A, X', w', h1, h2', -⟩
  · exact .inl e
  rw [h2] at h2'; cases h2'
  have fin : opener t = none := unseal_ends hcfg hd hr.key hr.iv hos hc hm hn h1
  exact .inr ⟨t, X, w, h2, fin, h3 fin⟩

/-- C88. From one end to the other: when the first program has finished on one machine, and the second on another one with the same key and init vector has been given its output and has finished, the second
has written the message. The machines may be configured differently, and their operating systems may divide the transfers differently. -/
theorem C88_delivered (hos : Honest os) {n : Nat} {t : List Answer} {X : MState} {w : World} (h : iplay cfg dflt K ka os sealer n [] (readyState s a) ⟨m, []⟩ = .ok (t, X, w)) (hf : sealer t = none)
    {cfg' : Cfg} (hcfg' : cfg'.Ok) {dflt' : Alloc} (hd' : dflt'.Ok) {K' : Nat → List Byte} (hkey : K' 0 = K 0) (hiv : K' 1 = K 1) {ka' : Nat → Addr} {s' : St} {a' : Addr} (hr' : Ready K' ka' s' a')
    {os' : Nat → Option Nat} (hos' : Honest os') (hm' : (m.length : Int) + 64 + cfg'.growStep ≤ INT_MAX) (n' : Nat) :
    iplay cfg' dflt' K' ka' os' opener n' [] (readyState s' a') ⟨w.out, []⟩ = .env .alloc ∨
    ∃ t' X' w', iplay cfg' dflt' K' ka' os' opener n' [] (readyState s' a') ⟨w.out, []⟩ = .ok (t', X', w') ∧ (opener t' = none → w'.inp = [] ∧ w'.out = m) := by
  rcases C88_seal hcfg hd hr hm hos n with e | ⟨t1, X1, w1, h1, h2⟩
  · rw [h] at e; cases e
  rw [h] at h1; cases h1
  exact C88_open hcfg' hd' hr' hm' hos' (by rw [hkey, hiv]; exact (h2 hf).2) n'

end

/-- C88. Messages that are sealed to the same bytes are the same. -/
theorem C88_sealed_unique {k iv m m' c : List Byte} (hk : k.length = 32) (hiv : iv.length = 16) (h : IsSealed k iv m c) (h' : IsSealed k iv m' c) : m = m' := by
  have := (deciphers_of_cbc hk hiv h).unique (deciphers_of_cbc hk hiv h')
  exact (List.append_inj this (by rw [wire_length, wire_length])).2

/-! ### Non-vacuity -/

def sealK : Nat → List Byte
  | 0 => fipsKey 32
  | 1 => fipsPlain.bytes
  | _ => []

def sealKa : Nat → Addr
  | 0 => 64
  | 1 => 128
  | _ => 96

/-- The key, the init vector and a variable are in memory, and the allocator answers with ever higher addresses. -/
def sealSt : St where
  mem := fun a => if a < 97 then memAt 64 (fipsKey 32 ++ [0]) a else if a < 160 then memAt 128 (fipsPlain.bytes ++ [0]) a else memAt 160 [170, 170, 170, 170] a
  live := fun _ => none
  picks := fun i => ⟨4096 + 65536 * i, fun _ => 170⟩
  calls := 0
  log := []

theorem sealReady : Ready sealK sealKa sealSt 160 := by
  refine ⟨⟨fun _ => rfl, fun i => by simp only [sealSt]; omega, fun k => ?_⟩, rfl, rfl, rfl, ⟨by decide, by decide, ?_⟩, fun k => ?_⟩
  · match k with
    | 0 => exact ⟨by decide, by decide, (by decide +kernel : ∀ (i : Nat), (h : i < 33) → rd sealSt.mem (64 + (i : Int)) = some ((fipsKey 32 ++ [0])[i]'h))⟩
    | 1 => exact ⟨by decide, by decide, (by decide +kernel : ∀ (i : Nat), (h : i < 17) → rd sealSt.mem (128 + (i : Int)) = some ((fipsPlain.bytes ++ [0])[i]'h))⟩
    | k + 2 => exact ⟨(by decide : (0 : Int) < 96), (by decide : ((0 : Nat) : Int) ≤ INT_MAX), by intro i hi; match i, hi with | 0, _ => rfl⟩
  · intro i hi
    match i, hi with
    | 0, _ => rfl
    | 1, _ => rfl
    | 2, _ => rfl
    | 3, _ => rfl
  · match k with
    | 0 => exact .inl (by decide)
    | 1 => exact .inl (by decide)
    | k + 2 => exact .inl (by decide : (96 : Int) + ((0 + 1 : Nat) : Int) ≤ 160)

/-- The message "hello". -/
def hello : List Byte := [104, 101, 108, 108, 111]

example := C88_seal exCfg_ok (dflt := ⟨0, 1⟩) ⟨by decide, by decide, by decide⟩ sealReady (m := hello) (by decide) (os := grepOs) (by intro k h; unfold grepOs at h; split at h <;> cases h) 1000

/-- Up to the encryption, by the modelled functions (the evaluation of the cipher takes the kernel too long), with a message of one byte: the length and the message are in the buffer. -/
example : ((iplay exCfg ⟨0, 1⟩ sealK sealKa (fun _ => some 7) sealer 14 [] (readyState sealSt 160) ⟨[104], []⟩).bind fun r =>
    ((match sealer r.1 with | some (.encrypt 1 2 3 9) => .ok true | _ => .ok false) : Res Bool).bind fun e => .ok (e, (List.range 6).map fun (i : Nat) => r.2.1.s.mem (cstrOf (r.2.1.ρ 1) + i), r.2.2.inp)) =
    .ok (true, ([0, 0, 0, 1, 104, 0] : List Byte).map some, []) := by decide +kernel

/-- There is a sealed message for the second program. -/
example : ∃ c, IsSealed (sealK 0) (sealK 1) hello c ∧
    (iplay exCfg ⟨0, 1⟩ sealK sealKa (fun _ => some 7) opener 1000 [] (readyState sealSt 160) ⟨c, []⟩ = .env .alloc ∨
    ∃ t X w, iplay exCfg ⟨0, 1⟩ sealK sealKa (fun _ => some 7) opener 1000 [] (readyState sealSt 160) ⟨c, []⟩ = .ok (t, X, w) ∧ opener t = none ∧ w.inp = [] ∧ w.out = hello) := by
  obtain ⟨c, hl, hc⟩ := exists_cbc (fipsKey 32) fipsPlain.bytes (pkcs7 (wire .BE .u32 hello.length ++ hello)) rfl rfl (n := 1) (by decide +kernel)
  have hc : IsSealed (sealK 0) (sealK 1) hello c := hc
  exact ⟨c, hc, C88_open_finishes exCfg_ok ⟨by decide, by decide, by decide⟩ sealReady (by decide) (fun _ => ⟨6, rfl⟩) hc 1000 (by rw [hl]; decide)⟩

end CStr
