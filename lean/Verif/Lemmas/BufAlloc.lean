import Verif.Lemmas.Bytes
/-! Arithmetic helpers, allocator calls and capacity changes. -/
namespace CStr

theorem addInt_ok (cfg : Cfg) {a b : Int} (h1 : INT_MIN ≤ a + b) (h2 : a + b ≤ INT_MAX) :
    addInt cfg a b = .ok (a + b) := by
  simp [addInt, h1, h2]

theorem addInt_wrap {cfg : Cfg} (hw : cfg.wrapv = true) (a b : Int) :
    addInt cfg a b = .ok (toInt32 (ofInt32 (a + b))) := by
  simp only [addInt]
  split
  · next h => rw [toInt32_ofInt32 h.1 h.2]
  · rfl

theorem addInt_iso {cfg : Cfg} (hw : cfg.wrapv = false) {a b : Int} (h : INT_MAX < a + b) :
    addInt cfg a b = .ub .signedOverflow := by
  simp only [addInt]
  rw [if_neg (by omega), hw]; rfl

/-- The overflow test for non-negative operands. -/
theorem add_ovf (cfg : Cfg) {a b : Nat} (ha : (a : Int) ≤ INT_MAX) (hb : (b : Int) ≤ INT_MAX)
    (h : cfg.wrapv = true ∨ (a : Int) + b ≤ INT_MAX) :
    add_will_overflow_int cfg a b = .ok (decide (INT_MAX < (a : Int) + b)) := by
  simp only [INT_MAX] at ha hb
  by_cases hov : (a : Int) + b ≤ INT_MAX
  · rw [add_will_overflow_int, addInt_ok cfg (by simp only [INT_MIN]; omega) hov]
    simp only [Res.bind_ok]
    congr 1
    rw [decide_eq_decide]
    simp only [INT_MAX] at hov ⊢; omega
  · have hw : cfg.wrapv = true := by
      rcases h with h | h
      · exact h
      · omega
    rw [add_will_overflow_int, addInt_wrap hw]
    simp only [Res.bind_ok]
    have hov' := hov
    simp only [INT_MAX] at hov'
    have : toInt32 (ofInt32 ((a : Int) + b)) = (a : Int) + b - 4294967296 := by
      have hlt : ¬ ofInt32 ((a : Int) + b) < 2147483648 := by simp only [ofInt32]; omega
      rw [toInt32, if_neg hlt]
      simp only [ofInt32]; omega
    rw [this]
    congr 1
    rw [decide_eq_decide]
    simp only [INT_MAX]; omega

theorem add_ovf_iso {cfg : Cfg} (hw : cfg.wrapv = false) {a b : Nat} (h : INT_MAX < (a : Int) + b) :
    add_will_overflow_int cfg a b = .ub .signedOverflow := by
  rw [add_will_overflow_int, addInt_iso hw h]; rfl

/-- Rounding up to a multiple of the step. -/
def roundUp (step n : Nat) : Nat :=
  if ((n + step - 1) / step) * step ≤ 2147483647 then ((n + step - 1) / step) * step else 2147483647

theorem ceil_mul {n step : Nat} (hs : 0 < step) :
    (n + step - 1) / step * step = if n % step = 0 then n else n + (step - n % step) := by
  have hm := Nat.div_add_mod n step
  have hlt := Nat.mod_lt n hs
  split
  · next h =>
    have : n + step - 1 = (step - 1) + step * (n / step) := by
      have := hm; rw [h] at this; omega
    rw [this, Nat.add_mul_div_left _ _ hs, Nat.div_eq_of_lt (by omega), Nat.zero_add, Nat.mul_comm]
    omega
  · next h =>
    have : n + step - 1 = (n % step - 1) + step * (n / step + 1) := by
      rw [Nat.mul_add, Nat.mul_one]; omega
    rw [this, Nat.add_mul_div_left _ _ hs, Nat.div_eq_of_lt (by omega), Nat.zero_add, Nat.add_mul, Nat.one_mul,
      Nat.mul_comm]
    omega

theorem le_roundUp {step n : Nat} (hs : 0 < step) (hn : (n : Int) ≤ INT_MAX) : n ≤ roundUp step n := by
  simp only [INT_MAX] at hn
  simp only [roundUp]
  rw [ceil_mul hs]
  split <;> split <;> omega

theorem roundUp_le (step n : Nat) : (roundUp step n : Int) ≤ INT_MAX := by
  simp only [roundUp, INT_MAX]
  split <;> omega

theorem grownCap_eq (step cap n : Nat) : grownCap step cap n = if n ≤ cap then cap else roundUp step n := rfl

theorem le_grownCap {step cap n : Nat} (hs : 0 < step) (hn : (n : Int) ≤ INT_MAX) : n ≤ grownCap step cap n := by
  rw [grownCap_eq]
  split
  · assumption
  · exact le_roundUp hs hn

theorem grownCap_max {step cap n : Nat} (hc : (cap : Int) ≤ INT_MAX) : (grownCap step cap n : Int) ≤ INT_MAX := by
  rw [grownCap_eq]
  split
  · assumption
  · exact roundUp_le _ _

theorem cap_le_grownCap {step cap n : Nat} (hs : 0 < step) (hn : (n : Int) ≤ INT_MAX) : cap ≤ grownCap step cap n := by
  rw [grownCap_eq]
  split
  · omega
  · have := le_roundUp hs hn; omega

theorem grownCap_eq_cap {step cap n : Nat} (hs : 0 < step) (hn : (n : Int) ≤ INT_MAX) :
    grownCap step cap n = cap ↔ n ≤ cap := by
  rw [grownCap_eq]
  split
  · simp [*]
  · have := le_roundUp hs hn; omega

theorem round_up_eq {cfg : Cfg} (hc : cfg.Ok) {n : Nat} (hn : (n : Int) ≤ INT_MAX)
    (hh : cfg.wrapv = true ∨ (n : Int) + cfg.growStep ≤ INT_MAX) :
    round_up_capacity cfg n = .ok (roundUp cfg.growStep.toNat n : Nat) := by
  have hp := hc.pos
  have hm := hc.max
  obtain ⟨step, hstep⟩ : ∃ k : Nat, cfg.growStep = k := ⟨cfg.growStep.toNat, by omega⟩
  have hs : 0 < step := by omega
  simp only [INT_MAX] at hn hm
  have hlt := Nat.mod_lt n hs
  have hle := Nat.mod_le n step
  have htm : (n : Int).tmod cfg.growStep = ((n % step : Nat) : Int) := by
    rw [hstep]; rfl
  have htn : cfg.growStep.toNat = step := by omega
  simp only [round_up_capacity, htm]
  rw [htn]
  simp only [roundUp]
  rw [ceil_mul hs]
  by_cases hz : n % step = 0
  · rw [if_neg (by omega), if_pos hz, if_pos (by omega)]
  · rw [if_pos (by omega), if_neg hz]
    have e : cfg.growStep - ((n % step : Nat) : Int) = ((step - n % step : Nat) : Int) := by omega
    rw [e]
    rw [add_ovf cfg (by simp only [INT_MAX]; omega) (by simp only [INT_MAX]; omega) (by
      rcases hh with h | h
      · exact .inl h
      · right; omega)]
    simp only [Res.bind_ok]
    by_cases ho : n + (step - n % step) ≤ 2147483647
    · rw [decide_eq_false (by simp only [INT_MAX]; omega), if_pos ho]
      simp only [Bool.not_false, if_true]
      rw [addInt_ok cfg (by simp only [INT_MIN]; omega) (by simp only [INT_MAX]; omega)]
      congr 1
    · rw [decide_eq_true (by simp only [INT_MAX]; omega), if_neg ho]
      simp [INT_MAX]

/-! Allocator calls. -/

theorem unmap_eq {m : Mem} {a : Addr} {n : Nat} {x : Addr} (h : ¬ InRange a n x) : unmap m a n x = m x := by
  simp only [unmap]; exact if_neg h

theorem unmap_in {m : Mem} {a : Addr} {n : Nat} {x : Addr} (h : InRange a n x) : unmap m a n x = none := by
  simp only [unmap]; exact if_pos h

theorem mapNew_out {m : Mem} {a : Addr} {n : Nat} {f : Nat → Byte} {x : Addr} (h : ¬ InRange a n x) :
    mapNew m a n f x = m x := by
  simp only [mapNew]; exact if_neg h

theorem mapNew_in {m : Mem} {a : Addr} {n : Nat} {f : Nat → Byte} {x : Addr} (h : InRange a n x) :
    mapNew m a n f x = some (f (x - a).toNat) := by
  simp only [mapNew]; exact if_pos h

/-- A new block, as far as memory and heap are concerned. -/
structure NewBlock (s s' : St) (p' : Addr) (n' : Nat) (al : Alloc) : Prop where
  pos : 0 < p'
  aligned : p' % 8 = 0
  top : p' + n' ≤ litBase
  mapped : ∀ i : Nat, i < n' → (s'.mem (p' + i)).isSome
  fresh : ∀ a, InRange p' n' a → s.mem a = none
  outside : ∀ a, ¬ InRange p' n' a → s'.mem a = s.mem a
  live : s'.live = fun q => if q = p' then some ⟨n', al⟩ else s.live q
  liveNone : s.live p' = none
  sane : s'.Sane
  picks : s'.picks = s.picks
  calls : s'.calls = s.calls + 1
  log : s'.log = ⟨al, 0, n', p'⟩ :: s.log

theorem allocCall_new {s : St} (hs : s.Sane) {al : Alloc} (hal : al.fn ≠ 0) {n : Nat} (hn : n ≠ 0) :
    (BadAnswer s 0 0 n ∧ allocCall s al 0 n = .env .alloc) ∨
      ∃ p' s', allocCall s al 0 n = .ok (p', s') ∧ NewBlock s s' p' n al := by
  have hu : unmap s.mem 0 0 = s.mem := by
    funext x; apply unmap_eq; simp only [InRange]; omega
  simp only [allocCall]
  rw [if_neg hal]
  simp only [if_true]
  rw [if_neg hn, if_neg (hs.noFail _), hu]
  by_cases hl : legalBlock s.mem (s.picks s.calls).addr n
  · rw [if_pos hl]
    right
    obtain ⟨h1, h2, h3, h4⟩ := hl
    have h4' : ∀ a, InRange (s.picks s.calls).addr n a → s.mem a = none := by
      intro a ha
      simp only [InRange] at ha
      have := h4 (a - (s.picks s.calls).addr).toNat (by omega)
      rwa [show (s.picks s.calls).addr + ((a - (s.picks s.calls).addr).toNat : Int) = a by omega] at this
    have hlive0 : ∀ q b, s.live q = some b → q + b.size ≤ (s.picks s.calls).addr ∨
        (s.picks s.calls).addr + n ≤ q := by
      intro q b hq
      obtain ⟨w1, w2, w3, w4⟩ := hs.wf.block q b hq
      by_cases hc : q + b.size ≤ (s.picks s.calls).addr ∨ (s.picks s.calls).addr + n ≤ q
      · exact hc
      · exfalso
        by_cases hq2 : (s.picks s.calls).addr ≤ q
        · have a1 := w4 0 w2
          have a2 := h4' (q + (0 : Nat)) (by simp only [InRange]; omega)
          rw [a2] at a1; simp at a1
        · have a1 := w4 ((s.picks s.calls).addr - q).toNat (by omega)
          have a2 := h4' (q + (((s.picks s.calls).addr - q).toNat : Int)) (by simp only [InRange]; omega)
          rw [a2] at a1; simp at a1
    have hnone : s.live (s.picks s.calls).addr = none := by
      cases hq : s.live (s.picks s.calls).addr with
      | none => rfl
      | some b =>
        have := hlive0 _ _ hq
        have := (hs.wf.block _ _ hq).2.1
        omega
    have h0none : s.live 0 = none := by
      cases hq : s.live 0 with
      | none => rfl
      | some b => have := (hs.wf.block _ _ hq).1; omega
    refine ⟨_, _, rfl, ⟨h1, h2, h3, ?_, h4', ?_, ?_, hnone, ⟨⟨?_, ?_⟩, hs.noFail⟩, rfl, rfl, rfl⟩⟩
    · intro i hi
      show (mapNew _ _ _ _ _).isSome = true
      rw [mapNew_in (by simp only [InRange]; omega)]; rfl
    · intro a ha
      show mapNew _ _ _ _ _ = _
      rw [mapNew_out ha]
    · funext q
      simp only
      split
      · rfl
      · split
        · next h => rw [h, h0none]
        · rfl
    · intro q b hq
      simp only at hq
      split at hq
      · next he =>
        cases hq
        simp only
        refine ⟨by omega, by omega, by omega, ?_⟩
        intro i hi
        rw [mapNew_in (by simp only [InRange]; omega)]; rfl
      · next he =>
        split at hq
        · cases hq
        · obtain ⟨w1, w2, w3, w4⟩ := hs.wf.block q b hq
          refine ⟨w1, w2, w3, ?_⟩
          intro i hi
          have := hlive0 q b hq
          simp only
          rw [mapNew_out (by simp only [InRange]; omega)]
          exact w4 i hi
    · intro q b q' b' hq hq' hne
      simp only at hq hq'
      have key : ∀ q b, (if q = (s.picks s.calls).addr then some ⟨n, al⟩ else
          if q = 0 then none else s.live q) = some b → (q = (s.picks s.calls).addr ∧ b = ⟨n, al⟩) ∨ s.live q = some b := by
        intro q b h
        split at h
        · next he => left; cases h; exact ⟨he, rfl⟩
        · split at h
          · cases h
          · exact .inr h
      rcases key q b hq with ⟨e, e2⟩ | h <;> rcases key q' b' hq' with ⟨e', e2'⟩ | h'
      · omega
      · subst e2; subst e
        have := hlive0 _ _ h'
        simp only; omega
      · subst e2'; subst e'
        have := hlive0 _ _ h
        simp only; omega
      · exact hs.wf.disjoint _ _ _ _ h h' hne
  · rw [if_neg hl]; exact .inl ⟨by rw [BadAnswer, hu]; exact hl, rfl⟩

/-- Result of resizing a live block. -/
structure Resized (s s' : St) (p : Addr) (n : Nat) (p' : Addr) (n' : Nat) (al : Alloc) : Prop where
  pos : 0 < p'
  aligned : p' % 8 = 0
  top : p' + n' ≤ litBase
  mapped : ∀ i : Nat, i < n' → (s'.mem (p' + i)).isSome
  copied : ∀ i : Nat, i < n → i < n' → s'.mem (p' + i) = s.mem (p + i)
  only : OnlyBlock s s' p n p' n'
  liveAt : s'.live p' = some ⟨n', al⟩
  sane : s'.Sane
  calls : s'.calls = s.calls + 1
  log : s'.log = ⟨al, p, n', p'⟩ :: s.log

theorem allocCall_resize {s : St} (hs : s.Sane) {al : Alloc} (hal : al.fn ≠ 0) {p : Addr} {n : Nat}
    (hp : s.live p = some ⟨n, al⟩) {n' : Nat} (hn : n' ≠ 0) :
    (BadAnswer s p n n' ∧ allocCall s al p n' = .env .alloc) ∨
      ∃ p' s', allocCall s al p n' = .ok (p', s') ∧ Resized s s' p n p' n' al := by
  obtain ⟨p1, p2, p3, p4⟩ := hs.wf.block p _ hp
  simp only at p2 p3 p4
  simp only [allocCall]
  rw [if_neg hal, if_neg (by omega), hp]
  simp only [if_true]
  rw [if_neg hn, if_neg (hs.noFail _)]
  by_cases hl : legalBlock (unmap s.mem p n) (s.picks s.calls).addr n'
  · rw [if_pos hl]
    right
    obtain ⟨h1, h2, h3, h4⟩ := hl
    have h4' : ∀ a, InRange (s.picks s.calls).addr n' a → ¬ InRange p n a → s.mem a = none := by
      intro a ha hb
      have hb' := hb
      simp only [InRange] at ha hb
      have := h4 (a - (s.picks s.calls).addr).toNat (by omega)
      rw [show (s.picks s.calls).addr + ((a - (s.picks s.calls).addr).toNat : Int) = a by omega,
        unmap_eq hb'] at this
      exact this
    have hlive0 : ∀ q b, s.live q = some b → q ≠ p → q + b.size ≤ (s.picks s.calls).addr ∨
        (s.picks s.calls).addr + n' ≤ q := by
      intro q b hq hqp
      obtain ⟨w1, w2, w3, w4⟩ := hs.wf.block q b hq
      have hdis := hs.wf.disjoint q b p _ hq hp hqp
      simp only at hdis
      by_cases hc : q + b.size ≤ (s.picks s.calls).addr ∨ (s.picks s.calls).addr + n' ≤ q
      · exact hc
      · exfalso
        by_cases hq2 : (s.picks s.calls).addr ≤ q
        · have a1 := w4 0 w2
          have a2 := h4' (q + (0 : Nat)) (by simp only [InRange]; omega) (by simp only [InRange]; omega)
          rw [a2] at a1; simp at a1
        · have a1 := w4 ((s.picks s.calls).addr - q).toNat (by omega)
          have a2 := h4' (q + (((s.picks s.calls).addr - q).toNat : Int)) (by simp only [InRange]; omega)
            (by simp only [InRange]; omega)
          rw [a2] at a1; simp at a1
    refine ⟨_, _, rfl, ⟨h1, h2, h3, ?_, ?_, ⟨?_, h4', ?_, ?_, ?_, ?_, rfl⟩, ?_, ⟨⟨?_, ?_⟩, hs.noFail⟩, rfl, rfl⟩⟩
    · intro i hi
      show (mapNew _ _ _ _ _).isSome = true
      rw [mapNew_in (by simp only [InRange]; omega)]; rfl
    · intro i hi hi'
      show mapNew _ _ _ _ _ = _
      rw [mapNew_in (by simp only [InRange]; omega)]
      have : ((s.picks s.calls).addr + (i : Int) - (s.picks s.calls).addr).toNat = i := by omega
      rw [this]
      simp only [newContents]
      rw [if_pos hi]
      obtain ⟨y, hy⟩ := Option.isSome_iff_exists.1 (p4 i hi)
      rw [hy]; rfl
    · intro a ha hb
      show mapNew _ _ _ _ _ = _
      rw [mapNew_out hb, unmap_eq ha]
    · intro a ha hb
      show mapNew _ _ _ _ _ = _
      rw [mapNew_out hb, unmap_in ha]
    · intro q hq hq'
      simp only
      rw [if_neg hq', if_neg hq]
    · intro hne
      cases hq : s.live (s.picks s.calls).addr with
      | none => rfl
      | some b =>
        have := hlive0 _ _ hq hne
        have := (hs.wf.block _ _ hq).2.1
        omega
    · intro hne
      simp only
      rw [if_neg (by omega)]
      simp only [if_true]
    · simp only [if_true]
    · intro q b hq
      simp only at hq
      split at hq
      · next he =>
        cases hq
        simp only
        refine ⟨by omega, by omega, by omega, ?_⟩
        intro i hi
        rw [mapNew_in (by simp only [InRange]; omega)]; rfl
      · next he =>
        split at hq
        · cases hq
        · next hqp =>
          obtain ⟨w1, w2, w3, w4⟩ := hs.wf.block q b hq
          refine ⟨w1, w2, w3, ?_⟩
          intro i hi
          have := hlive0 q b hq hqp
          have hd := hs.wf.disjoint q b p _ hq hp hqp
          simp only at hd
          simp only
          rw [mapNew_out (by simp only [InRange]; omega), unmap_eq (by simp only [InRange]; omega)]
          exact w4 i hi
    · intro q b q' b' hq hq' hne
      simp only at hq hq'
      have key : ∀ q b, (if q = (s.picks s.calls).addr then some ⟨n', al⟩ else
          if q = p then none else s.live q) = some b →
          (q = (s.picks s.calls).addr ∧ b = ⟨n', al⟩) ∨ (q ≠ p ∧ s.live q = some b) := by
        intro q b h
        split at h
        · next he => left; cases h; exact ⟨he, rfl⟩
        · split at h
          · cases h
          · next hh => exact .inr ⟨hh, h⟩
      rcases key q b hq with ⟨e, e2⟩ | ⟨g, h⟩ <;> rcases key q' b' hq' with ⟨e', e2'⟩ | ⟨g', h'⟩
      · omega
      · subst e2; subst e
        have := hlive0 _ _ h' g'
        simp only; omega
      · subst e2'; subst e'
        have := hlive0 _ _ h g
        simp only; omega
      · exact hs.wf.disjoint _ _ _ _ h h' hne
  · rw [if_neg hl]; exact .inl ⟨hl, rfl⟩

/-- Result of releasing a live block. -/
structure Released (s s' : St) (p : Addr) (n : Nat) (al : Alloc) : Prop where
  outside : ∀ a, ¬ InRange p n a → s'.mem a = s.mem a
  gone : ∀ a, InRange p n a → s'.mem a = none
  live : s'.live = fun q => if q = p then none else s.live q
  sane : s'.Sane
  picks : s'.picks = s.picks
  calls : s'.calls = s.calls
  log : s'.log = ⟨al, p, 0, 0⟩ :: s.log

theorem allocCall_free {s : St} (hs : s.Sane) {al : Alloc} (hal : al.fn ≠ 0) {p : Addr} {n : Nat}
    (hp : s.live p = some ⟨n, al⟩) :
    ∃ s', allocCall s al p 0 = .ok (0, s') ∧ Released s s' p n al := by
  obtain ⟨p1, p2, p3, p4⟩ := hs.wf.block p _ hp
  simp only [allocCall]
  rw [if_neg hal, if_neg (by omega), hp]
  simp only [if_true]
  refine ⟨_, rfl, ⟨fun a ha => unmap_eq ha, fun a ha => unmap_in ha, rfl, ⟨⟨?_, ?_⟩, hs.noFail⟩, rfl, rfl, rfl⟩⟩
  · intro q b hq
    simp only at hq
    split at hq
    · cases hq
    · next hqp =>
      obtain ⟨w1, w2, w3, w4⟩ := hs.wf.block q b hq
      refine ⟨w1, w2, w3, ?_⟩
      intro i hi
      have hd := hs.wf.disjoint q b p _ hq hp hqp
      simp only at hd
      simp only
      rw [unmap_eq (by simp only [InRange]; omega)]
      exact w4 i hi
  · intro q b q' b' hq hq' hne
    simp only at hq hq'
    split at hq
    · cases hq
    · split at hq'
      · cases hq'
      · exact hs.wf.disjoint _ _ _ _ hq hq' hne

end CStr
