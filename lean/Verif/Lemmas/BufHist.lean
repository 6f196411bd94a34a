import Verif.Spec.BufHist
import Verif.Lemmas.Print
import Verif.Props.BufLife
import Verif.Props.BufOp
import Verif.Props.SubTrim
/-! Preservation of the representation of a program's state by every command. -/
namespace CStr

theorem rd_mid {m : Mem} {a : Addr} (h1 : 0 < a) (h2 : a < litBase) : rd m a = m a := by
  rw [rd, if_neg (by omega), if_neg (by omega)]

theorem ObjAt.facts {s : St} {p : Addr} {o : Obj} (h : ObjAt s p o) :
    0 < p ∧ 0 < o.size ∧ p + o.size ≤ litBase ∧ (∀ a, InRange p o.size a → (s.mem a).isSome) ∧
      (o.owner.fn ≠ 0 → s.live p = some ⟨o.size, o.owner⟩) := by
  cases o with
  | buf b =>
    have hb : BufAt s p b := h
    refine ⟨hb.pos, by simp only [Obj.size, storage]; omega, hb.top, ?_, hb.heap⟩
    intro a ha
    simp only [InRange, Obj.size] at ha
    have := hb.mapped (a - p).toNat (by omega)
    rwa [show p + ((a - p).toNat : Int) = a by omega] at this
  | str l al =>
    obtain ⟨h1, h2, h3, h4, h5⟩ := h
    refine ⟨h1, by simp only [Obj.size]; omega, h2, ?_, h5⟩
    intro a ha
    simp only [InRange, Obj.size] at ha
    have hi : (a - p).toNat < (l ++ [(0 : Byte)]).length := by simp only [List.length_append, List.length_cons, List.length_nil]; omega
    have := h4 (a - p).toNat hi
    rw [show p + ((a - p).toNat : Int) = a by omega, rd_mid (by omega) (by omega)] at this
    rw [this]; rfl
  | mem n =>
    obtain ⟨h1, h2, h3, h4, h5⟩ := h
    refine ⟨h1, h3, h4, ?_, fun h => absurd rfl h⟩
    intro a ha
    simp only [InRange, Obj.size] at ha
    have := h5 (a - p).toNat (by omega)
    rwa [show p + ((a - p).toNat : Int) = a by omega] at this

theorem ObjAt.frame {s s' : St} {p : Addr} {o : Obj} (h : ObjAt s p o)
    (hm : ∀ a, InRange p o.size a → s'.mem a = s.mem a) (hl : o.owner.fn ≠ 0 → s'.live p = s.live p) : ObjAt s' p o := by
  cases o with
  | buf b => exact BufAt.frame h hm hl
  | str l al =>
    obtain ⟨h1, h2, h3, h4, h5⟩ := h
    refine ⟨h1, h2, h3, ?_, fun ho => (hl ho).trans (h5 ho)⟩
    apply h4.congr
    intro i hi
    apply hm
    simp only [List.length_append, List.length_cons, List.length_nil] at hi
    simp only [InRange, Obj.size]; omega
  | mem n =>
    obtain ⟨h1, h2, h3, h4, h5⟩ := h
    refine ⟨h1, h2, h3, h4, ?_⟩
    intro i hi
    rw [hm _ (by simp only [InRange, Obj.size]; omega)]
    exact h5 i hi

/-- An object away from the block that changes stays what it is, and is away from the new block. -/
theorem OnlyBlock.objAt {s s' : St} {p : Addr} {n : Nat} {p' : Addr} {n' : Nat} (h : OnlyBlock s s' p n p' n')
    (hn' : 0 < n') (hnew : n = 0 → p' = p ∧ s.live p = none) {q : Addr} {o : Obj} (hq : ObjAt s q o) 
    (hnp : ∀ a, InRange q o.size a → ¬ InRange p n a) :
    ObjAt s' q o ∧ Apart q o.size p' n' := by
  obtain ⟨f1, f2, f3, f4, f5⟩ := hq.facts
  have hnp' : ∀ a, InRange q o.size a → ¬ InRange p' n' a := by
    intro a h1 h2
    have := f4 a h1
    rw [h.fresh a h2 (hnp a h1)] at this
    cases this
  refine ⟨hq.frame (fun a ha => h.outside a (hnp a ha) (hnp' a ha)) ?_, interval_disjoint f2 hn' hnp'⟩
  intro hdyn
  have h1 := f5 hdyn
  have hne : q ≠ p := by
    intro e
    by_cases hn : n = 0
    · rw [e, (hnew hn).2] at h1; cases h1
    · have := hnp q
      simp only [InRange] at this; omega
  apply h.live q hne
  intro e
  by_cases hpp : p' = p
  · exact hne (e.trans hpp)
  · rw [e, h.liveNew hpp] at h1
    cases h1

/-- An object away from a released block stays what it is. -/
theorem OnlyFreed.objAt {s s' : St} {p : Addr} {n : Nat} (h : OnlyFreed s s' p n) (hn : 0 < n) {q : Addr} {o : Obj} (hq : ObjAt s q o)
    (hd : Apart q o.size p n) : ObjAt s' q o := by
  obtain ⟨f1, f2, f3, f4, f5⟩ := hq.facts
  simp only [Apart] at hd
  apply hq.frame
  · intro a ha
    apply h.outside
    intro h2
    simp only [InRange] at ha h2; omega
  · intro _
    apply h.live; omega

theorem Apart.disj {p : Addr} {n : Nat} {q : Addr} {k : Nat} (h : Apart p n q k) : ∀ a, InRange p n a → ¬ InRange q k a := by
  intro a h1 h2
  simp only [Apart] at h
  simp only [InRange] at h1 h2; omega

theorem Apart.symm {p : Addr} {n : Nat} {q : Addr} {k : Nat} (h : Apart p n q k) : Apart q k p n := Or.symm h

theorem AState.set_same (σ : AState) (h : Nat) (o : Option Obj) : σ.set h o h = o := if_pos rfl
theorem AState.set_ne (σ : AState) {h k : Nat} (o : Option Obj) (hk : k ≠ h) : σ.set h o k = σ k := if_neg hk
theorem Vars.set_same (ρ : Vars) (h : Nat) (p : Addr) : ρ.set h p h = p := if_pos rfl
theorem Vars.set_ne (ρ : Vars) {h k : Nat} (p : Addr) (hk : k ≠ h) : ρ.set h p k = ρ k := if_neg hk

theorem AState.set_eq_some {σ : AState} {h k : Nat} {x : Option Obj} {o : Obj} (e : σ.set h x k = some o) :
    (k = h ∧ x = some o) ∨ (k ≠ h ∧ σ k = some o) := by
  by_cases hk : k = h
  · subst hk; rw [AState.set_same] at e; exact .inl ⟨rfl, e⟩
  · rw [AState.set_ne _ _ hk] at e; exact .inr ⟨hk, e⟩

/-- An object at `p` is forgotten: the rest is represented. -/
structure Hole (K : Nat → List Byte) (ka : Nat → Addr) (σ : AState) (ρ : Vars) (s : St) (p : Addr) (n : Nat) : Prop where
  sane : s.Sane
  null : ∀ h, σ h = none → ρ h = 0
  obj : ∀ h o, σ h = some o → ObjAt s (ρ h) o
  apart : ∀ h k o o', σ h = some o → σ k = some o' → h ≠ k → Apart (ρ h) o.size (ρ k) o'.size
  const : ∀ k, 0 < ka k ∧ ((K k).length : Int) ≤ INT_MAX ∧ Holds s.mem (ka k) (K k ++ [0])
  constApart : ∀ k h o, σ h = some o → Apart (ka k) ((K k).length + 1) (ρ h) o.size
  owned : ∀ q blk, s.live q = some blk → q ≠ p → ∃ h o, σ h = some o ∧ ρ h = q ∧ blk = ⟨o.size, o.owner⟩ ∧ o.owner.fn ≠ 0
  hole : ∀ h o, σ h = some o → ∀ a, InRange (ρ h) o.size a → ¬ InRange p n a
  constHole : ∀ k a, InRange (ka k) ((K k).length + 1) a → ¬ InRange p n a

variable {K : Nat → List Byte} {ka : Nat → Addr}

/-- Forget the object in slot `h`. -/
theorem Rep.forget {σ : AState} {ρ : Vars} {s : St} (r : Rep K ka σ ρ s) {h : Nat} {o : Obj} (ho : σ h = some o) :
    Hole K ka (σ.set h none) (ρ.set h 0) s (ρ h) o.size := by
  have hne : ∀ {k o'}, σ.set h none k = some o' → k ≠ h ∧ σ k = some o' ∧ (ρ.set h 0) k = ρ k := by
    intro k o' e
    rcases AState.set_eq_some e with ⟨_, e⟩ | ⟨e1, e2⟩
    · cases e
    · exact ⟨e1, e2, Vars.set_ne _ _ e1⟩
  refine ⟨r.sane, ?_, ?_, ?_, r.const, ?_, ?_, ?_, fun k => (r.constApart k h o ho).disj⟩
  · intro k e
    by_cases hk : k = h
    · subst hk; exact Vars.set_same _ _ _
    · rw [Vars.set_ne _ _ hk]; rw [AState.set_ne _ _ hk] at e; exact r.null k e
  · intro k o' e
    obtain ⟨_, e2, e3⟩ := hne e
    rw [e3]; exact r.obj k o' e2
  · intro k l o1 o2 ek el hkl
    obtain ⟨_, e2, e3⟩ := hne ek
    obtain ⟨_, e5, e6⟩ := hne el
    rw [e3, e6]; exact r.apart k l o1 o2 e2 e5 hkl
  · intro c k o' e
    obtain ⟨_, e2, e3⟩ := hne e
    rw [e3]; exact r.constApart c k o' e2
  · intro q blk hq hqp
    obtain ⟨k, o', h1, h2, h3, h4⟩ := r.owned q blk hq
    have hk : k ≠ h := by intro e; subst e; exact hqp h2.symm
    exact ⟨k, o', by rw [AState.set_ne _ _ hk]; exact h1, by rw [Vars.set_ne _ _ hk]; exact h2, h3, h4⟩
  · intro k o' e
    obtain ⟨e1, e2, e3⟩ := hne e
    rw [e3]; exact (r.apart k h o' o e2 ho e1).disj

/-- Nothing forgotten. -/
theorem Rep.empty {σ : AState} {ρ : Vars} {s : St} (r : Rep K ka σ ρ s) (p : Addr) : Hole K ka σ ρ s p 0 :=
  ⟨r.sane, r.null, r.obj, r.apart, r.const, r.constApart, fun q blk h _ => r.owned q blk h,
    fun _ _ _ a _ h => by simp only [InRange] at h; omega, fun _ a _ h => by simp only [InRange] at h; omega⟩

/-- Put an object at the place of the hole, or elsewhere with the hole released. -/
theorem Hole.fill {σ : AState} {ρ : Vars} {s s' : St} {p : Addr} {n : Nat} (r : Hole K ka σ ρ s p n) {p' : Addr} {o : Obj}
    (hs' : s'.Sane) (hob : OnlyBlock s s' p n p' o.size) (hnew : n = 0 → p' = p ∧ s.live p = none) (ho : ObjAt s' p' o)
    (hfix : o.owner.fn = 0 → s'.live p' = none) {k : Nat} (hk : σ k = none) :
    Rep K ka (σ.set k (some o)) (ρ.set k p') s' := by
  obtain ⟨f1, f2, f3, f4, f5⟩ := ho.facts
  have hkeep : ∀ h o1, σ h = some o1 → ObjAt s' (ρ h) o1 ∧ Apart (ρ h) o1.size p' o.size := fun h o1 e =>
    hob.objAt f2 hnew (r.obj h o1 e) (r.hole h o1 e)
  have hne : ∀ {h o1}, σ h = some o1 → h ≠ k := by
    intro h o1 e e'; subst e'; rw [hk] at e; cases e
  have hconst : ∀ c, Holds s'.mem (ka c) (K c ++ [0]) ∧ Apart (ka c) ((K c).length + 1) p' o.size := by
    intro c
    obtain ⟨c1, c2, c3⟩ := r.const c
    have := hob.keeps' f2 f3 c3 (fun x hx => r.constHole c x (by simpa using hx))
    refine ⟨this.1, ?_⟩
    rcases this.2 with h | h | h
    · simp at h
    · left; simpa using h
    · exact .inr h
  refine ⟨hs', ?_, ?_, ?_, ?_, ?_, ?_⟩
  · intro h e
    have hh : h ≠ k := by intro e'; subst e'; rw [AState.set_same] at e; cases e
    rw [AState.set_ne _ _ hh] at e
    rw [Vars.set_ne _ _ hh]; exact r.null h e
  · intro h o1 e0
    rcases AState.set_eq_some e0 with ⟨rfl, e⟩ | ⟨e1, e2⟩
    · cases e; rw [Vars.set_same]; exact ho
    · rw [Vars.set_ne _ _ e1]; exact (hkeep h o1 e2).1
  · intro h l o1 o2 eh0 el0 hhl
    rcases AState.set_eq_some eh0 with ⟨rfl, eh⟩ | ⟨e1, e2⟩
    · rcases AState.set_eq_some el0 with ⟨rfl, el⟩ | ⟨e3, e4⟩
      · exact absurd rfl hhl
      · cases eh
        rw [Vars.set_same, Vars.set_ne _ _ e3]
        exact (hkeep l o2 e4).2.symm
    · rcases AState.set_eq_some el0 with ⟨rfl, el⟩ | ⟨e3, e4⟩
      · cases el
        rw [Vars.set_same, Vars.set_ne _ _ e1]
        exact (hkeep h o1 e2).2
      · rw [Vars.set_ne _ _ e1, Vars.set_ne _ _ e3]
        exact r.apart h l o1 o2 e2 e4 hhl
  · intro c
    exact ⟨(r.const c).1, (r.const c).2.1, (hconst c).1⟩
  · intro c h o1 e0
    rcases AState.set_eq_some e0 with ⟨rfl, e⟩ | ⟨e1, e2⟩
    · cases e; rw [Vars.set_same]; exact (hconst c).2
    · rw [Vars.set_ne _ _ e1]; exact r.constApart c h o1 e2
  · intro q blk hq
    by_cases hqp' : q = p'
    · refine ⟨k, o, AState.set_same _ _ _, by rw [Vars.set_same]; exact hqp'.symm, ?_⟩
      have : o.owner.fn ≠ 0 := by
        intro h0
        rw [hqp', hfix h0] at hq; cases hq
      rw [hqp', f5 this] at hq
      cases hq
      exact ⟨rfl, this⟩
    · by_cases hqp : q = p
      · have := hob.liveOld (by omega)
        rw [hqp, this] at hq; cases hq
      · rw [hob.live q hqp hqp'] at hq
        obtain ⟨h, o1, h1, h2, h3, h4⟩ := r.owned q blk hq hqp
        have hh := hne h1
        exact ⟨h, o1, by rw [AState.set_ne _ _ hh]; exact h1, by rw [Vars.set_ne _ _ hh]; exact h2, h3, h4⟩

/-- No heap block starts inside an object that belongs to no allocator. -/
theorem Rep.notLive {σ : AState} {ρ : Vars} {s : St} (r : Rep K ka σ ρ s) {h : Nat} {o : Obj} (ho : σ h = some o) (h0 : o.owner.fn = 0)
    {a : Addr} (ha : InRange (ρ h) o.size a) : s.live a = none := by
  cases hl : s.live a with
  | none => rfl
  | some blk =>
    obtain ⟨k, o', h1, h2, h3, h4⟩ := r.owned a blk hl
    have hk : k ≠ h := by
      intro e; subst e; rw [ho] at h1; cases h1; exact h4 h0
    have hd := (r.apart k h o' o h1 ho hk).disj a
    have := (r.obj k o' h1).facts.2.1
    exact absurd ha (hd (by rw [h2]; simp only [InRange]; omega))

/-- The hole stays unused: the block there has been released, or there was none. -/
theorem Hole.drop {σ : AState} {ρ : Vars} {s s' : St} {p : Addr} {n : Nat} (r : Hole K ka σ ρ s p n) (hn : 0 < n)
    (hs' : s'.Sane) (hf : OnlyFreed s s' p n ∨ (s' = s ∧ s.live p = none)) : Rep K ka σ ρ s' := by
  have hdead : s'.live p = none := by
    rcases hf with h | ⟨rfl, h⟩
    · exact h.liveGone
    · exact h
  have hl : ∀ q, q ≠ p → s'.live q = s.live q := by
    rcases hf with h | ⟨rfl, h⟩
    · exact h.live
    · exact fun _ _ => rfl
  have hm : ∀ a, ¬ InRange p n a → s'.mem a = s.mem a := by
    rcases hf with h | ⟨rfl, h⟩
    · exact h.outside
    · exact fun _ _ => rfl
  refine ⟨hs', r.null, ?_, r.apart, ?_, r.constApart, ?_⟩
  · intro h o e
    have f := (r.obj h o e).facts
    apply (r.obj h o e).frame
    · intro a ha; exact hm a (r.hole h o e a ha)
    · intro _
      apply hl
      intro e'
      have := r.hole h o e p
      simp only [InRange] at this; omega
  · intro k
    obtain ⟨c1, c2, c3⟩ := r.const k
    refine ⟨c1, c2, ?_⟩
    apply c3.congr
    intro i hi
    apply hm
    apply r.constHole k
    simp only [List.length_append, List.length_cons, List.length_nil] at hi
    simp only [InRange]; omega
  · intro q blk hq
    by_cases hqp : q = p
    · rw [hqp, hdead] at hq; cases hq
    · rw [hl q hqp] at hq
      exact r.owned q blk hq hqp

theorem BufAt.viewOf {s : St} {p : Addr} {b : Buf} (h : BufAt s p b) : ViewOf s.mem ⟨p + 24, b.data.length⟩ b.data := by
  have hd := (Holds.append_iff.1 (Holds.append_iff.1 h.holds).1).2
  rw [hdrBytes_length] at hd
  have hp := h.pos
  exact ⟨⟨rfl, h.sizeMax, hd⟩, by simp only; omega⟩

/-- `strview_sub` of a view of `l` selects `subList l`, at the place `subRange l`. -/
theorem sub_facts {m : Mem} {v : View} {l : List Byte} (h : ViewOf m v l) {b e : Int} (h1 : INT_MIN ≤ b) (h2 : b ≤ INT_MAX)
    (h3 : INT_MIN ≤ e) (h4 : e ≤ INT_MAX) :
    ∃ w, strview_sub v b e = .ok w ∧ Denotes m w (subList l b e) ∧
      ((∃ B E : Nat, subRange l b e = some (B, E) ∧ B ≤ E ∧ E ≤ l.length ∧ (B = l.length → l = []) ∧ w = ⟨v.data + B, (E : Int) - B⟩) ∨
        (subRange l b e = none ∧ w = .invalid)) := by
  by_cases hl : l = []
  · subst hl
    refine ⟨v, C05_sub_empty h.toDenotes b e, h.toDenotes, .inl ⟨0, 0, rfl, Nat.le_refl _, Nat.le_refl _, fun _ => rfl, ?_⟩⟩
    have := h.size
    obtain ⟨d, n⟩ := v
    simp only [List.length_nil] at this
    subst this
    simp
  · by_cases hr : fromEnd l.length b ≤ fromEnd l.length e ∧ fromEnd l.length b < l.length ∧ 0 ≤ fromEnd l.length e
    · obtain ⟨B, E, hB, hE, hBE, hEl, hsub, hv⟩ := C05_sub_in_range h hl b e h1 h3 h2 h4 hr
      have hrange : subRange l b e = some (B, E) := by
        rw [subRange, if_neg hl, if_pos hr, ← hB, ← hE]; simp
      refine ⟨_, hsub, ?_, .inl ⟨B, E, hrange, hBE, hEl, ?_, ?_⟩⟩
      · rw [subList, hrange]; exact hv.toDenotes
      · intro hb
        have : (B : Int) < l.length := by
          have := List.length_pos_iff.2 hl; omega
        omega
      · simp only [View.part, View.mk.injEq, true_and]; omega
    · refine ⟨.invalid, C05_sub_out_of_range h hl b e h1 h3 h2 h4 (by omega), ?_, .inr ⟨?_, rfl⟩⟩
      · have : subList l b e = [] := by rw [subList, subRange, if_neg hl, if_neg hr]
        rw [this]
        exact ⟨rfl, by simp only [INT_MAX, List.length_nil]; omega, Holds.nil _ _⟩
      · rw [subRange, if_neg hl, if_neg hr]

/-- What is known of an evaluated view argument. -/
structure SrcAt (σ : AState) (ρ : Vars) (s : St) (x : Src) (v : View) (S : List Byte) : Prop where
  denotes : Denotes s.mem v S
  pos : v.data = 0 ∨ 0 < v.data
  inside : ∀ h b, σ h = some (.buf b) → ∀ B E, x.placeIn σ h = some (B, E) →
    B ≤ E ∧ E ≤ b.data.length ∧ v = ⟨ρ h + 24 + B, (E : Int) - B⟩
  outside : ∀ h b, σ h = some (.buf b) → x.placeIn σ h = none →
    v.data = 0 ∨ v.data + v.size < ρ h ∨ ρ h + storage b.cap ≤ v.data

theorem Src.facts {σ : AState} {ρ : Vars} {s : St} (r : Rep K ka σ ρ s) {x : Src} (hx : x.Legal K σ) :
    ∃ v, x.eval K ka ρ s = .ok v ∧ SrcAt σ ρ s x v (x.bytes K σ) := by
  cases x with
  | const k =>
    obtain ⟨c1, c2, c3⟩ := r.const k
    refine ⟨_, rfl, ⟨⟨rfl, c2, (Holds.append_iff.1 c3).1⟩, .inr c1, (fun _ _ _ _ _ h => by cases h), ?_⟩⟩
    intro h b hb _
    have := r.constApart k h _ hb
    simp only [Apart, Obj.size] at this
    simp only
    omega
  | sub k b e =>
    obtain ⟨hh, h1, h2, h3, h4⟩ := hx
    cases hk : σ k with
    | none =>
      have hd : σ.data k = [] := by simp only [AState.data, hk]
      refine ⟨.invalid, ?_, ?_⟩
      · simp only [Src.eval, r.null k hk]
        rfl
      · refine ⟨?_, .inl rfl, ?_, fun _ _ _ _ => .inl rfl⟩
        · have : subList [] b e = [] := by rw [subList, subRange, if_pos rfl]; rfl
          simp only [Src.bytes, hd, this]
          exact ⟨rfl, by simp only [INT_MAX, List.length_nil]; omega, Holds.nil _ _⟩
        · intro h c hc B E hp
          simp only [Src.placeIn] at hp
          split at hp
          · next e => subst e; rw [hk] at hc; cases hc
          · cases hp
    | some o =>
      obtain ⟨c, rfl⟩ := hh o hk
      have hc : BufAt s (ρ k) c := r.obj k _ hk
      have hd : σ.data k = c.data := by simp only [AState.data, hk]
      obtain ⟨w, e1, e2, e3⟩ := sub_facts hc.viewOf h1 h2 h3 h4
      have hpos := hc.pos
      have hlen := hc.len
      refine ⟨w, ?_, ?_⟩
      · simp only [Src.eval, strbuf_view, deref_some hc.pos, hc.view, Res.bind_ok, e1]
      · refine ⟨by simp only [Src.bytes, hd]; exact e2, ?_, ?_, ?_⟩
        · rcases e3 with ⟨B, E, _, _, _, _, rfl⟩ | ⟨_, rfl⟩
          · right; simp only; omega
          · exact .inl rfl
        · intro h b' hb' B E hp
          simp only [Src.placeIn] at hp
          split at hp
          · next e =>
            subst e
            rw [hk] at hb'; cases hb'
            rw [hd] at hp
            rcases e3 with ⟨B', E', g1, g2, g3, g4, g5⟩ | ⟨g1, _⟩
            · rw [g1] at hp; cases hp
              exact ⟨g2, g3, g5⟩
            · rw [g1] at hp; cases hp
          · cases hp
        · intro h b' hb' hp
          rcases e3 with ⟨B, E, g1, g2, g3, _, rfl⟩ | ⟨_, rfl⟩
          · simp only [Src.placeIn] at hp
            split at hp
            · next e => subst e; rw [hd, g1] at hp; cases hp
            · next e =>
              have := r.apart k h _ _ hk hb' e
              simp only [Apart, Obj.size, storage] at this
              simp only [storage]; omega
          · exact .inl rfl
  | null =>
    exact ⟨.invalid, rfl, ⟨⟨rfl, by simp only [Src.bytes, INT_MAX, List.length_nil]; omega, Holds.nil _ _⟩, .inl rfl, (fun _ _ _ _ _ h => by cases h),
      fun _ _ _ _ => .inl rfl⟩⟩
  | part t i n =>
    obtain ⟨ht, hin⟩ := hx
    have hlen : (((t.text K σ).drop i).take n).length = n := by rw [List.length_take, List.length_drop]; omega
    obtain ⟨hmax, hpos, hold⟩ : ((t.text K σ).length : Int) ≤ INT_MAX ∧ 0 < t.addr ka ρ ∧ Holds s.mem (t.addr ka ρ) (t.text K σ) := by
      cases t with
      | buf k =>
        obtain ⟨c, hk⟩ := ht
        have hc : BufAt s (ρ k) c := r.obj k _ hk
        have hd : σ.data k = c.data := by simp only [AState.data, hk]
        simp only [Ref.text, Ref.addr, hd]
        exact ⟨hc.viewOf.max, hc.viewOf.pos, hc.viewOf.holds⟩
      | const k =>
        obtain ⟨c1, c2, c3⟩ := r.const k
        exact ⟨c2, c1, (Holds.append_iff.1 c3).1⟩
    refine ⟨_, rfl, ⟨⟨by simp only [Src.bytes, hlen], by simp only [Src.bytes, hlen]; omega, ?_⟩, .inr (by simp only; omega), ?_, ?_⟩⟩
    · exact (hold.drop i (by omega)).take n
    · intro h b hb B E hp
      simp only [Src.placeIn] at hp
      split at hp
      · next e =>
        subst e
        cases hp
        have hd : σ.data h = b.data := by simp only [AState.data, hb]
        simp only [Ref.text, hd] at hin
        refine ⟨by omega, by omega, ?_⟩
        simp only [Ref.addr, View.mk.injEq, true_and]; omega
      · cases hp
    · intro h b hb hp
      right
      simp only [Src.placeIn] at hp
      split at hp
      · cases hp
      · next e =>
        cases t with
        | buf k =>
          obtain ⟨c, hk⟩ := ht
          have hc : BufAt s (ρ k) c := r.obj k _ hk
          have hd : σ.data k = c.data := by simp only [AState.data, hk]
          have hl := hc.len
          have := r.apart k h _ _ hk hb (by rintro rfl; exact e rfl)
          simp only [Ref.text, hd] at hin
          simp only [Apart, Obj.size, storage] at this
          simp only [Ref.addr, storage]; omega
        | const k =>
          have := r.constApart k h _ hb
          simp only [Ref.text] at hin
          simp only [Apart, Obj.size] at this
          simp only [Ref.addr]; omega

theorem SrcAt.source {σ : AState} {ρ : Vars} {s : St} {x : Src} {v : View} {S : List Byte} (hx : SrcAt σ ρ s x v S) {h : Nat} {b : Buf}
    (hb : σ h = some (.buf b)) : Source s (ρ h) b v S := by
  refine ⟨hx.denotes, ?_⟩
  have hsz := hx.denotes.size
  cases hp : x.placeIn σ h with
  | none =>
    rcases hx.outside h b hb hp with h1 | h1 | h1
    · left
      cases S with
      | nil => rfl
      | cons a t =>
        have := hx.denotes.holds 0 (by simp)
        rw [h1] at this
        simp [rd] at this
    · right; left; omega
    · right; right; left; exact h1
  | some BE =>
    obtain ⟨h1, h2, h4⟩ := hx.inside h b hb BE.1 BE.2 hp
    right; right; right
    subst h4
    simp only at hsz ⊢
    omega

theorem SrcAt.into {σ : AState} {ρ : Vars} {s : St} (r : Rep K ka σ ρ s) {x : Src} {v : View} {S : List Byte} (hx : SrcAt σ ρ s x v S)
    {h : Nat} {b : Buf} (hb : σ h = some (.buf b)) : v.Into (ρ h) b ↔ x.own σ h = true := by
  have hba : BufAt s (ρ h) b := r.obj h _ hb
  have hpos := hba.pos
  have hlen := hba.len
  have hd : σ.data h = b.data := by simp only [AState.data, hb]
  have hsz := hx.denotes.size
  cases hp : x.placeIn σ h with
  | none =>
    have : x.own σ h = false := by simp only [Src.own, hp]
    rw [this]
    have := hx.outside h b hb hp
    simp only [View.Into, storage] at *
    constructor
    · intro h1; omega
    · intro h1; cases h1
  | some BE =>
    obtain ⟨h1, h2, h4⟩ := hx.inside h b hb BE.1 BE.2 hp
    have : x.own σ h = decide (BE.1 < b.data.length) := by simp only [Src.own, hp, hd]
    rw [this, h4]
    simp only [View.Into, decide_eq_true_eq]
    omega

/-- An argument that is not a part of the buffer is outside it, or empty. -/
theorem SrcAt.notOwn {σ : AState} {ρ : Vars} {s : St} (r : Rep K ka σ ρ s) {x : Src} {v : View} {S : List Byte} (hx : SrcAt σ ρ s x v S)
    {h : Nat} {b : Buf} (hb : σ h = some (.buf b)) (ho : x.own σ h = false) : S = [] ∨ Outside (ρ h) b v.data S.length := by
  have hsz := hx.denotes.size
  have hni : ¬ v.Into (ρ h) b := by rw [hx.into r hb, ho]; exact Bool.false_ne_true
  have hsrc := (hx.source hb).place
  by_cases hS : S = []
  · exact .inl hS
  · right
    have := List.length_pos_iff.2 hS
    simp only [View.Into] at hni
    simp only [Outside]
    rcases hsrc with h | h | h | h
    · exact absurd h hS
    · exact .inl h
    · exact .inr h
    · omega

theorem CSrc.facts {σ : AState} {ρ : Vars} {s : St} (r : Rep K ka σ ρ s) {x : CSrc} (hx : x.Legal K σ) :
    CString s.mem (x.eval ka ρ) (x.bytes K σ) ∧ ∀ h b, σ h = some (.buf b) →
      Source s (ρ h) b ⟨x.eval ka ρ, (x.bytes K σ).length⟩ (x.bytes K σ) ∧
      (x.outside h → Outside (ρ h) b (x.eval ka ρ) (x.bytes K σ).length) := by
  obtain ⟨h0, hx⟩ := hx
  cases x with
  | const k =>
    obtain ⟨c1, c2, c3⟩ := r.const k
    have hc : CString s.mem (ka k) (K k) := ⟨c1, c2, h0, c3⟩
    refine ⟨hc, ?_⟩
    intro h b hb
    have := r.constApart k h _ hb
    simp only [Apart, Obj.size] at this
    have ho : Outside (ρ h) b (ka k) (K k).length := by simp only [Outside]; omega
    refine ⟨hc.source ?_, fun _ => ho⟩
    rcases ho with h | h
    · exact .inl h
    · exact .inr (.inl h)
  | tail k i =>
    obtain ⟨c, hk, hi⟩ := hx
    have hc : BufAt s (ρ k) c := r.obj k _ hk
    have hd : σ.data k = c.data := by simp only [AState.data, hk]
    have hpos := hc.pos
    have hlen := hc.len
    simp only [CSrc.bytes, hd] at h0
    have hcs : CString s.mem (ρ k + 24 + i) (c.data.drop i) := by
      refine ⟨by omega, ?_, h0, ?_⟩
      · have := hc.sizeMax
        rw [List.length_drop]; omega
      · have h1 := hc.holds
        rw [List.append_assoc, Holds.append_iff, hdrBytes_length] at h1
        have h2 := h1.2.drop i (by simp only [List.length_append]; omega)
        rw [List.drop_append_of_le_length hi] at h2
        exact h2
    simp only [CSrc.eval, CSrc.bytes, hd]
    refine ⟨hcs, ?_⟩
    have hdl : (c.data.drop i).length = c.data.length - i := List.length_drop
    intro h b hb
    by_cases hkh : k = h
    · subst hkh
      rw [hk] at hb; cases hb
      refine ⟨hcs.source (.inr (.inr (by omega))), fun ho => absurd rfl ho⟩
    · have := r.apart k h _ _ hk hb hkh
      simp only [Apart, Obj.size, storage] at this
      have ho : Outside (ρ h) b (ρ k + 24 + i) (c.data.drop i).length := by simp only [Outside, storage]; omega
      refine ⟨hcs.source ?_, fun _ => ho⟩
      rcases ho with h | h
      · exact .inl h
      · exact .inr (.inl h)
  | str k =>
    obtain ⟨l, al, hk⟩ := hx
    obtain ⟨s1, s2, s3, s4, s5⟩ := r.obj k _ hk
    have hb : (CSrc.str k).bytes K σ = l := by simp only [CSrc.bytes, hk]
    rw [hb] at h0 ⊢
    have hcs : CString s.mem (ρ k) l := ⟨s1, s3, h0, s4⟩
    refine ⟨hcs, ?_⟩
    intro h b hb
    have hkh : k ≠ h := by intro e; subst e; rw [hk] at hb; cases hb
    have := r.apart k h _ _ hk hb hkh
    simp only [Apart, Obj.size, storage] at this
    have ho : Outside (ρ h) b (ρ k) l.length := by simp only [Outside, storage]; omega
    refine ⟨hcs.source ?_, fun _ => ho⟩
    rcases ho with h | h
    · exact .inl h
    · exact .inr (.inl h)

theorem evalSrcs_facts {σ : AState} {ρ : Vars} {s : St} (r : Rep K ka σ ρ s) {xs : List Src} (hx : ∀ x ∈ xs, x.Legal K σ) :
    ∃ args : List (View × List Byte), evalSrcs K ka ρ s xs = .ok (args.map (·.1)) ∧ xs.map (·.bytes K σ) = args.map (·.2) ∧
      ∀ h b, σ h = some (.buf b) → (∀ a ∈ args, Source s (ρ h) b a.1 a.2) ∧
        ((∃ a ∈ args, a.1.Into (ρ h) b) ↔ xs.any (·.own σ h) = true) := by
  induction xs with
  | nil => exact ⟨[], rfl, rfl, fun _ _ _ => ⟨(fun _ h => by cases h), by simp⟩⟩
  | cons x xs ih =>
    obtain ⟨v, e1, e2⟩ := Src.facts r (hx x (List.mem_cons_self ..))
    obtain ⟨args, g1, g2, g3⟩ := ih (fun y hy => hx y (List.mem_cons_of_mem _ hy))
    refine ⟨(v, x.bytes K σ) :: args, ?_, ?_, ?_⟩
    · simp only [evalSrcs, e1, g1, Res.bind_ok, List.map_cons]
    · simp only [List.map_cons, g2]
    · intro h b hb
      obtain ⟨f1, f2⟩ := g3 h b hb
      constructor
      · intro a ha
        rcases List.mem_cons.1 ha with rfl | ha
        · exact e2.source hb
        · exact f1 a ha
      · simp only [List.mem_cons, exists_eq_or_imp, List.any_cons, Bool.or_eq_true]
        rw [f2, e2.into r hb]

theorem evalPieces_facts {σ : AState} {ρ : Vars} {s : St} (r : Rep K ka σ ρ s) (h : Nat) {ps : List Piece}
    (hx : ∀ x ∈ ps, x.Legal K σ h) :
    ∃ l, evalPieces K ka ρ s ps = .ok l ∧ ∀ b, σ h = some (.buf b) →
      (piecesFmt l).Gives s (ρ h) (storage b.cap) (ps.map (·.bytes K σ)).flatten := by
  suffices hs : ∃ l, evalPieces K ka ρ s ps = .ok l ∧ ∀ b, σ h = some (.buf b) → ∀ m' : Mem,
      (∀ a, ¬ InRange (ρ h) (storage b.cap) a → (s.mem a).isSome → m' a = s.mem a) →
      readPieces m' l = .ok (ps.map (·.bytes K σ)).flatten by
    obtain ⟨l, e, hl⟩ := hs
    refine ⟨l, e, ?_⟩
    intro b hb m' hm'
    simp only [piecesFmt, hl b hb m' hm']
  induction ps with
  | nil => exact ⟨[], rfl, fun _ _ _ _ => rfl⟩
  | cons p ps ih =>
    obtain ⟨l, g1, g2⟩ := ih (fun y hy => hx y (List.mem_cons_of_mem _ hy))
    have hp := hx p (List.mem_cons_self ..)
    cases p with
    | text t =>
      refine ⟨.inl t :: l, by simp only [evalPieces, g1, Res.bind_ok], ?_⟩
      intro b hb m' hm'
      simp only [readPieces, g2 b hb m' hm', Res.bind_ok, List.map_cons, List.flatten_cons, Piece.bytes]
    | arg x =>
      obtain ⟨hl, ho⟩ := hp
      obtain ⟨v, e1, e2⟩ := Src.facts r hl
      refine ⟨.inr v :: l, by simp only [evalPieces, e1, g1, Res.bind_ok], ?_⟩
      intro b hb m' hm'
      have hh : Holds m' v.data (x.bytes K σ) := by
        rcases e2.notOwn r hb ho with h1 | h1
        · rw [h1]; exact Holds.nil _ _
        · intro i hi
          have hi' := e2.denotes.holds i hi
          have hne : ¬ InRange (ρ h) (storage b.cap) (v.data + i) := by
            simp only [Outside] at h1
            simp only [InRange]; omega
          by_cases hlit : litBase ≤ v.data + i
          · rw [rd] at hi' ⊢
            by_cases h0 : v.data + i ≤ 0
            · rw [if_pos h0] at hi'; cases hi'
            · rw [if_neg h0, if_pos hlit] at hi' ⊢; exact hi'
          · by_cases h0 : v.data + i ≤ 0
            · rw [rd, if_pos h0] at hi'; cases hi'
            · rw [rd_mid (by omega) (by omega)] at hi' ⊢
              rw [hm' _ hne (by rw [hi']; rfl)]; exact hi'
      have hr := pri_str_eq ⟨e2.denotes.size, e2.denotes.max, hh⟩
      simp only [readPieces, hr, g2 b hb m' hm', Res.bind_ok, List.map_cons, List.flatten_cons, Piece.bytes]

/-- The evaluated call stands for the abstract operation. -/
theorem HOp.facts {σ : AState} {ρ : Vars} {s : St} (r : Rep K ka σ ρ s) {h : Nat} {o : HOp} (ha : o.Args K σ h) :
    ∃ call, o.eval K ka ρ s = .ok call ∧ (∀ a, call.cstrArg = some a → a = 0 ∨ ∃ S, CString s.mem a S) ∧
      ∀ b, σ h = some (.buf b) → Means s (ρ h) b call (o.edit K σ h b) := by
  have no : ∀ {P : Addr → Prop} (a : Addr), (none : Option Addr) = some a → P a := fun _ h => by cases h
  have one : ∀ {x : CSrc}, x.Legal K σ → ∀ a, some (x.eval ka ρ) = some a → a = 0 ∨ ∃ S, CString s.mem a S := by
    intro x hx a e
    cases e
    exact .inr ⟨_, (CSrc.facts r hx).1⟩
  cases o with
  | append x =>
    obtain ⟨v, e1, e2⟩ := Src.facts r ha
    exact ⟨.append v, by simp only [HOp.eval, e1, Res.bind_ok], no, fun b hb => .append (e2.source hb)⟩
  | prepend x =>
    obtain ⟨v, e1, e2⟩ := Src.facts r ha
    exact ⟨.prepend v, by simp only [HOp.eval, e1, Res.bind_ok], no, fun b hb => .prepend (e2.source hb)⟩
  | insertAtIndex i x =>
    obtain ⟨v, e1, e2⟩ := Src.facts r ha
    exact ⟨.insertAtIndex i v, by simp only [HOp.eval, e1, Res.bind_ok], no, fun b hb => .insertAtIndex (e2.source hb)⟩
  | appendCstr x =>
    exact ⟨_, rfl, one ha, fun b hb => .appendCstr (CSrc.facts r ha).1 ((CSrc.facts r ha).2 h b hb).1⟩
  | prependCstr x =>
    exact ⟨_, rfl, one ha, fun b hb => .prependCstr (CSrc.facts r ha).1 ((CSrc.facts r ha).2 h b hb).1⟩
  | insertAtIndexCstr i x =>
    exact ⟨_, rfl, one ha, fun b hb => .insertAtIndexCstr (CSrc.facts r ha).1 ((CSrc.facts r ha).2 h b hb).1⟩
  | insertBefore dst x =>
    obtain ⟨d, d1, d2⟩ := Src.facts r ha.1
    obtain ⟨v, e1, e2⟩ := Src.facts r ha.2
    refine ⟨.insertBefore d v, by simp only [HOp.eval, d1, e1, Res.bind_ok], no, ?_⟩
    intro b hb
    have hp := (show BufAt s (ρ h) b from r.obj h _ hb).pos
    have hlen := (show BufAt s (ρ h) b from r.obj h _ hb).len
    cases hpl : dst.placeIn σ h with
    | none =>
      simp only [HOp.edit, hpl]
      refine .insertBeforeNowhere ?_
      have := d2.outside h b hb hpl
      have := d2.denotes.size
      simp only [storage] at *; omega
    | some BE =>
      obtain ⟨g1, g2, g4⟩ := d2.inside h b hb BE.1 BE.2 hpl
      simp only [HOp.edit, hpl]
      exact .insertBefore (by omega) (by rw [g4]) (e2.source hb)
  | insertBeforeCstr dst x =>
    obtain ⟨d, d1, d2⟩ := Src.facts r ha.1
    refine ⟨.insertBeforeCstr d (x.eval ka ρ), by simp only [HOp.eval, d1, Res.bind_ok], one ha.2, ?_⟩
    intro b hb
    have hp := (show BufAt s (ρ h) b from r.obj h _ hb).pos
    have hlen := (show BufAt s (ρ h) b from r.obj h _ hb).len
    cases hpl : dst.placeIn σ h with
    | none =>
      simp only [HOp.edit, hpl]
      refine .insertBeforeCstrNowhere ?_ (CSrc.facts r ha.2).1
      have := d2.outside h b hb hpl
      have := d2.denotes.size
      simp only [storage] at *; omega
    | some BE =>
      obtain ⟨g1, g2, g4⟩ := d2.inside h b hb BE.1 BE.2 hpl
      simp only [HOp.edit, hpl]
      exact .insertBeforeCstr (by omega) (by rw [g4]) (CSrc.facts r ha.2).1 ((CSrc.facts r ha.2).2 h b hb).1
  | insertAfter dst x =>
    obtain ⟨d, d1, d2⟩ := Src.facts r ha.1
    obtain ⟨v, e1, e2⟩ := Src.facts r ha.2
    refine ⟨.insertAfter d v, by simp only [HOp.eval, d1, e1, Res.bind_ok], no, ?_⟩
    intro b hb
    have hp := (show BufAt s (ρ h) b from r.obj h _ hb).pos
    have hlen := (show BufAt s (ρ h) b from r.obj h _ hb).len
    cases hpl : dst.placeIn σ h with
    | none =>
      simp only [HOp.edit, hpl]
      refine .insertAfterNowhere ?_
      have := d2.outside h b hb hpl
      have := d2.denotes.size
      simp only [storage] at *; omega
    | some BE =>
      obtain ⟨g1, g2, g4⟩ := d2.inside h b hb BE.1 BE.2 hpl
      simp only [HOp.edit, hpl]
      exact .insertAfter g2 (by rw [g4]; simp only; omega) (by rw [g4]; simp only; omega) (e2.source hb)
  | insertAfterCstr dst x =>
    obtain ⟨d, d1, d2⟩ := Src.facts r ha.1
    refine ⟨.insertAfterCstr d (x.eval ka ρ), by simp only [HOp.eval, d1, Res.bind_ok], one ha.2, ?_⟩
    intro b hb
    have hp := (show BufAt s (ρ h) b from r.obj h _ hb).pos
    have hlen := (show BufAt s (ρ h) b from r.obj h _ hb).len
    cases hpl : dst.placeIn σ h with
    | none =>
      simp only [HOp.edit, hpl]
      refine .insertAfterCstrNowhere ?_ (CSrc.facts r ha.2).1
      have := d2.outside h b hb hpl
      have := d2.denotes.size
      simp only [storage] at *; omega
    | some BE =>
      obtain ⟨g1, g2, g4⟩ := d2.inside h b hb BE.1 BE.2 hpl
      simp only [HOp.edit, hpl]
      exact .insertAfterCstr g2 (by rw [g4]; simp only; omega) (by rw [g4]; simp only; omega)
        (CSrc.facts r ha.2).1 ((CSrc.facts r ha.2).2 h b hb).1
  | assign x =>
    obtain ⟨v, e1, e2⟩ := Src.facts r ha
    refine ⟨.assign v, by simp only [HOp.eval, e1, Res.bind_ok], no, ?_⟩
    intro b hb
    rcases e2.pos with h0 | h0
    · have hS : x.bytes K σ = [] := by
        cases hS : x.bytes K σ with
        | nil => rfl
        | cons a t =>
          have := e2.denotes.holds 0 (by rw [hS]; simp)
          rw [h0] at this
          simp [rd] at this
      simp only [HOp.edit, hS]
      exact .assignInvalid h0
    · exact .assign (e2.source hb) h0
  | cat xs =>
    obtain ⟨args, e1, e2, e3⟩ := evalSrcs_facts r ha
    refine ⟨.cat (args.map (·.1)), by simp only [HOp.eval, e1, Res.bind_ok], no, ?_⟩
    intro b hb
    obtain ⟨f1, f2⟩ := e3 h b hb
    have : xs.any (·.own σ h) = decide (∃ a ∈ args, a.1.Into (ρ h) b) := by
      rw [Bool.eq_iff_iff, ← f2, decide_eq_true_eq]
    simp only [HOp.edit, e2, this]
    exact .cat f1
  | strip x =>
    obtain ⟨v, e1, e2⟩ := Src.facts r ha.1
    refine ⟨.strip v, by simp only [HOp.eval, e1, Res.bind_ok], no, ?_⟩
    intro b hb
    rcases e2.pos with h0 | h0
    · have hS : x.bytes K σ = [] := by
        cases hS : x.bytes K σ with
        | nil => rfl
        | cons a t =>
          have := e2.denotes.holds 0 (by rw [hS]; simp)
          rw [h0] at this
          simp [rd] at this
      simp only [HOp.edit, hS]
      exact .stripInvalid h0
    · exact .strip ⟨e2.denotes, h0⟩ (e2.notOwn r hb ha.2)
  | stripCstr x =>
    exact ⟨_, rfl, one ha.1, fun b hb => .stripCstr (CSrc.facts r ha.1).1 (((CSrc.facts r ha.1).2 h b hb).2 ha.2)⟩
  | appendChar c => exact ⟨_, rfl, no, fun b hb => .appendChar⟩
  | shrink => exact ⟨_, rfl, no, fun b hb => .shrink⟩
  | grow n => exact ⟨_, rfl, no, fun b hb => .grow⟩
  | appendUsing t =>
    refine ⟨_, rfl, no, ?_⟩
    intro b hb
    have hlen := (show BufAt s (ρ h) b from r.obj h _ hb).len
    by_cases hf : b.data.length + t.length ≤ b.cap
    · simp only [HOp.edit, if_pos hf]
      have : fetchText t s.mem (ρ h + 24 + b.data.length) ((b.cap - b.data.length : Nat) : Int) = (t, (t.length : Int)) := by
        rw [fetchText, if_pos (by omega)]
      have hm := Means.appendUsing (s := s) (p := ρ h) (b := b) this hf (Nat.le_refl _)
      rwa [List.take_length] at hm
    · simp only [HOp.edit, if_neg hf]
      have : fetchText t s.mem (ρ h + 24 + b.data.length) ((b.cap - b.data.length : Nat) : Int) = ([], -1) := by
        rw [fetchText, if_neg (by omega)]
      exact .usingFault this (by simpa using hlen) (.inl (by omega)) (by decide) (by decide)
  | printf ps =>
    obtain ⟨l, e1, e2⟩ := evalPieces_facts r h ha
    exact ⟨.printf (piecesFmt l), by simp only [HOp.eval, e1, Res.bind_ok], no, fun b hb => .printf (e2 b hb)⟩
  | appendPrintf ps =>
    obtain ⟨l, e1, e2⟩ := evalPieces_facts r h ha
    exact ⟨.appendPrintf (piecesFmt l), by simp only [HOp.eval, e1, Res.bind_ok], no, fun b hb => .appendPrintf (e2 b hb)⟩
  | prnf t => exact ⟨_, rfl, no, fun b hb => .prnf⟩
  | appendPrnf t => exact ⟨_, rfl, no, fun b hb => .appendPrnf⟩

theorem AState.set_set (σ : AState) (h : Nat) (a b : Option Obj) : (σ.set h a).set h b = σ.set h b := by
  funext k; simp only [AState.set]; split <;> rfl

theorem AState.set_self {σ : AState} {h : Nat} {a : Option Obj} (e : σ h = a) : σ.set h a = σ := by
  funext k; simp only [AState.set]; split
  · next e' => subst e'; exact e.symm
  · rfl

theorem Vars.set_set (ρ : Vars) (h : Nat) (a b : Addr) : (ρ.set h a).set h b = ρ.set h b := by
  funext k; simp only [Vars.set]; split <;> rfl

theorem Vars.set_self {ρ : Vars} {h : Nat} {a : Addr} (e : ρ h = a) : ρ.set h a = ρ := by
  funext k; simp only [Vars.set]; split
  · next e' => subst e'; exact e.symm
  · rfl

/-- A part of the hole, if it is not a heap block. -/
theorem Hole.sub {σ : AState} {ρ : Vars} {s : St} {p : Addr} {n : Nat} (r : Hole K ka σ ρ s p n) (hl : s.live p = none)
    {p' : Addr} {n' : Nat} (h1 : p ≤ p') (h2 : p' + n' ≤ p + n) : Hole K ka σ ρ s p' n' := by
  have hin : ∀ a, InRange p' n' a → InRange p n a := by
    intro a ha; simp only [InRange] at ha ⊢; omega
  refine ⟨r.sane, r.null, r.obj, r.apart, r.const, r.constApart, ?_, fun h o e a ha h' => r.hole h o e a ha (hin a h'),
    fun k a ha h' => r.constHole k a ha (hin a h')⟩
  intro q blk hq _
  apply r.owned q blk hq
  intro e
  rw [e, hl] at hq; cases hq

/-- A new dynamic buffer. -/
theorem Rep.create {σ : AState} {ρ : Vars} {s s' : St} (r : Rep K ka σ ρ s) {p : Addr} {b : Buf} (hc : Created s s' p b) (hd : b.Dynamic)
    {h : Nat} (hh : σ h = none) : Rep K ka (σ.set h (some (.buf b))) (ρ.set h p) s' :=
  (r.empty p).fill (o := .buf b) hc.sane hc.only.toBlock (fun _ => ⟨rfl, hc.only.liveNew⟩) hc.buf (fun h0 => absurd h0 hd) hh

/-- One command. -/
theorem exec_ok {cfg : Cfg} (hcfg : cfg.Ok) {dflt : Alloc} {σ : AState} {ρ : Vars} {s : St} (r : Rep K ka σ ρ s) {c : Cmd}
    (hl : c.Legal cfg dflt K σ) :
    c.exec cfg dflt K ka ρ s = .env .alloc ∨
      ∃ ρ' s', c.exec cfg dflt K ka ρ s = .ok (ρ', s') ∧ Rep K ka (c.step cfg dflt K σ) ρ' s' := by
  cases c with
  | createEmpty h n o =>
    obtain ⟨h1, h2, h3⟩ := hl
    rcases C49_create_empty (dflt := dflt) (o := o) r.sane h2 h3 with ⟨_, e⟩ | ⟨p, s', e, hc⟩
    · left; simp only [Cmd.exec, e, Res.bind_env]
    · right
      refine ⟨_, s', by simp only [Cmd.exec, e, Res.bind_ok]; rfl, ?_⟩
      exact r.create hc h2.some h1
  | createInit h x o =>
    obtain ⟨h1, h2, h3⟩ := hl
    obtain ⟨v, e1, e2⟩ := Src.facts r h3
    rcases C49_create_init hcfg (dflt := dflt) (o := o) r.sane h2 e2.denotes with ⟨_, e⟩ | ⟨p, s', e, hc⟩
    · left; simp only [Cmd.exec, e1, e, Res.bind_ok, Res.bind_env]
    · right
      refine ⟨_, s', by simp only [Cmd.exec, e1, e, Res.bind_ok]; rfl, ?_⟩
      exact r.create hc h2.some h1
  | createFixed h k n =>
    obtain ⟨h1, h2, h3⟩ := hl
    obtain ⟨o1, o2, o3, o4, o5⟩ := r.obj k _ h2
    obtain ⟨m', e, hb, hw⟩ := create_fixed_ok (s := s) o1 o2 h3 (fun i hi => ⟨by omega, by omega, o5 i hi⟩)
    right
    refine ⟨_, _, by simp only [Cmd.exec, e, Res.bind_ok]; rfl, ?_⟩
    have hlive : s.live (ρ k) = none := r.notLive h2 rfl (by simp only [InRange, Obj.size]; omega)
    have hcap : storage (min (n - 25) 2147483647) ≤ n := by simp only [storage]; omega
    have hhole := (r.forget h2).sub hlive (p' := ρ k) (n' := storage (min (n - 25) 2147483647)) (by omega)
      (by simp only [Obj.size]; omega)
    have hw' : ∀ a, ¬ InRange (ρ k) (storage (min (n - 25) 2147483647)) a → m' a = s.mem a := by
      intro a ha
      apply hw
      simp only [InRange, storage] at ha ⊢; omega
    refine hhole.fill (s' := { s with mem := m' }) (o := .buf ⟨[], min (n - 25) 2147483647, ⟨0, 0⟩⟩) (p' := ρ k) (k := h) ?_ ?_ ?_ ?_
      (fun _ => hlive) ?_
    · refine r.sane.withMem ?_
      intro a ha
      by_cases hr : InRange (ρ k) (storage (min (n - 25) 2147483647)) a
      · simp only [InRange] at hr
        have := hb.mapped (a - ρ k).toNat (by simp only; omega)
        rwa [show ρ k + ((a - ρ k).toNat : Int) = a by omega] at this
      · rw [hw' a hr]; exact ha
    · exact ⟨fun a h1 _ => hw' a h1, fun a h1 h2 => absurd h1 h2, fun a h1 h2 => absurd h1 h2, fun _ _ _ => rfl,
        fun h => absurd rfl h, fun h => absurd rfl h, rfl⟩
    · intro h; simp only [storage] at h; omega
    · exact hb
    · by_cases hhk : h = k
      · subst hhk; exact AState.set_same _ _ _
      · rw [AState.set_ne _ _ hhk]; exact h1
  | destroy h =>
    cases hh : σ h with
    | none =>
      right
      refine ⟨ρ, s, ?_, ?_⟩
      · have := r.null h hh
        simp only [Cmd.exec, this, strbuf_destroy]
        exact congrArg (fun x => Res.ok (x, s)) (Vars.set_self this)
      · simp only [Cmd.step]
        rw [AState.set_self hh]; exact r
    | some o =>
      obtain ⟨b, rfl⟩ := hl o hh
      have hb : BufAt s (ρ h) b := r.obj h _ hh
      have hst : 0 < storage b.cap := by simp only [storage]; omega
      right
      by_cases hd : b.Dynamic
      · obtain ⟨s', e, h1, h2, _⟩ := (C43_destroy r.sane hb).1 hd
        refine ⟨_, s', by simp only [Cmd.exec, e, Res.bind_ok]; rfl, ?_⟩
        exact (r.forget hh).drop hst h2 (.inl h1)
      · refine ⟨_, s, by simp only [Cmd.exec, (C43_destroy r.sane hb).2 hd, Res.bind_ok]; rfl, ?_⟩
        refine (r.forget hh).drop hst r.sane (.inr ⟨rfl, r.notLive hh ?_ ?_⟩)
        · simp only [Obj.owner]
          simpa [Buf.Dynamic] using hd
        · simp only [InRange, Obj.size]; omega
  | toCstr h k =>
    obtain ⟨h1, h2, h3, h4⟩ := hl
    cases hh : σ h with
    | none =>
      right
      refine ⟨ρ, s, ?_, ?_⟩
      · have e1 := r.null h hh
        have e2 := r.null k h2
        simp only [Cmd.exec, e1, strbuf_to_cstr, deref]
        refine congrArg (fun x => Res.ok (x, s)) ?_
        show (ρ.set h 0).set k 0 = ρ
        rw [Vars.set_self e1, Vars.set_self e2]
      · simp only [Cmd.step, hh]; exact r
    | some o =>
      obtain ⟨b, rfl⟩ := h1 o hh
      have hb : BufAt s (ρ h) b := r.obj h _ hh
      have hlen := hb.len
      have hk' : (σ.set h none) k = none := by rw [AState.set_ne _ _ (Ne.symm h3)]; exact h2
      by_cases hd : b.Dynamic
      · rcases to_cstr_dynamic (cfg := cfg) r.sane hb hd (h4 b hh hd) with ⟨_, e⟩ | ⟨q, s', e, g1, g2, g3, g4, g5, g6⟩
        · left; simp only [Cmd.exec, e, Res.bind_env]
        · right
          refine ⟨_, s', by simp only [Cmd.exec, e, Res.bind_ok]; rfl, ?_⟩
          simp only [Cmd.step, hh]
          have hblk := g4.wf.block q _ g3
          exact (r.forget hh).fill (o := .str b.data b.al) g4 g5 (fun h0 => by simp only [Obj.size, storage] at h0; omega)
            ⟨g2, hblk.2.2.1, hb.sizeMax, g1, fun _ => g3⟩ (fun h0 => absurd h0 hd) hk'
      · right
        obtain ⟨e1, e2⟩ := C44_to_cstr_fixed (cfg := cfg) hb hd
        refine ⟨_, s, by simp only [Cmd.exec, e1, Res.bind_ok]; rfl, ?_⟩
        simp only [Cmd.step, hh]
        have hfn : b.al.fn = 0 := by simpa [Buf.Dynamic] using hd
        have hlive : ∀ a, InRange (ρ h) (storage b.cap) a → s.live a = none := fun a ha => r.notLive hh hfn ha
        have hpos := hb.pos
        have htop := hb.top
        simp only [storage] at htop
        have hhole := (r.forget hh).sub (hlive _ (by simp only [InRange, storage]; omega)) (p' := ρ h + 24) (n' := b.data.length + 1)
          (by omega) (by simp only [Obj.size, storage]; omega)
        refine hhole.fill (o := .str b.data b.al) r.sane (OnlyBlock.refl _ _ _) (fun h0 => by omega) ?_ ?_ hk'
        · refine ⟨by omega, by omega, hb.sizeMax, e2, fun h0 => absurd hfn h0⟩
        · intro _
          apply hlive
          simp only [InRange, storage]; omega
  | freeStr k al =>
    obtain ⟨⟨l, h1⟩, h2⟩ := hl
    obtain ⟨o1, o2, o3, o4, o5⟩ := r.obj k _ h1
    obtain ⟨s', e, g⟩ := allocCall_free r.sane h2 (o5 h2)
    right
    refine ⟨_, s', by simp only [Cmd.exec, e, Res.bind_ok]; rfl, ?_⟩
    refine (r.forget h1).drop (by simp only [Obj.size]; omega) g.sane (.inl ⟨g.outside, g.gone, ?_, ?_, g.picks⟩)
    · intro q hq; rw [g.live]; exact if_neg hq
    · rw [g.live]; exact if_pos rfl
  | op h o =>
    obtain ⟨h1, h2, h3⟩ := hl
    obtain ⟨call, e1, e2, e3⟩ := HOp.facts r h2
    cases hh : σ h with
    | none =>
      right
      have hn := r.null h hh
      refine ⟨ρ, s, ?_, by simp only [Cmd.step, hh]; exact r⟩
      simp only [Cmd.exec, e1, Res.bind_ok, hn]
      rw [C50_null_handle cfg s call e2 (.inr rfl), Res.bind_ok]
      exact congrArg (fun x => Res.ok (x, s)) (Vars.set_self hn)
    | some ob =>
      obtain ⟨b, rfl⟩ := h1 ob hh
      have hb : BufAt s (ρ h) b := r.obj h _ hh
      rcases run_does hcfg r.sane hb (e3 b hh) (h3 b hh) with ⟨_, e⟩ | ⟨p', s', e, hal, hch⟩
      · left; simp only [Cmd.exec, e1, e, Res.bind_ok, Res.bind_env]
      · right
        refine ⟨ρ.set h p', s', by simp only [Cmd.exec, e1, e, Res.bind_ok]; rfl, ?_⟩
        simp only [Cmd.step, hh]
        have hf := (r.forget hh).fill (o := .buf ((o.edit K σ h b).apply cfg b)) (k := h) hch.sane hch.only
          (fun h0 => by simp only [Obj.size, storage] at h0; omega) hch.buf ?_ (AState.set_same _ _ _)
        · rwa [AState.set_set, Vars.set_set] at hf
        · intro h0
          have h0' : b.al.fn = 0 := h0
          have hd : ¬ b.Dynamic := by simp only [Buf.Dynamic]; omega
          obtain ⟨f1, _, f3, _⟩ := hch.fixed hd
          rw [f1, f3]
          exact r.notLive hh h0' (by simp only [InRange, Obj.size, storage]; omega)

/-- Whole programs. -/
theorem run_ok {cfg : Cfg} (hcfg : cfg.Ok) {dflt : Alloc} (cs : List Cmd) : ∀ {σ : AState} {ρ : Vars} {s : St}, Rep K ka σ ρ s →
    LegalRun cfg dflt K cs σ →
    runExec cfg dflt K ka cs ρ s = .env .alloc ∨
      ∃ ρ' s', runExec cfg dflt K ka cs ρ s = .ok (ρ', s') ∧ Rep K ka (runAbs cfg dflt K cs σ) ρ' s' := by
  induction cs with
  | nil => intro σ ρ s r _; exact .inr ⟨ρ, s, rfl, r⟩
  | cons c cs ih =>
    intro σ ρ s r hl
    rcases exec_ok hcfg r hl.1 with e | ⟨ρ1, s1, e, r1⟩
    · left; simp only [runExec, e, Res.bind_env]
    · rcases ih r1 hl.2 with e2 | ⟨ρ2, s2, e2, r2⟩
      · left; simp only [runExec, e, Res.bind_ok, e2]
      · right; exact ⟨ρ2, s2, by simp only [runExec, e, Res.bind_ok, e2], r2⟩

end CStr
