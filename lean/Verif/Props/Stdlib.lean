import Verif.Lemmas.Stdlib
import Verif.Props.BufInsert
/-! Property C72: the default allocator. -/
namespace CStr

/-- C72. With size 0 the default allocator releases the block, whatever `realloc(p, 0)` would do in this C library, and returns NULL; the C library is not asked for memory.
For NULL nothing happens. -/
theorem C72_release (asserts : Bool) (z : ReallocZero) {h : Heap} {p : Addr} {k : Nat} (hb : h.Block p k) :
    ∃ h', allocfunc_stdlib asserts z h p 0 = .ok (0, h') ∧ HeapReleased h h' p k ∧ h'.calls = h.calls := by
  have e0 : allocfunc_stdlib asserts z h p 0 = (do let h' ← c_free h p; .ok ((0 : Addr), h')) := by
    simp only [allocfunc_stdlib, if_pos rfl]
    cases c_free h p <;> simp
  rw [e0, c_free]
  rcases hb with ⟨rfl, rfl⟩ | ⟨hp, hsz, _⟩
  · refine ⟨h, by simp, ⟨?_, fun _ _ => rfl, fun h => absurd rfl h, fun _ _ => rfl⟩, rfl⟩
    intro a ha; simp only [InRange] at ha; omega
  · rw [if_neg hp, hsz]
    refine ⟨_, rfl, ⟨?_, ?_, ?_, ?_⟩, rfl⟩
    · intro a ha; exact if_pos ha
    · intro a ha; exact if_neg ha
    · intro _; exact if_pos rfl
    · intro q hq; exact if_neg hq

/-- C72. With another size, a request that the C library can meet gives a block of that size which begins with the contents of the old one; a request it cannot meet changes nothing and
gives NULL, or stops the program if the assertion is enabled. -/
theorem C72_request (asserts : Bool) (z : ReallocZero) {h : Heap} {p : Addr} {k n : Nat} (hb : h.Block p k) (hn : n ≠ 0) :
    ((h.picks h.calls).addr = 0 ∧
      allocfunc_stdlib asserts z h p n = if asserts then .env .abort else .ok (0, { h with calls := h.calls + 1 })) ∨
    ((h.picks h.calls).addr ≠ 0 ∧ ¬ legalBlock (unmap h.mem p k) (h.picks h.calls).addr n ∧ allocfunc_stdlib asserts z h p n = .env .alloc) ∨
    ∃ p' h', allocfunc_stdlib asserts z h p n = .ok (p', h') ∧ HeapResized h h' p k p' n := by
  have hold : (if p = 0 then some 0 else h.size p) = some k := by
    rcases hb with ⟨rfl, rfl⟩ | ⟨hp, hsz, _⟩
    · rfl
    · rw [if_neg hp, hsz]
  rw [allocfunc_stdlib, if_neg hn, c_realloc]
  simp only [hold]
  rw [if_neg (fun h => hn h.1)]
  by_cases ha : (h.picks h.calls).addr = 0
  · left
    refine ⟨ha, ?_⟩
    rw [if_pos ha]
    cases asserts <;> simp [hn]
  right
  rw [if_neg ha]
  by_cases hl : legalBlock (unmap h.mem p k) (h.picks h.calls).addr n
  · right
    rw [if_pos hl]
    simp only [Res.bind_ok]
    rw [if_neg (by intro h; exact h.2 (.inr ha))]
    refine ⟨_, _, rfl, ?_⟩
    · obtain ⟨h1, h2, h3, h4⟩ := hl
      refine ⟨h1, h2, h3, ?_, ?_, ?_, ?_, ?_, ?_, ?_, ?_⟩
      · intro a ⟨a1, a2⟩ ha'
        have := h4 (a - (h.picks h.calls).addr).toNat (by omega)
        rw [show (h.picks h.calls).addr + ((a - (h.picks h.calls).addr).toNat : Int) = a by omega] at this
        exact (if_neg ha').symm.trans this
      · intro i hi
        simp only [mapNew]
        rw [if_pos (by omega)]; rfl
      · intro i hk hi
        simp only [mapNew]
        rw [if_pos (by omega), show ((h.picks h.calls).addr + (i : Int) - (h.picks h.calls).addr).toNat = i by omega, newContents, if_pos hk]
        rcases hb with ⟨_, rfl⟩ | ⟨_, _, hm⟩
        · omega
        · obtain ⟨b, hb⟩ := Option.isSome_iff_exists.1 (hm i hk)
          rw [hb]; rfl
      · intro a a1 a2
        exact (if_neg a2).trans (if_pos a1)
      · intro a a1 a2
        exact (if_neg a2).trans (if_neg a1)
      · exact if_pos rfl
      · intro _ hne
        show (if p = _ then _ else _) = _
        rw [if_neg hne, if_pos rfl]
      · intro q hq hne
        show (if q = _ then _ else _) = _
        rw [if_neg hne, if_neg hq]
  · left
    refine ⟨ha, hl, ?_⟩
    rw [if_neg hl]; rfl

/-- C72. So the default allocator is an allocator as all other theorems assume it: on the blocks that belong to it, it does what `allocCall` (`C/State.lean`) does, in every state with consistent heap.
(The allocator of the examples is the same function with the assertion.) -/
theorem C72_contract (z : ReallocZero) {s : St} (hs : s.WF) {al : Alloc} (hal : al.fn ≠ 0) (p : Addr) (n : Nat) :
    allocfunc_stdlib false z (s.heapOf al) p n = (do let (q, s') ← allocCall s al p n; .ok (q, s'.heapOf al)) := by
  have h0 : s.live 0 = none := by
    cases h : s.live 0 with
    | none => rfl
    | some b => exact absurd (hs.block 0 b h).1 (by omega)
  have hz : (s.heapOf al).size 0 = none := by rw [heapOf_size_none]; intro b hb; rw [h0] at hb; cases hb
  rw [allocCall_eq hal]
  rw [allocfunc_stdlib]
  by_cases hn : n = 0
  · subst hn
    simp only [if_pos, c_free]
    by_cases hp : p = 0
    · subst hp
      simp only [if_pos, Res.bind_ok]
      simp only [Bool.false_eq_true, false_and, if_false]
      congr 2
      simp only [St.heapOf, unmap_zero]
      congr 1
      funext q
      by_cases hq : q = 0
      · subst hq; simp only [h0, if_true]
      · simp only [if_neg hq]
    · simp only [if_neg hp]
      cases hsz : (s.heapOf al).size p with
      | none => rfl
      | some k =>
        simp only [Res.bind_ok, Bool.false_eq_true, false_and, if_false]
        congr 2
        simp only [St.heapOf]
        congr 1
        exact (heapOf_remove s al p).symm
  · simp only [if_neg hn, c_realloc]
    cases hsz : (if p = 0 then some 0 else (s.heapOf al).size p : Option Nat) with
    | none => rfl
    | some k =>
      simp only
      rw [if_neg (fun h => hn h.1)]
      simp only [show (s.heapOf al).picks = s.picks from rfl, show (s.heapOf al).calls = s.calls from rfl,
        show (s.heapOf al).mem = s.mem from rfl]
      by_cases ha : (s.picks s.calls).addr = 0
      · rw [if_pos ha, if_pos ha]
        simp only [Res.bind_ok, Bool.false_eq_true, false_and, if_false]
        rfl
      · rw [if_neg ha, if_neg ha]
        by_cases hl : legalBlock (unmap s.mem p k) (s.picks s.calls).addr n
        · rw [if_pos hl, if_pos hl]
          simp only [Res.bind_ok, Bool.false_eq_true, false_and, if_false]
          congr 2
          simp only [St.heapOf]
          congr 1
          funext q
          by_cases hq : q = (s.picks s.calls).addr
          · simp only [if_pos hq, if_true]
          · simp only [if_neg hq]
            by_cases hq' : q = p
            · simp only [if_pos hq']
            · simp only [if_neg hq']
        · rw [if_neg hl, if_neg hl]; rfl

/-- C72. With the assertion enabled, a request never gives NULL: the library's assumption that the allocator catches failed requests is met. -/
theorem C72_assert (z : ReallocZero) {h h' : Heap} {p q : Addr} {n : Nat} (e : allocfunc_stdlib true z h p n = .ok (q, h')) :
    n = 0 ∨ q ≠ 0 := by
  rw [allocfunc_stdlib] at e
  generalize (if n = 0 then (do let h ← c_free h p; Res.ok ((0 : Addr), h)) else c_realloc z h p n) = r at e
  cases r with
  | ok a =>
    obtain ⟨q1, h1⟩ := a
    simp only [Res.bind_ok, true_and] at e
    split at e
    · cases e
    · next hc => cases e; exact Classical.not_not.1 hc
  | _ => cases e

/-- C72. The allocator in the documentation of strbuf.h does the same with a C library whose `realloc(p, 0)` releases the block and returns NULL. -/
theorem C72_documented {h : Heap} {p : Addr} {n : Nat} (hn : n ≠ 0 ∨ p ≠ 0) :
    my_alloc_func .frees h p n = allocfunc_stdlib true .frees h p n := by
  rw [my_alloc_func, allocfunc_stdlib]
  by_cases h0 : n = 0
  · subst h0
    have hp : p ≠ 0 := by rcases hn with h | h; exact absurd rfl h; exact h
    have e : c_realloc .frees h p 0 = (do let h' ← c_free h p; .ok ((0 : Addr), h')) := by
      rw [c_realloc, if_neg hp]
      cases hsz : h.size p with
      | none => simp only [c_free, if_neg hp, hsz]; rfl
      | some k => simp only; rw [if_pos ⟨trivial, hp⟩]
    rw [e]; simp
  · rw [if_neg h0]; simp

/-- C72. Deviation: with any other C library, the documented allocator does not release a block when it is asked to: the behaviour is undefined, the block stays (a leak),
or a new block is returned (also a leak, as nobody uses the result). -/
theorem C72_documented_deviation {h : Heap} {p : Addr} {k : Nat} (hp : p ≠ 0) (hb : h.Block p k) :
    my_alloc_func .undefined h p 0 = .ub .zeroRealloc ∧
    my_alloc_func .keeps h p 0 = .ok (0, h) ∧
    ∀ q h', my_alloc_func .block h p 0 = .ok (q, h') → (q ≠ 0 ∧ h'.size q = some 0) ∨ (q = 0 ∧ h'.size = h.size ∧ h'.mem = h.mem) := by
  rcases hb with ⟨h0, _⟩ | ⟨_, hsz, _⟩
  · exact absurd h0 hp
  refine ⟨?_, ?_, ?_⟩
  · rw [my_alloc_func, c_realloc, if_neg hp, hsz]; simp [hp]
  · rw [my_alloc_func, c_realloc, if_neg hp, hsz]; simp [hp]
  · intro q h' e
    rw [my_alloc_func, c_realloc, if_neg hp, hsz] at e
    simp only [if_pos (And.intro rfl hp : (0 : Nat) = 0 ∧ p ≠ 0)] at e
    by_cases ha : (h.picks h.calls).addr = 0
    · rw [if_pos ha] at e
      simp at e
      obtain ⟨rfl, rfl⟩ := e
      exact .inr ⟨rfl, rfl, rfl⟩
    · rw [if_neg ha] at e
      by_cases hl : legalBlock (unmap h.mem p k) (h.picks h.calls).addr 0
      · rw [if_pos hl] at e
        simp at e
        obtain ⟨rfl, rfl⟩ := e
        exact .inl ⟨ha, if_pos rfl⟩
      · rw [if_neg hl] at e
        simp at e

/-! The hypotheses can be met: the heap of the example state with a dynamic buffer. -/

theorem exHeap_block : ((exSt exB []).heapOf exB.al).Block exP (storage exB.cap) := by
  have h := exSt_buf exB_valid []
  generalize exSt exB [] = s at h
  generalize hb : exB = b at h
  have hd : b.Dynamic := by subst hb; simp [exB, Buf.Dynamic]
  have hp := h.pos
  generalize exP = p at h hp
  exact .inr ⟨by omega, heapOf_size.2 (h.heap hd), h.mapped⟩

example : ∃ h', allocfunc_stdlib true .undefined ((exSt exB []).heapOf exB.al) exP 0 = .ok (0, h') ∧
    HeapReleased ((exSt exB []).heapOf exB.al) h' exP (storage exB.cap) ∧ h'.calls = 0 := C72_release true .undefined exHeap_block

example : ∃ p' h', allocfunc_stdlib true .undefined ((exSt exB []).heapOf exB.al) exP 100 = .ok (p', h') ∧
    HeapResized ((exSt exB []).heapOf exB.al) h' exP (storage exB.cap) p' 100 := by
  rcases C72_request true .undefined exHeap_block (n := 100) (by decide) with ⟨h, _⟩ | ⟨_, h, _⟩ | h
  · exact absurd h (by decide)
  · exfalso; apply h
    decide +kernel
  · exact h

example : allocfunc_stdlib false .keeps ((exSt exB []).heapOf exB.al) exP 7 =
    (do let (q, s') ← allocCall (exSt exB []) exB.al exP 7; .ok (q, s'.heapOf exB.al)) :=
  C72_contract .keeps (exSt_sane exB_valid []).wf (by decide) _ _

example : my_alloc_func .keeps ((exSt exB []).heapOf exB.al) exP 0 = .ok (0, (exSt exB []).heapOf exB.al) :=
  (C72_documented_deviation (by decide) exHeap_block).2.1

end CStr
