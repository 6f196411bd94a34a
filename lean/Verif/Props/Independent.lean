import Verif.Props.HeldViews
import Verif.Props.Compare
import Verif.Props.Find
import Verif.Props.SubTrim
import Verif.Props.Split
import Verif.Props.Line
import Verif.Props.Int
/-
  C83: what a call or a program gives depends on the bytes of its arguments alone; not on where they are, on what is around them, or on the answers of the allocator.
-/
namespace CStr

/-- `r` is at the same place in `v` as `r'` is in `v'` (both invalid, or the same offset and length). -/
def SamePlace (v v' r r' : View) : Prop := (r = .invalid ∧ r' = .invalid) ∨ ∃ i n : Nat, r = v.part i n ∧ r' = v'.part i n

/-- C83. The questions about views: the answers for views of the same bytes in two memories are the same. -/
theorem C83_answers {m m' : Mem} {v w v' w' : View} {l k : List Byte} (hv : ViewOf m v l) (hw : ViewOf m w k) (hv' : ViewOf m' v' l) (hw' : ViewOf m' w' k) :
    (∃ r, strview_is_match_strview m v w = .ok r ∧ strview_is_match_strview m' v' w' = .ok r) ∧
    (∃ r, strview_is_match_nocase_strview m v w = .ok r ∧ strview_is_match_nocase_strview m' v' w' = .ok r) ∧
    (∃ r, strview_starts_with_strview m v w = .ok r ∧ strview_starts_with_strview m' v' w' = .ok r) ∧
    (∃ r, strview_starts_with_nocase_strview m v w = .ok r ∧ strview_starts_with_nocase_strview m' v' w' = .ok r) ∧
    (∃ r, strview_contains m v w = .ok r ∧ strview_contains m' v' w' = .ok r) ∧
    (∃ r, strview_contains_nocase m v w = .ok r ∧ strview_contains_nocase m' v' w' = .ok r) ∧
    (∃ c c' : Int, strview_compare m v w = .ok c ∧ strview_compare m' v' w' = .ok c' ∧ (c < 0 ↔ c' < 0) ∧ (c = 0 ↔ c' = 0)) := by
  refine ⟨⟨_, C01_is_match_iff_contents_equal hv.toDenotes hw.toDenotes, C01_is_match_iff_contents_equal hv'.toDenotes hw'.toDenotes⟩,
    ⟨_, C02_is_match_nocase hv.toDenotes hw.toDenotes, C02_is_match_nocase hv'.toDenotes hw'.toDenotes⟩, ?_, ?_, ?_, ?_, ?_⟩
  · obtain ⟨r, h, e⟩ := C03_starts_with hv.toDenotes hw
    obtain ⟨r', h', e'⟩ := C03_starts_with hv'.toDenotes hw'
    exact ⟨r, h, by rw [h', Bool.eq_iff_iff.2 (e'.trans e.symm)]⟩
  · obtain ⟨r, h, e⟩ := C03_starts_with_nocase hv.toDenotes hw
    obtain ⟨r', h', e'⟩ := C03_starts_with_nocase hv'.toDenotes hw'
    exact ⟨r, h, by rw [h', Bool.eq_iff_iff.2 (e'.trans e.symm)]⟩
  · obtain ⟨r, h, e⟩ := C09_contains hv hw
    obtain ⟨r', h', e'⟩ := C09_contains hv' hw'
    exact ⟨r, h, by rw [h', Bool.eq_iff_iff.2 (e'.trans e.symm)]⟩
  · obtain ⟨r, h, e⟩ := C09_contains_nocase hv hw
    obtain ⟨r', h', e'⟩ := C09_contains_nocase hv' hw'
    exact ⟨r, h, by rw [h', Bool.eq_iff_iff.2 (e'.trans e.symm)]⟩
  · obtain ⟨c, h, e1, e2, -⟩ := C04_compare_lexicographic hv.toDenotes hw.toDenotes
    obtain ⟨c', h', e1', e2', -⟩ := C04_compare_lexicographic hv'.toDenotes hw'.toDenotes
    exact ⟨c, c', h, h', e1.trans e1'.symm, e2.trans e2'.symm⟩

/-- C83. Searching finds the same place. -/
theorem C83_places {m m' : Mem} {v w v' w' : View} {l k : List Byte} (hv : ViewOf m v l) (hw : ViewOf m w k) (hv' : ViewOf m' v' l) (hw' : ViewOf m' w' k) :
    (∃ r r', strview_find_first_strview m v w = .ok r ∧ strview_find_first_strview m' v' w' = .ok r' ∧ SamePlace v v' r r') ∧
    (∃ r r', strview_find_first_nocase_strview m v w = .ok r ∧ strview_find_first_nocase_strview m' v' w' = .ok r' ∧ SamePlace v v' r r') ∧
    ((k.length : Int) ≤ v.data + l.length → (k.length : Int) ≤ v'.data + l.length →
      (∃ r r', strview_find_last_strview m v w = .ok r ∧ strview_find_last_strview m' v' w' = .ok r' ∧ SamePlace v v' r r') ∧
      (∃ r r', strview_find_last_nocase_strview m v w = .ok r ∧ strview_find_last_nocase_strview m' v' w' = .ok r' ∧ SamePlace v v' r r')) := by
  refine ⟨?_, ?_, fun hl hl' => ⟨?_, ?_⟩⟩
  · rcases C07_find_first hv hw with ⟨i, o, -, e⟩ | ⟨no, e⟩ <;> rcases C07_find_first hv' hw' with ⟨i', o', -, e'⟩ | ⟨no', e'⟩
    · have : i' = i := Nat.le_antisymm (o'.2 _ o.1) (o.2 _ o'.1)
      subst this; exact ⟨_, _, e, e', .inr ⟨_, _, rfl, rfl⟩⟩
    · exact absurd o.1 (no' _)
    · exact absurd o'.1 (no _)
    · exact ⟨_, _, e, e', .inl ⟨rfl, rfl⟩⟩
  · rcases C07_find_first_nocase hv hw with ⟨i, o, -, e⟩ | ⟨no, e⟩ <;> rcases C07_find_first_nocase hv' hw' with ⟨i', o', -, e'⟩ | ⟨no', e'⟩
    · have : i' = i := Nat.le_antisymm (o'.2 _ o.1) (o.2 _ o'.1)
      subst this; exact ⟨_, _, e, e', .inr ⟨_, _, rfl, rfl⟩⟩
    · exact absurd o.1 (no' _)
    · exact absurd o'.1 (no _)
    · exact ⟨_, _, e, e', .inl ⟨rfl, rfl⟩⟩
  · rcases C08_find_last_partial hv hw hl with ⟨i, o, -, e⟩ | ⟨no, e⟩ <;> rcases C08_find_last_partial hv' hw' hl' with ⟨i', o', -, e'⟩ | ⟨no', e'⟩
    · have : i' = i := Nat.le_antisymm (o.2 _ o'.1) (o'.2 _ o.1)
      subst this; exact ⟨_, _, e, e', .inr ⟨_, _, rfl, rfl⟩⟩
    · exact absurd o.1 (no' _)
    · exact absurd o'.1 (no _)
    · exact ⟨_, _, e, e', .inl ⟨rfl, rfl⟩⟩
  · rcases C08_find_last_nocase_partial hv hw hl with ⟨i, o, -, e⟩ | ⟨no, e⟩ <;>
      rcases C08_find_last_nocase_partial hv' hw' hl' with ⟨i', o', -, e'⟩ | ⟨no', e'⟩
    · have : i' = i := Nat.le_antisymm (o.2 _ o'.1) (o'.2 _ o.1)
      subst this; exact ⟨_, _, e, e', .inr ⟨_, _, rfl, rfl⟩⟩
    · exact absurd o.1 (no' _)
    · exact absurd o'.1 (no _)
    · exact ⟨_, _, e, e', .inl ⟨rfl, rfl⟩⟩

/-- C83. Reading an integer gives the same error number, the same value and the same place for the rest. -/
theorem C83_numbers {m m' : Mem} {v v' : View} {l : List Byte} (hv : ViewOf m v l) (hv' : ViewOf m' v' l) (o : UInt32) :
    (∀ (t : UTy) (dst : Option Nat), ∃ e d r r', strnum_value_u t m dst (some v) o = .ok (e, d, some r) ∧
      strnum_value_u t m' dst (some v') o = .ok (e, d, some r') ∧ SamePlace v v' r r') ∧
    (∀ (t : STy) (dst : Option Int), ∃ e d r r', strnum_value_s t m dst (some v) o = .ok (e, d, some r) ∧
      strnum_value_s t m' dst (some v') o = .ok (e, d, some r') ∧ SamePlace v v' r r') := by
  have hself : SamePlace v v' v v' := by
    refine .inr ⟨0, l.length, ?_, ?_⟩
    · have := hv.size; obtain ⟨d, n⟩ := v; simp only at this; simp [View.part, this]
    · have := hv'.size; obtain ⟨d, n⟩ := v'; simp only at this; simp [View.part, this]
  obtain ⟨l1, h1⟩ := AfterSpaces.exists o l
  constructor
  · intro t dst
    obtain ⟨base, l2, h2⟩ := AfterPrefix.exists o l1
    obtain ⟨ds, n, rest, h3⟩ := DigitRunActual.exists base l2
    have e := C22_unsigned_actual t dst hv h1 h2 h3
    have e' := C22_unsigned_actual t dst hv' h1 h2 h3
    simp only [unsignedOutcome] at e e'
    split at e
    · rename_i h; rw [if_pos h] at e'; exact ⟨_, _, _, _, e, e', hself⟩
    · rename_i h; rw [if_neg h] at e'
      split at e
      · rename_i h; rw [if_pos h] at e'; exact ⟨_, _, _, _, e, e', hself⟩
      · rename_i h; rw [if_neg h] at e'; exact ⟨_, _, _, _, e, e', .inr ⟨_, _, rfl, rfl⟩⟩
  · intro t dst
    obtain ⟨neg, l2, hs⟩ := AfterSign.exists o l1
    obtain ⟨base, l3, h2⟩ := AfterPrefix.exists o l2
    obtain ⟨ds, n, rest, h3⟩ := DigitRunActual.exists base l3
    have e := C23_signed_actual t dst hv h1 hs h2 h3
    have e' := C23_signed_actual t dst hv' h1 hs h2 h3
    simp only [signedOutcome] at e e'
    split at e
    · rename_i h; rw [if_pos h] at e'; exact ⟨_, _, _, _, e, e', hself⟩
    · rename_i h; rw [if_neg h] at e'
      split at e
      · rename_i h; rw [if_pos h] at e'; exact ⟨_, _, _, _, e, e', hself⟩
      · rename_i h; rw [if_neg h] at e'; exact ⟨_, _, _, _, e, e', .inr ⟨_, _, rfl, rfl⟩⟩

/-- C83. A program with buffers and kept views, run twice: with its constants at other addresses, other memory around them, another history of the allocator. Unless the allocator gives an illegal answer,
both runs end with the same buffer variables in use, the same bytes in every buffer, as many views, and the same bytes in every view that is not stale. -/
theorem C83_programs {cfg : Cfg} (hcfg : cfg.Ok) {dflt : Alloc} {K : Nat → List Byte} {ka ka' : Nat → Addr} {s s' : St} (hs : Start K ka s) (hs' : Start K ka' s') (cs : List MCmd)
    (hl : LegalMixed cfg dflt K cs .start) :
    runMixed cfg dflt K ka cs (.start s) = .env .alloc ∨ runMixed cfg dflt K ka' cs (.start s') = .env .alloc ∨
    ∃ A X X', MRun cfg dflt K cs .start A ∧ runMixed cfg dflt K ka cs (.start s) = .ok X ∧ runMixed cfg dflt K ka' cs (.start s') = .ok X' ∧
      X.views.length = X'.views.length ∧ X.eol = X'.eol ∧
      (∀ h b, A.σ h = some (.buf b) → ∃ v v', strbuf_view X.s.mem (some (X.ρ h)) = .ok v ∧ strbuf_view X'.s.mem (some (X'.ρ h)) = .ok v' ∧
        ViewOf X.s.mem v b.data ∧ ViewOf X'.s.mem v' b.data) ∧
      (∀ h, A.σ h = none → X.ρ h = 0 ∧ X'.ρ h = 0) ∧
      (∀ i, A.Fresh i → (viewAt X.views i = .invalid ∧ viewAt X'.views i = .invalid) ∨
        ∃ l, ViewOf X.s.mem (viewAt X.views i) l ∧ ViewOf X'.s.mem (viewAt X'.views i) l) := by
  rcases C80_refinement hcfg hs.mrep cs hl with e | ⟨A, X, h1, h2, r⟩
  · exact .inl e
  rcases C80_refinement hcfg hs'.mrep cs hl with e | ⟨A', X', h1', h2', r'⟩
  · exact .inr (.inl e)
  have hA := C80_deterministic h1' h1
  subst hA
  refine .inr (.inr ⟨A', X, X', h1, h2, h2', r.number.trans r'.number.symm, r.eol.trans r'.eol.symm, ?_, fun h hn => ⟨r.rep.null h hn, r'.rep.null h hn⟩, ?_⟩)
  · intro h b hb
    have b1 : BufAt X.s (X.ρ h) b := r.rep.obj h _ hb
    have b2 : BufAt X'.s (X'.ρ h) b := r'.rep.obj h _ hb
    exact ⟨_, _, by rw [strbuf_view, deref_some b1.pos]; exact b1.view, by rw [strbuf_view, deref_some b2.pos]; exact b2.view, b1.viewOf, b2.viewOf⟩
  · intro i hf
    cases hi : A'.view i with
    | stale => exact absurd hi hf
    | null =>
      have v1 := r.views i
      have v2 := r'.views i
      rw [hi] at v1 v2
      exact .inl ⟨v1, v2⟩
    | part t a n => exact .inr ⟨_, r.shows hi, r'.shows hi⟩

/-! A second start of the program `heldDemo` of C80: the constants are elsewhere, the memory around them is not unmapped but full of 255, the allocator answers with ever lower
addresses and blocks full of 85. -/

def otherKa : Nat → Addr
  | 0 => 80
  | 1 => 64
  | _ => 50

def otherSt : St where
  mem := fun a => if a = 80 then some 97 else if a = 81 then some 98 else if a = 82 then some 0 else if a = 64 then some 108
    else if a = 65 then some 0 else if a = 50 then some 0 else if 0 < a ∧ a < 100 then some 255 else none
  live := fun _ => none
  picks := fun i => ⟨if i < 30 then 4096000 - 65536 * i else 4096, fun _ => 85⟩
  calls := 0
  log := []

theorem otherStart : Start demoK otherKa otherSt := by
  refine ⟨fun _ => rfl, fun i => by simp only [otherSt]; split <;> omega, ?_⟩
  intro k
  match k with
  | 0 => exact ⟨by decide, by decide, by intro i hi; match i, hi with | 0, _ => rfl | 1, _ => rfl | 2, _ => rfl⟩
  | 1 => exact ⟨by decide, by decide, by intro i hi; match i, hi with | 0, _ => rfl | 1, _ => rfl⟩
  | k + 2 => exact ⟨(by decide : (0 : Int) < 50), (by decide : (0 : Int) ≤ INT_MAX), by intro i hi; match i, hi with | 0, _ => rfl⟩

theorem other_runs : (runMixed exCfg ⟨0, 1⟩ demoK otherKa heldDemo (.start otherSt)).isOk = true := by decide +kernel

-- both runs of the demonstration program end, and show the same
example : ∃ A X X', MRun exCfg ⟨0, 1⟩ demoK heldDemo .start A ∧ runMixed exCfg ⟨0, 1⟩ demoK demoKa heldDemo (.start demoSt) = .ok X ∧
    runMixed exCfg ⟨0, 1⟩ demoK otherKa heldDemo (.start otherSt) = .ok X' ∧
    ∀ h b, A.σ h = some (.buf b) → ∃ v v', strbuf_view X.s.mem (some (X.ρ h)) = .ok v ∧ strbuf_view X'.s.mem (some (X'.ρ h)) = .ok v' ∧
      ViewOf X.s.mem v b.data ∧ ViewOf X'.s.mem v' b.data := by
  rcases C83_programs exCfg_ok demoStart otherStart heldDemo heldDemo_legal with e | e | ⟨A, X, X', h1, h2, h3, -, -, h4, -⟩
  · have := heldDemo_runs; rw [e] at this; cases this
  · have := other_runs; rw [e] at this; cases this
  · exact ⟨A, X, X', h1, h2, h3, h4⟩

-- "ab12z" and "AB" in two memories
example : ViewOf (memAt 1000 [97, 98, 49, 50, 122, 65, 66]) ⟨1000, 5⟩ [97, 98, 49, 50, 122] ∧ ViewOf (memAt 1000 [97, 98, 49, 50, 122, 65, 66]) ⟨1005, 2⟩ [65, 66] ∧
    ViewOf (memAt 7 [65, 66, 0, 97, 98, 49, 50, 122]) ⟨10, 5⟩ [97, 98, 49, 50, 122] ∧ ViewOf (memAt 7 [65, 66, 0, 97, 98, 49, 50, 122]) ⟨7, 2⟩ [65, 66] ∧
    strview_find_first_nocase_strview (memAt 1000 [97, 98, 49, 50, 122, 65, 66]) ⟨1000, 5⟩ ⟨1005, 2⟩ = .ok ⟨1000, 2⟩ ∧
    strview_find_first_nocase_strview (memAt 7 [65, 66, 0, 97, 98, 49, 50, 122]) ⟨10, 5⟩ ⟨7, 2⟩ = .ok ⟨10, 2⟩ :=
  ⟨viewOf_memAt_part 1000 _ 0 5 _ (by decide) (by decide) (by decide) (by decide) rfl,
   viewOf_memAt_part 1000 _ 5 2 _ (by decide) (by decide) (by decide) (by decide) rfl,
   viewOf_memAt_part 7 _ 3 5 _ (by decide) (by decide) (by decide) (by decide) rfl,
   viewOf_memAt_part 7 _ 0 2 _ (by decide) (by decide) (by decide) (by decide) rfl, by decide +kernel, by decide +kernel⟩

end CStr
