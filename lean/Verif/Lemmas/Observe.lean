import Verif.Spec.Observe
import Verif.Lemmas.HeldViews
import Verif.Lemmas.IntCode
import Verif.Props.Compare
import Verif.Props.Find
import Verif.Props.Split
import Verif.Props.Int
/-! Lemmas for Props/Observe.lean: every question gets the answer it should. -/
namespace CStr

variable {cfg : Cfg} {dflt : Alloc} {K : Nat → List Byte} {ka : Nat → Addr}

theorem view_set_self (A : Mixed) (i : Nat) : A.views.set i (A.view i) = A.views := by
  refine List.ext_getElem (by simp) ?_
  intro j h1 h2
  rw [List.getElem_set]
  split
  · rename_i e; subst e
    rw [Mixed.view, List.getD_eq_getElem?_getD, List.getElem?_eq_getElem h2]; rfl
  · rfl

theorem viewAt_set_self (vs : List View) (i : Nat) : vs.set i (viewAt vs i) = vs := by
  refine List.ext_getElem (by simp) ?_
  intro j h1 h2
  rw [List.getElem_set]
  split
  · rename_i e; subst e
    rw [viewAt, List.getD_eq_getElem?_getD, List.getElem?_eq_getElem h2]; rfl
  · rfl

/-- View `i` is replaced by its part. -/
theorem MRep.shorten {A : Mixed} {X : MState} (r : MRep K ka A X) {i : Nat} (hf : A.Fresh i) {c : Cut} {u : View} (h : CutIs (viewAt X.views i) (A.text K i) c u) :
    MRep K ka (A.shorten i c) { X with views := X.views.set i u } := r.put i (r.cut hf h)

/-- Infixes up to a folding of the bytes. -/
theorem infix_map_iff (f : Byte → Byte) (n h : List Byte) : n.map f <:+: h.map f ↔ ∃ i, OccursAt f n h i := by
  constructor
  · rintro ⟨a, b, e⟩
    obtain ⟨x, y, e1, e2, e3⟩ := List.map_eq_append_iff.1 e.symm
    obtain ⟨z, w, e4, e5, e6⟩ := List.map_eq_append_iff.1 e2
    exact ⟨z.length, z, w, y, by rw [e1, e4], rfl, e6⟩
  · rintro ⟨i, a, b, c, rfl, -, e⟩
    exact ⟨a.map f, c.map f, by rw [List.map_append, List.map_append, e]⟩

theorem AfterSpaces.length {o : UInt32} {l r : List Byte} (h : AfterSpaces o l r) : r.length ≤ l.length := by
  unfold AfterSpaces at h
  split at h
  · subst h; exact Nat.le_refl _
  · obtain ⟨n, e, -⟩ := h
    rw [e, List.length_append]; omega

theorem AfterPrefix.length {o : UInt32} {l r : List Byte} {base : Nat} (h : AfterPrefix o l base r) : r.length ≤ l.length := by
  cases h with
  | bin _ _ h => rcases h with rfl | rfl <;> simp only [List.length_cons] <;> omega
  | hex _ _ h => rcases h with rfl | rfl <;> simp only [List.length_cons] <;> omega
  | none _ => exact Nat.le_refl _

theorem AfterSign.length {o : UInt32} {l r : List Byte} {neg : Bool} (h : AfterSign o l neg r) : r.length ≤ l.length := by
  cases h with
  | minus _ _ | plus _ _ => simp only [List.length_cons]; omega
  | none _ _ => exact Nat.le_refl _

theorem rest_le {o : UInt32} {l l1 l2 ds rest : List Byte} {base n : Nat} (h1 : AfterSpaces o l l1) (h2 : AfterPrefix o l1 base l2) (h3 : DigitRunActual base l2 ds n rest) :
    rest.length ≤ l.length := by
  have e := congrArg List.length h3.split
  rw [List.length_append] at e
  have := h1.length
  have := h2.length
  omega

theorem rest_le_signed {o : UInt32} {l l1 l2 l3 ds rest : List Byte} {neg : Bool} {base n : Nat} (h1 : AfterSpaces o l l1) (hs : AfterSign o l1 neg l2) (h2 : AfterPrefix o l2 base l3)
    (h3 : DigitRunActual base l3 ds n rest) : rest.length ≤ l.length := by
  have e := congrArg List.length h3.split
  rw [List.length_append] at e
  have := h1.length
  have := hs.length
  have := h2.length
  omega

/-- There are no digits in nothing. -/
theorem no_digits {o : UInt32} {l1 l2 ds rest : List Byte} {base n : Nat} (h1 : AfterSpaces o [] l1) (h2 : AfterPrefix o l1 base l2) (h3 : DigitRunActual base l2 ds n rest) : ds = [] := by
  have e := congrArg List.length h3.split
  rw [List.length_append] at e
  have := h1.length
  have := h2.length
  exact List.length_eq_zero_iff.1 (by simp only [List.length_nil] at *; omega)

theorem no_digits_signed {o : UInt32} {l1 l2 l3 ds rest : List Byte} {neg : Bool} {base n : Nat} (h1 : AfterSpaces o [] l1) (hs : AfterSign o l1 neg l2) (h2 : AfterPrefix o l2 base l3)
    (h3 : DigitRunActual base l3 ds n rest) : ds = [] := by
  have e := congrArg List.length h3.split
  rw [List.length_append] at e
  have := h1.length
  have := hs.length
  have := h2.length
  exact List.length_eq_zero_iff.1 (by simp only [List.length_nil] at *; omega)

theorem DigitRunActual.unique {base : Nat} (hbase : base = 10 ∨ base = 16 ∨ base = 2) {l ds ds' rest rest' : List Byte} {n n' : Nat} (h : DigitRunActual base l ds n rest)
    (h' : DigitRunActual base l ds' n' rest') : ds = ds' ∧ n = n' ∧ rest = rest' := by
  obtain ⟨rfl, rfl⟩ := run_unique (p := fun b => IsDigitOf base (asDigit base b)) (h.split.symm.trans h'.split)
    (fun b hb => h.value.digits _ (List.mem_map_of_mem hb)) h.longest (fun b hb => h'.value.digits _ (List.mem_map_of_mem hb)) h'.longest
  exact ⟨rfl, h.value.unique hbase h'.value, rfl⟩

theorem value_u_invalid (t : UTy) (m : Mem) (d : Nat) (o : UInt32) : strnum_value_u t m (some d) (some .invalid) o = .ok (EINVAL, some d, some .invalid) := by
  cases t <;> rfl

theorem value_s_invalid (t : STy) (m : Mem) (d : Int) (o : UInt32) : strnum_value_s t m (some d) (some .invalid) o = .ok (EINVAL, some d, some .invalid) := by
  cases t <;> rfl

/-- A byte that may be read is read. -/
theorem char_ok {X : MState} {a : Addr} {l : List Byte} {k : Nat} (h : Holds X.s.mem a l) (hk : k < l.length) : ∃ c, l[k]? = some c ∧ load X.s.mem (a + k) = .ok c :=
  ⟨l[k], by rw [List.getElem?_eq_getElem hk], h.load k hk⟩

/-- One question. -/
theorem query_ok {A : Mixed} {X : MState} (r : MRep K ka A X) {q : Query} (hl : q.Legal K A) :
    ∃ a A' X', q.Step K A a A' ∧ q.ask X = .ok (a, X') ∧ MRep K ka A' X' := by
  obtain ⟨hu, hl⟩ := hl
  have yes : ∀ {q : Query} {res : Res Bool} {b : Bool}, res = .ok b → q.ask X = yesNo X res → q.Step K A (.bool b) A →
      ∃ a A' X', q.Step K A a A' ∧ q.ask X = .ok (a, X') ∧ MRep K ka A' X' := by
    intro q res b h1 h2 h3
    exact ⟨_, A, X, h3, by rw [h2, h1]; rfl, r⟩
  have den : ∀ {i}, A.Fresh i → Denotes X.s.mem (viewAt X.views i) (A.text K i) := fun hf => (r.any hf).2
  have nul : ∀ {i}, A.Fresh i → A.view i = .null → viewAt X.views i = .invalid ∧ A.text K i = [] := by
    intro i hf h
    rcases r.held hf with ⟨-, h2, h3⟩ | ⟨t, a, n, i1, -⟩
    · exact ⟨h2, h3⟩
    · rw [h] at i1; cases i1
  have val : ∀ {i}, A.Fresh i → A.view i ≠ .null → ViewOf X.s.mem (viewAt X.views i) (A.text K i) := by
    intro i hf h
    rcases r.held hf with ⟨i1, -⟩ | ⟨t, a, n, i1, i2, i3, i4, i5, i6⟩
    · exact absurd i1 h
    · exact i5
  have vld : ∀ {i}, A.Fresh i → (strview_is_valid (viewAt X.views i) = true ↔ A.view i ≠ .null) := by
    intro i hf
    by_cases h : A.view i = .null
    · rw [(nul hf h).1]; simp [h, strview_is_valid, View.invalid]
    · have hp := (val hf h).pos
      simp only [strview_is_valid, ne_eq, h, not_false_eq_true, iff_true, decide_eq_true_eq]
      omega
  cases q with
  | valid i => exact ⟨_, A, X, ⟨rfl, _, rfl, vld (hu i (by simp [Query.uses]))⟩, rfl, r⟩
  | viewSize i =>
    refine ⟨_, A, X, ⟨rfl, rfl⟩, ?_, r⟩
    simp only [Query.ask, (den (hu i (by simp [Query.uses]))).size]
  | viewChar i k =>
    obtain ⟨c, h1, h2⟩ := char_ok (den (hu i (by simp [Query.uses]))).holds hl
    exact ⟨_, A, X, ⟨rfl, c, rfl, h1⟩, by simp only [Query.ask, h2, Res.bind_ok], r⟩
  | isMatch i j =>
    exact yes (C01_is_match_iff_contents_equal (den (hu i (by simp [Query.uses]))) (den (hu j (by simp [Query.uses])))) rfl ⟨rfl, _, rfl, by simp⟩
  | isMatchNocase i j =>
    exact yes (C02_is_match_nocase (den (hu i (by simp [Query.uses]))) (den (hu j (by simp [Query.uses])))) rfl ⟨rfl, _, rfl, by simp⟩
  | startsWith i j =>
    have hi := hu i (by simp [Query.uses])
    have hj := hu j (by simp [Query.uses])
    by_cases h : A.view j = .null
    · refine yes (res := strview_starts_with_strview X.s.mem (viewAt X.views i) (viewAt X.views j)) (b := !strview_is_valid (viewAt X.views i)) ?_ rfl ⟨rfl, _, rfl, ?_⟩
      · rw [(nul hj h).1]; rfl
      · have := vld hi
        by_cases g : A.view i = .null
        · rw [(nul hi g).1]; simp [g, h, strview_is_valid, View.invalid]
        · rw [this.2 g]; simp [g, h]
    · obtain ⟨b, h1, h2⟩ := C03_starts_with (den hi) (val hj h)
      exact yes h1 rfl ⟨rfl, _, rfl, by simp only [h, false_and, false_or, ne_eq, not_false_eq_true, true_and]; exact h2⟩
  | startsWithNocase i j =>
    have hi := hu i (by simp [Query.uses])
    have hj := hu j (by simp [Query.uses])
    by_cases h : A.view j = .null
    · refine yes (res := strview_starts_with_nocase_strview X.s.mem (viewAt X.views i) (viewAt X.views j)) (b := !strview_is_valid (viewAt X.views i)) ?_ rfl ⟨rfl, _, rfl, ?_⟩
      · rw [(nul hj h).1]; rfl
      · have := vld hi
        by_cases g : A.view i = .null
        · rw [(nul hi g).1]; simp [g, h, strview_is_valid, View.invalid]
        · rw [this.2 g]; simp [g, h]
    · obtain ⟨b, h1, h2⟩ := C03_starts_with_nocase (den hi) (val hj h)
      exact yes h1 rfl ⟨rfl, _, rfl, by simp only [h, false_and, false_or, ne_eq, not_false_eq_true, true_and]; exact h2⟩
  | contains i j =>
    have hi := hu i (by simp [Query.uses])
    have hj := hu j (by simp [Query.uses])
    by_cases g : A.view i = .null
    · refine yes (res := strview_contains X.s.mem (viewAt X.views i) (viewAt X.views j)) (b := false) ?_ rfl ⟨rfl, _, rfl, by simp [g]⟩
      rw [(nul hi g).1, strview_contains, (C07_find_first_invalid _ _).2.1]; rfl
    by_cases h : A.view j = .null
    · refine yes (res := strview_contains X.s.mem (viewAt X.views i) (viewAt X.views j)) (b := false) ?_ rfl ⟨rfl, _, rfl, by simp [h]⟩
      rw [(nul hj h).1, strview_contains, (C07_find_first_invalid _ _).1]; rfl
    obtain ⟨b, h1, h2⟩ := C09_contains (val hi g) (val hj h)
    exact yes h1 rfl ⟨rfl, _, rfl, by simp only [g, h, ne_eq, not_false_eq_true, true_and]; exact h2⟩
  | containsNocase i j =>
    have hi := hu i (by simp [Query.uses])
    have hj := hu j (by simp [Query.uses])
    by_cases g : A.view i = .null
    · refine yes (res := strview_contains_nocase X.s.mem (viewAt X.views i) (viewAt X.views j)) (b := false) ?_ rfl ⟨rfl, _, rfl, by simp [g]⟩
      rw [(nul hi g).1, strview_contains_nocase, (C07_find_first_invalid _ _).2.2.2]; rfl
    by_cases h : A.view j = .null
    · refine yes (res := strview_contains_nocase X.s.mem (viewAt X.views i) (viewAt X.views j)) (b := false) ?_ rfl ⟨rfl, _, rfl, by simp [h]⟩
      rw [(nul hj h).1, strview_contains_nocase, (C07_find_first_invalid _ _).2.2.1]; rfl
    obtain ⟨b, h1, h2⟩ := C09_contains_nocase (val hi g) (val hj h)
    exact yes h1 rfl ⟨rfl, _, rfl, by simp only [g, h, ne_eq, not_false_eq_true, true_and, infix_map_iff]; exact h2⟩
  | compare i j =>
    obtain ⟨c, h1, h2, h3, h4⟩ := C04_compare_lexicographic (den (hu i (by simp [Query.uses]))) (den (hu j (by simp [Query.uses])))
    refine ⟨.int c.sign, A, X, ⟨rfl, ?_⟩, by simp only [Query.ask, h1, Res.bind_ok], r⟩
    rcases Int.lt_trichotomy c 0 with h | h | h
    · exact .inl ⟨by rw [Int.sign_eq_neg_one_of_neg h], h2.1 h⟩
    · exact .inr (.inl ⟨by rw [h]; rfl, h3.1 h⟩)
    · exact .inr (.inr ⟨by rw [Int.sign_eq_one_of_pos h], h4.1 h⟩)
  | isNull h =>
    refine ⟨_, A, X, ⟨rfl, _, rfl, ?_⟩, rfl, r⟩
    cases hk : A.σ h with
    | none => simp [r.rep.null h hk]
    | some o =>
      have hp : 0 < X.ρ h := by
        have := r.rep.obj h o hk
        cases o with
        | buf b => exact (show BufAt X.s (X.ρ h) b from this).pos
        | str l al => exact this.1
        | mem n => exact this.1
      simp only [beq_iff_eq, reduceCtorEq, iff_false]
      omega
  | bufSize h =>
    obtain ⟨b, hb⟩ := hl
    have hba : BufAt X.s (X.ρ h) b := r.rep.obj h _ hb
    exact ⟨_, A, X, ⟨rfl, b, hb, rfl⟩, by simp only [Query.ask, hba.getSize, Res.bind_ok], r⟩
  | capacity h =>
    obtain ⟨b, hb⟩ := hl
    have hba : BufAt X.s (X.ρ h) b := r.rep.obj h _ hb
    exact ⟨_, A, X, ⟨rfl, b, hb, rfl⟩, by simp only [Query.ask, hba.getCap, Res.bind_ok], r⟩
  | bufChar h k =>
    obtain ⟨b, hb, hk⟩ := hl
    have hba : BufAt X.s (X.ρ h) b := r.rep.obj h _ hb
    have hh : Holds X.s.mem (X.ρ h + 24) (b.data ++ [0]) := by
      have := hba.holds
      rw [List.append_assoc] at this
      have h2 := (Holds.append_iff.1 this).2
      rwa [hdrBytes_length] at h2
    obtain ⟨c, h1, h2⟩ := char_ok hh (k := k) (by rw [List.length_append, List.length_singleton]; omega)
    exact ⟨_, A, X, ⟨rfl, b, c, hb, h1, rfl⟩, by simp only [Query.ask, h2, Res.bind_ok], r⟩
  | strChar h k =>
    obtain ⟨l, al, hb, hk⟩ := hl
    have hs := r.rep.obj h _ hb
    obtain ⟨c, h1, h2⟩ := char_ok hs.2.2.2.1 (k := k) (by rw [List.length_append, List.length_singleton]; omega)
    exact ⟨_, A, X, ⟨rfl, l, al, c, hb, h1, rfl⟩, by simp only [Query.ask, h2, Res.bind_ok], r⟩
  | popChar i =>
    have hi := hu i (by simp [Query.uses])
    cases ht : A.text K i with
    | nil =>
      refine ⟨_, A, X, .inl ⟨ht, rfl, rfl⟩, ?_, r⟩
      have hd := den hi
      rw [ht] at hd
      simp only [Query.ask, (C16_pop_empty hd).1, Res.bind_ok, viewAt_set_self]
    | cons c t =>
      have hn : A.view i ≠ .null := fun h => by rw [(nul hi h).2] at ht; cases ht
      have hv := val hi hn
      rw [ht] at hv
      refine ⟨_, _, _, .inr ⟨c, t, ht, rfl, rfl⟩, ?_, r.shorten hi (CutIs.part (j := 1) (n := t.length) (by rw [ht, List.length_cons]; omega))⟩
      simp only [Query.ask, (C16_pop_cons hv).1, Res.bind_ok]
  | unsigned t i o d =>
    have hi := hu i (by simp [Query.uses])
    obtain ⟨l1, h1⟩ := AfterSpaces.exists o (A.text K i)
    obtain ⟨base, l2, h2⟩ := AfterPrefix.exists o l1
    obtain ⟨ds, n, rest, h3⟩ := DigitRunActual.exists base l2
    by_cases hn : A.view i = .null
    · obtain ⟨e1, e2⟩ := nul hi hn
      have hd : ds = [] := by rw [e2] at h1; exact no_digits h1 h2 h3
      refine ⟨_, A, X, ⟨l1, l2, base, ds, n, rest, h1, h2, h3, .inl ⟨hd, rfl, rfl⟩⟩, ?_, r⟩
      have := viewAt_set_self X.views i
      rw [e1] at this
      simp only [Query.ask, e1, value_u_invalid, Res.bind_ok, converted, Option.map_some, this]
      rfl
    · have e := C22_unsigned_actual t (some d) (val hi hn) h1 h2 h3
      unfold unsignedOutcome at e
      split at e
      · rename_i hd
        refine ⟨_, A, X, ⟨l1, l2, base, ds, n, rest, h1, h2, h3, .inl ⟨hd, rfl, rfl⟩⟩, ?_, r⟩
        simp only [Query.ask, e, Res.bind_ok, converted, Option.map_some, viewAt_set_self]
        rfl
      · rename_i hd
        split at e
        · rename_i hm
          refine ⟨_, A, X, ⟨l1, l2, base, ds, n, rest, h1, h2, h3, .inr (.inl ⟨hd, by omega, rfl, rfl⟩)⟩, ?_, r⟩
          simp only [Query.ask, e, Res.bind_ok, converted, Option.map_some, viewAt_set_self]
          rfl
        · rename_i hm
          refine ⟨_, _, _, ⟨l1, l2, base, ds, n, rest, h1, h2, h3, .inr (.inr ⟨hd, by omega, rfl, rfl⟩)⟩, ?_, r.shorten hi (CutIs.part ?_)⟩
          · simp only [Query.ask, e, Res.bind_ok, converted, Option.map_some]
            rfl
          · have := rest_le h1 h2 h3; omega
  | signed t i o d =>
    have hi := hu i (by simp [Query.uses])
    obtain ⟨l1, h1⟩ := AfterSpaces.exists o (A.text K i)
    obtain ⟨neg, l2, hs⟩ := AfterSign.exists o l1
    obtain ⟨base, l3, h2⟩ := AfterPrefix.exists o l2
    obtain ⟨ds, n, rest, h3⟩ := DigitRunActual.exists base l3
    by_cases hn : A.view i = .null
    · obtain ⟨e1, e2⟩ := nul hi hn
      have hd : ds = [] := by rw [e2] at h1; exact no_digits_signed h1 hs h2 h3
      refine ⟨_, A, X, ⟨l1, l2, l3, neg, base, ds, n, rest, h1, hs, h2, h3, .inl ⟨hd, rfl, rfl⟩⟩, ?_, r⟩
      have := viewAt_set_self X.views i
      rw [e1] at this
      simp only [Query.ask, e1, value_s_invalid, Res.bind_ok, converted, this]
    · have e := C23_signed_actual t (some d) (val hi hn) h1 hs h2 h3
      unfold signedOutcome at e
      split at e
      · rename_i hd
        refine ⟨_, A, X, ⟨l1, l2, l3, neg, base, ds, n, rest, h1, hs, h2, h3, .inl ⟨hd, rfl, rfl⟩⟩, ?_, r⟩
        simp only [Query.ask, e, Res.bind_ok, converted, viewAt_set_self]
      · rename_i hd
        split at e
        · rename_i hm
          refine ⟨_, A, X, ⟨l1, l2, l3, neg, base, ds, n, rest, h1, hs, h2, h3, .inr (.inl ⟨hd, hm, rfl, rfl⟩)⟩, ?_, r⟩
          simp only [Query.ask, e, Res.bind_ok, converted, viewAt_set_self]
        · rename_i hm
          refine ⟨_, _, _, ⟨l1, l2, l3, neg, base, ds, n, rest, h1, hs, h2, h3, .inr (.inr ⟨hd, Classical.not_not.mp hm, rfl, rfl⟩)⟩, ?_, r.shorten hi (CutIs.part ?_)⟩
          · simp only [Query.ask, e, Res.bind_ok, converted, Option.map_some]
          · have := rest_le_signed h1 hs h2 h3; omega

/-- One action. -/
theorem act_ok (hcfg : cfg.Ok) {A : Mixed} {X : MState} (r : MRep K ka A X) {x : Act} (hl : x.Legal cfg dflt K A) :
    x.exec cfg dflt K ka X = .env .alloc ∨ ∃ a A' X', x.Step cfg dflt K A a A' ∧ x.exec cfg dflt K ka X = .ok (a, X') ∧ MRep K ka A' X' := by
  cases x with
  | cmd c =>
    rcases mcmd_ok hcfg r hl with h | ⟨A', X', h1, h2, h3⟩
    · left; simp only [Act.exec, h]; rfl
    · exact .inr ⟨_, A', X', ⟨rfl, h1⟩, by simp only [Act.exec, h2, Res.bind_ok], h3⟩
  | ask q => exact .inr (query_ok r hl)

end CStr
