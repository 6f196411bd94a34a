import Verif.Lemmas.FloatVal
import Verif.Props.Int
import Verif.Lemmas.Examples
/-
  C29 and the floating point parts of C24, C27 and C31.

  The operations of the floating type are a parameter (`FloatOps`), so the theorems hold for float, double and long
  double on every platform. `t` ranges over the three destination types.
-/
namespace CStr

/-! ### C29 -/

/-- The words of the grammar and the mistyped one exclude each other and the numbers. -/
theorem FloatBody.num_first {o : UInt32} {l i f rest : List Byte} {e : Int} (h : FloatBody o l (.num i f e) rest) :
    ∃ b t, l = b :: t ∧ (isDigit b = true ∨ b = 46) := by
  cases h with
  | num h3 h4 hne h5 =>
    rw [h3.split]
    cases i with
    | cons b t => exact ⟨b, _, rfl, .inl (h3.digit b (by simp))⟩
    | nil =>
      cases h4 with
      | point hr => exact ⟨46, _, rfl, .inr rfl⟩
      | none => simp at hne

theorem word_inf_nan {l r r' : List Byte} (h : StartsWithWord wordInf l r) (h' : StartsWithWord wordNan l r') : False := by
  obtain ⟨q, e, hq⟩ := h
  obtain ⟨q', e', hq'⟩ := h'
  cases q with
  | nil => simp [wordInf] at hq
  | cons a q =>
    cases q' with
    | nil => simp [wordNan] at hq'
    | cons b q' =>
      have : a = b := by
        have := e.symm.trans e'
        simp only [List.cons_append, List.cons.injEq] at this
        exact this.1
      subst this
      simp only [List.map_cons, wordInf, wordNan, List.cons.injEq] at hq hq'
      rw [hq.1] at hq'
      exact absurd hq'.1 (by decide)

theorem word_prefix_inf {w l r : List Byte} (hn : w.take 3 = wordInf) (h : StartsWithWord w l r) :
    ∃ r', StartsWithWord wordInf l r' := by
  obtain ⟨q, rfl, hq⟩ := h
  exact ⟨q.drop 3 ++ r, q.take 3, by rw [← List.append_assoc, List.take_append_drop], by rw [List.map_take, hq, hn]⟩

theorem AfterPoint.exists (l : List Byte) : ∃ f rest, AfterPoint l f rest := by
  by_cases h : l.head? = some 46
  · cases l with
    | nil => simp at h
    | cons b t =>
      simp only [List.head?_cons, Option.some.injEq] at h
      subst h
      obtain ⟨f, rest, hd⟩ := DecRun.exists t
      exact ⟨f, rest, .point hd⟩
  · exact ⟨[], l, .none h⟩

theorem AfterPoint.unique {l f f' rest rest' : List Byte} (h : AfterPoint l f rest) (h' : AfterPoint l f' rest') :
    f = f' ∧ rest = rest' := by
  cases h with
  | point h =>
    cases h' with
    | point h' => exact h.unique h'
    | none h' => simp at h'
  | none h =>
    cases h' with
    | point h' => simp at h
    | none h' => exact ⟨rfl, rfl⟩

theorem AfterExponent.exists (o : UInt32) (l : List Byte) : ∃ e rest, AfterExponent o l e rest := by
  by_cases hf : flag o STRNUM_NOEXP = true
  · exact ⟨0, l, .none (.inl hf)⟩
  · by_cases h : ∀ c r neg r1, l = c :: r → c = 101 ∨ c = 69 → AfterSign 0 r neg r1 →
          ∀ b t, r1 = b :: t → ¬ IsDigitOf 10 b
    · exact ⟨0, l, .none (.inr h)⟩
    · simp only [Classical.not_forall, Classical.not_not] at h
      obtain ⟨c, r, neg, r1, hl, hc, hs, b, t, hr, hd⟩ := h
      obtain ⟨ds, n, rest, hrun⟩ := DigitRun.exists 10 r1
      subst hl
      refine ⟨_, rest, AfterExponent.exp (by simpa using hf) hc hs hrun ?_⟩
      rintro rfl
      have := hrun.split
      rw [List.nil_append] at this
      exact hrun.longest b t (this.symm.trans hr) hd

theorem AfterExponent.unique {o : UInt32} {l rest rest' : List Byte} {e e' : Int} (h : AfterExponent o l e rest)
    (h' : AfterExponent o l e' rest') : e = e' ∧ rest = rest' := by
  have contra : ∀ {c : Byte} {r r1 ds rest : List Byte} {neg : Bool} {n : Nat}, flag o STRNUM_NOEXP = false →
      c = 101 ∨ c = 69 → AfterSign 0 r neg r1 → DigitRun 10 r1 ds n rest → ds ≠ [] →
      (flag o STRNUM_NOEXP = true ∨
        (∀ c' r' neg r1, c :: r = c' :: r' → c' = 101 ∨ c' = 69 → AfterSign 0 r' neg r1 →
          ∀ b t, r1 = b :: t → ¬ IsDigitOf 10 b)) → False := by
    intro c r r1 ds rest neg n hf hc hs hd hne hor
    rcases hor with hor | hor
    · rw [hf] at hor; cases hor
    · cases ds with
      | nil => exact hne rfl
      | cons b t => exact hor c r neg r1 rfl hc hs b (t ++ rest) hd.split (hd.value.digits b (by simp))
  cases h with
  | exp hf hc hs hd hne =>
    cases h' with
    | exp hf' hc' hs' hd' hne' =>
      obtain ⟨rfl, rfl⟩ := hs.unique hs'
      obtain ⟨rfl, rfl, rfl⟩ := hd.unique (.inl rfl) hd'
      exact ⟨rfl, rfl⟩
    | none hor => exact (contra hf hc hs hd hne hor).elim
  | none hor =>
    cases h' with
    | exp hf' hc' hs' hd' hne' => exact (contra hf' hc' hs' hd' hne' hor).elim
    | none _ => exact ⟨rfl, rfl⟩

theorem AfterPoint.suffix {l f rest : List Byte} (h : AfterPoint l f rest) : ∃ q, l = q ++ rest := by
  cases h with
  | @point r _ _ h => exact ⟨46 :: f, by rw [h.split]; rfl⟩
  | none h => exact ⟨[], rfl⟩

theorem AfterSign.suffix {o : UInt32} {l rest : List Byte} {neg : Bool} (h : AfterSign o l neg rest) :
    ∃ q, l = q ++ rest := by
  cases h with
  | minus r hf => exact ⟨[45], rfl⟩
  | plus r hf => exact ⟨[43], rfl⟩
  | none r hf => exact ⟨[], rfl⟩

theorem AfterExponent.suffix {o : UInt32} {l rest : List Byte} {e : Int} (h : AfterExponent o l e rest) :
    ∃ q, l = q ++ rest := by
  cases h with
  | @exp c r r1 ds _ neg n hf hc hs hd hne =>
    obtain ⟨q, rfl⟩ := hs.suffix
    exact ⟨c :: q ++ ds, by rw [hd.split]; simp⟩
  | none _ => exact ⟨[], rfl⟩

/-- C29: a text is at most one signed literal followed by a rest, so "the longest such literal" is well defined. -/
theorem C29_text_unique {o : UInt32} {l rest rest' : List Byte} {neg neg' : Bool} {lit lit' : FloatLit}
    (h : FloatText o l neg lit rest) (h' : FloatText o l neg' lit' rest') : neg = neg' ∧ lit = lit' ∧ rest = rest' := by
  obtain ⟨l1, l2, h1, h2, hb⟩ := h.parts
  obtain ⟨l1', l2', h1', h2', hb'⟩ := h'.parts
  obtain rfl := h1.unique h1'
  obtain ⟨rfl, rfl⟩ := h2.unique h2'
  have numW : ∀ {i f r : List Byte} {e : Int} {c : Byte} {w r' : List Byte}, FloatBody o l2 (.num i f e) r →
      c = 73 ∨ c = 78 → StartsWithWord (c :: w) l2 r' → False := by
    intro i f r e c w r' hn hc hw
    obtain ⟨b, t, rfl, hbd⟩ := hn.num_first
    exact not_word hc hbd _ hw
  have infN : ∀ {r r' : List Byte}, StartsWithWord wordInfinity l2 r → StartsWithWord wordNan l2 r' → False := by
    intro r r' h h'
    obtain ⟨r2, h2⟩ := word_prefix_inf rfl h
    exact word_inf_nan h2 h'
  refine ⟨rfl, ?_⟩
  cases hb with
  | infinity k =>
    cases hb' with
    | infinity k' => exact ⟨rfl, k.unique k'⟩
    | inf k' kn => exact absurd k (kn _)
    | nan k' => exact (infN k k').elim
    | num a b c d => exact (numW (.num a b c d) (.inl rfl) k).elim
  | inf k kn =>
    cases hb' with
    | infinity k' => exact absurd k' (kn _)
    | inf k' kn' => exact ⟨rfl, k.unique k'⟩
    | nan k' => exact (word_inf_nan k k').elim
    | num a b c d => exact (numW (.num a b c d) (.inl rfl) k).elim
  | nan k =>
    cases hb' with
    | infinity k' => exact (infN k' k).elim
    | inf k' kn' => exact (word_inf_nan k' k).elim
    | nan k' => exact ⟨rfl, k.unique k'⟩
    | num a b c d => exact (numW (.num a b c d) (.inr rfl) k).elim
  | num a b c d =>
    cases hb' with
    | infinity k' => exact (numW (.num a b c d) (.inl rfl) k').elim
    | inf k' kn' => exact (numW (.num a b c d) (.inl rfl) k').elim
    | nan k' => exact (numW (.num a b c d) (.inr rfl) k').elim
    | num a' b' c' d' =>
      obtain ⟨rfl, rfl⟩ := a.unique a'
      obtain ⟨rfl, rfl⟩ := b.unique b'
      obtain ⟨rfl, rfl⟩ := d.unique d'
      exact ⟨rfl, rfl⟩

/-- C29, numbers. If the text is a number followed by `rest`, then the conversion accepts it and `src` becomes the view of `rest`
(a suffix of the old view), except for the two range errors: the exponent does not fit an `int`, or the magnitude
is infinite in the destination type. In these cases it returns ERANGE and changes nothing. -/
theorem C29_number {F : Type} (ops : FloatOps F) (t : FTy) {m : Mem} {v : View} {l i f rest : List Byte} {o : UInt32}
    {neg : Bool} {e : Int} (h : ViewOf m v l) (ht : FloatText o l neg (.num i f e) rest) :
    if INT_MIN ≤ e ∧ e ≤ INT_MAX then
      ∃ val, ∀ dst, strnum_value_f ops t m dst (some v) o =
        if ops.isPosInf val then .ok (ERANGE, dst, some v)
        else .ok (0, dst.map (fun _ => storedValue ops neg val), some (v.part (l.length - rest.length) rest.length))
    else ∀ dst, strnum_value_f ops t m dst (some v) o = .ok (ERANGE, dst, some v) := by
  obtain ⟨l1, l2, h1, h2, hb⟩ := ht.parts
  cases hb with
  | num h3 h4 hne h5 =>
    obtain ⟨k1, k2⟩ := value_f_num ops t h h1 h2 h3 h4 hne h5
    by_cases hx : INT_MIN ≤ e ∧ e ≤ INT_MAX
    · rw [if_pos hx]
      obtain ⟨val, -, k⟩ := k2 (fun hc => hc hx)
      exact ⟨val, k⟩
    · rw [if_neg hx]
      exact k1 hx

/-- C29, rejection: a text that is not a literal followed by anything gives EINVAL and changes nothing. -/
theorem C29_reject {F : Type} (ops : FloatOps F) (t : FTy) {m : Mem} {v : View} {l : List Byte} {o : UInt32}
    (h : ViewOf m v l) (ht : ∀ neg lit rest, ¬ FloatText o l neg lit rest) (dst : Option F) :
    strnum_value_f ops t m dst (some v) o = .ok (EINVAL, dst, some v) := by
  obtain ⟨l1, h1⟩ := AfterSpaces.exists o l
  obtain ⟨neg, l2, h2⟩ := AfterSign.exists o l1
  have hi : ∀ r, ¬ StartsWithWord wordInf l2 r := by
    intro r hr
    by_cases hc : ∃ r', StartsWithWord wordInfinity l2 r'
    · obtain ⟨r', hr'⟩ := hc
      exact ht neg .inf r' ⟨l1, l2, h1, h2, .infinity hr'⟩
    · exact ht neg .inf r ⟨l1, l2, h1, h2, .inf hr (fun r' hr' => hc ⟨r', hr'⟩)⟩
  have hn : ∀ r, ¬ StartsWithWord wordNan l2 r := fun r hr => ht neg .nan r ⟨l1, l2, h1, h2, .nan hr⟩
  obtain ⟨i, l3, h3⟩ := DecRun.exists l2
  obtain ⟨f, l4, h4⟩ := AfterPoint.exists l3
  obtain ⟨e, rest, h5⟩ := AfterExponent.exists o l4
  have hne : ¬ (i ≠ [] ∨ f ≠ []) := fun hc => ht neg (.num i f e) rest ⟨l1, l2, h1, h2, .num h3 h4 hc h5⟩
  have hi0 : i = [] := Classical.byContradiction fun hc => hne (.inl hc)
  have hf0 : f = [] := Classical.byContradiction fun hc => hne (.inr hc)
  subst hi0 hf0
  have := h3.split
  rw [List.nil_append] at this
  subst this
  exact value_f_none ops t dst h h1 h2 hi hn h3 h4

/-- C29, special values, as far as it holds: the words "inf" and "nan" in any case are accepted and `src` becomes the
rest of the text. If there is no rest then `src` becomes an empty view which may be the invalid one.
Missing for the full property: the word "infinity", see `C29_deviation_infinity`. The mistyped word "infinty" is
treated differently too, see `C29_deviation_infinty`. -/
theorem C29_special_partial {F : Type} (ops : FloatOps F) (t : FTy) {m : Mem} {v : View} {l rest : List Byte} {o : UInt32}
    {neg : Bool} {lit : FloatLit} (h : ViewOf m v l) (ht : FloatText o l neg lit rest)
    (hlit : lit = .inf ∨ lit = .nan)
    (hw : ∀ l1 l2, AfterSpaces o l l1 → AfterSign o l1 neg l2 →
      ∀ r, ¬ StartsWithWord wordInfinity l2 r ∧ ¬ StartsWithWord wordInfinty l2 r) (dst : Option F) :
    ∃ w, strnum_value_f ops t m dst (some v) o =
        .ok (0, dst.map (fun _ => storedValue ops neg (if lit = .inf then ops.inf else ops.nan)), some w) ∧
      Denotes m w rest ∧ (rest ≠ [] → w = v.part (l.length - rest.length) rest.length) := by
  obtain ⟨l1, l2, h1, h2, hb⟩ := ht.parts
  have hw := hw l1 l2 h1 h2
  obtain ⟨p, hp, -⟩ := process_start h h1 h2
  have hv2 : ViewOf m (v.part p.length l2.length) l2 := by rw [hp] at h; exact h.suffix
  have hspec := (consume_float_special_spec hv2).2 (fun r => (hw r).2)
  have fin : ∀ {u : View} {w : List Byte}, w.length = 3 → StartsWithWord w l2 rest → Denotes m u rest →
      (rest ≠ [] → u = (v.part p.length l2.length).part 3 rest.length) →
      Denotes m u rest ∧ (rest ≠ [] → u = v.part (l.length - rest.length) rest.length) := by
    intro u w hl hw hd he
    refine ⟨hd, fun hne => ?_⟩
    obtain ⟨q, hq, hqw⟩ := hw
    have hql : q.length = 3 := by rw [← List.length_map (f := toUpper), hqw, hl]
    have : l.length - rest.length = p.length + 3 := by
      rw [hp, hq]; simp only [List.length_append]; omega
    rw [he hne, View.part_part, this]
  cases hb with
  | infinity k => exact absurd k (hw _).1
  | inf k kn =>
    obtain ⟨u, e, hd, hu⟩ := hspec.1 rest k
    refine ⟨u, ?_, fin rfl k hd hu⟩
    rw [value_f_special ops t dst h h1 h2 hp (by simp) e]
    rfl
  | nan k =>
    obtain ⟨u, e, hd, hu⟩ := (hspec.2 (fun r hr => word_inf_nan hr k)).1 rest k
    refine ⟨u, ?_, fin rfl k hd hu⟩
    rw [value_f_special ops t dst h h1 h2 hp (by simp) e]
    rfl
  | num a b c d => rcases hlit with hc | hc <;> cases hc

/-- C29 is violated by the word "infinity": only its first three characters are consumed. -/
theorem C29_deviation_infinity {F : Type} (ops : FloatOps F) (t : FTy) {m : Mem} {v : View} {l l1 l2 rest : List Byte}
    {o : UInt32} {neg : Bool} (h : ViewOf m v l) (h1 : AfterSpaces o l l1) (h2 : AfterSign o l1 neg l2)
    (hw : StartsWithWord wordInfinity l2 rest) (dst : Option F) :
    ∃ w r y, strnum_value_f ops t m dst (some v) o = .ok (0, dst.map (fun _ => storedValue ops neg ops.inf), some w) ∧
      Denotes m w r ∧ r = y ++ rest ∧ y.map toUpper = [73, 78, 73, 84, 89] := by
  obtain ⟨q, hq, hqw⟩ := hw
  have hno : ∀ r, ¬ StartsWithWord wordInfinty l2 r := by
    rintro r ⟨q', hq', hqw'⟩
    have e1 : (l2.map toUpper).take 6 = [73, 78, 70, 73, 78, 73] := by rw [hq, List.map_append, hqw]; rfl
    have e2 : (l2.map toUpper).take 6 = [73, 78, 70, 73, 78, 84] := by rw [hq', List.map_append, hqw']; rfl
    rw [e1] at e2
    exact absurd e2 (by decide)
  obtain ⟨p, hp, -⟩ := process_start h h1 h2
  have hv2 : ViewOf m (v.part p.length l2.length) l2 := by rw [hp] at h; exact h.suffix
  obtain ⟨u, e, hd, -⟩ := ((consume_float_special_spec hv2).2 hno).1 (q.drop 3 ++ rest)
    ⟨q.take 3, by rw [← List.append_assoc, List.take_append_drop]; exact hq, by rw [List.map_take, hqw]; rfl⟩
  refine ⟨u, _, q.drop 3, ?_, hd, rfl, by rw [List.map_drop, hqw]; rfl⟩
  rw [value_f_special ops t dst h h1 h2 hp (by simp) e]
  rfl

/-- C29 is violated by texts with the word "infinty": by the grammar this is "inf" followed by "inty…", but the
conversion consumes the whole word and one more character. -/
theorem C29_deviation_infinty {F : Type} (ops : FloatOps F) (t : FTy) {m : Mem} {v : View} {l l1 l2 rest : List Byte}
    {o : UInt32} {neg : Bool} (h : ViewOf m v l) (h1 : AfterSpaces o l l1) (h2 : AfterSign o l1 neg l2)
    (hw : StartsWithWord wordInfinty l2 rest) (dst : Option F) :
    (∃ y, FloatText o l neg .inf (y ++ rest) ∧ y.map toUpper = [73, 78, 84, 89]) ∧
    ∃ w, strnum_value_f ops t m dst (some v) o = .ok (0, dst.map (fun _ => storedValue ops neg ops.inf), some w) ∧
      Denotes m w (rest.drop 1) := by
  obtain ⟨p, hp, -⟩ := process_start h h1 h2
  have hv2 : ViewOf m (v.part p.length l2.length) l2 := by rw [hp] at h; exact h.suffix
  obtain ⟨u, e, hd⟩ := (consume_float_special_spec hv2).1 rest hw
  obtain ⟨q, hq, hqw⟩ := hw
  constructor
  · refine ⟨q.drop 3, ⟨l1, l2, h1, h2, .inf ⟨q.take 3, by rw [← List.append_assoc, List.take_append_drop]; exact hq, by rw [List.map_take, hqw]; rfl⟩ ?_⟩, by rw [List.map_drop, hqw]; rfl⟩
    rintro r ⟨q', hq', hqw'⟩
    have e1 : (l2.map toUpper).take 6 = [73, 78, 70, 73, 78, 84] := by rw [hq, List.map_append, hqw]; rfl
    have e2 : (l2.map toUpper).take 6 = [73, 78, 70, 73, 78, 73] := by rw [hq', List.map_append, hqw']; rfl
    rw [e1] at e2
    exact absurd e2 (by decide)
  · refine ⟨u, ?_, hd⟩
    rw [value_f_special ops t dst h h1 h2 hp (by simp) e]
    rfl

/-! ### C24, C27, C31 -/

/-- For every view the conversion either fails without effect, or stores a value and leaves a view. -/
theorem value_f_cases {F : Type} (ops : FloatOps F) (t : FTy) {m : Mem} {v : View} (h : AnyView m v) (o : UInt32) :
    (∃ err, (err = EINVAL ∨ err = ERANGE) ∧ ∀ dst, strnum_value_f ops t m dst (some v) o = .ok (err, dst, some v)) ∨
    (∃ val w l', Denotes m w l' ∧ ∀ dst, strnum_value_f ops t m dst (some v) o = .ok (0, dst.map (fun _ => val), some w)) := by
  rcases h with rfl | ⟨l, h⟩
  · left
    refine ⟨EINVAL, .inl rfl, fun dst => ?_⟩
    have hE0 : EINVAL ≠ 0 := by decide
    have hinv : strview_is_valid View.invalid = false := by decide
    rw [value_f_some]
    simp only [process_float_components, hinv, Bool.false_eq_true, if_false, Res.bind_ok, finish_float, hE0]
  · by_cases ht : ∃ neg lit rest, FloatText o l neg lit rest
    · obtain ⟨neg, lit, rest, ht⟩ := ht
      obtain ⟨l1, l2, h1, h2, hb⟩ := ht.parts
      obtain ⟨p, hp, -⟩ := process_start h h1 h2
      have hv2 : ViewOf m (v.part p.length l2.length) l2 := by rw [hp] at h; exact h.suffix
      cases lit with
      | num i f e =>
        have := C29_number ops t h ht
        by_cases hx : INT_MIN ≤ e ∧ e ≤ INT_MAX
        · rw [if_pos hx] at this
          obtain ⟨val, hv⟩ := this
          by_cases hpi : ops.isPosInf val = true
          · left
            refine ⟨ERANGE, .inr rfl, fun dst => ?_⟩
            rw [hv, if_pos hpi]
          · right
            refine ⟨storedValue ops neg val, _, (l.drop (l.length - rest.length)).take rest.length,
              (h.part (l.length - rest.length) rest.length ?_).toDenotes, fun dst => by rw [hv, if_neg hpi]⟩
            have : rest.length ≤ l.length := by
              cases hb with
              | num h3 h4 hne h5 =>
                have e3 := h3.split
                obtain ⟨q4, e4⟩ := h4.suffix
                obtain ⟨q5, e5⟩ := h5.suffix
                rw [hp, e3, e4, e5]
                simp only [List.length_append]
                omega
            omega
        · rw [if_neg hx] at this
          exact .inl ⟨ERANGE, .inr rfl, this⟩
      | inf =>
        right
        by_cases hw : ∃ r, StartsWithWord wordInfinty l2 r
        · obtain ⟨r, hw⟩ := hw
          obtain ⟨u, e, hd⟩ := (consume_float_special_spec hv2).1 r hw
          exact ⟨_, u, _, hd, fun dst => value_f_special ops t dst h h1 h2 hp (by simp) e⟩
        · have hw : ∀ r, ¬ StartsWithWord wordInfinty l2 r := fun r hr => hw ⟨r, hr⟩
          have hi : ∃ r, StartsWithWord wordInf l2 r := by
            cases hb with
            | infinity k => exact word_prefix_inf rfl k
            | inf k => exact ⟨_, k⟩
          obtain ⟨r, hi⟩ := hi
          obtain ⟨u, e, hd, -⟩ := ((consume_float_special_spec hv2).2 hw).1 r hi
          exact ⟨_, u, _, hd, fun dst => value_f_special ops t dst h h1 h2 hp (by simp) e⟩
      | nan =>
        right
        cases hb with
        | nan k =>
          have hi : ∀ r, ¬ StartsWithWord wordInf l2 r := fun r hr => word_inf_nan hr k
          obtain ⟨u, e, hd, -⟩ := (((consume_float_special_spec hv2).2 (word_infinty_inf hi)).2 hi).1 rest k
          exact ⟨_, u, _, hd, fun dst => value_f_special ops t dst h h1 h2 hp (by simp) e⟩
    · exact .inl ⟨EINVAL, .inl rfl, C29_reject ops t h (fun neg lit rest hc => ht ⟨neg, lit, rest, hc⟩)⟩

/-- C24, floating types: for every view (valid or not) and all options the conversion is defined, returns 0, EINVAL
or ERANGE, and in the latter two cases changes neither the destination nor the source. -/
theorem C24_float_failure_atomic {F : Type} (ops : FloatOps F) (t : FTy) {m : Mem} {v : View} (h : AnyView m v)
    (o : UInt32) (dst : Option F) :
    ∃ err dst' src', strnum_value_f ops t m dst (some v) o = .ok (err, dst', src') ∧
      (err = 0 ∨ err = EINVAL ∨ err = ERANGE) ∧ (err ≠ 0 → dst' = dst ∧ src' = some v) := by
  rcases value_f_cases ops t h o with ⟨err, he, e⟩ | ⟨val, w, l', hd, e⟩
  · exact ⟨err, dst, some v, e dst, .inr he, fun _ => ⟨rfl, rfl⟩⟩
  · exact ⟨0, _, _, e dst, .inl rfl, fun hc => absurd rfl hc⟩

/-- C27, floating types: for every view (valid or not), each default-value function returns, without any undefined
behaviour, what the corresponding consuming function stores, or the default if that fails. `v0` is the indeterminate
initial value of its local variable, `x` the previous value of the caller's destination: neither matters. -/
theorem C27_float_default {F : Type} (ops : FloatOps F) (t : FTy) {m : Mem} {v : View} (h : AnyView m v)
    (d x v0 : F) (o : UInt32) :
    ∃ y, strnum_default_f ops t m v d v0 o = .ok y ∧
      orDefault d (strnum_value_f ops t m (some x) (some v) o) = .ok y := by
  rcases value_f_cases ops t h o with ⟨err, he, e⟩ | ⟨val, w, l', hd, e⟩
  · have h0 : err ≠ 0 := by rcases he with rfl | rfl <;> decide
    refine ⟨d, by simp [strnum_default_f, e, h0], ?_⟩
    rcases he with rfl | rfl <;> simp only [e] <;> rfl
  · exact ⟨val, by simp [strnum_default_f, e], by simp [e, orDefault]⟩

/-- C31, double and long double: a NULL source gives EINVAL, whatever the memory, and nothing is stored. -/
theorem C31_double_null_source {F : Type} (ops : FloatOps F) (m : Mem) (dst : Option F) (o : UInt32) :
    strnum_consume_double ops m dst none o = .ok (EINVAL, dst, none) ∧
    strnum_consume_ldouble ops m dst none o = .ok (EINVAL, dst, none) := ⟨rfl, rfl⟩

/-- C31 is violated by `strnum_consume_float`: with a NULL source it computes the value 0 and then writes through the
NULL pointer (provided 0 times 10^0 is not infinite). -/
theorem C31_deviation_float_null_source {F : Type} (ops : FloatOps F) (m : Mem) (dst : Option F) (o : UInt32)
    (h0 : ops.isPosInf (ops.mul ops.zero (ops.pow10 0)) = false) :
    strnum_consume_float ops m dst none o = .ub .badWrite := by
  obtain ⟨val, hv, ci, cf, f', z, hc1, hci, hc2, hcf, hf, -, rfl⟩ :=
    make_float_spec ops (Denotes.invalid m) (Denotes.invalid m) (i := []) (f := []) (by simp) (by simp) 0
  have hf' : f' = [] := (List.append_eq_nil_iff.1 hf.symm).1
  have chunk0 : ∀ {cs : List (List Byte)}, Chunks cs → cs.flatten = [] → cs = [] := by
    intro cs h e
    cases h with
    | nil => rfl
    | last hc _ => simp at e; exact absurd e hc
    | more hc _ _ _ => simp at e
  have e1 := chunk0 hc1 hci
  have e2 := chunk0 hc2 (hcf.trans hf')
  subst e1 e2
  simp only [intFold, fracFold] at hv
  simp only [strnum_consume_float, finish_float, fcInit, if_true, hv, Res.bind_ok, h0, Bool.false_eq_true, and_false, if_false]

/-! ### Examples: the hypotheses are met -/

theorem isDigit10_iff (b : Byte) : IsDigitOf 10 b ↔ isDigit b = true := isDigitOf10 b

/-- " -12.5e1x" is the number -12.5e1 followed by "x". -/
theorem example_text : FloatText 0 [32, 45, 49, 50, 46, 53, 101, 49, 120] true (.num [49, 50] [53] 1) [120] := by
  refine ⟨[45, 49, 50, 46, 53, 101, 49, 120], [49, 50, 46, 53, 101, 49, 120], ⟨1, rfl, by decide⟩, .minus _ (by decide), ?_⟩
  refine .num (l1 := [46, 53, 101, 49, 120]) (l2 := [101, 49, 120]) ⟨rfl, ?_, ?_⟩ (.point ⟨rfl, ?_, ?_⟩) (by decide)
    (.exp (neg := false) (n := 1) (by decide) (.inl rfl) (.none _ (by decide)) (ds := [49])
      ⟨rfl, .snoc (ds := []) (n := 0) .nil (by decide : digitVal 49 = some 1) (by decide), ?_⟩ (by decide))
  · intro b hb; rw [isDigit10_iff]; revert b; decide
  · intro b t e; rw [isDigit10_iff]; cases e; decide
  · intro b hb; rw [isDigit10_iff]; revert b; decide
  · intro b t e; rw [isDigit10_iff]; cases e; decide
  · intro b t e; rw [isDigit10_iff]; cases e; decide

/-- A floating type with two values, to run the model in the kernel: `true` is infinity. -/
def boolOps : FloatOps Bool where
  zero := false
  ofULL _ := false
  add := or
  mul := or
  pow10 e := decide (e > 308)
  neg := id
  inf := true
  nan := false
  isPosInf x := x
  isNan _ := false

example : strnum_value_f boolOps .double (memAt 100 [32, 45, 49, 50, 46, 53, 101, 49, 120]) (some true) (some ⟨100, 9⟩) 0 =
    .ok (0, some false, some ⟨108, 1⟩) := by decide +kernel
-- "1e400" overflows, "1e99999999999" has an exponent out of range, "1e+" ends before the "e"
example : strnum_value_f boolOps .float (memAt 100 [49, 101, 52, 48, 48]) (some true) (some ⟨100, 5⟩) 0 =
    .ok (ERANGE, some true, some ⟨100, 5⟩) := by decide +kernel
example : strnum_value_f boolOps .float (memAt 100 [49, 101, 57, 57, 57, 57, 57, 57, 57, 57, 57, 57, 57]) (some true)
    (some ⟨100, 13⟩) 0 = .ok (ERANGE, some true, some ⟨100, 13⟩) := by decide +kernel
example : strnum_value_f boolOps .float (memAt 100 [49, 101, 43]) (some true) (some ⟨100, 3⟩) 0 =
    .ok (0, some false, some ⟨101, 2⟩) := by decide +kernel
-- "." is rejected, "iNf" and "infinity" are infinite
example : strnum_value_f boolOps .ldouble (memAt 100 [46]) (some true) (some ⟨100, 1⟩) 0 =
    .ok (EINVAL, some true, some ⟨100, 1⟩) := by decide +kernel
example : strnum_value_f boolOps .ldouble (memAt 100 [105, 78, 102, 33]) (some false) (some ⟨100, 4⟩) 0 =
    .ok (0, some true, some ⟨103, 1⟩) := by decide +kernel
example : strnum_value_f boolOps .ldouble (memAt 100 [105, 110, 102, 105, 110, 105, 116, 121]) (some false)
    (some ⟨100, 8⟩) 0 = .ok (0, some true, some ⟨103, 5⟩) := by decide +kernel
example : strnum_value_f boolOps .ldouble (memAt 100 [105, 110, 102, 105, 110, 116, 121, 33, 34]) (some false)
    (some ⟨100, 9⟩) 0 = .ok (0, some true, some ⟨108, 1⟩) := by decide +kernel
example : strnum_default_f boolOps .double (memAt 100 [46]) ⟨100, 1⟩ true false 0 = .ok true := by decide +kernel
example : strnum_consume_float boolOps (memAt 100 []) (some true) none 0 = .ub .badWrite := by decide +kernel

/-- The hypotheses of `C29_reject` are met by the text ".". -/
example : ∀ neg lit rest, ¬ FloatText 0 [46] neg lit rest := by
  intro neg lit rest h
  obtain ⟨l1, l2, h1, h2, hb⟩ := h.parts
  have e1 : l1 = [46] := h1.unique ⟨0, rfl, by decide⟩
  subst e1
  obtain ⟨rfl, rfl⟩ := h2.unique (.none [46] (by decide))
  have nw : ∀ {c : Byte} {w r : List Byte}, c = 73 ∨ c = 78 → ¬ StartsWithWord (c :: w) [46] r :=
    fun hc => not_word hc (.inr rfl) _
  cases hb with
  | infinity k => exact nw (.inl rfl) k
  | inf k _ => exact nw (.inl rfl) k
  | nan k => exact nw (.inr rfl) k
  | num a b c d =>
    have ha : DecRun [46] [] [46] := ⟨rfl, by simp, fun b t e => by rw [isDigit10_iff]; cases e; decide⟩
    obtain ⟨rfl, rfl⟩ := a.unique ha
    have hb : AfterPoint [46] [] [] := .point ⟨rfl, by simp, by simp⟩
    obtain ⟨rfl, rfl⟩ := b.unique hb
    simp at c

/-- The hypotheses of `C29_special_partial` are met by "inf!". -/
example : FloatText 0 [105, 110, 102, 33] false .inf [33] ∧
    ∀ l1 l2, AfterSpaces 0 [105, 110, 102, 33] l1 → AfterSign 0 l1 false l2 →
      ∀ r, ¬ StartsWithWord wordInfinity l2 r ∧ ¬ StartsWithWord wordInfinty l2 r := by
  have hs : AfterSpaces 0 [105, 110, 102, 33] [105, 110, 102, 33] := ⟨0, rfl, by decide⟩
  have hg : AfterSign 0 [105, 110, 102, 33] false [105, 110, 102, 33] := .none _ (by decide)
  have hno : ∀ {w r : List Byte}, 4 < w.length → ¬ StartsWithWord w [105, 110, 102, 33] r := by
    rintro w r hl ⟨q, e, rfl⟩
    have := congrArg List.length e
    simp only [List.length_append, List.length_map, List.length_cons, List.length_nil] at *
    omega
  refine ⟨⟨_, _, hs, hg, .inf ⟨[105, 110, 102], rfl, by decide⟩ (fun r => hno (by decide))⟩, ?_⟩
  intro l1 l2 h1 h2 r
  obtain rfl := h1.unique hs
  obtain ⟨-, rfl⟩ := h2.unique hg
  exact ⟨hno (by decide), hno (by decide)⟩

example : StartsWithWord wordInfinity [73, 110, 102, 105, 110, 105, 116, 121, 33] [33] :=
  ⟨[73, 110, 102, 105, 110, 105, 116, 121], rfl, by decide⟩
example : StartsWithWord wordInfinty [73, 110, 102, 105, 110, 116, 121, 33] [33] :=
  ⟨[73, 110, 102, 105, 110, 116, 121], rfl, by decide⟩

end CStr
