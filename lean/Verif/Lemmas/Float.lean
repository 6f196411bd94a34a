import Verif.Lemmas.IntCode
import Verif.Spec.Float
/-! Helper lemmas for the floating point conversions of strnum.c. -/
namespace CStr

theorem isDigitOf10 (b : Byte) : IsDigitOf 10 b ↔ isDigit b = true := by
  constructor
  · rintro ⟨d, h1, h2⟩; exact digitVal_dec b d h1 h2
  · intro h; exact isDigitOf_of_codeDigit (.inl rfl) (by simpa [codeDigit] using h) (fun e => by cases e)

theorem DecRun.digit {l ds rest : List Byte} (h : DecRun l ds rest) : ∀ b ∈ ds, isDigit b = true :=
  fun b hb => (isDigitOf10 b).1 (h.digits b hb)

theorem DecRun.stop {l ds rest : List Byte} (h : DecRun l ds rest) : ∀ b t, rest = b :: t → isDigit b = false := by
  intro b t e
  have := h.longest b t e
  rw [isDigitOf10] at this
  simpa using this

theorem DecRun.exists (l : List Byte) : ∃ ds rest, DecRun l ds rest := by
  classical
  obtain ⟨ds, rest, h1, h2, h3⟩ := run_exists (IsDigitOf 10) l
  exact ⟨ds, rest, h1, h2, h3⟩

theorem DecRun.unique {l ds ds' rest rest' : List Byte} (h : DecRun l ds rest) (h' : DecRun l ds' rest') :
    ds = ds' ∧ rest = rest' :=
  run_unique (h.split.symm.trans h'.split) h.digits h.longest h'.digits h'.longest

/-! ### split_digits -/

theorem split_digits_loop_spec {m : Mem} (rest : List Byte) (hrest : ∀ b t, rest = b :: t → isDigit b = false)
    (ds : List Byte) : ∀ (k : Nat) (a : Addr) (n : Nat), Holds m a (ds ++ rest) → (∀ b ∈ ds, isDigit b = true) →
      ds.length < k → ((n + ds.length : Nat) : Int) ≤ INT_MAX →
      split_digits_loop m k ⟨a, (ds ++ rest).length⟩ n =
        .ok (⟨a + ds.length, rest.length⟩, ((n + ds.length : Nat) : Int)) := by
  induction ds with
  | nil =>
    intro k a n h _ hk _
    cases k with
    | zero => simp at hk
    | succ k =>
      cases rest with
      | nil => simp [split_digits_loop]
      | cons b t =>
        have hb := hrest b t rfl
        have h0 : ((([] : List Byte) ++ b :: t).length : Int) ≠ 0 := by simp; omega
        simp only [split_digits_loop, h0, ne_eq, not_false_eq_true, if_true]
        rw [show load m a = .ok b from h.load_head]
        simp [hb]
  | cons d ds ih =>
    intro k a n h hd hk hn
    cases k with
    | zero => simp at hk
    | succ k =>
      have h0 : (((d :: ds) ++ rest).length : Int) ≠ 0 := by simp; omega
      simp only [split_digits_loop, h0, ne_eq, not_false_eq_true, if_true]
      rw [List.cons_append] at h ⊢
      rw [h.load_head, Res.bind_ok, hd d (by simp), if_pos rfl, pop_first_cons h, Res.bind_ok]
      simp only [List.length_cons] at hn hk
      dsimp only
      rw [chk_ok (by simp only [INT_MIN]; omega) (by omega), Res.bind_ok]
      have h' : Holds m (a + 1) (ds ++ rest) := (Holds.cons_iff.1 h).2
      have := ih k (a + 1) (n + 1) h' (fun b hb => hd b (by simp [hb])) (by omega) (by omega)
      rw [show ((n + 1 : Nat) : Int) = (n : Int) + 1 by omega] at this
      rw [this]
      simp only [List.length_cons]
      rw [show a + 1 + (ds.length : Int) = a + ((ds.length + 1 : Nat) : Int) by omega,
        show ((n + 1 + ds.length : Nat) : Int) = ((n + (ds.length + 1) : Nat) : Int) by omega]

theorem split_digits_spec {m : Mem} {v : View} {l ds rest : List Byte} (h : ViewOf m v l) (hr : DecRun l ds rest) :
    ∃ dv, split_digits m v = .ok (dv, v.part ds.length rest.length) ∧ Denotes m dv ds ∧
      (strview_is_valid dv = true ↔ ds ≠ []) := by
  have hv : v = ⟨v.data, l.length⟩ := by rw [← h.size]
  have hpos := h.pos
  have hmax := h.max
  obtain rfl := hr.split
  cases hds : ds with
  | nil =>
    subst hds
    refine ⟨.invalid, ?_, Denotes.invalid m, by simp [strview_is_valid, View.invalid]⟩
    have hf : first_is m isDigit v = .ok false := by
      rw [hv]
      cases rest with
      | nil => exact first_is_nil m _ _
      | cons b t =>
        have := first_is_cons isDigit (m := m) (a := v.data) (b := b) (l := t) h.holds
        rw [hr.stop b t rfl] at this
        exact this
    have h2 : v.part ([] : List Byte).length rest.length = v := h.part_all
    simp only [split_digits, hf, Res.bind_ok, Bool.false_eq_true, if_false, h2]
  | cons b t =>
    rw [← hds]
    have hf : first_is m isDigit v = .ok true := by
      rw [hv]
      have h' := h.holds
      rw [hds] at h' ⊢
      rw [List.cons_append] at h' ⊢
      rw [first_is_cons _ h', hr.digit b (by simp [hds])]
    have hsz : v.size.toNat = (ds ++ rest).length := by rw [h.size]; omega
    rw [List.length_append] at hmax
    have hl := split_digits_loop_spec rest hr.stop ds (v.size.toNat + 1) v.data 0 h.holds hr.digit
      (by rw [hsz, List.length_append]; omega) (by omega)
    rw [← hv] at hl
    refine ⟨⟨v.data, ds.length⟩, ?_, ⟨rfl, by omega, (Holds.append_iff.1 h.holds).1⟩, ?_⟩
    · simp only [split_digits, hf, Res.bind_ok, if_true]
      have e0 : ((0 : Nat) : Int) = 0 := rfl
      rw [e0] at hl
      simp only [hl, Res.bind_ok, Nat.zero_add]
      rfl
    · simp only [is_valid_iff, hds]
      simp; omega

/-! ### integral and fractional digits -/

theorem float_digits_spec {m : Mem} {fc : FC} {l l1 l2 i f : List Byte} (h : ViewOf m fc.num l) (hi : DecRun l i l1)
    (hf : AfterPoint l1 f l2) (hfr : fc.fractional = .invalid) :
    ∃ iv fv p, l = p ++ l2 ∧ float_digits m fc =
        .ok { fc with integral := iv, fractional := fv, num := fc.num.part p.length l2.length } ∧
      Denotes m iv i ∧ Denotes m fv f ∧ (strview_is_valid iv = true ↔ i ≠ []) ∧
      (strview_is_valid fv = true ↔ f ≠ []) := by
  obtain ⟨iv, e1, d1, v1⟩ := split_digits_spec h hi
  have hs := hi.split
  have h1 : ViewOf m (fc.num.part i.length l1.length) l1 := by rw [hs] at h; exact h.suffix
  have hv : (fc.num.part i.length l1.length) = ⟨(fc.num.part i.length l1.length).data, l1.length⟩ := rfl
  cases hf with
  | @point r _ _ hr =>
    obtain ⟨fv, e2, d2, v2⟩ := split_digits_spec (m := m) (v := (fc.num.part i.length (46 :: r).length).part 1 r.length)
      (by have := h1; rw [show (46 :: r : List Byte) = [46] ++ r from rfl] at this; exact this.suffix) hr
    refine ⟨iv, fv, i ++ [46] ++ f, ?_, ?_, d1, d2, v1, v2⟩
    · rw [hs, hr.split]; simp
    · have hfi : first_is m (· == 46) (fc.num.part i.length (46 :: r).length) = .ok true := by
        have := first_is_cons (· == 46) h1.holds
        rw [hv, this]; rfl
      simp only [float_digits, e1, Res.bind_ok, hfi, if_true]
      rw [hv, pop_first_cons h1.holds]
      simp only [Res.bind_ok]
      have e3 : (⟨(fc.num.part i.length (46 :: r).length).data + 1, r.length⟩ : View) =
          (fc.num.part i.length (46 :: r).length).part 1 r.length := by simp [View.part]
      rw [e3, e2]
      simp only [Res.bind_ok, View.part_part, List.length_append, List.length_singleton]
  | none hne =>
    refine ⟨iv, .invalid, i, hs, ?_, d1, Denotes.invalid m, v1, by simp [strview_is_valid, View.invalid]⟩
    have hfi : first_is m (· == 46) (fc.num.part i.length l1.length) = .ok false := by
      rw [hv]
      cases l1 with
      | nil => exact first_is_nil m _ _
      | cons b t =>
        rw [first_is_cons _ h1.holds]
        simpa using hne
    simp only [float_digits, e1, Res.bind_ok, hfi, Bool.false_eq_true, if_false, ← hfr]

/-! ### special values -/

theorem startsWithWord_iff {w l : List Byte} : (∃ r, StartsWithWord w l r) ↔ w <+: l.map toUpper := by
  constructor
  · rintro ⟨r, q, rfl, hq⟩
    rw [List.map_append, hq]
    exact List.prefix_append _ _
  · intro h
    refine ⟨l.drop w.length, l.take w.length, by simp, ?_⟩
    rw [List.map_take]
    exact take_eq_of_prefix h

theorem StartsWithWord.unique {w l r r' : List Byte} (h : StartsWithWord w l r) (h' : StartsWithWord w l r') :
    r = r' := by
  obtain ⟨q, e, hq⟩ := h
  obtain ⟨q', e', hq'⟩ := h'
  have h1 : q.length = q'.length := by
    have := congrArg List.length hq
    have := congrArg List.length hq'
    simp only [List.length_map] at *
    omega
  exact (List.append_inj (e.symm.trans e') h1).2

theorem starts_word {m : Mem} {v : View} {l w lit : List Byte} {p : Addr} (h : Denotes m v l)
    (hp : CString m p lit) (hw : lit.map toUpper = w) :
    (∃ r, StartsWithWord w l r) ∧ strview_starts_with_nocase_cstr m v p = .ok true ∨
    (∀ r, ¬ StartsWithWord w l r) ∧ strview_starts_with_nocase_cstr m v p = .ok false := by
  obtain ⟨r, e, hr⟩ := (C03_starts_with_cstr h hp).2
  rw [hw, ← startsWithWord_iff] at hr
  cases r with
  | true => exact .inl ⟨hr.1 rfl, e⟩
  | false =>
    refine .inr ⟨fun r hc => ?_, e⟩
    have := hr.2 ⟨r, hc⟩
    cases this

theorem litInfinty_upper : ([105, 110, 102, 105, 110, 116, 121] : List Byte).map toUpper = wordInfinty := by decide
theorem litInf_upper : ([105, 110, 102] : List Byte).map toUpper = wordInf := by decide
theorem litNan_upper : ([110, 97, 110] : List Byte).map toUpper = wordNan := by decide
theorem litE_upper : ([69] : List Byte).map toUpper = [69] := by decide

theorem word_sub {m : Mem} {v : View} {w l r : List Byte} (h : ViewOf m v l) (hw : StartsWithWord w l r) :
    ∃ u, strview_sub v w.length INT_MAX = .ok u ∧ Denotes m u r ∧ (r ≠ [] → u = v.part w.length r.length) := by
  obtain ⟨q, rfl, hq⟩ := hw
  have : q.length = w.length := by rw [← hq, List.length_map]
  rw [← this]
  exact sub_drop h

/-- What `consume_float_special` does. -/
theorem consume_float_special_spec {m : Mem} {v : View} {l : List Byte} (h : ViewOf m v l) :
    (∀ r, StartsWithWord wordInfinty l r → ∃ u, consume_float_special m v = .ok (.inf, u) ∧ Denotes m u (r.drop 1)) ∧
    ((∀ r, ¬ StartsWithWord wordInfinty l r) →
      (∀ r, StartsWithWord wordInf l r → ∃ u, consume_float_special m v = .ok (.inf, u) ∧ Denotes m u r ∧
        (r ≠ [] → u = v.part 3 r.length)) ∧
      ((∀ r, ¬ StartsWithWord wordInf l r) →
        (∀ r, StartsWithWord wordNan l r → ∃ u, consume_float_special m v = .ok (.nan, u) ∧ Denotes m u r ∧
          (r ≠ [] → u = v.part 3 r.length)) ∧
        ((∀ r, ¬ StartsWithWord wordNan l r) → consume_float_special m v = .ok (.none, v)))) := by
  rcases starts_word h.toDenotes (litInfinty_cstring m) litInfinty_upper with ⟨⟨r0, hr0⟩, e1⟩ | ⟨hn, e1⟩
  · refine ⟨fun r hr => ?_, fun hn => absurd hr0 (hn r0)⟩
    have hs : ∃ u, strview_sub v 8 INT_MAX = .ok u ∧ Denotes m u (r.drop 1) := by
      obtain ⟨q, rfl, hq⟩ := hr
      have hql : q.length = 7 := by rw [← List.length_map (f := toUpper), hq]; rfl
      cases r with
      | nil =>
        have hpos : 0 < (q ++ []).length := by simp [hql]
        have hlen : (q ++ []).length = 7 := by simp [hql]
        refine ⟨View.invalid, ?_, Denotes.invalid m⟩
        rw [strview_sub_eq h.ne_zero h.size hpos h.max 8 INT_MAX (by decide) (by decide) (by decide) (by decide)]
        rw [hlen]
        rfl
      | cons c r' =>
        have hv : ViewOf m v ((q ++ [c]) ++ r') := by simpa using h
        obtain ⟨u, e, hu, -⟩ := sub_drop hv
        refine ⟨u, ?_, hu⟩
        rw [List.length_append, hql] at e
        exact e
    obtain ⟨u, hs, hd⟩ := hs
    exact ⟨u, by simp only [consume_float_special, e1, Res.bind_ok, if_true, hs], hd⟩
  · refine ⟨fun r hr => absurd hr (hn r), fun _ => ?_⟩
    rcases starts_word h.toDenotes (litInf_cstring m) litInf_upper with ⟨⟨r0, hr0⟩, e2⟩ | ⟨hn2, e2⟩
    · refine ⟨fun r hr => ?_, fun hn2 => absurd hr0 (hn2 r0)⟩
      obtain ⟨u, eu, hu⟩ := word_sub h hr
      refine ⟨u, ?_, hu⟩
      have eu' : strview_sub v 3 INT_MAX = .ok u := eu
      simp only [consume_float_special, e1, Res.bind_ok, Bool.false_eq_true, if_false, e2, if_true, eu']
    · refine ⟨fun r hr => absurd hr (hn2 r), fun _ => ?_⟩
      rcases starts_word h.toDenotes (litNan_cstring m) litNan_upper with ⟨⟨r0, hr0⟩, e3⟩ | ⟨hn3, e3⟩
      · refine ⟨fun r hr => ?_, fun hn3 => absurd hr0 (hn3 r0)⟩
        obtain ⟨u, eu, hu⟩ := word_sub h hr
        refine ⟨u, ?_, hu⟩
        have eu' : strview_sub v 3 INT_MAX = .ok u := eu
        simp only [consume_float_special, e1, Res.bind_ok, Bool.false_eq_true, if_false, e2, e3, if_true, eu']
      · refine ⟨fun r hr => absurd hr (hn3 r), fun _ => ?_⟩
        simp only [consume_float_special, e1, Res.bind_ok, Bool.false_eq_true, if_false, e2, e3]

/-! ### exponent -/

theorem first_E (l : List Byte) : (∃ r, StartsWithWord [69] l r) ↔ ∃ c r, l = c :: r ∧ (c = 101 ∨ c = 69) := by
  have hE : ∀ x : Byte, toUpper x = 69 ↔ x = 101 ∨ x = 69 := by apply forall_byte; decide +kernel
  constructor
  · rintro ⟨r, q, rfl, hq⟩
    cases q with
    | nil => simp at hq
    | cons c t =>
      simp only [List.map_cons, List.cons.injEq, List.map_eq_nil_iff] at hq
      obtain ⟨h1, rfl⟩ := hq
      exact ⟨c, r, rfl, (hE c).1 h1⟩
  · rintro ⟨c, r, rfl, hc⟩
    exact ⟨r, [c], rfl, by simp [(hE c).2 hc]⟩

/-- The exponent is not representable as `int`. -/
def ExpOutOfRange (e : Int) : Prop := ¬ (INT_MIN ≤ e ∧ e ≤ INT_MAX)

theorem float_exponent_spec {m : Mem} {fc : FC} {l rest : List Byte} {e : Int} (h : ViewOf m fc.num l)
    (he : AfterExponent fc.options l e rest) (hfc : fc.exp_value = 0) :
    ∃ p fc', l = p ++ rest ∧
      (ExpOutOfRange e → float_exponent m fc = .ok (ERANGE, fc')) ∧
      (¬ ExpOutOfRange e → float_exponent m fc = .ok (0, fc') ∧ fc'.num = fc.num.part p.length rest.length ∧
        fc'.exp_value = e ∧ fc'.integral = fc.integral ∧ fc'.fractional = fc.fractional ∧ fc'.is_neg = fc.is_neg ∧
        fc'.special = fc.special) := by
  have hE0 : EINVAL ≠ 0 := by decide
  have hR0 : ERANGE ≠ 0 := by decide
  have hRE : ERANGE ≠ EINVAL := by decide
  have hsp : flag (STRNUM_NOSPACE ||| STRNUM_NOBX) STRNUM_NOSPACE = true := by decide
  have hbx : flag (STRNUM_NOSPACE ||| STRNUM_NOBX) STRNUM_NOBX = true := by decide
  have hns : flag (STRNUM_NOSPACE ||| STRNUM_NOBX) STRNUM_NOSIGN = flag 0 STRNUM_NOSIGN := by decide
  have hob : optionBase (STRNUM_NOSPACE ||| STRNUM_NOBX) = 10 := by decide
  have hsgn : ∀ {r r1 : List Byte} {neg : Bool}, AfterSign 0 r neg r1 →
      AfterSign (STRNUM_NOSPACE ||| STRNUM_NOBX) r neg r1 := by
    intro r r1 neg h
    cases h with
    | minus r hf => exact .minus _ (hns.trans hf)
    | plus r hf => exact .plus _ (hns.trans hf)
    | none r hf => exact .none _ (by rw [hns]; exact hf)
  have hnone : (∀ c r neg r1, l = c :: r → c = 101 ∨ c = 69 → AfterSign 0 r neg r1 →
      ∀ b t, r1 = b :: t → ¬ IsDigitOf 10 b) → flag fc.options STRNUM_NOEXP = false →
      ∃ fc', float_exponent m fc = .ok (0, fc') ∧ fc'.num = fc.num ∧
        fc'.exp_value = 0 ∧ fc'.integral = fc.integral ∧ fc'.fractional = fc.fractional ∧ fc'.is_neg = fc.is_neg ∧
        fc'.special = fc.special := by
    intro hno hf
    rcases starts_word h.toDenotes (litE_cstring m) litE_upper with ⟨hr, e1⟩ | ⟨hn, e1⟩
    · obtain ⟨c, r, rfl, hc⟩ := (first_E l).1 hr
      obtain ⟨neg, r1, hs⟩ := AfterSign.exists 0 r
      have hnd := hno c r neg r1 rfl hc hs
      obtain ⟨u, eu, hu, hu2⟩ := sub_drop (p := [c]) (r := r) h
      have eu' : strview_sub fc.num 1 INT_MAX = .ok u := eu
      have hci : strnum_consume_int m (some fc.exp_value) (some u) (STRNUM_NOSPACE ||| STRNUM_NOBX) =
          .ok (EINVAL, some fc.exp_value, some u) := by
        by_cases hr0 : r = []
        · subst hr0
          have hu0 : u.size = 0 := hu.size
          by_cases hv0 : u.data = 0
          · have : u = .invalid := by
              cases u; simp only [View.invalid, View.mk.injEq] at *; exact ⟨hv0, hu0⟩
            subst this
            rfl
          · have hE : AfterSpaces (STRNUM_NOSPACE ||| STRNUM_NOBX) [] [] := by unfold AfterSpaces; rw [if_pos hsp]
            have hsub : strview_sub fc.num 1 INT_MAX = .ok .invalid := by
              refine C05_sub_out_of_range h (by simp) _ _ (by decide) (by decide) (by decide) (by decide) ?_
              right; left
              simp [fromEnd]
            rw [hsub] at eu'
            cases eu'
            exact absurd rfl hv0
        · have hvu : ViewOf m u r := by
            rw [hu2 hr0]
            exact ViewOf.suffix (p := [c]) h
          have hE : AfterSpaces (STRNUM_NOSPACE ||| STRNUM_NOBX) r r := by unfold AfterSpaces; rw [if_pos hsp]
          have hP : AfterPrefix (STRNUM_NOSPACE ||| STRNUM_NOBX) r1 10 r1 := by
            have := @AfterPrefix.none (STRNUM_NOSPACE ||| STRNUM_NOBX) r1 (.inl hbx)
            rwa [hob] at this
          have hD : DigitRunActual 10 r1 [] 0 r1 :=
            DigitRun.actual ⟨rfl, Numeral.nil, hnd⟩ (fun e => by cases e)
          exact (value_s_cases .int (some fc.exp_value) hvu hE (hsgn hs) hP hD).1 rfl
      refine ⟨{ fc with exp_value := fc.exp_value, got_exponent := false }, ?_, rfl, hfc, rfl, rfl, rfl, rfl⟩
      simp only [float_exponent, hf, Bool.not_false, if_true, e1, Res.bind_ok, consume_exponent, eu', hci, hE0, if_false]
    · refine ⟨fc, ?_, rfl, hfc, rfl, rfl, rfl, rfl⟩
      simp only [float_exponent, hf, Bool.not_false, if_true, e1, Res.bind_ok, Bool.false_eq_true, if_false]
  have hin : ¬ ExpOutOfRange 0 := by simp [ExpOutOfRange, INT_MIN, INT_MAX]
  cases he with
  | none hno =>
    cases hf : flag fc.options STRNUM_NOEXP with
    | true =>
      refine ⟨[], fc, rfl, fun hc => absurd hc hin, fun _ => ⟨?_, ?_, hfc, rfl, rfl, rfl, rfl⟩⟩
      · simp only [float_exponent, hf, Bool.not_true, Bool.false_eq_true, if_false]
      · exact h.part_all.symm
    | false =>
      obtain ⟨fc', h1, h2, h3⟩ := hnone (by simpa [hf] using hno) hf
      refine ⟨[], fc', rfl, fun hc => absurd hc hin, fun _ => ⟨h1, ?_, h3⟩⟩
      rw [h2]; exact h.part_all.symm
  | @exp c r r1 ds _ neg n hf hc hs hd hne =>
    have e1 : strview_starts_with_nocase_cstr m fc.num litE = .ok true := by
      rcases starts_word h.toDenotes (litE_cstring m) litE_upper with ⟨hr, e1⟩ | ⟨hn, e1⟩
      · exact e1
      · obtain ⟨r', hr'⟩ := (first_E (c :: r)).2 ⟨c, r, rfl, hc⟩
        exact absurd hr' (hn r')
    have hrne : r ≠ [] := by
      rintro rfl
      have hds := hd.split
      cases hs with
      | none _ _ =>
        have := (List.append_eq_nil_iff.1 hds.symm).1
        exact hne this
    obtain ⟨u, eu, hu, hu2⟩ := sub_drop (p := [c]) (r := r) h
    have eu' : strview_sub fc.num 1 INT_MAX = .ok u := eu
    have hvu : ViewOf m u r := by
      rw [hu2 hrne]
      exact ViewOf.suffix (p := [c]) h
    have hE : AfterSpaces (STRNUM_NOSPACE ||| STRNUM_NOBX) r r := by unfold AfterSpaces; rw [if_pos hsp]
    have hP : AfterPrefix (STRNUM_NOSPACE ||| STRNUM_NOBX) r1 10 r1 := by
      have := @AfterPrefix.none (STRNUM_NOSPACE ||| STRNUM_NOBX) r1 (.inl hbx)
      rwa [hob] at this
    obtain ⟨-, k2, k3⟩ := value_s_cases .int (some fc.exp_value) hvu hE (hsgn hs) hP (hd.actual (fun e => by cases e))
    have hrr : ∃ q, r = q ++ r1 := by
      cases hs with
      | minus => exact ⟨[45], rfl⟩
      | plus => exact ⟨[43], rfl⟩
      | none => exact ⟨[], rfl⟩
    obtain ⟨q, hq⟩ := hrr
    have hrange : STy.InRange .int (signedVal neg n) ↔ ¬ ExpOutOfRange (signedVal neg n) := by
      simp only [STy.InRange, STy.bits, ExpOutOfRange, INT_MIN, INT_MAX]
      constructor
      · intro hh hc; exact hc ⟨by omega, by omega⟩
      · intro hh; have := Classical.not_not.mp hh; constructor <;> omega
    by_cases hx : ExpOutOfRange (signedVal neg n)
    · refine ⟨c :: q ++ ds, { fc with exp_value := fc.exp_value, got_exponent := false },
        by rw [hq, hd.split]; simp, fun _ => ?_, fun hc => absurd hx hc⟩
      have k := k2 hne (fun hc => (hrange.1 hc) hx)
      simp only [strnum_value_s] at k
      simp only [float_exponent, hf, Bool.not_false, if_true, e1, Res.bind_ok, consume_exponent, eu', k, hR0, hRE, if_false]
    · have k := k3 hne (hrange.2 hx)
      simp only [strnum_value_s, Option.map_some] at k
      refine ⟨c :: q ++ ds, { fc with exp_value := signedVal neg n, got_exponent := true, num := u.part (r.length - rest.length) rest.length },
        by rw [hq, hd.split]; simp, fun hc => absurd hc hx, fun _ => ⟨?_, ?_, rfl, rfl, rfl, rfl, rfl⟩⟩
      · simp only [float_exponent, hf, Bool.not_false, if_true, e1, Res.bind_ok, consume_exponent, eu', k]
      · rw [hu2 hrne]
        simp only
        rw [View.part_part]
        have : ([c] : List Byte).length + (r.length - rest.length) = (c :: q ++ ds).length := by
          rw [hq, hd.split]; simp; omega
        rw [this]

end CStr
