import Verif.Lemmas.Strnum
/-! Helper lemmas: spaces, sign and base prefix. -/
namespace CStr

theorem View.part_part (v : View) (i n j k : Nat) : (v.part i n).part j k = v.part (i + j) k := by
  simp only [View.part]
  rw [show v.data + (i : Int) + j = v.data + ((i + j : Nat) : Int) by omega]

theorem Denotes.part_all {m : Mem} {v : View} {l : List Byte} (h : Denotes m v l) : v.part 0 l.length = v := by
  simp only [View.part, ← h.size]; simp

theorem ViewOf.suffix {m : Mem} {v : View} {p r : List Byte} (h : ViewOf m v (p ++ r)) :
    ViewOf m (v.part p.length r.length) r := by
  have := h.part p.length r.length (by simp)
  rwa [List.drop_left' rfl, List.take_of_length_le (Nat.le_refl _)] at this

theorem sub_take {m : Mem} {v : View} {l : List Byte} (h : ViewOf m v l) (n : Nat) (hn : (n : Int) ≤ INT_MAX) :
    ∃ w, strview_sub v 0 n = .ok w ∧ Denotes m w (l.take n) := by
  by_cases hl : l = []
  · subst hl
    exact ⟨v, C05_sub_empty h.toDenotes _ _, by simpa using h.toDenotes⟩
  · have hpos := List.length_pos_iff.2 hl
    obtain ⟨B, E, e1, e2, h1, h2, h3, h4⟩ := C05_sub_in_range h hl 0 n (by decide)
      (by simp only [INT_MIN]; omega) (by decide) hn
      (by simp only [fromEnd]; split <;> split <;> omega)
    simp only [fromEnd] at e1 e2
    rw [if_neg (by omega)] at e1 e2
    have hB : B = 0 := by omega
    subst hB
    refine ⟨_, h3, ?_⟩
    have hE : l.take E = l.take n := by
      rcases Nat.le_total n l.length with hc | hc
      · rw [show E = n by omega]
      · rw [List.take_of_length_le (by omega), List.take_of_length_le (by omega)]
    rw [List.drop_zero, hE] at h4
    exact h4.toDenotes

theorem sub_drop {m : Mem} {v : View} {p r : List Byte} (h : ViewOf m v (p ++ r)) :
    ∃ w, strview_sub v p.length INT_MAX = .ok w ∧ Denotes m w r ∧ (r ≠ [] → w = v.part p.length r.length) := by
  have hmax := h.max
  rw [List.length_append] at hmax
  by_cases hl : p ++ r = []
  · have h' := h
    rw [hl] at h'
    obtain ⟨rfl, rfl⟩ := List.append_eq_nil_iff.1 hl
    exact ⟨v, C05_sub_empty h'.toDenotes _ _, h'.toDenotes, by simp⟩
  · by_cases hr : r = []
    · subst hr
      refine ⟨.invalid, ?_, Denotes.invalid m, by simp⟩
      refine C05_sub_out_of_range h hl _ _ (by simp only [INT_MIN]; omega) (by decide) (by omega) (by decide) ?_
      right; left
      simp only [fromEnd, List.append_nil]
      rw [if_neg (by omega)]; omega
    · have hpos := List.length_pos_iff.2 hr
      obtain ⟨B, E, e1, e2, h1, h2, h3, h4⟩ := C05_sub_in_range h hl p.length INT_MAX
        (by simp only [INT_MIN]; omega) (by decide) (by omega) (by decide) (by
          simp only [fromEnd, List.length_append, INT_MAX] at *
          rw [if_neg (by omega), if_neg (by omega)]; omega)
      simp only [fromEnd, List.length_append, INT_MAX] at e1 e2 hmax
      rw [if_neg (by omega)] at e1 e2
      have hB : B = p.length := by omega
      have hE : E = p.length + r.length := by omega
      subst hB hE
      rw [Nat.add_sub_cancel_left] at h3 h4
      exact ⟨_, h3, h.suffix.toDenotes, fun _ => rfl⟩

theorem is_valid_of {m : Mem} {v : View} {l : List Byte} (h : ViewOf m v l) : strview_is_valid v = true := by
  simp [strview_is_valid, h.ne_zero]

theorem consume_space_spec {m : Mem} {v : View} {l r : List Byte} {o : UInt32} (h : ViewOf m v l)
    (hr : AfterSpaces o l r) :
    ∃ p, l = p ++ r ∧ consume_space m v o = .ok (v.part p.length r.length) := by
  unfold AfterSpaces at hr
  cases hf : flag o STRNUM_NOSPACE with
  | true =>
    rw [hf] at hr; simp only [if_true] at hr
    subst hr
    refine ⟨[], rfl, ?_⟩
    simp only [consume_space, hf, Bool.not_true, Bool.false_eq_true, if_false, List.length_nil]
    rw [h.part_all]
  | false =>
    rw [hf] at hr; simp only [Bool.false_eq_true, if_false] at hr
    obtain ⟨n, e, hh⟩ := hr
    obtain ⟨n', r', e', hh', h1, -⟩ := trim_start_lit (litSpace_cstring m) h.toDenotes
    have key : ∀ (n n' : Nat) (r r' : List Byte), List.replicate n (32 : Byte) ++ r = List.replicate n' 32 ++ r' →
        r.head? ≠ some 32 → r'.head? ≠ some 32 → n = n' ∧ r = r' := by
      intro n
      induction n with
      | zero =>
        intro n' r r' e h1 h2
        cases n' with
        | zero => exact ⟨rfl, by simpa using e⟩
        | succ n' => rw [List.replicate_succ] at e; simp at e; subst e; simp at h1
      | succ n ih =>
        intro n' r r' e h1 h2
        cases n' with
        | zero => rw [List.replicate_succ] at e; simp at e; subst e; simp at h2
        | succ n' =>
          rw [List.replicate_succ, List.replicate_succ] at e
          simp only [List.cons_append, List.cons.injEq, true_and] at e
          obtain ⟨rfl, rfl⟩ := ih n' r r' e h1 h2
          exact ⟨rfl, rfl⟩
    obtain ⟨rfl, rfl⟩ := key n n' r r' (e.symm.trans e') hh hh'
    refine ⟨List.replicate n 32, e, ?_⟩
    simp only [consume_space, hf, Bool.not_false, if_true, List.length_replicate]
    exact h1

theorem consume_sign_spec {m : Mem} {v : View} {l r : List Byte} {neg : Bool} {o : UInt32} (h : ViewOf m v l)
    (hr : AfterSign o l neg r) :
    ∃ p, l = p ++ r ∧ consume_opt_sign m v o = .ok (neg, v.part p.length r.length) := by
  have hv : v = ⟨v.data, l.length⟩ := by rw [← h.size]
  cases hr with
  | minus _ hf =>
    refine ⟨[45], rfl, ?_⟩
    have hne : v.size ≠ 0 := by rw [h.size]; simp; omega
    simp only [consume_opt_sign, hf, Bool.not_false, if_true, consume_sign, hne, ne_eq, not_false_eq_true,
      h.holds.load_head, Res.bind_ok]
    rw [hv, pop_first_cons h.holds]
    rfl
  | plus _ hf =>
    refine ⟨[43], rfl, ?_⟩
    have hne : v.size ≠ 0 := by rw [h.size]; simp; omega
    have : ¬ ((43 : Byte) = 45) := by decide
    simp only [consume_opt_sign, hf, Bool.not_false, if_true, consume_sign, hne, ne_eq, not_false_eq_true,
      h.holds.load_head, Res.bind_ok, this, if_false]
    rw [hv, pop_first_cons h.holds]
    rfl
  | none _ hf =>
    refine ⟨[], rfl, ?_⟩
    rw [List.length_nil, h.part_all]
    rcases hf with hf | ⟨h1, h2⟩
    · simp only [consume_opt_sign, hf, Bool.not_true, Bool.false_eq_true, if_false]
    · have : consume_sign m v = .ok (false, v) := by
        cases l with
        | nil =>
          have : v.size = 0 := h.size
          simp [consume_sign, this]
        | cons b t =>
          have hne : v.size ≠ 0 := by rw [h.size]; simp; omega
          simp only [List.head?_cons, ne_eq, Option.some.injEq] at h1 h2
          simp only [consume_sign, hne, ne_eq, not_false_eq_true, if_true, h.holds.load_head, Res.bind_ok, h1, h2,
            if_false]
      simp only [consume_opt_sign, this]
      split <;> rfl

theorem upper_b : ∀ x : Byte, toUpper x = toUpper 98 ↔ x = 98 ∨ x = 66 := by apply forall_byte; decide +kernel
theorem upper_x : ∀ x : Byte, toUpper x = toUpper 120 ↔ x = 120 ∨ x = 88 := by apply forall_byte; decide +kernel
theorem upper_0 : ∀ x : Byte, toUpper x = toUpper 48 ↔ x = 48 := by apply forall_byte; decide +kernel

theorem prefix_match {l : List Byte} {c c' : Byte} (hc : ∀ x : Byte, toUpper x = toUpper c ↔ x = c ∨ x = c') :
    (l.take 2).map toUpper = [48, c].map toUpper ↔ ∃ r, l = 48 :: c :: r ∨ l = 48 :: c' :: r := by
  constructor
  · intro h
    match l, h with
    | [], h => simp at h
    | [_], h => simp at h
    | x :: y :: t, h =>
      simp only [List.take_succ_cons, List.take_zero, List.map_cons, List.map_nil, List.cons.injEq, and_true,
        upper_0, hc] at h
      obtain ⟨rfl, rfl | rfl⟩ := h
      · exact ⟨t, .inl rfl⟩
      · exact ⟨t, .inr rfl⟩
  · rintro ⟨r, rfl | rfl⟩
    · rfl
    · simp [(hc c').2 (.inr rfl)]

theorem consume_base_prefix_spec {m : Mem} {v : View} {l r : List Byte} {base : Nat} {o : UInt32}
    (h : ViewOf m v l) (hr : AfterPrefix o l base r) :
    ∃ p w, l = p ++ r ∧ consume_base_prefix m (initial_base o) v o = .ok (base, w) ∧ Denotes m w r ∧
      (r ≠ [] → w = v.part p.length r.length) := by
  classical
  obtain ⟨bp, hbp, hd⟩ := sub_take h 2 (by decide)
  have hb : strview_is_match_nocase_cstr m bp lit0b =
      .ok (decide (∃ r, BinPrefix l r)) := by
    rw [C02_is_match_nocase_cstr hd (lit0b_cstring m)]
    congr 1; exact decide_eq_decide.2 (prefix_match upper_b)
  have hx : strview_is_match_nocase_cstr m bp lit0x =
      .ok (decide (∃ r, HexPrefix l r)) := by
    rw [C02_is_match_nocase_cstr hd (lit0x_cstring m)]
    congr 1; exact decide_eq_decide.2 (prefix_match upper_x)
  have hbp' : strview_sub v 0 2 = .ok bp := hbp
  have hsub : ∀ p, p.length = 2 → l = p ++ r → ∃ w, strview_sub v 2 INT_MAX = .ok w ∧ Denotes m w r ∧
      (r ≠ [] → w = v.part p.length r.length) := by
    intro p hp e
    subst e
    have := sub_drop h
    rw [hp] at this ⊢
    exact this
  cases hr with
  | bin h1 h2 h3 =>
    have : ∃ p, p.length = 2 ∧ l = p ++ r := by
      rcases h3 with rfl | rfl
      · exact ⟨[48, 98], rfl, rfl⟩
      · exact ⟨[48, 66], rfl, rfl⟩
    obtain ⟨p, hp, e⟩ := this
    obtain ⟨w, hw, hw2, hw3⟩ := hsub p hp e
    refine ⟨p, w, e, ?_, hw2, hw3⟩
    have hP : ∃ r, BinPrefix l r := ⟨r, h3⟩
    simp only [consume_base_prefix, hbp', Res.bind_ok, h1, Bool.not_false, if_true, h2, hb, decide_eq_true hP, hw]
  | hex h1 h2 h3 =>
    have : ∃ p, p.length = 2 ∧ l = p ++ r := by
      rcases h3 with rfl | rfl
      · exact ⟨[48, 120], rfl, rfl⟩
      · exact ⟨[48, 88], rfl, rfl⟩
    obtain ⟨p, hp, e⟩ := this
    obtain ⟨w, hw, hw2, hw3⟩ := hsub p hp e
    refine ⟨p, w, e, ?_, hw2, hw3⟩
    have hP : ∃ r, HexPrefix l r := ⟨r, h3⟩
    have hN : ¬ ∃ r, BinPrefix l r := by
      rintro ⟨r', hr'⟩
      rcases h3 with rfl | rfl <;> rcases hr' with hr' | hr' <;> simp at hr'
    have hh : consume_hex_prefix m (initial_base o) v bp o = .ok (16, w) := by
      simp only [consume_hex_prefix, h2, Bool.not_false, if_true, hx, Res.bind_ok, decide_eq_true hP, hw]
    cases hfx : flag o STRNUM_BASE_HEX <;>
      simp only [consume_base_prefix, hbp', Res.bind_ok, h1, Bool.not_false, Bool.not_true, if_true, hfx, hb,
        decide_eq_false hN, hh, Bool.false_eq_true, if_false]
  | none hn =>
    refine ⟨[], v, rfl, ?_, h.toDenotes, fun _ => by rw [List.length_nil, h.part_all]⟩
    have he : initial_base o = optionBase o := rfl
    rw [← he]
    rcases hn with hn | ⟨h1, h2⟩
    · simp only [consume_base_prefix, hbp', Res.bind_ok, hn, Bool.not_true, Bool.false_eq_true, if_false]
    · have hh : consume_hex_prefix m (initial_base o) v bp o = .ok (initial_base o, v) := by
        rcases h2 with h2 | h2
        · simp only [consume_hex_prefix, h2, Bool.not_true, Bool.false_eq_true, if_false]
        · have : ¬ ∃ r, HexPrefix l r := fun ⟨r, hr⟩ => h2 r hr
          cases hfb : flag o STRNUM_BASE_BIN <;>
            simp only [consume_hex_prefix, hfb, hx, Res.bind_ok, decide_eq_false this, Bool.not_true,
              Bool.not_false, if_true, Bool.false_eq_true, if_false]
      cases hfn : flag o STRNUM_NOBX
      · rcases h1 with h1 | h1
        · simp only [consume_base_prefix, hbp', Res.bind_ok, hfn, Bool.not_false, if_true, h1, Bool.not_true,
            Bool.false_eq_true, if_false, hh]
        · have : ¬ ∃ r, BinPrefix l r := fun ⟨r, hr⟩ => h1 r hr
          cases hfx : flag o STRNUM_BASE_HEX <;>
            simp only [consume_base_prefix, hbp', Res.bind_ok, hfn, hfx, hb, decide_eq_false this, Bool.not_true,
              Bool.not_false, if_true, Bool.false_eq_true, if_false, hh]
      · simp only [consume_base_prefix, hbp', Res.bind_ok, hfn, Bool.not_true, Bool.false_eq_true, if_false]

theorem AfterPrefix.base {o : UInt32} {l r : List Byte} {base : Nat} (h : AfterPrefix o l base r) :
    base = 10 ∨ base = 16 ∨ base = 2 := by
  cases h with
  | bin => simp
  | hex => simp
  | none _ => simp only [optionBase]; split <;> simp; split <;> simp

/-- `consume_digits` on a digit run, in terms of its mathematical value. -/
theorem consume_digits_value {m : Mem} {v : View} {base : Nat} (hbase : base = 10 ∨ base = 16 ∨ base = 2)
    {l ds rest : List Byte} {n : Nat} (h : Denotes m v l) (hd : DigitRun base l ds n rest)
    (hx : base = 2 → rest.head? ≠ some 0xB0 ∧ rest.head? ≠ some 0xB1) :
    (ds = [] → consume_digits m v base = .ok (EINVAL, 0, v)) ∧
    (ds ≠ [] → n < 18446744073709551616 →
      consume_digits m v base = .ok (0, n, v.part ds.length rest.length)) ∧
    (ds ≠ [] → 18446744073709551616 ≤ n → ∃ x w, consume_digits m v base = .ok (ERANGE, x, w)) := by
  obtain ⟨rfl, hv, hl⟩ := hd
  obtain ⟨h1, h2⟩ := hv.code hbase
  have hrest : ∀ b t, rest = b :: t → codeDigit base b = false := by
    intro b t e
    cases hc : codeDigit base b with
    | false => rfl
    | true =>
      refine absurd (isDigitOf_of_codeDigit hbase hc ?_) (hl b t e)
      intro hb2
      have := hx hb2
      rw [e] at this
      simpa using this
  obtain ⟨g1, g2⟩ := consume_digits_code hbase h h1 hrest
  refine ⟨g1, ?_, ?_⟩
  · intro hne hlt
    obtain ⟨err, j, ⟨a1, a2, a3⟩, he⟩ := g2 hne
    rcases a3 with ⟨rfl, rfl⟩ | ⟨-, a4, a5⟩
    · rw [he]
      simp [h2]
    · have := codeNum_take_le base (by omega) 0 (j + 1) ds
      omega
  · intro hne hge
    obtain ⟨err, j, ⟨a1, a2, a3⟩, he⟩ := g2 hne
    rcases a3 with ⟨rfl, rfl⟩ | ⟨rfl, -, -⟩
    · rw [List.take_of_length_le (Nat.le_refl _), h2] at a2; omega
    · exact ⟨_, _, he⟩

end CStr
