import Verif.Model.Testnum
import Verif.Spec.Testnum
import Verif.Props.Float
import Verif.Props.Int
import Verif.Props.SubTrim
import Verif.Props.Print
import Verif.Props.Misc
/-! Property C75: what the example program `testnum` prints for a line of input. -/
namespace CStr

theorem AfterSpaces.tail {o : UInt32} {l r : List Byte} (h : AfterSpaces o l r) : ∃ q, l = q ++ r := by
  unfold AfterSpaces at h
  split at h
  · exact ⟨[], by simp [h]⟩
  · obtain ⟨n, e, -⟩ := h
    exact ⟨_, e⟩

theorem AfterPrefix.tail {o : UInt32} {base : Nat} {l r : List Byte} (h : AfterPrefix o l base r) : ∃ q, l = q ++ r := by
  cases h with
  | bin _ _ k => rcases k with k | k <;> exact ⟨[_, _], k⟩
  | hex _ _ k => rcases k with k | k <;> exact ⟨[_, _], k⟩
  | none _ => exact ⟨[], rfl⟩

theorem UnsignedText.tail {o : UInt32} {base n : Nat} {l ds rest : List Byte} (h : UnsignedText o l base ds n rest) : ∃ q, l = q ++ rest := by
  obtain ⟨l1, l2, h1, h2, h3⟩ := h.parts
  obtain ⟨q1, e1⟩ := h1.tail
  obtain ⟨q2, e2⟩ := h2.tail
  exact ⟨q1 ++ (q2 ++ ds), by rw [e1, e2, h3.split]; simp⟩

theorem SignedText.tail {o : UInt32} {neg : Bool} {base n : Nat} {l ds rest : List Byte} (h : SignedText o l neg base ds n rest) : ∃ q, l = q ++ rest := by
  obtain ⟨l1, l2, l3, h1, h2, h3, h4⟩ := h.parts
  obtain ⟨q1, e1⟩ := h1.tail
  obtain ⟨q2, e2⟩ := h2.suffix
  obtain ⟨q3, e3⟩ := h3.tail
  exact ⟨q1 ++ (q2 ++ (q3 ++ ds)), by rw [e1, e2, e3, h4.split]; simp⟩

theorem FloatText.tail {o : UInt32} {neg : Bool} {lit : FloatLit} {l rest : List Byte} (h : FloatText o l neg lit rest) : ∃ q, l = q ++ rest := by
  obtain ⟨l1, l2, h1, h2, hb⟩ := h.parts
  obtain ⟨q1, e1⟩ := h1.tail
  obtain ⟨q2, e2⟩ := h2.suffix
  have : ∃ q, l2 = q ++ rest := by
    cases hb with
    | infinity k => obtain ⟨q, e, -⟩ := k; exact ⟨q, e⟩
    | inf k _ => obtain ⟨q, e, -⟩ := k; exact ⟨q, e⟩
    | nan k => obtain ⟨q, e, -⟩ := k; exact ⟨q, e⟩
    | num a b _ d =>
      obtain ⟨q4, e4⟩ := b.suffix
      obtain ⟨q5, e5⟩ := d.suffix
      exact ⟨_, by rw [a.split, e4, e5, ← List.append_assoc, ← List.append_assoc]⟩
  obtain ⟨q3, e3⟩ := this
  exact ⟨q1 ++ (q2 ++ q3), by rw [e1, e2, e3]; simp⟩

theorem report_fail {T : Type} {m : Mem} {zero : T} {err : Int} {x : T} {v : View} {l : List Byte} (hv : Denotes m v l) (h0 : (0 : Byte) ∉ l) (he : err ≠ 0) :
    ((.ok (err, some x, some v) : Res _) >>= fun r => numtst_report m zero r) = .ok (err, zero, l) := by
  simp only [numtst_report, C73_printf_all hv h0, Res.bind_ok, if_pos he]

theorem report_ok {T : Type} {m : Mem} {zero : T} {x : T} {v : View} {l : List Byte} (hv : Denotes m v l) (h0 : (0 : Byte) ∉ l) :
    ((.ok (0, some x, some v) : Res _) >>= fun r => numtst_report m zero r) = .ok (0, x, l) := by
  simp only [numtst_report, C73_printf_all hv h0, Res.bind_ok, ne_eq, not_true_eq_false, if_false]

theorem noFake_of {l rest : List Byte} (hx : ∀ b ∈ l, b ≠ 0xB0 ∧ b ≠ 0xB1) (h : ∃ q, l = q ++ rest) (base : Nat) : NoFakeBit base rest := by
  obtain ⟨q, e⟩ := h
  intro _
  cases rest with
  | nil => simp
  | cons b t =>
    have := hx b (by rw [e]; simp)
    simpa using this

theorem numtst_u_report {m : Mem} {v : View} {l : List Byte} (h : ViewOf m v l) (h0 : (0 : Byte) ∉ l) (hx : ∀ b ∈ l, b ≠ 0xB0 ∧ b ≠ 0xB1) (o : UInt32) (t : UTy) (var : Nat) :
    ∃ r, numtst_u m v o t var = .ok r ∧ UReport t o l r := by
  obtain ⟨base, ds, n, rest, ht, -⟩ := C22_text_exists_unique o l
  obtain ⟨q, rfl⟩ := ht.tail
  have hq : (q ++ rest).length - rest.length = q.length := by simp
  have e := C22_unsigned_partial t (some var) h ht (noFake_of hx ⟨q, rfl⟩ base)
  unfold numtst_u
  rw [e]
  unfold unsignedOutcome
  split
  · next hd =>
    subst hd
    exact ⟨_, report_fail h.toDenotes h0 (by decide), .none ht⟩
  · next hd =>
    split
    · next hn => exact ⟨_, report_fail h.toDenotes h0 (by decide), .range ht hd hn⟩
    · next hn =>
      refine ⟨(0, n, rest), ?_, .value ht hd (by omega)⟩
      rw [hq]
      exact report_ok h.suffix.toDenotes fun hc => h0 (by simp [hc])

theorem numtst_s_report {m : Mem} {v : View} {l : List Byte} (h : ViewOf m v l) (h0 : (0 : Byte) ∉ l) (hx : ∀ b ∈ l, b ≠ 0xB0 ∧ b ≠ 0xB1) (o : UInt32) (t : STy) (var : Int) :
    ∃ r, numtst_s m v o t var = .ok r ∧ SReport t o l r := by
  obtain ⟨neg, base, ds, n, rest, ht, -⟩ := C23_text_exists_unique o l
  obtain ⟨q, rfl⟩ := ht.tail
  have hq : (q ++ rest).length - rest.length = q.length := by simp
  have e := C23_signed_partial t (some var) h ht (noFake_of hx ⟨q, rfl⟩ base)
  unfold numtst_s
  rw [e]
  unfold signedOutcome
  split
  · next hd =>
    subst hd
    exact ⟨_, report_fail h.toDenotes h0 (by decide), .none ht⟩
  · next hd =>
    split
    · next hn => exact ⟨_, report_fail h.toDenotes h0 (by decide), .range ht hd hn⟩
    · next hn =>
      refine ⟨(0, signedVal neg n, rest), ?_, .value ht hd (Classical.not_not.1 hn)⟩
      rw [hq]
      exact report_ok h.suffix.toDenotes fun hc => h0 (by simp [hc])

theorem numtst_f_report {F : Type} (ops : FloatOps F) {m : Mem} {v : View} {l : List Byte} (h : ViewOf m v l) (h0 : (0 : Byte) ∉ l) (o : UInt32) (t : FTy) (var : F) :
    ∃ r, numtst_f ops m v o t var = .ok r ∧ FReport ops o l r := by
  unfold numtst_f
  by_cases hex : ∃ neg lit rest, FloatText o l neg lit rest
  swap
  · have hno : ∀ neg lit rest, ¬ FloatText o l neg lit rest := fun a b c hc => hex ⟨a, b, c, hc⟩
    rw [C29_reject ops t h hno (some var)]
    exact ⟨_, report_fail h.toDenotes h0 (by decide), .none hno⟩
  obtain ⟨neg, lit, rest, ht⟩ := hex
  obtain ⟨q, rfl⟩ := ht.tail
  have hq : (q ++ rest).length - rest.length = q.length := by simp
  have h0' : (0 : Byte) ∉ rest := fun hc => h0 (by simp [hc])
  cases lit with
  | num i f e =>
    have k := C29_number ops t h ht
    split at k
    · next he =>
      obtain ⟨x, k⟩ := k
      rw [k (some var)]
      by_cases hp : ops.isPosInf x = true
      · rw [if_pos hp]
        exact ⟨_, report_fail h.toDenotes h0 (by decide), .range ht⟩
      · rw [if_neg hp, hq]
        exact ⟨_, report_ok h.suffix.toDenotes h0', .num x ht he (by simpa using hp)⟩
    · rw [k (some var)]
      exact ⟨_, report_fail h.toDenotes h0 (by decide), .range ht⟩
  | nan =>
    have hw : ∀ l1 l2, AfterSpaces o (q ++ rest) l1 → AfterSign o l1 neg l2 → ∀ r, ¬ StartsWithWord wordInfinity l2 r ∧ ¬ StartsWithWord wordInfinty l2 r := by
      intro l1 l2 h1 h2 r
      obtain ⟨l1', l2', h1', h2', hb⟩ := ht.parts
      obtain rfl := h1.unique h1'
      obtain ⟨-, rfl⟩ := h2.unique h2'
      cases hb with
      | nan k =>
        constructor
        · intro hc
          obtain ⟨r', hr'⟩ := word_prefix_inf rfl hc
          exact word_inf_nan hr' k
        · intro hc
          obtain ⟨r', hr'⟩ := word_prefix_inf rfl hc
          exact word_inf_nan hr' k
    obtain ⟨w, e, hd, -⟩ := C29_special_partial ops t h ht (.inr rfl) hw (some var)
    rw [e]
    exact ⟨_, report_ok hd h0', .nan ht⟩
  | inf =>
    obtain ⟨l1, l2, h1, h2, hb⟩ := ht.parts
    obtain ⟨q2, e2⟩ : ∃ q2, q ++ rest = q2 ++ l2 := by
      obtain ⟨q1, e1⟩ := h1.tail
      obtain ⟨q2, e2⟩ := h2.suffix
      exact ⟨q1 ++ q2, by rw [e1, e2]; simp⟩
    have h02 : (0 : Byte) ∉ l2 := fun hc => h0 (by rw [e2]; simp [hc])
    by_cases hi : ∃ r, StartsWithWord wordInfinity l2 r
    · obtain ⟨r, hr⟩ := hi
      obtain ⟨w, r', y, e, hd, rfl, hy⟩ := C29_deviation_infinity ops t h h1 h2 hr (some var)
      rw [e]
      refine ⟨_, report_ok hd ?_, .inf ht fun hc => absurd hr (hc l1 l2 h1 h2 r).1⟩
      intro hc
      rcases List.mem_append.1 hc with hc | hc
      · have : toUpper 0 ∈ y.map toUpper := List.mem_map_of_mem hc
        rw [hy] at this
        exact absurd this (by decide)
      · obtain ⟨q', e', -⟩ := hr
        exact h02 (by rw [e']; simp [hc])
    · by_cases hi' : ∃ r, StartsWithWord wordInfinty l2 r
      · obtain ⟨r, hr⟩ := hi'
        obtain ⟨-, w, e, hd⟩ := C29_deviation_infinty ops t h h1 h2 hr (some var)
        rw [e]
        refine ⟨_, report_ok hd ?_, .inf ht fun hc => absurd hr (hc l1 l2 h1 h2 r).2⟩
        intro hc
        obtain ⟨q', e', -⟩ := hr
        exact h02 (by rw [e']; simp [List.mem_of_mem_drop hc])
      · have hw : ∀ l1 l2, AfterSpaces o (q ++ rest) l1 → AfterSign o l1 neg l2 → ∀ r, ¬ StartsWithWord wordInfinity l2 r ∧ ¬ StartsWithWord wordInfinty l2 r := by
          intro l1' l2' h1' h2' r
          obtain rfl := h1'.unique h1
          obtain ⟨-, rfl⟩ := h2'.unique h2
          exact ⟨fun hc => hi ⟨r, hc⟩, fun hc => hi' ⟨r, hc⟩⟩
        obtain ⟨w, e, hd, -⟩ := C29_special_partial ops t h ht (.inl rfl) hw (some var)
        rw [e]
        exact ⟨_, report_ok hd h0', .inf ht fun _ => rfl⟩

theorem call_report {T : Type} {m : Mem} (zero : T) {call : T → Res (Int × Option T × Option View)} {v : View} {l : List Byte} (h : Denotes m v l)
    (hc : (∃ err, err ≠ 0 ∧ ∀ x, call x = .ok (err, some x, some v)) ∨ (∃ val w t, Denotes m w t ∧ ∀ x, call x = .ok (0, some val, some w))) (var : T) :
    ∃ r, (call var >>= fun r => numtst_report m zero r) = .ok r ∧ CallReport m zero call r := by
  rcases hc with ⟨err, he, e⟩ | ⟨val, w, t, hd, e⟩
  · refine ⟨(err, zero, l.takeWhile (· ≠ 0)), ?_, fun x => ⟨_, _, _, e x, h, rfl, fun hc => absurd hc he, fun _ => ⟨rfl, rfl⟩⟩⟩
    simp only [e, numtst_report, pri_str_eq h, Res.bind_ok, if_pos he]
  · refine ⟨(0, val, t.takeWhile (· ≠ 0)), ?_, fun x => ⟨_, _, _, e x, hd, rfl, fun _ => rfl, fun hc => absurd rfl hc⟩⟩
    simp only [e, numtst_report, pri_str_eq hd, Res.bind_ok, ne_eq, not_true_eq_false, if_false]

theorem numtst_u_call {m : Mem} {v : View} {l : List Byte} (h : ViewOf m v l) (o : UInt32) (t : UTy) (var : Nat) :
    ∃ r, numtst_u m v o t var = .ok r ∧ CallReport m 0 (fun x => strnum_value_u t m (some x) (some v) o) r := by
  refine call_report (call := fun x => strnum_value_u t m (some x) (some v) o) 0 h.toDenotes ?_ var
  obtain ⟨l1, h1⟩ := AfterSpaces.exists o l
  obtain ⟨base, l2, h2⟩ := AfterPrefix.exists o l1
  obtain ⟨ds, n, rest, h3⟩ := DigitRunActual.exists base l2
  have e := fun x => C22_unsigned_actual t (some x) h h1 h2 h3
  unfold unsignedOutcome at e
  by_cases hd : ds = []
  · exact .inl ⟨EINVAL, by decide, fun x => by rw [e, if_pos hd]⟩
  by_cases hn : t.max < n
  · exact .inl ⟨ERANGE, by decide, fun x => by rw [e, if_neg hd, if_pos hn]⟩
  have hle : rest.length ≤ l.length := by
    obtain ⟨q1, rfl⟩ := h1.tail
    obtain ⟨q2, rfl⟩ := h2.tail
    obtain rfl := h3.split
    simp only [List.length_append]; omega
  exact .inr ⟨n, _, _, (h.part (l.length - rest.length) rest.length (by omega)).toDenotes, fun x => by rw [e, if_neg hd, if_neg hn]; rfl⟩

theorem numtst_s_call {m : Mem} {v : View} {l : List Byte} (h : ViewOf m v l) (o : UInt32) (t : STy) (var : Int) :
    ∃ r, numtst_s m v o t var = .ok r ∧ CallReport m 0 (fun x => strnum_value_s t m (some x) (some v) o) r := by
  refine call_report (call := fun x => strnum_value_s t m (some x) (some v) o) 0 h.toDenotes ?_ var
  obtain ⟨l1, h1⟩ := AfterSpaces.exists o l
  obtain ⟨neg, l2, h2⟩ := AfterSign.exists o l1
  obtain ⟨base, l3, h3⟩ := AfterPrefix.exists o l2
  obtain ⟨ds, n, rest, h4⟩ := DigitRunActual.exists base l3
  have e := fun x => C23_signed_actual t (some x) h h1 h2 h3 h4
  unfold signedOutcome at e
  by_cases hd : ds = []
  · exact .inl ⟨EINVAL, by decide, fun x => by rw [e, if_pos hd]⟩
  by_cases hn : ¬ t.InRange (signedVal neg n)
  · exact .inl ⟨ERANGE, by decide, fun x => by rw [e, if_neg hd, if_pos hn]⟩
  have hle : rest.length ≤ l.length := by
    obtain ⟨q1, rfl⟩ := h1.tail
    obtain ⟨q2, rfl⟩ := h2.suffix
    obtain ⟨q3, rfl⟩ := h3.tail
    obtain rfl := h4.split
    simp only [List.length_append]; omega
  exact .inr ⟨_, _, _, (h.part (l.length - rest.length) rest.length (by omega)).toDenotes, fun x => by rw [e, if_neg hd, if_neg hn]; rfl⟩

theorem numtst_f_call {F : Type} (ops : FloatOps F) {m : Mem} {v : View} {l : List Byte} (h : ViewOf m v l) (o : UInt32) (t : FTy) (var : F) :
    ∃ r, numtst_f ops m v o t var = .ok r ∧ CallReport m ops.zero (fun x => strnum_value_f ops t m (some x) (some v) o) r := by
  refine call_report (call := fun x => strnum_value_f ops t m (some x) (some v) o) ops.zero h.toDenotes ?_ var
  rcases value_f_cases ops t (.inr ⟨l, h⟩) o with ⟨err, he, e⟩ | ⟨val, w, l', hd, e⟩
  · exact .inl ⟨err, by rcases he with rfl | rfl <;> decide, fun x => e _⟩
  · exact .inr ⟨val, w, l', hd, fun x => e _⟩

/-- `mapM` over a list of types, each with a report. -/
theorem mapM_report {A B : Type} {f : A → Res B} {P : A → B → Prop} (l : List A) (h : ∀ a ∈ l, ∃ r, f a = .ok r ∧ P a r) :
    ∃ rs, l.mapM f = .ok rs ∧ List.Forall₂ P l rs := by
  induction l with
  | nil => exact ⟨[], rfl, .nil⟩
  | cons a l ih =>
    obtain ⟨r, e, hp⟩ := h a (by simp)
    obtain ⟨rs, e', hp'⟩ := ih fun b hb => h b (by simp [hb])
    exact ⟨r :: rs, by simp only [List.mapM_cons, e, Res.bind_ok, e']; rfl, .cons hp hp'⟩

theorem testnum_trim {m : Mem} {txt crlf : Addr} {l : List Byte} (h : CString m txt l) (hc : CString m crlf [13, 10]) :
    ∃ line suf, l = line ++ suf ∧ (∀ b ∈ suf, b = 13 ∨ b = 10) ∧ (∀ b, line.getLast? = some b → b ≠ 13 ∧ b ≠ 10) ∧
      strview_trim_end_strview m ⟨txt, l.length⟩ ⟨crlf, ([13, 10] : List Byte).length⟩ = .ok ⟨txt, line.length⟩ ∧ Denotes m ⟨txt, line.length⟩ line ∧
      ViewOf m ⟨txt, line.length⟩ line ∧ (0 : Byte) ∉ line := by
  have hv := h.viewOf
  obtain ⟨line, suf, rfl, hs, hl, e, hd⟩ := C06_trim_end hv.toDenotes hc.viewOf.toDenotes
  have hvl := hv.part 0 line.length (by simp)
  simp only [View.part, Int.natCast_zero, Int.add_zero] at e hd hvl
  refine ⟨line, suf, rfl, fun b hb => by simpa using hs b hb, fun b hb => by simpa using hl b hb, e, hd, by simpa using hvl, fun hm => h.noNul (by simp [hm])⟩

/-- C75. Example `testnum`: for every line of input the program removes the line end and then converts the whole line to each of the 13 types. Each report has the error, the value and the remaining text of that
conversion, whatever the variables contained; after an error the value is 0. -/
theorem C75_testnum_line {F : Type} (ops : FTy → FloatOps F) {m : Mem} {txt crlf : Addr} {l : List Byte} (h : CString m txt l) (hc : CString m crlf [13, 10])
    (o : UInt32) (u : UTy → Nat) (i : STy → Int) (f : FTy → F) :
    ∃ line suf us ss fs, l = line ++ suf ∧ (∀ b ∈ suf, b = 13 ∨ b = 10) ∧ (∀ b, line.getLast? = some b → b ≠ 13 ∧ b ≠ 10) ∧
      testnum_line ops m txt crlf o u i f = .ok ⟨line, us, ss, fs⟩ ∧
      List.Forall₂ (fun t r => CallReport m 0 (fun x => strnum_value_u t m (some x) (some ⟨txt, line.length⟩) o) r) [.uchar, .ushort, .uint, .ulong, .ullong] us ∧
      List.Forall₂ (fun t r => CallReport m 0 (fun x => strnum_value_s t m (some x) (some ⟨txt, line.length⟩) o) r) [.char, .short, .int, .long, .llong] ss ∧
      List.Forall₂ (fun t r => CallReport m (ops t).zero (fun x => strnum_value_f (ops t) t m (some x) (some ⟨txt, line.length⟩) o) r) [.float, .double, .ldouble] fs := by
  obtain ⟨line, suf, rfl, hs, hl, e, hd, hvl, h0⟩ := testnum_trim h hc
  obtain ⟨us, eu, hu⟩ := mapM_report [UTy.uchar, .ushort, .uint, .ulong, .ullong] fun t _ => numtst_u_call hvl o t (u t)
  obtain ⟨ss, es, hs'⟩ := mapM_report [STy.char, .short, .int, .long, .llong] fun t _ => numtst_s_call hvl o t (i t)
  obtain ⟨fs, ef, hf⟩ := mapM_report [FTy.float, .double, .ldouble] fun t _ => numtst_f_call (ops t) hvl o t (f t)
  refine ⟨line, suf, us, ss, fs, rfl, hs, hl, ?_, hu, hs', hf⟩
  simp only [testnum_line, cstr_eq h, cstr_eq hc, Res.bind_ok, e, test_number_conversion, C73_printf_all hd h0, eu, es, ef]

/-- C75. What these reports are in terms of the line, for every line without the bytes 0xB0 and 0xB1 (see C26): an error with the value 0 and the whole line, or the value of the literal and the text behind it. -/
theorem C75_testnum_reports {F : Type} (ops : FTy → FloatOps F) {m : Mem} {txt crlf : Addr} {l : List Byte} (h : CString m txt l) (hc : CString m crlf [13, 10])
    (hx : ∀ b ∈ l, b ≠ 0xB0 ∧ b ≠ 0xB1) (o : UInt32) (u : UTy → Nat) (i : STy → Int) (f : FTy → F) :
    ∃ line suf us ss fs, l = line ++ suf ∧ (∀ b ∈ suf, b = 13 ∨ b = 10) ∧ (∀ b, line.getLast? = some b → b ≠ 13 ∧ b ≠ 10) ∧
      testnum_line ops m txt crlf o u i f = .ok ⟨line, us, ss, fs⟩ ∧
      List.Forall₂ (fun t r => UReport t o line r) [.uchar, .ushort, .uint, .ulong, .ullong] us ∧
      List.Forall₂ (fun t r => SReport t o line r) [.char, .short, .int, .long, .llong] ss ∧
      List.Forall₂ (fun t r => FReport (ops t) o line r) [.float, .double, .ldouble] fs := by
  obtain ⟨line, suf, rfl, hs, hl, e, hd, hvl, h0⟩ := testnum_trim h hc
  have hx' : ∀ b ∈ line, b ≠ 0xB0 ∧ b ≠ 0xB1 := fun b hb => hx b (by simp [hb])
  obtain ⟨us, eu, hu⟩ := mapM_report [UTy.uchar, .ushort, .uint, .ulong, .ullong] fun t _ => numtst_u_report hvl h0 hx' o t (u t)
  obtain ⟨ss, es, hs'⟩ := mapM_report [STy.char, .short, .int, .long, .llong] fun t _ => numtst_s_report hvl h0 hx' o t (i t)
  obtain ⟨fs, ef, hf⟩ := mapM_report [FTy.float, .double, .ldouble] fun t _ => numtst_f_report (ops t) hvl h0 o t (f t)
  refine ⟨line, suf, us, ss, fs, rfl, hs, hl, ?_, hu, hs', hf⟩
  simp only [testnum_line, cstr_eq h, cstr_eq hc, Res.bind_ok, e, test_number_conversion, C73_printf_all hd h0, eu, es, ef]

/-- C75. The report for an integer type is determined by the line, the options and the type. -/
theorem C75_testnum_unique {o : UInt32} {l : List Byte} : (∀ t r r', UReport t o l r → UReport t o l r' → r = r') ∧ (∀ t r r', SReport t o l r → SReport t o l r' → r = r') := by
  constructor
  · intro t r r' h h'
    obtain ⟨base, ds, n, rest, -, hu⟩ := C22_text_exists_unique o l
    have key : ∀ {r}, UReport t o l r → r = (if ds = [] then (EINVAL, 0, l) else if t.max < n then (ERANGE, 0, l) else (0, n, rest)) := by
      intro r h
      cases h with
      | none k => obtain ⟨-, a, -, -⟩ := hu _ _ _ _ k; rw [if_pos a.symm]
      | range k a b => obtain ⟨-, rfl, rfl, -⟩ := hu _ _ _ _ k; rw [if_neg a, if_pos b]
      | value k a b => obtain ⟨-, rfl, rfl, rfl⟩ := hu _ _ _ _ k; rw [if_neg a, if_neg (by omega)]
    rw [key h, key h']
  · intro t r r' h h'
    classical
    obtain ⟨neg, base, ds, n, rest, -, hu⟩ := C23_text_exists_unique o l
    have key : ∀ {r}, SReport t o l r → r = (if ds = [] then (EINVAL, 0, l) else if ¬ t.InRange (signedVal neg n) then (ERANGE, 0, l) else (0, signedVal neg n, rest)) := by
      intro r h
      cases h with
      | none k => obtain ⟨-, -, a, -, -⟩ := hu _ _ _ _ _ k; rw [if_pos a.symm]
      | range k a b => obtain ⟨rfl, -, rfl, rfl, -⟩ := hu _ _ _ _ _ k; rw [if_neg a, if_pos b]
      | value k a b => obtain ⟨rfl, -, rfl, rfl, rfl⟩ := hu _ _ _ _ _ k; rw [if_neg a, if_neg (fun hc => hc b)]
    rw [key h, key h']

/-! Concrete cases: the line "-300 x\r\n". -/

def exNumMem : Mem := memAt 4096 [45, 51, 48, 48, 32, 120, 13, 10, 0, 13, 10, 0]

theorem exNum_strings : CString exNumMem 4096 [45, 51, 48, 48, 32, 120, 13, 10] ∧ CString exNumMem 4105 [13, 10] := by
  have h := Holds.append_iff.1 (holds_memAt 4096 ([45, 51, 48, 48, 32, 120, 13, 10, 0] ++ [13, 10, 0]) (by decide) (by decide))
  exact ⟨⟨by decide, by decide, by decide, h.1⟩, ⟨by decide, by decide, by decide, h.2⟩⟩

example (ops : FTy → FloatOps Float) (u : UTy → Nat) (i : STy → Int) (f : FTy → Float) :=
  C75_testnum_line ops exNum_strings.1 exNum_strings.2 0 u i f
example (ops : FTy → FloatOps Float) (u : UTy → Nat) (i : STy → Int) (f : FTy → Float) :=
  C75_testnum_reports ops exNum_strings.1 exNum_strings.2 (by decide) 0 u i f

-- `unsigned int`: no sign is accepted; `char`: too small; `short`: the value and the rest
example : numtst_u exNumMem ⟨4096, 6⟩ 0 .uint 77 = .ok (EINVAL, 0, [45, 51, 48, 48, 32, 120]) := by decide +kernel
example : numtst_s exNumMem ⟨4096, 6⟩ 0 .char 77 = .ok (ERANGE, 0, [45, 51, 48, 48, 32, 120]) := by decide +kernel
example : numtst_s exNumMem ⟨4096, 6⟩ 0 .short 77 = .ok (0, -300, [32, 120]) := by decide +kernel

end CStr
