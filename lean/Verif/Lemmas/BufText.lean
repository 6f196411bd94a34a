import Verif.Lemmas.BufOps
import Verif.Spec.StripOwn
/-! strip, append_using, printf and prnf on well-formed buffers. -/
namespace CStr

theorem load_of_rd {m : Mem} {a : Addr} {b : Byte} (h : rd m a = some b) : load m a = .ok b := by
  simp only [load, h]

/-! strip -/

theorem buf_contains_char_loop {m : Mem} {c : Byte} {l : List Byte} {a : Addr} (h : Holds m a l) (k : Nat)
    (hk : l.length < k) :
    view_contains_char_loop m c k ⟨a, l.length⟩ false = .ok (decide (c ∈ l)) := by
  induction l generalizing a k with
  | nil =>
    obtain ⟨k, rfl⟩ : ∃ j, k = j + 1 := ⟨k - 1, by simp only [List.length_nil] at hk; omega⟩
    simp [view_contains_char_loop]
  | cons b l ih =>
    simp only [List.length_cons] at hk
    obtain ⟨k, rfl⟩ : ∃ j, k = j + 1 := ⟨k - 1, by omega⟩
    have h' := Holds.cons_iff.1 h
    simp only [view_contains_char_loop, List.length_cons]
    rw [if_pos ⟨by decide, by omega⟩, load_of_rd h'.1, Res.bind_ok]
    rw [show ((l.length + 1 : Nat) : Int) - 1 = l.length by omega]
    by_cases hbc : b = c
    · subst hbc
      obtain ⟨k, rfl⟩ : ∃ j, k = j + 1 := ⟨k - 1, by omega⟩
      simp [view_contains_char_loop]
    · rw [decide_eq_false hbc, Bool.or_self, ih h'.2 k (by omega)]
      congr 1
      apply decide_eq_decide.2
      rw [List.mem_cons]
      exact ⟨.inr, fun h => h.resolve_left (fun e => hbc e.symm)⟩

theorem buf_contains_char_eq {m : Mem} {c : Byte} {l : List Byte} {v : View} (h : ViewOf m v l) :
    view_contains_char m v c = .ok (decide (c ∈ l)) := by
  have hp := h.pos
  have hval : strview_is_valid v = true := by
    simp only [strview_is_valid]; exact decide_eq_true (by omega)
  simp only [view_contains_char, hval, if_true]
  obtain ⟨a, n⟩ := v
  have hsz := h.size
  simp only at hsz
  subst hsz
  exact buf_contains_char_loop h.holds _ (by simp)

theorem strip_loop_ok {cfg : Cfg} {p : Addr} {cap : Nat} {al : Alloc} {v : View} {chars : List Byte} {n : Nat}
    (hout : chars = [] ∨ v.data + chars.length ≤ p ∨ p + (24 + n : Nat) ≤ v.data) :
    ∀ (R K J : List Byte) (m : Mem) (k : Nat), ViewOf m v chars → K.length + R.length + 1 + J.length = n → R.length < k →
      Raw m p (K.length + R.length) cap al (K ++ (R ++ 0 :: J)) →
      ∃ m' J', strip_loop cfg v p k m (cstrOf p + K.length) R.length = .ok m' ∧
        Raw m' p (K ++ R.filter (· ∉ chars)).length cap al (K ++ R.filter (· ∉ chars) ++ 0 :: J') ∧
        (K ++ R.filter (· ∉ chars)).length + 1 + J'.length = n ∧ Within m m' p (24 + n) := by
  intro R
  induction R with
  | nil =>
    intro K J m k hv hn hk hr
    obtain ⟨k, rfl⟩ : ∃ j, k = j + 1 := ⟨k - 1, by simp only [List.length_nil] at hk; omega⟩
    refine ⟨m, J, ?_, ?_, ?_, Within.refl _ _ _⟩
    · simp [strip_loop]
    · simpa using hr
    · simpa using hn
  | cons c R ih =>
    intro K J m k hv hn hk hr
    simp only [List.length_cons] at hk hn hr
    obtain ⟨k, rfl⟩ : ∃ j, k = j + 1 := ⟨k - 1, by omega⟩
    have hbody := (Holds.append_iff.1 hr.body).2
    have hl : load m (cstrOf p + K.length) = .ok c := load_of_rd (Holds.cons_iff.1 hbody).1
    have hstep : strip_loop cfg v p (k + 1) m (cstrOf p + K.length) (c :: R).length =
        (if decide (c ∈ chars) then do
          let m ← memmove m (cstrOf p + K.length) (cstrOf p + K.length + 1) (sizeT ((R.length + 1 : Nat) : Int))
          let size ← getSize m p
          let n ← addInt cfg size (-1)
          let m ← setSize m p n
          strip_loop cfg v p k m (cstrOf p + K.length) R.length
        else strip_loop cfg v p k m (cstrOf p + K.length + 1) R.length) := by
      simp only [strip_loop, List.length_cons]
      rw [if_pos (by omega), hl, Res.bind_ok, buf_contains_char_eq hv, Res.bind_ok,
        show ((R.length + 1 : Nat) : Int) - 1 = R.length by omega]
    rw [hstep]
    by_cases hc : c ∈ chars
    · rw [if_pos (decide_eq_true hc), sizeT_nat]
      have hr' : Raw m p (K.length + (R.length + 1)) cap al (K ++ (c :: R) ++ (0 :: J)) := by simpa using hr
      have hsrc : Holds m (cstrOf p + K.length + 1) (R ++ [0]) := by
        have : Holds m (cstrOf p + K.length + 1) (R ++ 0 :: J) := (Holds.cons_iff.1 hbody).2
        rw [show R ++ 0 :: J = (R ++ [0]) ++ J by simp, Holds.append_iff] at this
        exact this.1
      obtain ⟨m1, e1, r1, w1⟩ := hr'.memmove hsrc (by simp)
      rw [show (R ++ [(0 : Byte)]).length = R.length + 1 by simp] at e1
      obtain ⟨m2, e2, r2, w2⟩ := r1.setSize (v := K.length + R.length) (by have := hr.szMax; omega)
      have hadd : addInt cfg ((K.length + (R.length + 1) : Nat) : Int) (-1) = .ok ((K.length + R.length : Nat) : Int) := by
        apply addInt_nat cfg (by omega)
        have := hr.szMax; omega
      rw [e1, Res.bind_ok, r1.getSize, Res.bind_ok, hadd, Res.bind_ok, e2, Res.bind_ok]
      have ew1 : 24 + (K ++ c :: R ++ 0 :: J).length = 24 + n := by
        simp only [List.length_append, List.length_cons]; omega
      have ew2 : 24 + (K ++ (R ++ [0]) ++ 0 :: J).length = 24 + n := by
        simp only [List.length_append, List.length_cons, List.length_nil]; omega
      rw [ew1] at w1
      rw [ew2] at w2
      have hv2 : ViewOf m2 v chars := by
        refine ⟨⟨hv.size, hv.max, ?_⟩, hv.pos⟩
        rcases hout with h | h | h
        · subst h; exact Holds.nil _ _
        · exact (w1.trans w2).holds hv.holds (by omega)
        · exact (w1.trans w2).holds hv.holds (by omega)
      obtain ⟨m', J', e3, r3, n3, w3⟩ := ih K (0 :: J) m2 k hv2 (by simp only [List.length_cons]; omega) (by omega)
        (by simpa using r2)
      refine ⟨m', J', e3, ?_, ?_, (w1.trans w2).trans w3⟩
      · rwa [List.filter_cons_of_neg (by simpa using hc)]
      · rwa [List.filter_cons_of_neg (by simpa using hc)]
    · rw [if_neg (by simpa using hc)]
      have hr' : Raw m p ((K ++ [c]).length + R.length) cap al ((K ++ [c]) ++ (R ++ 0 :: J)) := by
        have : (K ++ [c]).length + R.length = K.length + (R.length + 1) := by
          simp only [List.length_append, List.length_cons, List.length_nil]; omega
        rw [this]; simpa using hr
      obtain ⟨m', J', e3, r3, n3, w3⟩ := ih (K ++ [c]) J m k hv (by
        simp only [List.length_append, List.length_cons, List.length_nil]; omega) (by omega) hr'
      have ea : cstrOf p + ((K ++ [c]).length : Int) = cstrOf p + K.length + 1 := by
        simp only [List.length_append, List.length_cons, List.length_nil]; omega
      rw [ea] at e3
      have ef : K ++ (c :: R).filter (· ∉ chars) = K ++ [c] ++ R.filter (· ∉ chars) := by
        rw [List.filter_cons_of_pos (by simpa using hc)]; simp
      rw [ef]
      exact ⟨m', J', e3, r3, n3, w3⟩

theorem strip_yields {cfg : Cfg} {s : St} (hs : s.Sane) {p : Addr} {b : Buf} (hb : BufAt s p b)
    {v : View} {chars : List Byte} (hv : ViewOf s.mem v chars)
    (hout : chars = [] ∨ v.data + chars.length ≤ p ∨ p + storage b.cap ≤ v.data) :
    Yields s p b (strbuf_strip_strview cfg s (some p) v) (b.data.filter (· ∉ chars)) b.cap := by
  have hp := hv.pos
  have hval : strview_is_valid v = true := by
    simp only [strview_is_valid]; exact decide_eq_true (by omega)
  obtain ⟨J, hJ, hr⟩ := hb.raw
  obtain ⟨m', J', e, r, hn, w⟩ := strip_loop_ok (cfg := cfg) (n := b.cap + 1) (by
    simp only [storage] at hout; omega) b.data [] J s.mem ((b.data.length : Int).toNat + 1) hv
    (by simp only [List.length_nil]; omega) (by omega) (by simpa using hr)
  simp only [List.length_nil, Int.natCast_zero, Int.add_zero, List.nil_append] at e r hn
  simp only [strbuf_strip_strview, deref_some hb.pos, hval, if_true, hb.getSize, Res.bind_ok, e]
  have hres := (ReszOk.refl hs hb).result r (by omega) (by rw [storage]; exact w)
  rw [view_or_invalid_some hres.buf]
  exact .inr ⟨p, _, rfl, hres⟩

/-! strip with characters taken from the buffer itself -/

theorem window_eq {D K R J : List Byte} {i n z : Nat} (hR : D.drop (K.length + z) = R) (hD : K.length + z + R.length = D.length) (hK : K.length ≤ i) (hin : i + n ≤ D.length) :
    ((K ++ (R ++ 0 :: (List.replicate z 0 ++ J))).drop i).take n = ownWindow D i n z := by
  obtain ⟨d, rfl⟩ : ∃ d, i = K.length + d := ⟨i - K.length, by omega⟩
  have e : D ++ List.replicate z 0 = D.take (K.length + z) ++ (R ++ List.replicate z 0) := by rw [← hR, ← List.append_assoc, List.take_append_drop]
  have hl : (D.take (K.length + z)).length = K.length + z := by rw [List.length_take]; omega
  rw [ownWindow, e, List.drop_append (l₁ := K), List.drop_append (l₁ := D.take _)]
  rw [List.drop_of_length_le (l := K) (by omega), List.drop_of_length_le (l := D.take _) (by rw [hl]; omega), hl]
  simp only [List.nil_append]
  rw [show K.length + d - K.length = d by omega, show K.length + d + z - (K.length + z) = d by omega,
    show (R ++ 0 :: (List.replicate z 0 ++ J)) = (R ++ List.replicate z 0) ++ (0 :: J) by
      rw [List.append_assoc]
      congr 1
      rw [← List.cons_append, ← List.replicate_succ, List.replicate_succ', List.append_assoc]; rfl]
  rw [List.drop_append_of_le_length (by simp; omega), List.take_append_of_le_length (by simp; omega)]

theorem strip_own_loop {cfg : Cfg} {p : Addr} {cap : Nat} {al : Alloc} {D : List Byte} {i n N : Nat} (hn0 : 0 < n) (hin : i + n ≤ D.length) (hmax : D.length ≤ 2147483647) :
    ∀ (R K J : List Byte) (z : Nat) (m : Mem) (k : Nat), D.drop (K.length + z) = R → K.length + z + R.length = D.length → K.length ≤ i →
      K.length + R.length + 1 + (z + J.length) = N → R.length < k →
      Raw m p (K.length + R.length) cap al (K ++ (R ++ 0 :: (List.replicate z 0 ++ J))) →
      ∃ m' J', strip_loop cfg ⟨cstrOf p + (i : Int), (n : Int)⟩ p k m (cstrOf p + K.length) R.length = .ok m' ∧
        Raw m' p (K ++ stripOwn D i n z R).length cap al (K ++ stripOwn D i n z R ++ 0 :: J') ∧
        (K ++ stripOwn D i n z R).length + 1 + J'.length = N ∧ Within m m' p (24 + N) := by
  intro R
  induction R with
  | nil =>
    intro K J z m k hR hD hK hn hk hr
    obtain ⟨k, rfl⟩ : ∃ j, k = j + 1 := ⟨k - 1, by simp only [List.length_nil] at hk; omega⟩
    refine ⟨m, List.replicate z 0 ++ J, ?_, ?_, ?_, Within.refl _ _ _⟩
    · simp [strip_loop]
    · simpa [stripOwn] using hr
    · simp only [stripOwn, List.append_nil, List.length_append, List.length_replicate, List.length_nil] at hn ⊢; omega
  | cons c R ih =>
    intro K J z m k hR hD hK hn hk hr
    simp only [List.length_cons] at hk hn hr hD
    obtain ⟨k, rfl⟩ : ∃ j, k = j + 1 := ⟨k - 1, by omega⟩
    have hbody := (Holds.append_iff.1 hr.body).2
    have hl : load m (cstrOf p + K.length) = .ok c := load_of_rd (Holds.cons_iff.1 hbody).1
    have hwin := window_eq (J := J) hR (by simpa using hD) hK hin
    have hwl : (ownWindow D i n z).length = n := by
      simp only [ownWindow, List.length_take, List.length_drop, List.length_append, List.length_replicate]; omega
    have hsplit : K ++ (c :: R ++ 0 :: (List.replicate z 0 ++ J)) =
        (K ++ (c :: R ++ 0 :: (List.replicate z 0 ++ J))).take i ++ (ownWindow D i n z ++ ((K ++ (c :: R ++ 0 :: (List.replicate z 0 ++ J))).drop i).drop n) := by
      rw [← hwin, List.take_append_drop, List.take_append_drop]
    have htl : ((K ++ (c :: R ++ 0 :: (List.replicate z 0 ++ J))).take i).length = i := by
      simp only [List.length_take, List.length_append, List.length_cons, List.length_replicate]; omega
    have hv : ViewOf m ⟨cstrOf p + (i : Int), (n : Int)⟩ (ownWindow D i n z) := by
      have hb := hr.body
      rw [hsplit, Holds.append_iff, htl] at hb
      have hb := (Holds.append_iff.1 hb.2).1
      refine ⟨⟨by rw [hwl], by rw [hwl]; simp only [INT_MAX]; omega, hb⟩, ?_⟩
      have := hr.pos
      simp only [cstrOf]; omega
    have hstep : strip_loop cfg ⟨cstrOf p + (i : Int), (n : Int)⟩ p (k + 1) m (cstrOf p + K.length) (c :: R).length =
        (if decide (c ∈ ownWindow D i n z) then do
          let m ← memmove m (cstrOf p + K.length) (cstrOf p + K.length + 1) (sizeT ((R.length + 1 : Nat) : Int))
          let size ← getSize m p
          let size' ← addInt cfg size (-1)
          let m ← setSize m p size'
          strip_loop cfg ⟨cstrOf p + (i : Int), (n : Int)⟩ p k m (cstrOf p + K.length) R.length
        else strip_loop cfg ⟨cstrOf p + (i : Int), (n : Int)⟩ p k m (cstrOf p + K.length + 1) R.length) := by
      simp only [strip_loop, List.length_cons]
      rw [if_pos (by omega), hl, Res.bind_ok, buf_contains_char_eq hv, Res.bind_ok,
        show ((R.length + 1 : Nat) : Int) - 1 = R.length by omega]
    rw [hstep]
    by_cases hc : c ∈ ownWindow D i n z
    · rw [if_pos (decide_eq_true hc), sizeT_nat]
      have hr' : Raw m p (K.length + (R.length + 1)) cap al (K ++ (c :: R) ++ (0 :: (List.replicate z 0 ++ J))) := by simpa using hr
      have hsrc : Holds m (cstrOf p + K.length + 1) (R ++ [0]) := by
        have : Holds m (cstrOf p + K.length + 1) (R ++ 0 :: (List.replicate z 0 ++ J)) := (Holds.cons_iff.1 hbody).2
        rw [show R ++ 0 :: (List.replicate z 0 ++ J) = (R ++ [0]) ++ (List.replicate z 0 ++ J) by simp, Holds.append_iff] at this
        exact this.1
      obtain ⟨m1, e1, r1, w1⟩ := hr'.memmove hsrc (by simp)
      rw [show (R ++ [(0 : Byte)]).length = R.length + 1 by simp] at e1
      obtain ⟨m2, e2, r2, w2⟩ := r1.setSize (v := K.length + R.length) (by have := hr.szMax; omega)
      have hadd : addInt cfg ((K.length + (R.length + 1) : Nat) : Int) (-1) = .ok ((K.length + R.length : Nat) : Int) := by
        apply addInt_nat cfg (by omega)
        have := hr.szMax; omega
      rw [e1, Res.bind_ok, r1.getSize, Res.bind_ok, hadd, Res.bind_ok, e2, Res.bind_ok]
      have ew1 : 24 + (K ++ c :: R ++ 0 :: (List.replicate z 0 ++ J)).length = 24 + N := by
        simp only [List.length_append, List.length_cons, List.length_replicate]; omega
      have ew2 : 24 + (K ++ (R ++ [0]) ++ 0 :: (List.replicate z 0 ++ J)).length = 24 + N := by
        simp only [List.length_append, List.length_cons, List.length_nil, List.length_replicate]; omega
      rw [ew1] at w1
      rw [ew2] at w2
      obtain ⟨m', J', e3, r3, n3, w3⟩ := ih K J (z + 1) m2 k (by
          have : D.drop (K.length + z + 1) = R := by rw [← List.drop_drop, hR]; rfl
          rw [← this]; congr 1) (by omega) hK (by omega) (by omega)
        (by rw [List.replicate_succ]; simpa using r2)
      have es : stripOwn D i n z (c :: R) = stripOwn D i n (z + 1) R := by rw [stripOwn, if_pos hc]
      rw [es]
      exact ⟨m', J', e3, r3, n3, (w1.trans w2).trans w3⟩
    · rw [if_neg (by simpa using hc)]
      have hKi : K.length < i := by
        refine Nat.lt_of_le_of_ne hK fun e => hc ?_
        rw [← hwin, ← e, List.drop_append_of_le_length (Nat.le_refl _), List.drop_length, List.nil_append]
        obtain ⟨n', rfl⟩ : ∃ n', n = n' + 1 := ⟨n - 1, by omega⟩
        simp
      have hr' : Raw m p ((K ++ [c]).length + R.length) cap al ((K ++ [c]) ++ (R ++ 0 :: (List.replicate z 0 ++ J))) := by
        have : (K ++ [c]).length + R.length = K.length + (R.length + 1) := by
          simp only [List.length_append, List.length_cons, List.length_nil]; omega
        rw [this]; simpa using hr
      obtain ⟨m', J', e3, r3, n3, w3⟩ := ih (K ++ [c]) J z m k (by
          have : D.drop (K.length + z + 1) = R := by rw [← List.drop_drop, hR]; rfl
          rw [← this]; congr 1; simp; omega) (by simp only [List.length_append, List.length_cons, List.length_nil]; omega)
        (by simp only [List.length_append, List.length_cons, List.length_nil]; omega) (by
        simp only [List.length_append, List.length_cons, List.length_nil]; omega) (by omega) hr'
      have ea : cstrOf p + ((K ++ [c]).length : Int) = cstrOf p + K.length + 1 := by
        simp only [List.length_append, List.length_cons, List.length_nil]; omega
      rw [ea] at e3
      have ef : K ++ stripOwn D i n z (c :: R) = K ++ [c] ++ stripOwn D i n z R := by
        rw [stripOwn, if_neg hc]; simp
      rw [ef]
      exact ⟨m', J', e3, r3, n3, w3⟩

theorem strip_own_yields {cfg : Cfg} {s : St} (hs : s.Sane) {p : Addr} {b : Buf} (hb : BufAt s p b) {i n : Nat} (hn : 0 < n) (hin : i + n ≤ b.data.length) :
    Yields s p b (strbuf_strip_strview cfg s (some p) ⟨p + 24 + (i : Int), (n : Int)⟩) (stripOwn b.data i n 0 b.data) b.cap := by
  have hp := hb.pos
  have hval : strview_is_valid ⟨p + 24 + (i : Int), (n : Int)⟩ = true := by
    simp only [strview_is_valid]; exact decide_eq_true (by omega)
  obtain ⟨J, hJ, hr⟩ := hb.raw
  obtain ⟨m', J', e, r, hn, w⟩ := strip_own_loop (cfg := cfg) (N := b.cap + 1) hn hin (by have := hr.szMax; simp only [INT_MAX] at this; omega) b.data [] J 0 s.mem ((b.data.length : Int).toNat + 1) (by simp) (by simp) (by simp)
    (by simp only [List.length_nil]; omega) (by omega) (by simpa using hr)
  simp only [List.length_nil, Int.natCast_zero, Int.add_zero, List.nil_append] at e r hn
  have hc : cstrOf p = p + 24 := rfl
  simp only [strbuf_strip_strview, deref_some hb.pos, hval, if_true, hb.getSize, Res.bind_ok]
  rw [hc] at e ⊢
  rw [e, Res.bind_ok]
  have hres := (ReszOk.refl hs hb).result r (by omega) (by rw [storage]; exact w)
  rw [view_or_invalid_some hres.buf]
  exact .inr ⟨p, _, rfl, hres⟩

theorem strip_invalid {cfg : Cfg} {s : St} (hs : s.Sane) {p : Addr} {b : Buf} (hb : BufAt s p b)
    {v : View} (hv : v.data = 0) :
    Yields s p b (strbuf_strip_strview cfg s (some p) v) b.data b.cap := by
  have hval : strview_is_valid v = false := by
    simp only [strview_is_valid]; exact decide_eq_false (by omega)
  simp only [strbuf_strip_strview, deref_some hb.pos, hval, Bool.false_eq_true, if_false, view_or_invalid_some hb]
  exact yields_same hs hb

/-! append_using -/

theorem split_at {l : List Byte} {n : Nat} (h : n < l.length) :
    ∃ X y Z, l = X ++ y :: Z ∧ X.length = n :=
  ⟨l.take n, l[n], l.drop (n + 1), by rw [← List.drop_eq_getElem_cons h, List.take_append_drop], by
    rw [List.length_take]; omega⟩

theorem using_yields {cfg : Cfg} {s : St} (hs : s.Sane) {p : Addr} {b : Buf} (hb : BufAt s p b)
    {f : Fetcher} {l : List Byte} {r : Nat}
    (hf : f s.mem (p + 24 + b.data.length) ((b.cap - b.data.length : Nat) : Int) = (l, (r : Int)))
    (hl : b.data.length + l.length ≤ b.cap) (hr : b.data.length + r ≤ b.cap) :
    ∃ t : List Byte, t.length = r ∧ t.take l.length = l.take r ∧
      Yields s p b (strbuf_append_using cfg s (some p) f) (b.data ++ t) b.cap := by
  obtain ⟨J, hJ, hraw⟩ := hb.raw
  have hlen := hb.len
  have hcapm := hb.cap
  -- the free space, the terminator position included
  have hsplit : ∃ J1 J2, 0 :: J = J1 ++ J2 ∧ J1.length = l.length :=
    ⟨(0 :: J).take l.length, (0 :: J).drop l.length, (List.take_append_drop _ _).symm, by
      rw [List.length_take, List.length_cons]; omega⟩
  obtain ⟨J1, J2, hJ12, hJ1⟩ := hsplit
  have hJlen := congrArg List.length hJ12
  simp only [List.length_cons, List.length_append] at hJlen
  rw [hJ12] at hraw
  have hraw' : Raw s.mem p b.data.length b.cap b.al (b.data ++ J1 ++ J2) := by simpa using hraw
  obtain ⟨wr, r1, w1⟩ := hraw'.write (Y' := l) hJ1.symm
  obtain ⟨X, y, Z, hxyz, hX⟩ := split_at (l := l ++ J2) (n := r) (by simp only [List.length_append]; omega)
  have hxl := congrArg List.length hxyz
  simp only [List.length_cons, List.length_append] at hxl
  refine ⟨X, hX, ?_, ?_⟩
  · have e := congrArg (List.take (min r l.length)) hxyz
    rw [List.take_append_of_le_length (by omega), List.take_append_of_le_length (by omega)] at e
    by_cases h : r ≤ l.length
    · rw [Nat.min_eq_left h] at e
      rw [e, List.take_of_length_le (by omega), List.take_of_length_le (by omega)]
    · rw [Nat.min_eq_right (by omega)] at e
      rw [← e, List.take_of_length_le (by omega), List.take_of_length_le (by omega)]
  · have hsp : addInt cfg b.cap (-(b.data.length : Int)) = .ok ((b.cap - b.data.length : Nat) : Int) :=
      addInt_nat cfg (by omega) (by omega)
    have hcall : callFetcher f s.mem (cstrOf p + b.data.length) ((b.cap - b.data.length : Nat) : Int) =
        .ok ((r : Int), put s.mem (cstrOf p + b.data.length) l) := by
      simp only [callFetcher]
      rw [show cstrOf p + (b.data.length : Int) = p + 24 + b.data.length from rfl, hf]
      simp only
      rw [if_pos ⟨by omega, intmin_nat r, by omega⟩]
      rw [show p + 24 + (b.data.length : Int) = cstrOf p + b.data.length from rfl, writeBytes_eq wr, Res.bind_ok]
    have r1' : Raw (put s.mem (cstrOf p + b.data.length) l) p b.data.length b.cap b.al ((b.data ++ X) ++ y :: Z) := by
      rw [List.append_assoc, ← hxyz]; simpa using r1
    obtain ⟨m2, e2, r2, w2⟩ := r1'.setSize (v := b.data.length + r) (by omega)
    obtain ⟨m3, e3, r3, w3⟩ := r2.store 0
    rw [show (((b.data ++ X).length : Nat) : Int) = ((b.data.length + r : Nat) : Int) by
      rw [List.length_append, hX]] at e3
    rw [strbuf_append_using, deref_some hb.pos]
    simp only
    rw [hb.getCap, Res.bind_ok, hb.getSize, Res.bind_ok, hsp, Res.bind_ok, hcall, Res.bind_ok]
    simp only
    rw [if_neg (by omega), r1.getSize, Res.bind_ok, addInt_nat cfg (n := b.data.length + r) (by omega) (by omega), Res.bind_ok,
      e2, Res.bind_ok, r2.getSize, Res.bind_ok, e3, Res.bind_ok, r3.view_of, Res.bind_ok]
    have ew1 : 24 + (b.data ++ J1 ++ J2).length = storage b.cap := by
      simp only [List.length_append, storage]; omega
    have ew2 : 24 + (b.data ++ X ++ y :: Z).length = storage b.cap := by
      simp only [List.length_append, List.length_cons, storage]; omega
    rw [ew1] at w1
    rw [ew2] at w2 w3
    have elen : (b.data ++ X).length = b.data.length + r := by rw [List.length_append, hX]
    have hres := (ReszOk.refl hs hb).result (data := b.data ++ X) (J := Z) (by rw [elen]; exact r3)
      (by rw [elen]; omega) ((w1.trans w2).trans w3)
    rw [← elen]
    exact .inr ⟨p, _, rfl, hres⟩

theorem using_fault {cfg : Cfg} {s : St} (hs : s.Sane) {p : Addr} {b : Buf} (hb : BufAt s p b)
    {f : Fetcher} {l : List Byte} {r : Int}
    (hf : f s.mem (p + 24 + b.data.length) ((b.cap - b.data.length : Nat) : Int) = (l, r))
    (hl : b.data.length + l.length ≤ b.cap) (hr : r < 0 ∨ (b.cap : Int) < b.data.length + r)
    (h1 : INT_MIN ≤ r) (h2 : r ≤ INT_MAX) :
    ∃ s', strbuf_append_using cfg s (some p) f = .ok (.invalid, some p, s') ∧ Result s p b [] b.cap p s' := by
  obtain ⟨J, hJ, hraw⟩ := hb.raw
  have hlen := hb.len
  have hcapm := hb.cap
  have hsplit : ∃ J1 J2, 0 :: J = J1 ++ J2 ∧ J1.length = l.length :=
    ⟨(0 :: J).take l.length, (0 :: J).drop l.length, (List.take_append_drop _ _).symm, by
      rw [List.length_take, List.length_cons]; omega⟩
  obtain ⟨J1, J2, hJ12, hJ1⟩ := hsplit
  have hJlen := congrArg List.length hJ12
  simp only [List.length_cons, List.length_append] at hJlen
  rw [hJ12] at hraw
  have hraw' : Raw s.mem p b.data.length b.cap b.al (b.data ++ J1 ++ J2) := by simpa using hraw
  obtain ⟨wr, r1, w1⟩ := hraw'.write (Y' := l) hJ1.symm
  obtain ⟨X, y, Z, hxyz, hX⟩ := split_at (l := b.data ++ l ++ J2) (n := 0) (by
    simp only [List.length_append]; omega)
  obtain rfl : X = [] := List.length_eq_zero_iff.1 hX
  have hxl := congrArg List.length hxyz
  simp only [List.length_cons, List.length_append, List.length_nil] at hxl
  rw [hxyz] at r1
  obtain ⟨m2, e2, r2, w2⟩ := r1.empty
  have hsp : addInt cfg b.cap (-(b.data.length : Int)) = .ok ((b.cap - b.data.length : Nat) : Int) :=
    addInt_nat cfg (by omega) (by omega)
  have hcall : callFetcher f s.mem (cstrOf p + b.data.length) ((b.cap - b.data.length : Nat) : Int) =
      .ok (r, put s.mem (cstrOf p + b.data.length) l) := by
    simp only [callFetcher]
    rw [show cstrOf p + (b.data.length : Int) = p + 24 + b.data.length from rfl, hf]
    simp only
    rw [if_pos ⟨by omega, h1, h2⟩]
    rw [show p + 24 + (b.data.length : Int) = cstrOf p + b.data.length from rfl, writeBytes_eq wr, Res.bind_ok]
  rw [strbuf_append_using, deref_some hb.pos]
  simp only
  rw [hb.getCap, Res.bind_ok, hb.getSize, Res.bind_ok, hsp, Res.bind_ok, hcall, Res.bind_ok]
  simp only
  rw [if_pos (by omega), e2, Res.bind_ok]
  have ew1 : 24 + (b.data ++ J1 ++ J2).length = storage b.cap := by
    simp only [List.length_append, storage]; omega
  have ew2 : 24 + (y :: Z).length = storage b.cap := by
    simp only [List.length_cons, storage]; omega
  rw [ew1] at w1
  rw [ew2] at w2
  exact ⟨_, rfl, (ReszOk.refl hs hb).result (data := []) (J := Z) r2 (by simp only [List.length_nil]; omega) (w1.trans w2)⟩

/-! printf -/

/-- An operation that keeps the capacity does not change what the allocator may answer. -/
theorem Result.bad {s : St} {p : Addr} {b : Buf} {d : List Byte} {s1 : St} (h : Result s p b d b.cap p s1) {n : Nat}
    (hb : BadAnswer s1 p (storage b.cap) n) : BadAnswer s p (storage b.cap) n := by
  obtain ⟨_, _, _, hc⟩ := h.same rfl
  have hu : unmap s1.mem p (storage b.cap) = unmap s.mem p (storage b.cap) := by
    funext x
    by_cases hx : InRange p (storage b.cap) x
    · rw [unmap_in hx, unmap_in hx]
    · rw [unmap_eq hx, unmap_eq hx, h.only.outside x hx hx]
  rw [BadAnswer, hu, h.only.picks, hc] at hb
  exact hb

/-- An operation on the emptied buffer. -/
theorem Result.andThen {s : St} {p : Addr} {b : Buf} {d data : List Byte} {s1 : St} (h : Result s p b d b.cap p s1) {r : BufRes}
    {cap : Nat} (h' : Yields s1 p ⟨d, b.cap, b.al⟩ r data cap) : Yields s p b r data cap := by
  rcases h' with ⟨⟨h1, h2⟩, h3⟩ | ⟨p', s', e, r'⟩
  · exact .inl ⟨⟨h1, h.bad h2⟩, h3⟩
  · refine .inr ⟨p', s', e, r'.buf, r'.sane, h.only.trans r'.only, ?_, ?_⟩
    · intro hc
      obtain ⟨a1, a2, a3, a4⟩ := r'.same hc
      obtain ⟨_, b2, b3, b4⟩ := h.same rfl
      exact ⟨a1, a2.trans b2, a3.trans b3, a4.trans b4⟩
    · intro hc
      rw [r'.log hc, (h.same rfl).2.2.1]

theorem vsnprintf_zero {fmt : Fmt} {m : Mem} {l : List Byte} (h : fmt m = .text l) (hl : (l.length : Int) ≤ INT_MAX)
    (a : Addr) : vsnprintf m a 0 fmt = .ok ((l.length : Int), m) := by
  simp only [vsnprintf, h]
  rw [if_pos hl, if_pos trivial]

theorem vsnprintf_room {fmt : Fmt} {m : Mem} {l : List Byte} (h : fmt m = .text l) (hl : (l.length : Int) ≤ INT_MAX)
    {a : Addr} {n : Nat} (hn : l.length < n) (hw : Writable m a (l ++ [0]).length) :
    vsnprintf m a n fmt = .ok ((l.length : Int), put m a (l ++ [0])) := by
  simp only [vsnprintf, h]
  rw [if_pos hl, if_neg (by omega), List.take_of_length_le (by omega), writeBytes_eq hw, Res.bind_ok]

theorem OnlyBlock.agrees {s s' : St} {p : Addr} {n : Nat} {p' : Addr} {n' : Nat} (h : OnlyBlock s s' p n p' n') :
    ∀ a, ¬ InRange p n a → (s.mem a).isSome → s'.mem a = s.mem a := by
  intro a h1 h2
  apply h.outside a h1
  intro h3
  rw [h.fresh a h3 h1] at h2
  cases h2

theorem printf_space {cfg : Cfg} {cap sz l : Nat} (hc : (cap : Int) ≤ INT_MAX) (hs : sz + l ≤ cap)
    (hroom : cfg.wrapv = true ∨ (cap : Int) - sz < INT_MAX) :
    ∃ x, (do
      let space ← addInt cfg cap (-(sz : Int))
      addInt cfg space 1) = .ok x ∧ l < sizeT x := by
  rw [addInt_nat cfg (n := cap - sz) (by omega) (by omega), Res.bind_ok]
  by_cases h : ((cap - sz : Nat) : Int) < INT_MAX
  · refine ⟨((cap - sz + 1 : Nat) : Int), addInt_nat cfg (by omega) (by omega), ?_⟩
    rw [sizeT_nat]; omega
  · have hw := hroom.resolve_right (by omega)
    refine ⟨_, addInt_wrap hw _ _, ?_⟩
    have e : ((cap - sz : Nat) : Int) + 1 = 2147483648 := by simp only [INT_MAX] at hc h; omega
    have h3 : sizeT (toInt32 (ofInt32 2147483648)) = 18446744071562067968 := by decide +kernel
    rw [e, h3]
    simp only [INT_MAX] at hc; omega

theorem append_printf_yields {cfg : Cfg} (hcfg : cfg.Ok) {s : St} (hs : s.Sane) {p : Addr} {b : Buf} (hb : BufAt s p b)
    {fmt : Fmt} {l : List Byte} (hf : fmt.Gives s p (storage b.cap) l) (hl : (l.length : Int) ≤ INT_MAX)
    (hh : cfg.Handles b (b.data.length + l.length))
    (hroom : cfg.wrapv = true ∨ (b.capFor cfg (b.data.length + l.length) : Int) - b.data.length < INT_MAX) :
    Yields s p b (strbuf_append_printf cfg s (some p) fmt)
      (if b.Fits (b.data.length + l.length) then b.data ++ l else []) (b.capFor cfg (b.data.length + l.length)) := by
  have hszm := hb.sizeMax
  have hcapm := hb.cap
  obtain ⟨n, hn⟩ : ∃ n, n = b.data.length + l.length := ⟨_, rfl⟩
  rw [← hn] at hh hroom ⊢
  have hf0 := hf s.mem (fun _ _ _ => rfl)
  rw [strbuf_append_printf, deref_some hb.pos]
  simp only
  rw [hb.getSize, Res.bind_ok, vsnprintf_zero hf0 hl, Res.bind_ok]
  simp only
  by_cases hov : (n : Int) ≤ INT_MAX
  · have hfl : add_will_overflow_int cfg b.data.length l.length = .ok false := by
      rw [add_ovf cfg hszm hl (by right; omega), decide_eq_false (by omega)]
    have hadd : addInt cfg b.data.length l.length = .ok (n : Int) := addInt_nat cfg (by omega) hov
    rw [hfl, Res.bind_ok, Bool.not_false, if_pos rfl, hadd, Res.bind_ok]
    rcases ensure_cap hcfg hs hb hov hh with ⟨hne, he⟩ | ⟨p', s', he, hz⟩
    · exact .inl ⟨hne, by rw [he, Res.bind_env]⟩
    · have hcap := hz.buf.getCap
      have hsz := hz.buf.getSize
      simp only at hcap hsz
      rw [he, Res.bind_ok]
      simp only
      rw [hcap, Res.bind_ok]
      by_cases hfit : n ≤ b.capFor cfg n
      · rw [if_neg (by omega), if_pos ((capFor_fits hcfg hov).1 hfit), hsz, Res.bind_ok]
        obtain ⟨J', hJ', hr'⟩ := hz.buf.raw
        simp only at hJ' hr'
        have hcm := hz.buf.cap
        simp only at hcm
        obtain ⟨x, hx, hlt⟩ := printf_space (cfg := cfg) (cap := b.capFor cfg n) (sz := b.data.length) (l := l.length)
          hcm (by omega) hroom
        obtain ⟨X, y, Z, hxyz, hX⟩ := split_at (l := 0 :: J') (n := l.length) (by
          simp only [List.length_cons]; omega)
        have hxl := congrArg List.length hxyz
        simp only [List.length_cons, List.length_append] at hxl
        have hr2 : Raw s'.mem p' b.data.length (b.capFor cfg n) b.al (b.data ++ (X ++ [y]) ++ Z) := by
          have : b.data ++ (X ++ [y]) ++ Z = b.data ++ 0 :: J' := by rw [hxyz]; simp
          rw [this]; exact hr'
        obtain ⟨wr, r1, w1⟩ := hr2.write (Y' := l ++ [0]) (by simp [hX])
        have hf1 := hf s'.mem hz.only.agrees
        have hprint := vsnprintf_room hf1 hl hlt wr
        have hmerge : ∀ {β : Type} (g : Int → Res β), (do
            let space ← addInt cfg (b.capFor cfg n) (-(b.data.length : Int))
            let space ← addInt cfg space 1
            g space) = g x := by
          intro β g
          have : (do
              let space ← addInt cfg (b.capFor cfg n) (-(b.data.length : Int))
              let space ← addInt cfg space 1
              g space) = (do
              let y ← (do
                let space ← addInt cfg (b.capFor cfg n) (-(b.data.length : Int))
                addInt cfg space 1)
              g y) := by
            generalize addInt cfg (b.capFor cfg n) (-(b.data.length : Int)) = q
            cases q <;> rfl
          rw [this, hx, Res.bind_ok]
        rw [hmerge, hprint, Res.bind_ok]
        simp only
        obtain ⟨m2, e2, r2, w2⟩ := r1.setSize (v := n) hov
        rw [r1.getSize, Res.bind_ok, hadd, Res.bind_ok, e2, Res.bind_ok, r2.view_of, Res.bind_ok]
        have ew1 : 24 + (b.data ++ (X ++ [y]) ++ Z).length = storage (b.capFor cfg n) := by
          simp only [List.length_append, List.length_cons, List.length_nil, storage]; omega
        have ew2 : 24 + (b.data ++ (l ++ [0]) ++ Z).length = storage (b.capFor cfg n) := by
          simp only [List.length_append, List.length_cons, List.length_nil, storage]; omega
        rw [ew1] at w1
        rw [ew2] at w2
        have elen : (b.data ++ l).length = n := by rw [List.length_append]; omega
        have hres := hz.result (data := b.data ++ l) (J := Z) (by
          rw [elen]
          have : b.data ++ l ++ 0 :: Z = b.data ++ (l ++ [0]) ++ Z := by simp
          rw [this]; exact r2) (by rw [elen]; omega) (w1.trans w2)
        rw [← elen]
        exact .inr ⟨p', _, rfl, by rw [elen]; exact hres⟩
      · rw [if_pos (by omega), if_neg (fun h => hfit ((capFor_fits hcfg hov).2 h))]
        obtain ⟨m', e1, r1⟩ := hz.emptied
        have hview := r1.buf.view
        simp only at hview
        rw [e1, Res.bind_ok, hview, Res.bind_ok]
        exact .inr ⟨p', _, rfl, r1⟩
  · have hw : cfg.wrapv = true := by
      have := hcfg.pos
      rcases hh with h | h | h | h
      · exact h
      · omega
      · omega
      · omega
    have hfl : add_will_overflow_int cfg b.data.length l.length = .ok true := by
      rw [add_ovf cfg hszm hl (.inl hw), decide_eq_true (by omega)]
    have hnf : ¬ b.Fits n := by
      simp only [Buf.Fits]; omega
    have hcf : b.capFor cfg n = b.cap := by
      rw [Buf.capFor, if_neg (fun h => hov h.2)]
    rw [if_neg hnf, hcf, hfl, Res.bind_ok, Bool.not_true, if_neg Bool.false_ne_true]
    exact empty_yields hs hb

/-- An error of `vsnprintf`: the negative result is added to the size. -/
theorem append_printf_error {cfg : Cfg} {s : St} {p : Addr} {b : Buf} (hb : BufAt s p b) {fmt : Fmt} {r : Int} {w : List Byte}
    (hf : fmt s.mem = .error r w) (hr : INT_MIN ≤ r ∧ r < 0) (hroom : (b.cap : Int) - b.data.length < INT_MAX) :
    ∃ s', strbuf_append_printf cfg s (some p) fmt = .ok (⟨p + 24, b.data.length + r⟩, some p, s') ∧
      getSize s'.mem p = .ok (b.data.length + r) ∧ Holds s'.mem (p + 24) (b.data ++ w.take (b.cap - b.data.length) ++ [0]) := by
  have hszm := hb.sizeMax
  have hcapm := hb.cap
  have hlen := hb.len
  obtain ⟨J, hJ, hraw⟩ := hb.raw
  have hadd : addInt cfg b.data.length r = .ok (b.data.length + r) :=
    addInt_ok cfg (by have := hr.1; omega) (by have := hr.2; omega)
  have hov : add_will_overflow_int cfg b.data.length r = .ok false := by
    rw [add_will_overflow_int, hadd, Res.bind_ok]
    congr 1
    rw [decide_eq_false]
    have := hr.2
    omega
  have hens : ensure_capacity cfg s p (b.data.length + r) = .ok (p, s) := by
    rw [ensure_capacity, hraw.is_dynamic, Res.bind_ok, hraw.getCap, Res.bind_ok, if_neg]
    have := hr.2
    omega
  have hv0 : vsnprintf s.mem 0 0 fmt = .ok (r, s.mem) := by
    simp only [vsnprintf, hf]
    rw [if_pos hr, if_pos trivial]
  rw [strbuf_append_printf, deref_some hb.pos]
  simp only
  rw [hraw.getSize, Res.bind_ok, hv0, Res.bind_ok]
  simp only
  rw [hov, Res.bind_ok, Bool.not_false, if_pos rfl, hadd, Res.bind_ok, hens, Res.bind_ok]
  simp only
  rw [hraw.getCap, Res.bind_ok, if_neg (by have := hr.2; omega), hraw.getSize, Res.bind_ok,
    addInt_nat cfg (n := b.cap - b.data.length) (by omega) (by omega), Res.bind_ok,
    addInt_nat cfg (n := b.cap - b.data.length + 1) (by omega) (by omega), Res.bind_ok, sizeT_nat]
  obtain ⟨t, ht⟩ : ∃ t, t = w.take (b.cap - b.data.length) := ⟨_, rfl⟩
  have htl : t.length ≤ b.cap - b.data.length := by rw [ht, List.length_take]; omega
  obtain ⟨X, y, Z, hxyz, hX⟩ := split_at (l := 0 :: J) (n := t.length) (by simp only [List.length_cons]; omega)
  have hr2 : Raw s.mem p b.data.length b.cap b.al (b.data ++ (X ++ [y]) ++ Z) := by
    have : b.data ++ (X ++ [y]) ++ Z = b.data ++ 0 :: J := by rw [hxyz]; simp
    rw [this]; exact hraw
  obtain ⟨wr, r1, -⟩ := hr2.write (Y' := t ++ [0]) (by simp [hX])
  have hv1 : vsnprintf s.mem (cstrOf p + b.data.length) (b.cap - b.data.length + 1) fmt =
      .ok (r, put s.mem (cstrOf p + b.data.length) (t ++ [0])) := by
    simp only [vsnprintf, hf]
    rw [if_pos hr, if_neg (by omega), Nat.add_sub_cancel, ← ht, writeBytes_eq wr, Res.bind_ok]
  rw [hv1, Res.bind_ok]
  simp only
  rw [r1.getSize, Res.bind_ok, hadd, Res.bind_ok]
  obtain ⟨l4, hl4, hset, hget⟩ := r1.setSize_any (v := b.data.length + r) (by have := hr.1; omega) (by have := hr.2; omega)
  rw [hset, Res.bind_ok, strview_of_buf, if_pos (by have := hb.pos; omega), hget, Res.bind_ok, Res.bind_ok]
  refine ⟨_, rfl, hget, ?_⟩
  apply holds_put_outside
  · have h1 := r1.holds
    rw [Holds.append_iff, hdrBytes_length] at h1
    have h2 := h1.2
    rw [Holds.append_iff] at h2
    have h3 := h2.1
    rw [← ht]
    have e : b.data ++ t ++ [0] = b.data ++ (t ++ [0]) := by simp
    rw [e]; exact h3
  · right; omega

theorem printf_yields {cfg : Cfg} (hcfg : cfg.Ok) {s : St} (hs : s.Sane) {p : Addr} {b : Buf} (hb : BufAt s p b)
    {fmt : Fmt} {l : List Byte} (hf : fmt.Gives s p (storage b.cap) l) (hl : (l.length : Int) ≤ INT_MAX)
    (hh : cfg.Handles b l.length)
    (hroom : cfg.wrapv = true ∨ (b.capFor cfg l.length : Int) < INT_MAX) :
    Yields s p b (strbuf_printf cfg s (some p) fmt) (if b.Fits l.length then l else []) (b.capFor cfg l.length) := by
  obtain ⟨m1, e1, r1⟩ := (ReszOk.refl hs hb).emptied
  rw [strbuf_printf, deref_some hb.pos]
  simp only
  rw [e1, Res.bind_ok]
  have hc : ∀ k, (⟨[], b.cap, b.al⟩ : Buf).capFor cfg k = b.capFor cfg k := fun _ => rfl
  have := append_printf_yields (b := ⟨[], b.cap, b.al⟩) hcfg r1.sane r1.buf (fmt := fmt) (l := l) (by
    intro m' hm'
    apply hf
    intro a h1 h2
    have := r1.only.agrees a h1 h2
    rw [← this] at h2 ⊢
    exact hm' a h1 h2) hl (by
      simp only [List.length_nil, Nat.zero_add]; exact hh) (by
      simp only [List.length_nil, Nat.zero_add, hc]
      rcases hroom with h | h
      · exact .inl h
      · exact .inr (by omega))
  simp only [List.length_nil, Nat.zero_add, List.nil_append, hc] at this
  exact r1.andThen this

/-! prnf -/

theorem ceil_mono {step k m : Nat} (h : k ≤ m) : (k + step - 1) / step * step ≤ (m + step - 1) / step * step :=
  Nat.mul_le_mul_right _ (Nat.div_le_div_right (by omega))

theorem ceil_same {step k m : Nat} (hs : 0 < step) (h : k ≤ m) (h2 : m ≤ (k + step - 1) / step * step) :
    (m + step - 1) / step * step = (k + step - 1) / step * step := by
  congr 1
  apply Nat.le_antisymm
  · apply Nat.le_of_lt_succ
    rw [Nat.div_lt_iff_lt_mul hs]
    rw [Nat.succ_mul]
    omega
  · exact Nat.div_le_div_right (by omega)

theorem grownCap_grownCap {step cap k m : Nat} (hs : 0 < step) (hk : k ≤ m) (hm : (m : Int) ≤ INT_MAX) :
    grownCap step (grownCap step cap k) m = grownCap step cap m := by
  simp only [INT_MAX] at hm
  have h1 := ceil_mono (step := step) hk
  have h2 : m ≤ (k + step - 1) / step * step → _ := ceil_same hs hk
  simp only [grownCap]
  split
  · rfl
  · next h =>
    rw [if_neg (show ¬ m ≤ cap by omega)]
    split
    · next h3 =>
      split
      · next h4 => rw [h2 h4, if_pos h3]
      · rfl
    · next h3 =>
      rw [if_pos (by omega), if_neg (by omega)]

theorem Fits_capFor {cfg : Cfg} (hcfg : cfg.Ok) {b : Buf} (hb : (b.cap : Int) ≤ INT_MAX) (d : List Byte) (k m : Nat) :
    (⟨d, b.capFor cfg k, b.al⟩ : Buf).Fits m ↔ b.Fits m := by
  have h1 := cap_le_capFor hcfg (b := b) k
  have h2 := capFor_max cfg (b := b) k hb
  simp only [Buf.Fits, Buf.Dynamic]
  constructor
  · rintro (h | h)
    · by_cases hd : b.Dynamic
      · exact .inr ⟨hd, by omega⟩
      · left
        simp only [Buf.capFor] at h
        rwa [if_neg (fun h => hd h.1)] at h
    · exact .inr h
  · rintro (h | h)
    · exact .inl (by omega)
    · exact .inr h

theorem capFor_capFor {cfg : Cfg} (hcfg : cfg.Ok) {b : Buf} (d : List Byte) {k m : Nat} (hk : k ≤ m) (hm : (m : Int) ≤ INT_MAX) :
    (⟨d, b.capFor cfg k, b.al⟩ : Buf).capFor cfg m = b.capFor cfg m := by
  have hstep : 0 < cfg.growStep.toNat := by have := hcfg.pos; omega
  by_cases hd : b.Dynamic
  · have e1 : b.capFor cfg k = grownCap cfg.growStep.toNat b.cap k := if_pos ⟨hd, by omega⟩
    have e2 : b.capFor cfg m = grownCap cfg.growStep.toNat b.cap m := if_pos ⟨hd, hm⟩
    have e3 : (⟨d, b.capFor cfg k, b.al⟩ : Buf).capFor cfg m = grownCap cfg.growStep.toNat (b.capFor cfg k) m :=
      if_pos ⟨hd, hm⟩
    rw [e3, e1, e2, grownCap_grownCap hstep hk hm]
  · have e1 : b.capFor cfg k = b.cap := if_neg (fun h => hd h.1)
    have e2 : b.capFor cfg m = b.cap := if_neg (fun h => hd h.1)
    have e3 : (⟨d, b.capFor cfg k, b.al⟩ : Buf).capFor cfg m = b.capFor cfg k := if_neg (fun h => hd h.1)
    rw [e3, e1, e2]

theorem Cfg.Handles.mono {cfg : Cfg} {b b' : Buf} {k m : Nat} (h : cfg.Handles b m) (hk : k ≤ m) (hc : b.cap ≤ b'.cap)
    (ha : b'.al = b.al) : cfg.Handles b' k := by
  rcases h with h | h | h | h
  · exact .inl h
  · exact .inr (.inl (by omega))
  · exact .inr (.inr (.inl (by omega)))
  · refine .inr (.inr (.inr ⟨?_, by omega⟩))
    intro hd
    apply h.1
    simp only [Buf.Dynamic, ha] at hd ⊢
    exact hd

theorem Result.changed {s : St} {p : Addr} {b : Buf} {data : List Byte} {cap : Nat} {p' : Addr} {s' : St}
    (h : Result s p b data cap p' s') (hf : ¬ b.Dynamic → cap = b.cap) : Changed s p b data cap p' s' :=
  ⟨h.buf, h.sane, h.only, fun hd => by
    obtain ⟨a1, a2, a3, a4⟩ := h.same (hf hd)
    exact ⟨a1, hf hd, a2, a3, a4⟩⟩

theorem Changed.trans {s : St} {p : Addr} {b : Buf} {d : List Byte} {cap : Nat} {p1 : Addr} {s1 : St} {d2 : List Byte}
    {cap2 : Nat} {p2 : Addr} {s2 : St} (h : Changed s p b d cap p1 s1) (h' : Changed s1 p1 ⟨d, cap, b.al⟩ d2 cap2 p2 s2) :
    Changed s p b d2 cap2 p2 s2 :=
  ⟨h'.buf, h'.sane, h.only.trans h'.only, fun hd => by
    obtain ⟨a1, a2, a3, a4, a5⟩ := h.fixed hd
    obtain ⟨b1, b2, b3, b4, b5⟩ := h'.fixed hd
    exact ⟨b1.trans a1, b2.trans a2, b3.trans a3, b4.trans a4, b5.trans a5⟩⟩

theorem prnf_chars_ok {cfg : Cfg} (hcfg : cfg.Ok) (t : List Byte) : ∀ {s : St} (_ : s.Sane) {p : Addr} {b : Buf} (_ : BufAt s p b)
    (_ : cfg.Handles b (b.data.length + t.length)),
    (b.Dynamic ∧ prnf_chars cfg s p t = .env .alloc) ∨
    ∃ p' s' d cap, prnf_chars cfg s p t = .ok (p', s') ∧ Changed s p b d cap p' s' ∧
      (b.Fits (b.data.length + t.length) → d = b.data ++ t ∧ cap = b.capFor cfg (b.data.length + t.length)) ∧
      (¬ b.Fits (b.data.length + t.length) → d.length < b.data.length + t.length) := by
  induction t with
  | nil =>
    intro s hs p b hb hh
    have hle := hb.len
    refine .inr ⟨p, s, b.data, b.cap, rfl, (ReszOk.refl hs hb).toResult.changed (fun _ => rfl), ?_, ?_⟩
    · intro _
      refine ⟨by simp, ?_⟩
      simp only [Buf.capFor, grownCap, List.length_nil, Nat.add_zero]
      rw [if_pos hle]; split <;> rfl
    · intro h
      exact absurd (.inl (by simpa using hle)) h
  | cons c t ih =>
    intro s hs p b hb hh
    have hfix : ¬ b.Dynamic → b.capFor cfg (b.data.length + 1) = b.cap := fun hd => if_neg (fun h => hd h.1)
    have h1 := append_char_out hcfg hs hb c (hh.mono (by simp only [List.length_cons]; omega) (Nat.le_refl _) rfl)
    simp only [prnf_chars]
    rcases h1 with ⟨hne, he⟩ | ⟨p1, s1, e1, r1⟩
    · left
      refine ⟨Decidable.byContradiction fun hd => hne.1 (hfix hd), ?_⟩
      rw [he, Res.bind_env]
    · rw [e1, Res.bind_ok]
      simp only
      have hcl := cap_le_capFor hcfg (b := b) (b.data.length + 1)
      obtain ⟨d1, hd1⟩ : ∃ d1, d1 = (if b.Fits (b.data.length + 1) then b.data ++ [c] else []) := ⟨_, rfl⟩
      rw [← hd1] at r1
      have hd1l : d1.length ≤ b.data.length + 1 := by
        rw [hd1]; split <;> simp
      have h2 := ih r1.sane r1.buf (hh.mono (by simp only [List.length_cons]; omega) hcl rfl)
      rcases h2 with h2 | ⟨p2, s2, d2, cap2, e2, c2, f2, g2⟩
      · exact .inl h2
      · refine .inr ⟨p2, s2, d2, cap2, e2, (r1.changed hfix).trans c2, ?_, ?_⟩
        · intro hfit
          have hfit1 : b.Fits (b.data.length + 1) := by
            simp only [List.length_cons] at hfit
            rcases hfit with h | h
            · exact .inl (by omega)
            · exact .inr ⟨h.1, by omega⟩
          rw [if_pos hfit1] at hd1
          have el : d1.length + t.length = b.data.length + (c :: t).length := by
            rw [hd1]; simp only [List.length_append, List.length_cons, List.length_nil]; omega
          have hmax : ((b.data.length + (c :: t).length : Nat) : Int) ≤ INT_MAX := by
            have := hb.cap
            rcases hfit with h | h
            · omega
            · exact h.2
          simp only [el] at f2
          rw [Fits_capFor hcfg hb.cap] at f2
          obtain ⟨f3, f4⟩ := f2 hfit
          refine ⟨by rw [f3, hd1]; simp, ?_⟩
          rw [f4, capFor_capFor hcfg _ (by simp only [List.length_cons]; omega) hmax]
        · intro hnf
          simp only [List.length_cons] at hnf ⊢
          by_cases hfit2 : (⟨d1, b.capFor cfg (b.data.length + 1), b.al⟩ : Buf).Fits (d1.length + t.length)
          · rw [(f2 hfit2).1]
            simp only [List.length_append]
            by_cases hfit1 : b.Fits (b.data.length + 1)
            · exfalso
              rw [if_pos hfit1] at hd1
              have el : d1.length + t.length = b.data.length + (t.length + 1) := by
                rw [hd1]; simp only [List.length_append, List.length_cons, List.length_nil]; omega
              rw [el, Fits_capFor hcfg hb.cap] at hfit2
              exact hnf hfit2
            · rw [if_neg hfit1] at hd1
              rw [hd1]; simp only [List.length_nil]; omega
          · have := g2 hfit2
            simp only at this
            omega

theorem Changed.emptied {s : St} {p : Addr} {b : Buf} {d : List Byte} {cap : Nat} {p1 : Addr} {s1 : St}
    (h : Changed s p b d cap p1 s1) :
    ∃ m', empty_buf s1.mem p1 = .ok m' ∧ Changed s p b [] cap p1 { s1 with mem := m' } := by
  obtain ⟨m', e, r⟩ := (ReszOk.refl h.sane h.buf).emptied
  exact ⟨m', e, h.trans (r.changed (fun _ => rfl))⟩

theorem append_prnf_yields {cfg : Cfg} (hcfg : cfg.Ok) {s : St} (hs : s.Sane) {p : Addr} {b : Buf} (hb : BufAt s p b)
    {t : List Byte} (ht : (t.length : Int) ≤ INT_MAX) (hh : cfg.Handles b (b.data.length + t.length)) :
    ∃ cap, (b.Fits (b.data.length + t.length) → cap = b.capFor cfg (b.data.length + t.length)) ∧
      YieldsVia s p b (strbuf_append_prnf cfg s (some p) t)
        (if b.Fits (b.data.length + t.length) then b.data ++ t else []) cap := by
  have hszm := hb.sizeMax
  obtain ⟨n, hn⟩ : ∃ n, n = b.data.length + t.length := ⟨_, rfl⟩
  have h := prnf_chars_ok hcfg t hs hb hh
  rw [← hn] at h hh ⊢
  rw [strbuf_append_prnf, deref_some hb.pos]
  simp only
  rw [hb.getSize, Res.bind_ok]
  rcases h with ⟨hd, he⟩ | ⟨p', s', d, cap, e, c, f, g⟩
  · exact ⟨_, fun _ => rfl, .inl ⟨hd, by rw [he, Res.bind_env]⟩⟩
  · refine ⟨cap, fun hf => (f hf).2, ?_⟩
    rw [e, Res.bind_ok]
    simp only
    rw [if_pos ht]
    have hsz := c.buf.getSize
    have hview := c.buf.view
    have hdm := c.buf.sizeMax
    simp only at hsz hview hdm
    have hcc : ∃ x, addInt cfg b.data.length t.length = .ok x ∧
        ((x > d.length ∨ x < 0) ↔ ¬ b.Fits n) := by
      by_cases hov : (n : Int) ≤ INT_MAX
      · refine ⟨(n : Int), addInt_nat cfg (by omega) hov, ?_⟩
        constructor
        · rintro h hf
          have := (f hf).1
          rw [this, List.length_append] at h
          omega
        · intro hf
          have := g hf
          omega
      · have hcm := hb.cap
        have hw : cfg.wrapv = true := by
          have := hcfg.pos
          rcases hh with h | h | h | h
          · exact h
          · omega
          · omega
          · omega
        refine ⟨_, addInt_wrap hw _ _, ?_⟩
        have h1 : ¬ b.Fits n := by simp only [Buf.Fits]; omega
        refine ⟨fun _ => h1, fun _ => .inr ?_⟩
        simp only [INT_MAX] at ht hszm hov
        have e1 : ofInt32 ((b.data.length : Int) + t.length) = n := by
          simp only [ofInt32]; omega
        rw [e1]
        simp only [toInt32]
        rw [if_neg (by omega)]
        omega
    obtain ⟨x, hx, hiff⟩ := hcc
    rw [hx, Res.bind_ok, hsz, Res.bind_ok]
    by_cases hf : b.Fits n
    · rw [if_neg (fun h => hiff.1 h hf), if_pos hf, hview, Res.bind_ok, ← (f hf).1]
      exact .inr ⟨p', s', rfl, c⟩
    · rw [if_pos (hiff.2 hf), if_neg hf]
      obtain ⟨m', e', c'⟩ := c.emptied
      have hv' := c'.buf.view
      simp only at hv'
      rw [e', Res.bind_ok, hv', Res.bind_ok]
      exact .inr ⟨p', _, rfl, c'⟩

theorem prnf_yields {cfg : Cfg} (hcfg : cfg.Ok) {s : St} (hs : s.Sane) {p : Addr} {b : Buf} (hb : BufAt s p b)
    {t : List Byte} (ht : (t.length : Int) ≤ INT_MAX) (hh : cfg.Handles b t.length) :
    ∃ cap, (b.Fits t.length → cap = b.capFor cfg t.length) ∧
      YieldsVia s p b (strbuf_prnf cfg s (some p) t) (if b.Fits t.length then t else []) cap := by
  obtain ⟨m1, e1, r1⟩ := (ReszOk.refl hs hb).emptied
  have h := prnf_chars_ok hcfg t r1.sane r1.buf (by simp only [List.length_nil, Nat.zero_add]; exact hh)
  simp only [List.length_nil, Nat.zero_add, List.nil_append] at h
  have hF : (⟨[], b.cap, b.al⟩ : Buf).Fits t.length ↔ b.Fits t.length := Iff.rfl
  have hC : (⟨[], b.cap, b.al⟩ : Buf).capFor cfg t.length = b.capFor cfg t.length := rfl
  rw [hF, hC] at h
  rw [strbuf_prnf, deref_some hb.pos]
  simp only
  rw [e1, Res.bind_ok]
  rcases h with ⟨hd, he⟩ | ⟨p', s', d, cap, e, c, f, g⟩
  · exact ⟨_, fun _ => rfl, .inl ⟨hd, by rw [he, Res.bind_env]⟩⟩
  · have c2 := (r1.changed (fun _ => rfl)).trans c
    refine ⟨cap, fun hf => (f hf).2, ?_⟩
    rw [e, Res.bind_ok]
    simp only
    rw [if_pos ht]
    have hsz := c2.buf.getSize
    have hview := c2.buf.view
    simp only at hsz hview
    rw [hsz, Res.bind_ok]
    by_cases hf : b.Fits t.length
    · rw [if_neg (by rw [(f hf).1]; omega), if_pos hf, hview, Res.bind_ok, ← (f hf).1]
      exact .inr ⟨p', s', rfl, c2⟩
    · rw [if_pos (by have := g hf; omega), if_neg hf]
      obtain ⟨m', e', c'⟩ := c2.emptied
      have hv' := c'.buf.view
      simp only at hv'
      rw [e', Res.bind_ok, hv', Res.bind_ok]
      exact .inr ⟨p', _, rfl, c'⟩

end CStr
