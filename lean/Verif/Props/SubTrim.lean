import Verif.Lemmas.Strview
import Verif.Lemmas.Examples
import Verif.Spec.Text
/-! Properties C05, C06: sub-views and trimming. -/
namespace CStr

theorem strview_sub_eq {v : View} {n : Nat} (hd : v.data ≠ 0) (hs : v.size = n) (hn : 0 < n)
    (hm : (n : Int) ≤ INT_MAX) (b e : Int) (hb : INT_MIN ≤ b) (he : INT_MIN ≤ e) (hb' : b ≤ INT_MAX)
    (he' : e ≤ INT_MAX) :
    strview_sub v b e = .ok (if fromEnd n b ≤ fromEnd n e ∧ fromEnd n b < n ∧ 0 ≤ fromEnd n e then
      ⟨v.data + max (fromEnd n b) 0, min (fromEnd n e) n - max (fromEnd n b) 0⟩ else .invalid) := by
  simp only [INT_MAX, INT_MIN] at *
  have hc : ∀ x : Int, -2147483648 ≤ x → x ≤ 2147483647 → chk x = .ok x := by
    intro x h1 h2; exact chk_ok (by simpa only [INT_MIN] using h1) (by simpa only [INT_MAX] using h2)
  have hs0 : v.size ≠ 0 := by omega
  have key : ∀ B E : Int, (if B ≤ E ∧ B < v.size ∧ E ≥ 0 then do
        let size ← chk ((if E > v.size then v.size else E) - (if B < 0 then 0 else B))
        Res.ok (View.mk (v.data + (if B < 0 then 0 else B)) size)
      else .ok ⟨0, 0⟩) = .ok (if B ≤ E ∧ B < n ∧ 0 ≤ E then
      ⟨v.data + max B 0, min E n - max B 0⟩ else .invalid) := by
    intro B E
    rw [hs]
    by_cases h : B ≤ E ∧ B < n ∧ 0 ≤ E
    · rw [if_pos h, if_pos h]
      have e1 : (if B < 0 then 0 else B) = max B 0 := by omega
      have e2 : (if E > (n : Int) then (n : Int) else E) = min E n := by omega
      rw [e1, e2, hc _ (by omega) (by omega)]
      rfl
    · rw [if_neg h, if_neg h]; rfl
  have hb1 : (if b < 0 then chk (v.size + b) else .ok b) = .ok (fromEnd n b) := by
    simp only [fromEnd, hs]; split
    · exact hc _ (by omega) (by omega)
    · rfl
  have he1 : (if e < 0 then chk (v.size + e) else .ok e) = .ok (fromEnd n e) := by
    simp only [fromEnd, hs]; split
    · exact hc _ (by omega) (by omega)
    · rfl
  rw [strview_sub, if_pos ⟨hd, hs0⟩]
  rw [← Res.ite_bind, hb1, Res.bind_ok]
  dsimp only
  rw [← Res.ite_bind, he1, Res.bind_ok]
  exact key _ _

/-- C05. In range: the result is exactly the bytes at positions `max begin 0 .. min end size`. -/
theorem C05_sub_in_range {m : Mem} {v : View} {l : List Byte} (h : ViewOf m v l) (hne : l ≠ [])
    (b e : Int) (hb : INT_MIN ≤ b) (he : INT_MIN ≤ e) (hb' : b ≤ INT_MAX) (he' : e ≤ INT_MAX)
    (hr : fromEnd l.length b ≤ fromEnd l.length e ∧ fromEnd l.length b < l.length ∧
      0 ≤ fromEnd l.length e) :
    ∃ B E : Nat, (B : Int) = max (fromEnd l.length b) 0 ∧ (E : Int) = min (fromEnd l.length e) l.length ∧
      B ≤ E ∧ E ≤ l.length ∧
      strview_sub v b e = .ok (v.part B (E - B)) ∧ ViewOf m (v.part B (E - B)) ((l.take E).drop B) := by
  have hlen : 0 < l.length := List.length_pos_iff.2 hne
  rw [strview_sub_eq h.ne_zero h.size hlen h.max b e hb he hb' he', if_pos hr]
  generalize fromEnd l.length b = B at *
  generalize fromEnd l.length e = E at *
  have hB : ((max B 0).toNat : Int) = max B 0 := by omega
  have hE : ((min E l.length).toNat : Int) = min E l.length := by omega
  refine ⟨(max B 0).toNat, (min E l.length).toNat, hB, hE, by omega, by omega, ?_, ?_⟩
  · simp only [View.part, hB]
    congr 2
    omega
  · have := h.part (max B 0).toNat ((min E l.length).toNat - (max B 0).toNat) (by omega)
    rwa [← List.drop_take] at this

/-- C05. Out of range: the result is invalid. -/
theorem C05_sub_out_of_range {m : Mem} {v : View} {l : List Byte} (h : ViewOf m v l) (hne : l ≠ [])
    (b e : Int) (hb : INT_MIN ≤ b) (he : INT_MIN ≤ e) (hb' : b ≤ INT_MAX) (he' : e ≤ INT_MAX)
    (hr : fromEnd l.length e < fromEnd l.length b ∨ (l.length : Int) ≤ fromEnd l.length b ∨
      fromEnd l.length e < 0) :
    strview_sub v b e = .ok .invalid := by
  have hlen : 0 < l.length := List.length_pos_iff.2 hne
  rw [strview_sub_eq h.ne_zero h.size hlen h.max b e hb he hb' he', if_neg (by omega)]

/-- C05. A sub-view of an empty (or invalid) view is that same empty (or invalid) view. -/
theorem C05_sub_empty {m : Mem} {v : View} (h : Denotes m v []) (b e : Int) :
    strview_sub v b e = .ok v := by
  have : v.size = 0 := h.size
  obtain ⟨d, n⟩ := v
  simp only at this
  subst this
  simp [strview_sub]

example : ViewOf (memAt 1000 [97, 98, 99, 100]) ⟨1000, 4⟩ [97, 98, 99, 100] ∧
    (fromEnd 4 (-3) ≤ fromEnd 4 2147483647 ∧ fromEnd 4 (-3) < 4 ∧ 0 ≤ fromEnd 4 2147483647) ∧
    strview_sub ⟨1000, 4⟩ (-3) 2147483647 = .ok ⟨1001, 3⟩ ∧ fromEnd 4 1 < fromEnd 4 3 ∧
    strview_sub ⟨1000, 4⟩ 3 1 = .ok .invalid :=
  ⟨viewOf_memAt _ _ (by decide) (by decide) (by decide), by decide, by decide, by decide, by decide⟩

/-- C06. `strview_trim_start` removes exactly the longest prefix made of the listed characters. -/
theorem C06_trim_start {m : Mem} {v c : View} {l cs : List Byte} (h : Denotes m v l) (hc : Denotes m c cs) :
    ∃ pre rest, l = pre ++ rest ∧ (∀ x ∈ pre, x ∈ cs) ∧ (∀ x, rest.head? = some x → x ∉ cs) ∧
      strview_trim_start_strview m v c = .ok (v.part pre.length rest.length) ∧
      Denotes m (v.part pre.length rest.length) rest := by
  obtain ⟨j, hj, he, h1, h2⟩ := trim_start_loop_spec hc h.holds (v.size.toNat + 1) (by rw [h.sizeToNat]; omega)
  have e1 : (l.take j).length = j := by simp; omega
  refine ⟨l.take j, l.drop j, by simp, h1, ?_, ?_, ?_⟩
  · intro x hx
    rw [List.head?_drop] at hx
    obtain ⟨hlt, rfl⟩ := List.getElem?_eq_some_iff.1 hx
    exact h2 hlt
  · rw [strview_trim_start_strview]
    have : v = ⟨v.data, (l.length : Int)⟩ := by rw [← h.size]
    rw [this] at he ⊢
    rw [he]
    simp only [View.part, e1, List.length_drop]
  · refine { size := rfl, max := by have := h.max; simp only [List.length_drop]; omega, holds := ?_ }
    simp only [View.part, e1]
    exact h.holds.drop j hj

/-- C06. `strview_trim_end` removes exactly the longest suffix made of the listed characters. -/
theorem C06_trim_end {m : Mem} {v c : View} {l cs : List Byte} (h : Denotes m v l) (hc : Denotes m c cs) :
    ∃ rest suf, l = rest ++ suf ∧ (∀ x ∈ suf, x ∈ cs) ∧ (∀ x, rest.getLast? = some x → x ∉ cs) ∧
      strview_trim_end_strview m v c = .ok (v.part 0 rest.length) ∧
      Denotes m (v.part 0 rest.length) rest := by
  obtain ⟨j, hj, he, h1, h2⟩ := trim_end_loop_spec hc h.holds l.length (by omega) (v.size.toNat + 1)
    (by rw [h.sizeToNat]; omega)
  have e1 : (l.take j).length = j := by simp; omega
  refine ⟨l.take j, l.drop j, by simp, ?_, ?_, ?_, ?_⟩
  · intro x hx
    obtain ⟨i, hi, rfl⟩ := List.mem_iff_getElem.1 hx
    rw [List.getElem_drop]
    simp only [List.length_drop] at hi
    exact h1 _ (by omega) (by omega) (by omega)
  · intro x hx
    rw [List.getLast?_eq_getElem?, e1] at hx
    obtain ⟨hlt, rfl⟩ := List.getElem?_eq_some_iff.1 hx
    rw [e1] at hlt
    rw [List.getElem_take]
    exact h2 (by omega) (by omega)
  · rw [strview_trim_end_strview]
    have : v = ⟨v.data, (l.length : Int)⟩ := by rw [← h.size]
    rw [this] at he ⊢
    rw [he]
    simp only [View.part, e1, Int.natCast_zero, Int.add_zero]
  · refine { size := rfl, max := by have := h.max; simp only [List.length_take]; omega, holds := ?_ }
    simp only [View.part, Int.natCast_zero, Int.add_zero]
    exact h.holds.take j

/-- C06. `strview_trim` removes the longest such prefix and the longest such suffix of what is left. -/
theorem C06_trim {m : Mem} {v c : View} {l cs : List Byte} (h : Denotes m v l) (hc : Denotes m c cs) :
    ∃ pre rest suf, l = pre ++ rest ++ suf ∧ (∀ x ∈ pre, x ∈ cs) ∧ (∀ x ∈ suf, x ∈ cs) ∧
      (∀ x, rest.head? = some x → x ∉ cs) ∧ (∀ x, rest.getLast? = some x → x ∉ cs) ∧
      strview_trim_strview m v c = .ok (v.part pre.length rest.length) ∧
      Denotes m (v.part pre.length rest.length) rest := by
  obtain ⟨pre, r1, e1, p1, q1, o1, d1⟩ := C06_trim_start h hc
  obtain ⟨rest, suf, e2, p2, q2, o2, d2⟩ := C06_trim_end d1 hc
  refine ⟨pre, rest, suf, by rw [e1, e2, List.append_assoc], p1, p2, ?_, q2, ?_, ?_⟩
  · intro x hx
    apply q1
    rw [e2, List.head?_append, hx]; rfl
  · simp only [strview_trim_strview, o1, Res.bind_ok, o2]
    simp [View.part]
  · simpa [View.part] using d2

/-- C06. A valid view stays valid, even if everything is trimmed. -/
theorem C06_trim_valid {m : Mem} {v c : View} {l cs : List Byte} (h : ViewOf m v l) (hc : Denotes m c cs) :
    ∃ r, strview_trim_strview m v c = .ok r ∧ strview_is_valid r = true := by
  obtain ⟨pre, rest, suf, -, -, -, -, -, o, -⟩ := C06_trim h.toDenotes hc
  refine ⟨_, o, ?_⟩
  have := h.pos
  rw [is_valid_iff]
  simp only [View.part]
  omega

theorem trim_start_noop {m : Mem} {v c : View} {l cs : List Byte} (h : Denotes m v l) (hc : Denotes m c cs)
    (hh : ∀ x, l.head? = some x → x ∉ cs) : strview_trim_start_strview m v c = .ok v := by
  obtain ⟨pre, rest, e, p, q, o, d⟩ := C06_trim_start h hc
  have : pre = [] := by
    cases pre with
    | nil => rfl
    | cons x t => exact absurd (p x (by simp)) (hh x (by rw [e]; rfl))
  subst this
  rw [o]
  have hl : l = rest := e
  simp [View.part, ← hl, ← h.size]

theorem trim_end_noop {m : Mem} {v c : View} {l cs : List Byte} (h : Denotes m v l) (hc : Denotes m c cs)
    (hh : ∀ x, l.getLast? = some x → x ∉ cs) : strview_trim_end_strview m v c = .ok v := by
  obtain ⟨rest, suf, e, p, q, o, d⟩ := C06_trim_end h hc
  have : suf = [] := by
    rcases List.eq_nil_or_concat suf with hs | ⟨t, x, hs⟩
    · exact hs
    · subst hs
      refine absurd (p x (by simp)) (hh x ?_)
      rw [e]; simp [List.getLast?_append]
  subst this
  rw [o]
  have hl : l = rest := by simpa using e
  simp [View.part, ← hl, ← h.size]

/-- C06. Trimming is idempotent. -/
theorem C06_trim_idempotent {m : Mem} {v c : View} {l cs : List Byte} (h : Denotes m v l)
    (hc : Denotes m c cs) :
    ∃ r, strview_trim_strview m v c = .ok r ∧ strview_trim_strview m r c = .ok r := by
  obtain ⟨pre, rest, suf, -, -, -, q1, q2, o, d⟩ := C06_trim h hc
  refine ⟨_, o, ?_⟩
  rw [strview_trim_strview, trim_start_noop d hc q1, Res.bind_ok, trim_end_noop d hc q2]

/-- C06, C string forms: the set is given by a C string. -/
theorem C06_trim_cstr {m : Mem} {v : View} {p : Addr} {cs : List Byte} (hp : CString m p cs) :
    strview_trim_start_cstr m v p = strview_trim_start_strview m v ⟨p, cs.length⟩ ∧
    strview_trim_end_cstr m v p = strview_trim_end_strview m v ⟨p, cs.length⟩ ∧
    strview_trim_cstr m v p = strview_trim_strview m v ⟨p, cs.length⟩ ∧
    Denotes m ⟨p, cs.length⟩ cs := by
  simp [strview_trim_start_cstr, strview_trim_end_cstr, strview_trim_cstr, cstr_eq hp, hp.viewOf.toDenotes]

example : Denotes (memAt 1000 [32, 9, 97, 32, 98, 9, 32, 9]) ⟨1000, 6⟩ [32, 9, 97, 32, 98, 9] ∧
    Denotes (memAt 1000 [32, 9, 97, 32, 98, 9, 32, 9]) ⟨1006, 2⟩ [32, 9] ∧
    strview_trim_strview (memAt 1000 [32, 9, 97, 32, 98, 9, 32, 9]) ⟨1000, 6⟩ ⟨1006, 2⟩ = .ok ⟨1002, 3⟩ :=
  ⟨(viewOf_memAt_part 1000 _ 0 6 _ (by decide) (by decide) (by decide) (by decide) rfl).toDenotes,
   (viewOf_memAt_part 1000 _ 6 2 _ (by decide) (by decide) (by decide) (by decide) rfl).toDenotes,
   by decide +kernel⟩

end CStr
