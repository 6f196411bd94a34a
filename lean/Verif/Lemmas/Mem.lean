import Verif.Spec.View
/-! Helper lemmas about memory, `Holds`, loads and the C library readers. -/
namespace CStr

theorem Res.ite_bind {α β : Type} (c : Prop) [Decidable c] (x y : Res α) (f : α → Res β) :
    ((if c then x else y) >>= f) = (if c then x >>= f else y >>= f) := by
  split <;> rfl

theorem Holds.nil (m : Mem) (a : Addr) : Holds m a [] := by
  intro i h; simp at h

theorem Holds.cons_iff {m : Mem} {a : Addr} {b : Byte} {l : List Byte} :
    Holds m a (b :: l) ↔ rd m a = some b ∧ Holds m (a + 1) l := by
  constructor
  · intro h
    have h0 := h 0 (by simp)
    rw [List.getElem_cons_zero] at h0
    refine ⟨by simpa using h0, ?_⟩
    intro i hi
    have := h (i + 1) (by simpa using hi)
    have e : a + 1 + (i : Int) = a + ((i + 1 : Nat) : Int) := by omega
    rw [e, this]; simp
  · rintro ⟨h0, h1⟩ i hi
    cases i with
    | zero => simpa using h0
    | succ i =>
      have := h1 i (by simpa using hi)
      have e : a + 1 + (i : Int) = a + ((i + 1 : Nat) : Int) := by omega
      rw [← e, this]; simp

theorem Holds.append_iff {m : Mem} {a : Addr} {l r : List Byte} :
    Holds m a (l ++ r) ↔ Holds m a l ∧ Holds m (a + l.length) r := by
  induction l generalizing a with
  | nil => simp [Holds.nil]
  | cons b l ih =>
    simp only [List.cons_append, Holds.cons_iff, ih, and_assoc, List.length_cons]
    have e : a + 1 + (l.length : Int) = a + ((l.length + 1 : Nat) : Int) := by omega
    rw [e]

theorem Holds.take {m : Mem} {a : Addr} {l : List Byte} (h : Holds m a l) (n : Nat) :
    Holds m a (l.take n) := by
  have := h
  rw [← List.take_append_drop n l, Holds.append_iff] at this
  exact this.1

theorem Holds.drop {m : Mem} {a : Addr} {l : List Byte} (h : Holds m a l) (n : Nat) (hn : n ≤ l.length) :
    Holds m (a + n) (l.drop n) := by
  have := h
  rw [← List.take_append_drop n l, Holds.append_iff] at this
  have h2 := this.2
  rwa [List.length_take, Nat.min_eq_left hn] at h2

theorem Holds.load_head {m : Mem} {a : Addr} {b : Byte} {l : List Byte} (h : Holds m a (b :: l)) :
    load m a = .ok b := by
  simp [load, (Holds.cons_iff.1 h).1]

theorem Holds.load {m : Mem} {a : Addr} {l : List Byte} (h : Holds m a l) (i : Nat) (hi : i < l.length) :
    load m (a + i) = .ok l[i] := by
  simp [CStr.load, h i hi]

theorem Holds.load' {m : Mem} {a : Addr} {l : List Byte} (h : Holds m a l) (x : Addr) (i : Nat)
    (hi : i < l.length) (e : x = a + i) : CStr.load m x = .ok l[i] := by
  subst e; exact h.load i hi

theorem Holds.unique {m : Mem} {a : Addr} {l r : List Byte} (h : Holds m a l) (h' : Holds m a r)
    (e : l.length = r.length) : l = r := by
  apply List.ext_getElem e
  intro i h1 h2
  have a1 := h i h1
  have a2 := h' i h2
  rw [a1] at a2
  exact Option.some.inj a2

theorem load_congr {m m' : Mem} {a : Addr} (h : rd m a = rd m' a) : load m a = load m' a := by
  simp [load, h]

theorem readBytes_eq {m : Mem} {a : Addr} {l : List Byte} (h : Holds m a l) :
    readBytes m a l.length = .ok l := by
  induction l generalizing a with
  | nil => rfl
  | cons b l ih =>
    simp only [List.length_cons, readBytes, h.load_head, Res.bind_ok]
    rw [ih (Holds.cons_iff.1 h).2]
    rfl

theorem memcmp_eq {m : Mem} {a b : Addr} {l r : List Byte} (ha : Holds m a l) (hb : Holds m b r)
    (e : l.length = r.length) : memcmp m a b l.length = .ok (lexDiff l r) := by
  have := readBytes_eq hb
  rw [← e] at this
  simp [memcmp, readBytes_eq ha, this]

theorem lexDiff_eq_zero {l r : List Byte} (e : l.length = r.length) : lexDiff l r = 0 ↔ l = r := by
  induction l generalizing r with
  | nil => cases r <;> simp_all [lexDiff]
  | cons x l ih =>
    cases r with
    | nil => simp at e
    | cons y r =>
      simp only [lexDiff, List.cons.injEq]
      split
      · rename_i h; subst h; simp [ih (r := r) (by simpa using e)]
      · rename_i h
        constructor
        · intro h0
          exact absurd (UInt8.toNat_inj.1 (by omega)) h
        · rintro ⟨h1, _⟩; exact absurd h1 h

theorem byte_lt_iff {x y : Byte} : x < y ↔ x.toNat < y.toNat := UInt8.lt_iff_toNat_lt

/-- Sign of `lexDiff` on the common prefix decides the lexicographic order when it is not 0. -/
theorem lexDiff_lt {l r : List Byte} (n : Nat) (hl : n ≤ l.length) (hr : n ≤ r.length)
    (h : lexDiff (l.take n) (r.take n) < 0) : l < r := by
  induction n generalizing l r with
  | zero => simp [lexDiff] at h
  | succ n ih =>
    cases l with
    | nil => simp at hl
    | cons x l =>
      cases r with
      | nil => simp at hr
      | cons y r =>
        simp only [List.take_succ_cons, lexDiff] at h
        rw [List.cons_lt_cons_iff]
        split at h
        · rename_i e; right; exact ⟨e, ih (by simpa using hl) (by simpa using hr) h⟩
        · left; rw [byte_lt_iff]; omega

theorem lexDiff_gt {l r : List Byte} (n : Nat) (hl : n ≤ l.length) (hr : n ≤ r.length)
    (h : 0 < lexDiff (l.take n) (r.take n)) : r < l := by
  induction n generalizing l r with
  | zero => simp [lexDiff] at h
  | succ n ih =>
    cases l with
    | nil => simp at hl
    | cons x l =>
      cases r with
      | nil => simp at hr
      | cons y r =>
        simp only [List.take_succ_cons, lexDiff] at h
        rw [List.cons_lt_cons_iff]
        split at h
        · rename_i e; right; exact ⟨e.symm, ih (by simpa using hl) (by simpa using hr) h⟩
        · left; rw [byte_lt_iff]; omega

/-- A proper prefix is lexicographically smaller. -/
theorem prefix_lt {l r : List Byte} (h : l.length < r.length) (e : r.take l.length = l) : l < r := by
  induction l generalizing r with
  | nil =>
    cases r with
    | nil => simp at h
    | cons y r => exact List.nil_lt_cons _ _
  | cons x l ih =>
    cases r with
    | nil => simp at h
    | cons y r =>
      simp only [List.length_cons, List.take_succ_cons, List.cons.injEq] at e
      rw [List.cons_lt_cons_iff]
      right
      exact ⟨e.1.symm, ih (by simpa using h) e.2⟩

/-- First difference after upper-casing. -/
theorem memcmp_nocase_zero {m : Mem} {a b : Addr} {l r : List Byte} (ha : Holds m a l) (hb : Holds m b r)
    (e : l.length = r.length) :
    ∃ d, memcmp_nocase m a b l.length = .ok d ∧ (d = 0 ↔ l.map toUpper = r.map toUpper) := by
  induction l generalizing a b r with
  | nil =>
    cases r with
    | nil => exact ⟨0, by simp [memcmp_nocase]⟩
    | cons y r => simp at e
  | cons x l ih =>
    cases r with
    | nil => simp at e
    | cons y r =>
      have h1 := Holds.cons_iff.1 ha
      have h2 := Holds.cons_iff.1 hb
      simp only [List.length_cons, memcmp_nocase, ha.load_head, hb.load_head, Res.bind_ok]
      split
      · rename_i h
        obtain ⟨d, hd, hz⟩ := ih h1.2 h2.2 (by simpa using e)
        refine ⟨d, hd, ?_⟩
        rw [hz]
        have : toUpper x = toUpper y := UInt8.toNat_inj.1 (by omega)
        simp [this]
      · rename_i h
        refine ⟨_, rfl, ?_⟩
        constructor
        · intro h0; exact absurd h0 h
        · intro h0
          simp only [List.map_cons, List.cons.injEq] at h0
          rw [h0.1] at h; omega

theorem strlen_eq {m : Mem} {a : Addr} {l : List Byte} (h : Holds m a (l ++ [0])) (h0 : (0 : Byte) ∉ l)
    (n : Nat) (hn : l.length < n) : strlen m a n = .ok l.length := by
  induction l generalizing a n with
  | nil =>
    cases n with
    | zero => omega
    | succ n =>
      have := Holds.load_head (l := []) (b := 0) (a := a) (m := m) (by simpa using h)
      simp [strlen, this]
  | cons x l ih =>
    cases n with
    | zero => omega
    | succ n =>
      have hx : load m a = .ok x := Holds.load_head (l := l ++ [0]) (by simpa using h)
      have ht : Holds m (a + 1) (l ++ [0]) := (Holds.cons_iff.1 (by simpa using h)).2
      have hx0 : x ≠ 0 := by intro e; apply h0; simp [e]
      have := ih ht (by intro e; apply h0; simp [e]) n (by simpa using hn)
      simp [strlen, hx, hx0, this]

theorem CString.ne_zero {m : Mem} {p : Addr} {l : List Byte} (h : CString m p l) : p ≠ 0 := by
  have := h.pos; omega

theorem cstr_eq {m : Mem} {p : Addr} {l : List Byte} (h : CString m p l) : cstr m p = .ok ⟨p, l.length⟩ := by
  have hm := h.max
  simp only [INT_MAX] at hm
  simp only [cstr, h.ne_zero, if_false]
  rw [strlen_eq h.holds h.noNul _ (by omega)]
  rfl

theorem CString.viewOf {m : Mem} {p : Addr} {l : List Byte} (h : CString m p l) :
    ViewOf m ⟨p, l.length⟩ l :=
  { size := rfl, max := h.max, holds := (Holds.append_iff.1 h.holds).1, pos := h.pos }

theorem is_valid_iff {v : View} : strview_is_valid v = true ↔ v.data ≠ 0 := by simp [strview_is_valid]

theorem cstr_null (m : Mem) : cstr m 0 = .ok .invalid := by simp [cstr]

theorem ViewOf.ne_zero {m : Mem} {v : View} {l : List Byte} (h : ViewOf m v l) : v.data ≠ 0 := by
  have := h.pos; omega

theorem Denotes.invalid (m : Mem) : Denotes m .invalid [] :=
  { size := rfl, max := by simp [INT_MAX], holds := Holds.nil _ _ }

theorem Denotes.sizeT {m : Mem} {v : View} {l : List Byte} (h : Denotes m v l) :
    CStr.sizeT v.size = l.length := by
  simp [CStr.sizeT, h.size]; omega

theorem Denotes.sizeToNat {m : Mem} {v : View} {l : List Byte} (h : Denotes m v l) :
    v.size.toNat = l.length := by
  simp [h.size]

theorem sizeT_nat (n : Nat) : sizeT (n : Int) = n := by
  simp [sizeT]; omega

theorem chk_ok {x : Int} (h1 : INT_MIN ≤ x) (h2 : x ≤ INT_MAX) : chk x = .ok x := by
  simp [chk, h1, h2]

/-- Sub-range of a view. -/
theorem ViewOf.part {m : Mem} {v : View} {l : List Byte} (h : ViewOf m v l) (i n : Nat)
    (hi : i + n ≤ l.length) : ViewOf m (v.part i n) ((l.drop i).take n) := by
  refine { size := ?_, max := ?_, holds := ?_, pos := ?_ }
  · simp [View.part, List.length_take, List.length_drop]; omega
  · have := h.max
    rw [List.length_take, List.length_drop]; omega
  · exact (h.holds.drop i (by omega)).take n
  · have := h.pos; simp only [View.part]; omega

theorem load_litSeg (m : Mem) (i : Nat) (hi : i < litSeg.length) :
    load m (litBase + i) = .ok litSeg[i] := by
  have h1 : ¬ (litBase + (i : Int) ≤ 0) := by simp only [litBase]; omega
  have h2 : litBase ≤ litBase + (i : Int) := by omega
  have h3 : (litBase + (i : Int) - litBase).toNat = i := by omega
  simp only [load, rd, h1, h2, h3, if_false, if_true]
  rw [List.getElem?_eq_getElem hi]

theorem holds_lit (m : Mem) (i : Nat) (l : List Byte) (h : l <+: litSeg.drop i) (hi : i ≤ litSeg.length) :
    Holds m (litBase + i) l := by
  intro j hj
  obtain ⟨t, ht⟩ := h
  have hlen : i + j < litSeg.length := by
    have := congrArg List.length ht
    rw [List.length_append, List.length_drop] at this; omega
  have h1 : ¬ (litBase + (i : Int) + j ≤ 0) := by simp only [litBase]; omega
  have h2 : litBase ≤ litBase + (i : Int) + j := by omega
  have h3 : (litBase + (i : Int) + j - litBase).toNat = i + j := by omega
  simp only [rd, h1, h2, h3, if_false, if_true]
  rw [List.getElem?_eq_getElem hlen]
  have : (litSeg.drop i)[j]'(by rw [List.length_drop]; omega) = l[j] := by
    simp only [← ht]
    rw [List.getElem_append_left hj]
  rw [← this, List.getElem_drop]

/-- A literal is a C string. -/
theorem cstring_lit (m : Mem) (i : Nat) (l : List Byte) (h : (l ++ [0]) <+: litSeg.drop i)
    (hi : i ≤ litSeg.length) (h0 : (0 : Byte) ∉ l) : CString m (litBase + i) l := by
  refine { pos := by simp only [litBase]; omega, max := ?_, noNul := h0, holds := holds_lit m i _ h hi }
  have := h.length_le
  have e : litSeg.length = 53 := rfl
  rw [List.length_drop, List.length_append] at this
  simp only [INT_MAX]; omega

end CStr
