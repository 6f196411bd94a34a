import Verif.Lemmas.Mem
/-! Helper lemmas about the loops of strview.c. -/
namespace CStr

/-! ### contains_char -/

theorem contains_char_loop_found (m : Mem) (e : Addr) (c : Byte) (k : Nat) (p : Addr) :
    contains_char_loop m e c (k + 1) p true = .ok true := by
  simp [contains_char_loop]

theorem contains_char_loop_eq {m : Mem} {a : Addr} {l : List Byte} (h : Holds m a l) (c : Byte) (k : Nat)
    (hk : l.length < k) :
    contains_char_loop m (a + l.length) c k a false = .ok (decide (c ∈ l)) := by
  induction l generalizing a k with
  | nil =>
    cases k with
    | zero => omega
    | succ k => simp [contains_char_loop]
  | cons x l ih =>
    cases k with
    | zero => omega
    | succ k =>
      have hl := (Holds.cons_iff.1 h).2
      have hne : a ≠ a + ((x :: l).length : Int) := by simp only [List.length_cons]; omega
      simp only [contains_char_loop, h.load_head, Res.bind_ok]
      rw [if_pos ⟨by simp, hne⟩]
      have e : a + ((x :: l).length : Int) = a + 1 + l.length := by simp only [List.length_cons]; omega
      rw [e]
      by_cases hx : x = c
      · subst hx
        cases k with
        | zero => simp at hk
        | succ k => simp [contains_char_loop_found]
      · have := ih hl k (by simpa using hk)
        simp only [hx, decide_false]
        rw [this]
        simp [Ne.symm hx]

theorem contains_char_eq {m : Mem} {v : View} {l : List Byte} (h : Denotes m v l) (c : Byte) :
    contains_char m v c = .ok (decide (c ∈ l)) := by
  simp only [contains_char, h.size]
  exact contains_char_loop_eq h.holds c _ (by omega)

/-! ### trim -/

theorem trim_start_loop_spec {m : Mem} {chars : View} {cs : List Byte} (hc : Denotes m chars cs)
    {a : Addr} {l : List Byte} (h : Holds m a l) (k : Nat) (hk : l.length < k) :
    ∃ j, j ≤ l.length ∧ trim_start_loop m chars k ⟨a, l.length⟩ = .ok ⟨a + j, (l.length - j : Nat)⟩
      ∧ (∀ x ∈ l.take j, x ∈ cs) ∧ (∀ hj : j < l.length, l[j] ∉ cs) := by
  induction l generalizing a k with
  | nil =>
    cases k with
    | zero => omega
    | succ k => exact ⟨0, by simp [trim_start_loop]⟩
  | cons x l ih =>
    cases k with
    | zero => omega
    | succ k =>
      have hl := (Holds.cons_iff.1 h).2
      have hne : ((x :: l).length : Int) ≠ 0 := by simp only [List.length_cons]; omega
      simp only [trim_start_loop, h.load_head, contains_char_eq hc, Res.bind_ok]
      rw [if_pos hne]
      by_cases hx : x ∈ cs
      · obtain ⟨j, hj, he, h1, h2⟩ := ih hl k (by simpa using hk)
        refine ⟨j + 1, by simpa using hj, ?_, ?_, ?_⟩
        · simp only [hx, decide_true, if_true]
          have e : ((x :: l).length : Int) - 1 = l.length := by simp only [List.length_cons]; omega
          rw [e, he]
          have e1 : a + 1 + (j : Int) = a + ((j + 1 : Nat) : Int) := by omega
          have e2 : l.length - j = (x :: l).length - (j + 1) := by simp only [List.length_cons]; omega
          rw [e1, e2]
        · simpa [hx] using h1
        · intro hj'
          simp only [List.getElem_cons_succ]
          exact h2 _
      · refine ⟨0, by simp, ?_, by simp, ?_⟩
        · simp [hx]
        · intro _
          simpa using hx

theorem trim_end_loop_spec {m : Mem} {chars : View} {cs : List Byte} (hc : Denotes m chars cs)
    {a : Addr} {l : List Byte} (h : Holds m a l) (n : Nat) (hn : n ≤ l.length) (k : Nat) (hk : n < k) :
    ∃ j, j ≤ n ∧ trim_end_loop m chars k ⟨a, n⟩ = .ok ⟨a, j⟩
      ∧ (∀ i (hi : i < l.length), j ≤ i → i < n → l[i] ∈ cs)
      ∧ (∀ hj : j - 1 < l.length, 0 < j → l[j - 1] ∉ cs) := by
  induction n generalizing k with
  | zero =>
    cases k with
    | zero => omega
    | succ k => exact ⟨0, by simp, by simp [trim_end_loop], by intros; omega, by simp⟩
  | succ n ih =>
    cases k with
    | zero => omega
    | succ k =>
      have hne : ((n + 1 : Nat) : Int) ≠ 0 := by omega
      have e : ((n + 1 : Nat) : Int) - 1 = n := by omega
      simp only [trim_end_loop, e]
      rw [if_pos hne, h.load n (by omega)]
      simp only [contains_char_eq hc, Res.bind_ok]
      by_cases hx : l[n]'(by omega) ∈ cs
      · obtain ⟨j, hj, he, h1, h2⟩ := ih (by omega) k (by omega)
        refine ⟨j, by omega, ?_, ?_, h2⟩
        · simp only [hx, decide_true, if_true]; exact he
        · intro i hi hji hin
          by_cases hin' : i < n
          · exact h1 i hi hji hin'
          · have : i = n := by omega
            subst this; exact hx
      · refine ⟨n + 1, by omega, ?_, by intros; omega, ?_⟩
        · simp [hx]
        · intro _ _; simpa using hx

/-! ### find_first / find_last -/

/-- A comparison function decides equality of the images under `f`. -/
def CompOK (comp : CompFunc) (f : Byte → Byte) : Prop :=
  ∀ (m : Mem) (a b : Addr) (l r : List Byte), Holds m a l → Holds m b r → l.length = r.length →
    ∃ d, comp m a b l.length = .ok d ∧ (d = 0 ↔ l.map f = r.map f)

theorem compOK_memcmp : CompOK memcmp id := by
  intro m a b l r ha hb e
  exact ⟨_, memcmp_eq ha hb e, by simpa using lexDiff_eq_zero e⟩

theorem compOK_nocase : CompOK memcmp_nocase toUpper := by
  intro m a b l r ha hb e
  exact memcmp_nocase_zero ha hb e

/-- The bytes of `h` at offset `i` match `n` under `f`. -/
def MatchAt (f : Byte → Byte) (n h : List Byte) (i : Nat) : Prop :=
  i + n.length ≤ h.length ∧ ((h.drop i).take n.length).map f = n.map f

theorem comp_at {comp : CompFunc} {f : Byte → Byte} (hc : CompOK comp f) {m : Mem} {a b : Addr}
    {h n : List Byte} (hh : Holds m a h) (hn : Holds m b n) (i : Nat) (hi : i + n.length ≤ h.length) :
    ∃ d, comp m (a + i) b n.length = .ok d ∧ (d = 0 ↔ MatchAt f n h i) := by
  have h1 : Holds m (a + i) ((h.drop i).take n.length) := (hh.drop i (by omega)).take _
  have e : ((h.drop i).take n.length).length = n.length := by
    rw [List.length_take, List.length_drop]; omega
  obtain ⟨d, hd, hz⟩ := hc m (a + i) b _ n h1 hn e
  rw [e] at hd
  exact ⟨d, hd, by rw [hz]; simp [MatchAt, hi]⟩

theorem find_first_loop_spec {comp : CompFunc} {f : Byte → Byte} (hc : CompOK comp f) {m : Mem}
    {v w : View} {h n : List Byte} (hv : Denotes m v h) (hw : Denotes m w n)
    (k i : Nat) (hi : i ≤ h.length + 1) (hk : h.length + 2 - i < k) (hno : ∀ j < i, ¬ MatchAt f n h j) :
    (∃ j : Nat, find_first_loop m comp v w k (v.data + i) false = .ok (v.data + j, true) ∧
        MatchAt f n h j ∧ ∀ t < j, ¬ MatchAt f n h t) ∨
    (∃ p, find_first_loop m comp v w k (v.data + i) false = .ok (p, false) ∧ ∀ t, ¬ MatchAt f n h t) := by
  induction k generalizing i with
  | zero => omega
  | succ k ih =>
    by_cases hg : i + n.length ≤ h.length
    · have hcond : v.data + v.size - (v.data + (i : Int)) ≥ w.size := by
        rw [hv.size, hw.size]; omega
      obtain ⟨d, hd, hz⟩ := comp_at hc hv.holds hw.holds i hg
      simp only [find_first_loop]
      rw [if_pos ⟨hcond, by simp⟩, hw.sizeT, hd]
      simp only [Res.bind_ok]
      by_cases hd0 : d = 0
      · left
        refine ⟨i, ?_, hz.1 hd0, hno⟩
        rw [if_pos hd0]
        cases k with
        | zero => omega
        | succ k => simp [find_first_loop]
      · rw [if_neg hd0]
        have e : v.data + (i : Int) + 1 = v.data + ((i + 1 : Nat) : Int) := by omega
        rw [e]
        apply ih (i + 1) (by omega) (by omega)
        intro j hj
        by_cases hji : j < i
        · exact hno j hji
        · have : j = i := by omega
          subst this
          intro hm; exact hd0 (hz.2 hm)
    · right
      refine ⟨v.data + i, ?_, ?_⟩
      · simp only [find_first_loop]
        rw [if_neg]
        intro hcon
        have := hcon.1
        rw [hv.size, hw.size] at this
        omega
      · intro t ht
        by_cases hti : t < i
        · exact hno t hti ht
        · have := ht.1; omega

theorem find_first_spec {comp : CompFunc} {f : Byte → Byte} (hc : CompOK comp f) {m : Mem}
    {v w : View} {h n : List Byte} (hv : ViewOf m v h) (hw : ViewOf m w n) :
    (∃ j, find_first m comp v w = .ok (v.part j n.length) ∧
        MatchAt f n h j ∧ ∀ t < j, ¬ MatchAt f n h t) ∨
    (find_first m comp v w = .ok .invalid ∧ ∀ t, ¬ MatchAt f n h t) := by
  have := find_first_loop_spec hc hv.toDenotes hw.toDenotes (v.size.toNat + 3) 0 (by omega)
    (by rw [hv.sizeToNat]; omega) (by intro j hj; omega)
  simp only [Int.natCast_zero, Int.add_zero] at this
  simp only [find_first, ne_eq, hv.ne_zero, hw.ne_zero, not_false_eq_true, and_self, if_true]
  rcases this with ⟨j, hj, hm, hno⟩ | ⟨p, hp, hno⟩
  · left
    refine ⟨j, ?_, hm, hno⟩
    rw [hj]
    simp [View.part, hw.size]
  · right
    refine ⟨?_, hno⟩
    rw [hp]
    simp

theorem find_last_loop_spec {comp : CompFunc} {f : Byte → Byte} (hc : CompOK comp f) {m : Mem}
    {v w : View} {h n : List Byte} (hv : Denotes m v h) (hw : Denotes m w n)
    (k : Nat) (i : Int) (hi : i + n.length ≤ h.length) (hk : i.toNat + 2 < k)
    (hno : ∀ j : Nat, i < j → ¬ MatchAt f n h j) :
    (∃ j : Nat, find_last_loop m comp v w k (v.data + i) false = .ok (v.data + j, true) ∧
        MatchAt f n h j ∧ ∀ t > j, ¬ MatchAt f n h t) ∨
    (∃ p, find_last_loop m comp v w k (v.data + i) false = .ok (p, false) ∧ ∀ t, ¬ MatchAt f n h t) := by
  induction k generalizing i with
  | zero => omega
  | succ k ih =>
    by_cases hg : 0 ≤ i
    · obtain ⟨j, rfl⟩ := Int.eq_ofNat_of_zero_le hg
      have hcond : v.data + (j : Int) ≥ v.data := by omega
      obtain ⟨d, hd, hz⟩ := comp_at hc hv.holds hw.holds j (by omega)
      simp only [find_last_loop]
      rw [if_pos ⟨hcond, by simp⟩, hw.sizeT, hd]
      simp only [Res.bind_ok]
      by_cases hd0 : d = 0
      · left
        refine ⟨j, ?_, hz.1 hd0, fun t ht => hno t (by omega)⟩
        rw [if_pos hd0]
        cases k with
        | zero => omega
        | succ k => simp [find_last_loop]
      · rw [if_neg hd0]
        have e : v.data + (j : Int) - 1 = v.data + ((j : Int) - 1) := by omega
        rw [e]
        by_cases hj0 : j = 0
        · subst hj0
          right
          refine ⟨v.data + (((0 : Nat) : Int) - 1), ?_, ?_⟩
          · cases k with
            | zero => omega
            | succ k =>
              simp only [find_last_loop]
              rw [if_neg]
              intro hcon; have := hcon.1; omega
          · intro t
            by_cases ht : t = 0
            · subst ht; intro hm; exact hd0 (hz.2 hm)
            · exact hno t (by omega)
        · apply ih ((j : Int) - 1) (by omega) (by omega)
          intro t ht
          by_cases hji : (j : Int) < t
          · exact hno t hji
          · have : t = j := by omega
            subst this
            intro hm; exact hd0 (hz.2 hm)
    · right
      refine ⟨v.data + i, ?_, ?_⟩
      · simp only [find_last_loop]
        rw [if_neg]
        intro hcon
        have := hcon.1
        omega
      · intro t
        exact hno t (by omega)

theorem find_last_spec {comp : CompFunc} {f : Byte → Byte} (hc : CompOK comp f) {m : Mem}
    {v w : View} {h n : List Byte} (hv : ViewOf m v h) (hw : ViewOf m w n)
    (hlow : (n.length : Int) ≤ v.data + h.length) :
    (∃ j, find_last m comp v w = .ok (v.part j n.length) ∧
        MatchAt f n h j ∧ ∀ t > j, ¬ MatchAt f n h t) ∨
    (find_last m comp v w = .ok .invalid ∧ ∀ t, ¬ MatchAt f n h t) := by
  have hm1 := hv.max
  have hm2 := hw.max
  simp only [INT_MAX] at hm1 hm2
  have hd : v.size - w.size = (h.length : Int) - n.length := by rw [hv.size, hw.size]
  have hchk : chk ((h.length : Int) - n.length) = .ok ((h.length : Int) - n.length) :=
    chk_ok (by simp only [INT_MIN]; omega) (by simp only [INT_MAX]; omega)
  have hwrap : wrapPtr (v.data + ((h.length : Int) - n.length)) = v.data + ((h.length : Int) - n.length) := by
    simp only [wrapPtr]; rw [if_neg]; omega
  have := find_last_loop_spec hc hv.toDenotes hw.toDenotes
    ((v.data + ((h.length : Int) - n.length) - v.data).toNat + 3) ((h.length : Int) - n.length) (by omega)
    (by omega) (by intro j hj hmt; have := hmt.1; omega)
  simp only [find_last, hd, hchk, Res.bind_ok, hwrap, ne_eq, hv.ne_zero, hw.ne_zero, not_false_eq_true,
    and_self, if_true]
  rcases this with ⟨j, hj, hm, hno⟩ | ⟨p, hp, hno⟩
  · left
    refine ⟨j, ?_, hm, hno⟩
    rw [hj]
    simp [View.part, hw.size]
  · right
    refine ⟨?_, hno⟩
    rw [hp]
    simp

/-! ### delimiter scans -/

/-- Parity of the number of double quotes, as tracked by `in_quotes` (only with `exclude_quotes`). -/
def quoteParity (excl : Bool) (l : List Byte) : Bool := excl && (l.count 34 % 2 == 1)

theorem quoteParity_snoc (excl : Bool) (l : List Byte) (b : Byte) :
    quoteParity excl (l ++ [b]) = (quoteParity excl l ^^ (b == 34 && excl)) := by
  cases excl
  · simp [quoteParity]
  · simp only [quoteParity, Bool.true_and, List.count_append, List.count_singleton, Bool.and_true]
    by_cases hb : b = 34
    · subst hb
      rcases Nat.mod_two_eq_zero_or_one (l.count 34) with h | h
      · have : (l.count 34 + 1) % 2 = 1 := by omega
        simp [h, this]
      · have : (l.count 34 + 1) % 2 = 0 := by omega
        simp [h, this]
    · have : (b == 34) = false := by simp [hb]
      simp [this]

theorem quoteParity_cons (excl : Bool) (l : List Byte) (b : Byte) :
    quoteParity excl (b :: l) = (quoteParity excl l ^^ (b == 34 && excl)) := by
  have : quoteParity excl (b :: l) = quoteParity excl (l ++ [b]) := by
    simp [quoteParity, List.count_cons, List.count_append]
  rw [this, quoteParity_snoc]

/-- Position `i` of `l` is a split point when scanning forwards. -/
def FwdPoint (excl : Bool) (ds l : List Byte) (i : Nat) : Prop :=
  ∃ h : i < l.length, l[i] ∈ ds ∧ quoteParity excl (l.take (i + 1)) = false

/-- Position `i` of `l` is a split point when scanning backwards. -/
def BwdPoint (excl : Bool) (ds l : List Byte) (i : Nat) : Prop :=
  ∃ h : i < l.length, l[i] ∈ ds ∧ quoteParity excl (l.drop i) = false

theorem split_first_loop_spec {m : Mem} {a : Addr} {l : List Byte} (h : Holds m a l) {d : View}
    {ds : List Byte} (hd : Denotes m d ds) (excl : Bool) (k i : Nat) (hi : i ≤ l.length)
    (hk : l.length - i + 1 < k) (hno : ∀ j < i, ¬ FwdPoint excl ds l j) :
    (∃ j : Nat, split_first_loop m (a + l.length) d excl k (a + i) (quoteParity excl (l.take i)) false
        = .ok (a + j, true) ∧ FwdPoint excl ds l j ∧ ∀ t < j, ¬ FwdPoint excl ds l t) ∨
    (∃ p, split_first_loop m (a + l.length) d excl k (a + i) (quoteParity excl (l.take i)) false
        = .ok (p, false) ∧ ∀ t, ¬ FwdPoint excl ds l t) := by
  induction k generalizing i with
  | zero => omega
  | succ k ih =>
    by_cases hil : i < l.length
    · have hne : a + (i : Int) ≠ a + l.length := by omega
      simp only [split_first_loop]
      rw [if_pos ⟨hne, by simp⟩, h.load i hil]
      simp only [Res.bind_ok, contains_char_eq hd]
      have hq : quoteParity excl (l.take (i + 1)) =
          (quoteParity excl (l.take i) ^^ (l[i] == 34 && excl)) := by
        rw [List.take_succ_eq_append_getElem hil, quoteParity_snoc]
      rw [← hq]
      by_cases hp : FwdPoint excl ds l i
      · left
        obtain ⟨_, hin, hpar⟩ := hp
        refine ⟨i, ?_, ⟨hil, hin, hpar⟩, hno⟩
        simp only [hpar, Bool.not_false, if_true, hin, decide_true]
        cases k with
        | zero => omega
        | succ k => simp [split_first_loop]
      · have e : a + (i : Int) + 1 = a + ((i + 1 : Nat) : Int) := by omega
        have := ih (i + 1) (by omega) (by omega) (by
          intro j hj
          by_cases hji : j < i
          · exact hno j hji
          · have : j = i := by omega
            subst this; exact hp)
        cases hpar : quoteParity excl (l.take (i + 1)) with
        | false =>
          have hin : l[i] ∉ ds := fun hin => hp ⟨hil, hin, hpar⟩
          rw [hpar, ← e] at this
          simpa [hin] using this
        | true =>
          rw [hpar, ← e] at this
          simpa using this
    · have hi' : i = l.length := by omega
      right
      refine ⟨a + i, ?_, ?_⟩
      · simp only [split_first_loop]
        rw [if_neg]
        intro hcon
        exact hcon.1 (by rw [hi'])
      · intro t ht
        have := ht.1
        exact hno t (by omega) ht

theorem split_first_delim_spec {m : Mem} {v d : View} {l ds : List Byte} (h : ViewOf m v l)
    (hd : ViewOf m d ds) (excl : Bool) :
    (∃ i, FwdPoint excl ds l i ∧ (∀ t < i, ¬ FwdPoint excl ds l t) ∧
      split_first_delim m v d excl = .ok (v.part 0 i,
        ⟨if i + 1 = l.length then v.data + i else v.data + (i + 1 : Nat), (l.length - (i + 1) : Nat)⟩)) ∨
    ((∀ t, ¬ FwdPoint excl ds l t) ∧ split_first_delim m v d excl = .ok (v, .invalid)) := by
  have := split_first_loop_spec h.holds hd.toDenotes excl (v.size.toNat + 2) 0 (by omega)
    (by rw [h.sizeToNat]; omega) (by intro j hj; omega)
  have hq0 : quoteParity excl (l.take 0) = false := by simp [quoteParity]
  rw [hq0] at this
  simp only [Int.natCast_zero, Int.add_zero] at this
  simp only [split_first_delim, ne_eq, h.ne_zero, hd.ne_zero, not_false_eq_true, and_self, if_true, h.size]
  rw [h.size] at this
  rcases this with ⟨i, hi, hp, hno⟩ | ⟨p, hp, hno⟩
  · left
    refine ⟨i, hp, hno, ?_⟩
    rw [hi]
    have hil := hp.1
    simp only [Res.bind_ok, if_true]
    have e1 : v.data + (i : Int) - v.data = i := by omega
    rw [e1]
    have e2 : (l.length : Int) - i - 1 = ((l.length - (i + 1) : Nat) : Int) := by omega
    rw [e2]
    have e4 : v.data + (i : Int) + 1 = v.data + ((i + 1 : Nat) : Int) := by omega
    rw [e4]
    by_cases hz : i + 1 = l.length
    · have : l.length - (i + 1) = 0 := by omega
      simp [View.part, hz]
    · have : l.length - (i + 1) ≠ 0 := by omega
      have e3 : ¬ (((l.length - (i + 1) : Nat) : Int) = 0) := by omega
      simp only [e3, not_false_eq_true, if_true, hz, if_false, View.part]
      simp
  · right
    refine ⟨hno, ?_⟩
    rw [hp]
    simp

theorem split_last_loop_spec {m : Mem} {a : Addr} {l : List Byte} (h : Holds m a l) {d : View}
    {ds : List Byte} (hd : Denotes m d ds) (excl : Bool) (k i : Nat) (hi : i ≤ l.length)
    (hk : i + 1 < k) (hno : ∀ j, i ≤ j → ¬ BwdPoint excl ds l j) :
    (∃ j : Nat, split_last_loop m (a - 1) d excl k (a + ((i : Int) - 1)) (quoteParity excl (l.drop i)) false
        = .ok (a + j, true) ∧ BwdPoint excl ds l j ∧ ∀ t > j, ¬ BwdPoint excl ds l t) ∨
    (∃ p, split_last_loop m (a - 1) d excl k (a + ((i : Int) - 1)) (quoteParity excl (l.drop i)) false
        = .ok (p, false) ∧ ∀ t, ¬ BwdPoint excl ds l t) := by
  induction k generalizing i with
  | zero => omega
  | succ k ih =>
    cases i with
    | succ i =>
      have hil : i < l.length := by omega
      have e0 : a + (((i + 1 : Nat) : Int) - 1) = a + i := by omega
      have hne : a + (i : Int) ≠ a - 1 := by omega
      rw [e0]
      simp only [split_last_loop]
      rw [if_pos ⟨hne, by simp⟩, h.load i hil]
      simp only [Res.bind_ok, contains_char_eq hd]
      have hq : quoteParity excl (l.drop i) =
          (quoteParity excl (l.drop (i + 1)) ^^ (l[i] == 34 && excl)) := by
        rw [List.drop_eq_getElem_cons hil, quoteParity_cons]
      rw [← hq]
      by_cases hp : BwdPoint excl ds l i
      · left
        obtain ⟨_, hin, hpar⟩ := hp
        refine ⟨i, ?_, ⟨hil, hin, hpar⟩, fun t ht => hno t (by omega)⟩
        simp only [hpar, Bool.not_false, if_true, hin, decide_true]
        cases k with
        | zero => omega
        | succ k => simp [split_last_loop]
      · have e : a + (i : Int) - 1 = a + ((i : Int) - 1) := by omega
        have := ih i (by omega) (by omega) (by
          intro j hj
          by_cases hji : i + 1 ≤ j
          · exact hno j hji
          · have : j = i := by omega
            subst this; exact hp)
        cases hpar : quoteParity excl (l.drop i) with
        | false =>
          have hin : l[i] ∉ ds := fun hin => hp ⟨hil, hin, hpar⟩
          rw [hpar, ← e] at this
          simpa [hin] using this
        | true =>
          rw [hpar, ← e] at this
          simpa using this
    | zero =>
      right
      refine ⟨a + (((0 : Nat) : Int) - 1), ?_, fun t => hno t (by omega)⟩
      simp only [split_last_loop]
      rw [if_neg]
      intro hcon
      exact hcon.1 (by omega)

theorem split_last_delim_spec {m : Mem} {v d : View} {l ds : List Byte} (h : ViewOf m v l)
    (hd : ViewOf m d ds) (excl : Bool) :
    (∃ i, BwdPoint excl ds l i ∧ (∀ t > i, ¬ BwdPoint excl ds l t) ∧
      split_last_delim m v d excl = .ok (
        ⟨if i + 1 = l.length then v.data + i else v.data + (i + 1 : Nat), (l.length - (i + 1) : Nat)⟩,
        v.part 0 i)) ∨
    ((∀ t, ¬ BwdPoint excl ds l t) ∧ split_last_delim m v d excl = .ok (v, .invalid)) := by
  by_cases hl0 : l = []
  · subst hl0
    right
    refine ⟨fun t ht => by have := ht.1; simp at this, ?_⟩
    have : v.size = 0 := h.size
    simp [split_last_delim, this]
  have hlen : 0 < l.length := List.length_pos_iff.2 hl0
  have := split_last_loop_spec h.holds hd.toDenotes excl (v.size.toNat + 2) l.length (by omega)
    (by rw [h.sizeToNat]; omega) (by intro j hj hb; have := hb.1; omega)
  have hq0 : quoteParity excl (l.drop l.length) = false := by simp [quoteParity]
  rw [hq0, h.size] at this
  have hne : ((l.length : Int)) ≠ 0 := by omega
  simp only [split_last_delim, ne_eq, h.ne_zero, hd.ne_zero, not_false_eq_true, and_self, if_true, h.size, hne]
  rcases this with ⟨i, hi, hp, hno⟩ | ⟨p, hp, hno⟩
  · left
    refine ⟨i, hp, hno, ?_⟩
    rw [hi]
    have hil := hp.1
    simp only [Res.bind_ok, if_true]
    have e1 : v.data + (l.length : Int) - (v.data + i) - 1 = ((l.length - (i + 1) : Nat) : Int) := by omega
    have e2 : (l.length : Int) - (v.data + (l.length : Int) - (v.data + i)) = i := by omega
    have e4 : v.data + (i : Int) + 1 = v.data + ((i + 1 : Nat) : Int) := by omega
    rw [e1, e2, e4]
    by_cases hz : i + 1 = l.length
    · have : l.length - (i + 1) = 0 := by omega
      simp [View.part, hz]
    · have e3 : ¬ (((l.length - (i + 1) : Nat) : Int) = 0) := by omega
      simp only [e3, not_false_eq_true, if_true, hz, if_false, View.part]
      simp
  · right
    refine ⟨hno, ?_⟩
    rw [hp]
    simp

/-! ### split_index -/

theorem split_index_nonneg {v : View} {n : Nat} (hs : v.size = n) (i : Nat) :
    split_index v i = .ok (v.part 0 (min i n), v.part (min i n) (n - min i n)) := by
  have h0 : ¬ ((i : Int) < 0) := by omega
  simp only [split_index, h0, if_false, Res.bind_ok, hs]
  by_cases h : (i : Int) > n
  · simp only [h, if_true]
    have e : min i n = n := by omega
    simp [View.part, e]
  · simp only [h, if_false]
    have e : min i n = i := by omega
    simp only [View.part, e]
    simp; omega

theorem split_index_neg {v : View} {n : Nat} (hs : v.size = n) (hn : (n : Int) ≤ INT_MAX) (i : Int)
    (h1 : INT_MIN ≤ i) (hi : i < 0) :
    split_index v i = .ok (v.part (n - i.natAbs) (n - (n - i.natAbs)), v.part 0 (n - i.natAbs)) := by
  simp only [INT_MAX, INT_MIN] at *
  have hc : chk ((n : Int) + i) = .ok ((n : Int) + i) :=
    chk_ok (by simp only [INT_MIN]; omega) (by simp only [INT_MAX]; omega)
  simp only [split_index, hi, if_true, Res.bind_ok, hs, hc]
  by_cases h : (n : Int) + i < 0
  · have e : n - i.natAbs = 0 := by omega
    have e2 : ¬ ((0 : Int) > n) := by omega
    simp [h, e, View.part, e2]
  · have e3 : ((n - i.natAbs : Nat) : Int) = n + i := by omega
    have e2 : ¬ ((n : Int) + i > n) := by omega
    simp only [h, if_false, e2, View.part, e3]
    simp; omega

theorem pop_first_cons {m : Mem} {a : Addr} {b : Byte} {l : List Byte} (h : Holds m a (b :: l)) :
    pop_first_nn m ⟨a, (b :: l).length⟩ = .ok (b, ⟨a + 1, l.length⟩) := by
  have hne : ((b :: l).length : Int) ≠ 0 := by simp only [List.length_cons]; omega
  simp only [pop_first_nn, hne, ne_eq, not_false_eq_true, if_true]
  have := split_index_nonneg (v := ⟨a, (b :: l).length⟩) (n := (b :: l).length) rfl 1
  simp only [Int.natCast_one] at this
  rw [this]
  have e : min 1 (b :: l).length = 1 := by simp only [List.length_cons]; omega
  have e2 : ((l.length : Int) + 1 - 1) = l.length := by omega
  simp [View.part, h.load_head]

end CStr
