import Verif.Props.Split
import Verif.Spec.Lines
/-! Properties C17, C18: line splitting. -/
namespace CStr

theorem sum_eq_23 {a : Byte} (ha : IsEol a) (b : Byte) :
    charToInt a + charToInt b = 23 ↔ IsEol b ∧ b ≠ a := by
  have key : ∀ x : Byte, (charToInt x = 10 ↔ x = 10) ∧ (charToInt x = 13 ↔ x = 13) := by
    rintro ⟨x⟩; revert x; decide
  rcases ha with rfl | rfl
  · have : charToInt 13 = 13 := by decide
    rw [this]
    constructor
    · intro h
      have : b = 10 := (key b).1.1 (by omega)
      subst this; exact ⟨.inr rfl, by decide⟩
    · rintro ⟨h1 | h1, h2⟩
      · exact absurd h1 h2
      · rw [(key b).1.2 h1]; rfl
  · have : charToInt 10 = 10 := by decide
    rw [this]
    constructor
    · intro h
      have : b = 13 := (key b).2.1 (by omega)
      subst this; exact ⟨.inl rfl, by decide⟩
    · rintro ⟨h1 | h1, h2⟩
      · rw [(key b).2.2 h1]; rfl
      · exact absurd h1 h2

theorem crlf_cstring (m : Mem) : CString m litCRLF [13, 10] :=
  cstring_lit m 0 [13, 10] (by decide) (by decide) (by decide)

theorem mem_crlf {x : Byte} : x ∈ ([13, 10] : List Byte) ↔ IsEol x := by simp [IsEol]

/-- The part of `strview_split_line` after a pending character was dealt with (strview.c lines 313-332). -/
def lineTail (m : Mem) (v : View) (eol : Option Byte) : Res (View × Option View × Option Byte) := do
  let (result, src) ← split_first_nn m v litCRLF false
  if strview_is_valid src then do
    let e ← load m (result.data + result.size)
    let b ← load m src.data
    if charToInt e + charToInt b = 23 then do
      let (_, src) ← pop_first_nn m src
      .ok (result, some src, eol.map (fun _ => 0))
    else .ok (result, some src, eol.map (fun _ => e))
  else .ok (.invalid, some result, eol)

theorem split_line_tail {m : Mem} {v : View} {l : List Byte} (h : ViewOf m v l) (eol : Option Byte) :
    (∃ line term rest r s, FirstLine l line term rest ∧ ViewOf m r line ∧ ViewOf m s rest ∧
      r = v.part 0 line.length ∧ s = v.part (restAt line term rest) rest.length ∧
      lineTail m v eol = .ok (r, some s, eol.map (fun _ => pendingAfter term))) ∨
    (NoEol l ∧
      lineTail m v eol = .ok (.invalid, some v, eol)) := by
  rcases split_first_nn_spec h (crlf_cstring m) false with ⟨pre, d, post, r, h1, h2, h3, h4, h5, h6⟩ | ⟨h1, h2⟩
  · left
    obtain ⟨hl, hd, -⟩ := h1
    rw [mem_crlf] at hd
    have hpre : NoEol pre := by
      intro x hx hxe
      obtain ⟨a, b, rfl⟩ := List.append_of_mem hx
      have := h2 a x (b ++ d :: post) ⟨by simp [hl], mem_crlf.2 hxe, by simp⟩
      simp at this
      omega
    have hld : load m (v.data + (pre.length : Int)) = .ok d := by
      have := h.holds
      rw [hl, Holds.append_iff] at this
      exact this.2.load_head
    have hval : strview_is_valid r = true := is_valid_iff.2 h5.ne_zero
    simp only [lineTail, h3, Res.bind_ok, hval, if_true, View.part, Int.natCast_zero, Int.add_zero, hld]
    cases post with
    | nil =>
      simp only [if_true] at h6
      rw [h6, hld]
      have : ¬ (charToInt d + charToInt d = 23) := by rw [sum_eq_23 hd]; simp
      simp only [Res.bind_ok, this, if_false]
      have hsz := h5.size
      have hvs := h.size
      refine ⟨pre, [d], [], _, _, ?_, ?_, h5, rfl, ?_, rfl⟩
      · rw [hl]; exact .one pre d [] hpre hd (by simp)
      · simpa [View.part] using h4
      · cases r; simp only [View.part, restAt, View.mk.injEq] at *; simp [h6, hsz]
    | cons b post =>
      have hs : r = ⟨r.data, ((b :: post).length : Int)⟩ := by rw [← h5.size]
      rw [h5.holds.load_head]
      simp only [Res.bind_ok]
      by_cases hb : charToInt d + charToInt b = 23
      · rw [if_pos hb]
        obtain ⟨hb1, hb2⟩ := (sum_eq_23 hd b).1 hb
        have hpop := pop_first_cons h5.holds
        rw [← hs] at hpop
        rw [hpop]
        have hvs := h.size
        simp only [reduceCtorEq, if_false] at h6
        refine ⟨pre, [d, b], post, _, _, ?_, ?_, ?_, rfl, ?_, rfl⟩
        · rw [hl]; exact .two pre d b post hpre hd hb1 (Ne.symm hb2)
        · simpa [View.part] using h4
        · have := h5.part 1 post.length (by simp; omega)
          simpa [View.part] using this
        · simp [View.part, restAt]; omega
      · rw [if_neg hb]
        have hsz := h5.size
        have hvs := h.size
        simp only [reduceCtorEq, if_false] at h6
        refine ⟨pre, [d], b :: post, _, _, ?_, ?_, h5, rfl, ?_, rfl⟩
        · rw [hl]
          refine .one pre d _ hpre hd ?_
          rintro b' t hbt hb'
          simp at hbt
          obtain ⟨rfl, rfl⟩ := hbt
          rw [sum_eq_23 hd] at hb
          exact Classical.byContradiction fun hne => hb ⟨hb', hne⟩
        · simpa [View.part] using h4
        · cases r; simp only [View.part, restAt, View.mk.injEq] at *; simp [h6, hsz]; omega
  · right
    refine ⟨?_, ?_⟩
    · intro x hx hxe
      obtain ⟨a, b, rfl⟩ := List.append_of_mem hx
      exact h1 a x b ⟨rfl, mem_crlf.2 hxe, by simp⟩
    · have : strview_is_valid View.invalid = false := rfl
      simp [lineTail, h2, this]

/-- C17. One call without `eol`: either the first line is returned and removed with its terminator, or there is no line
ending, the result is invalid and the source is unmodified. -/
theorem C17_split_line {m : Mem} {v : View} {l : List Byte} (h : ViewOf m v l) :
    (∃ line term rest, FirstLine l line term rest ∧ ViewOf m (v.part 0 line.length) line ∧
      ViewOf m (v.part (restAt line term rest) rest.length) rest ∧
      strview_split_line m (some v) none = .ok (v.part 0 line.length, some (v.part (restAt line term rest) rest.length), none)) ∨
    (NoEol l ∧ strview_split_line m (some v) none = .ok (.invalid, some v, none)) := by
  by_cases hz : l = []
  · subst hz
    right
    have : v.size = 0 := h.size
    exact ⟨by intro x hx; simp at hx, by simp [strview_split_line, this]⟩
  · have hs : v.size ≠ 0 := by
      have := List.length_pos_iff.2 hz
      rw [h.size]; omega
    rcases split_line_tail h none with ⟨line, term, rest, r, s, h1, h2, h3, rfl, rfl, h5⟩ | ⟨h1, h2⟩
    · left
      refine ⟨line, term, rest, h1, h2, h3, ?_⟩
      simp only [strview_split_line, ne_eq, hs, not_false_eq_true, if_true, Res.bind_ok]
      exact h5
    · right
      refine ⟨h1, ?_⟩
      simp only [strview_split_line, ne_eq, hs, not_false_eq_true, if_true, Res.bind_ok]
      exact h2

theorem FirstLine.text {t line term rest : List Byte} (h : FirstLine t line term rest) : t = line ++ term ++ rest := by
  cases h <;> simp

theorem FirstLine.restAt_le {t line term rest : List Byte} (h : FirstLine t line term rest) : restAt line term rest + rest.length ≤ t.length := by
  have := congrArg List.length h.text
  simp only [List.length_append] at this
  unfold restAt
  split
  · next h => rw [h.2] at *; simp only [List.length_nil] at *; omega
  · omega

/-- Where the text begins after a pending character was dealt with. -/
theorem skipPending_length (e : Byte) (l : List Byte) : (skipPending e l).length ≤ l.length := by
  cases l with
  | nil => exact Nat.le_refl _
  | cons c t => simp only [skipPending]; split <;> simp

/-- One call with an `eol` variable. -/
theorem split_line_eol {m : Mem} {v : View} {l : List Byte} (h : ViewOf m v l) (e : Byte)
    (he : e = 0 ∨ IsEol e) :
    (∃ line term rest r s, FirstLine (skipPending e l) line term rest ∧ ViewOf m r line ∧ ViewOf m s rest ∧
      r = v.part (l.length - (skipPending e l).length) line.length ∧
      s = v.part (l.length - (skipPending e l).length + restAt line term rest) rest.length ∧
      strview_split_line m (some v) (some e) = .ok (r, some s, some (pendingAfter term))) ∨
    (NoEol (skipPending e l) ∧ ∃ s, ViewOf m s (skipPending e l) ∧ s = v.part (l.length - (skipPending e l).length) (skipPending e l).length ∧
      strview_split_line m (some v) (some e) = .ok (.invalid, some s, some e)) := by
  cases l with
  | nil =>
    right
    have : v.size = 0 := h.size
    refine ⟨by intro x hx; simp [skipPending] at hx, v, h, ?_, by simp [strview_split_line, this]⟩
    obtain ⟨d, n⟩ := v
    simp only at this
    simp [View.part, skipPending, this]
  | cons c t =>
    have hs : v.size ≠ 0 := by
      rw [h.size]; simp only [List.length_cons]; omega
    -- the view after skipping
    have hself : v = v.part 0 (c :: t).length := by rw [View.part, ← h.size]; simp
    have key : ∃ w, ViewOf m w (skipPending e (c :: t)) ∧
        w = v.part ((c :: t).length - (skipPending e (c :: t)).length) (skipPending e (c :: t)).length ∧
        strview_split_line m (some v) (some e) = lineTail m w (some e) := by
      by_cases he0 : e = 0
      · refine ⟨v, by simpa [skipPending, he0] using h, by simpa [skipPending, he0] using hself, ?_⟩
        subst he0
        simp only [strview_split_line, ne_eq, hs, not_false_eq_true, if_true, not_true, if_false, Res.bind_ok]
        rfl
      · have hee : IsEol e := by rcases he with h0 | h0; exact absurd h0 he0; exact h0
        simp only [strview_split_line, ne_eq, hs, not_false_eq_true, if_true, he0, h.holds.load_head, Res.bind_ok]
        by_cases hc : charToInt e + charToInt c = 23
        · have hc' := (sum_eq_23 hee c).1 hc
          have hv : v = ⟨v.data, ((c :: t).length : Int)⟩ := by rw [← h.size]
          have hpop := pop_first_cons h.holds
          rw [← hv] at hpop
          rw [if_pos hc, hpop]
          refine ⟨⟨v.data + 1, t.length⟩, ?_, by simp [skipPending, he0, hc', View.part], rfl⟩
          have := h.part 1 t.length (by simp; omega)
          simpa [skipPending, he0, hc', View.part] using this
        · have hc' : ¬ (IsEol c ∧ ¬ c = e) := by rw [sum_eq_23 hee] at hc; exact hc
          rw [if_neg hc]
          refine ⟨v, by simpa [skipPending, he0, hc'] using h, by simpa [skipPending, he0, hc'] using hself, rfl⟩
    obtain ⟨w, hw, w1, hk⟩ := key
    rw [hk]
    rcases split_line_tail hw (some e) with ⟨line, term, rest, r, s, h1, h2, h3, rfl, rfl, h5⟩ | ⟨h1, h2⟩
    · refine .inl ⟨line, term, rest, _, _, h1, h2, h3, ?_, ?_, h5⟩
      · rw [w1]; simp [View.part]
      · rw [w1]; simp only [View.part, View.mk.injEq, and_true]; omega
    · exact .inr ⟨h1, w, hw, w1, h2⟩

theorem firstLine_not_noEol {t line term rest : List Byte} (h : FirstLine t line term rest) : ¬ NoEol t := by
  intro hn
  cases h with
  | two _ a b rest _ ha hb _ => exact hn a (by simp) ha
  | one _ a rest _ ha _ => exact hn a (by simp) ha

theorem noEol_prefix_unique {l l' : List Byte} {a a' : Byte} {r r' : List Byte}
    (h : l ++ a :: r = l' ++ a' :: r') (h1 : NoEol l) (h2 : IsEol a) (h3 : NoEol l') (h4 : IsEol a') :
    l = l' ∧ a = a' ∧ r = r' := by
  have h1' : ∀ x ∈ l, x ∉ ([13, 10] : List Byte) := fun x hx hm => h1 x hx (mem_crlf.1 hm)
  have h3' : ∀ x ∈ l', x ∉ ([13, 10] : List Byte) := fun x hx hm => h3 x hx (mem_crlf.1 hm)
  exact not_mem_take_of_split h h1' (mem_crlf.2 h2) h3' (mem_crlf.2 h4)

theorem FirstLine.unique {t line term rest line' term' rest' : List Byte} (h : FirstLine t line term rest)
    (h' : FirstLine t line' term' rest') : line = line' ∧ term = term' ∧ rest = rest' := by
  cases h with
  | two line a b rest hn ha hb hab =>
    generalize ht : line ++ a :: b :: rest = t at h'
    cases h' with
    | two line' a' b' rest' hn' ha' hb' hab' =>
      obtain ⟨rfl, rfl, h3⟩ := noEol_prefix_unique ht hn ha hn' ha'
      simp at h3
      obtain ⟨rfl, rfl⟩ := h3
      exact ⟨rfl, rfl, rfl⟩
    | one line' a' rest' hn' ha' hr =>
      obtain ⟨rfl, rfl, h3⟩ := noEol_prefix_unique ht hn ha hn' ha'
      exact absurd (hr b rest h3.symm hb) (Ne.symm hab)
  | one line a rest hn ha hr =>
    generalize ht : line ++ a :: rest = t at h'
    cases h' with
    | two line' a' b' rest' hn' ha' hb' hab' =>
      obtain ⟨rfl, rfl, h3⟩ := noEol_prefix_unique ht hn ha hn' ha'
      exact absurd (hr b' rest' h3 hb') (Ne.symm hab')
    | one line' a' rest' hn' ha' hr' =>
      obtain ⟨rfl, rfl, rfl⟩ := noEol_prefix_unique ht hn ha hn' ha'
      exact ⟨rfl, rfl, rfl⟩

/-- The client loop: `n` calls of `strview_split_line` with a NULL `eol`. -/
def lineCalls (m : Mem) : Nat → Option View → Res (List View × Option View)
  | 0, s => .ok ([], s)
  | n + 1, s => do
    let (t, s, _) ← strview_split_line m s none
    let (ts, s) ← lineCalls m n s
    .ok (t :: ts, s)

/-- C17. As many calls as the text has terminated lines return these lines in order; the unterminated remainder is
left in the source, and the next call returns an invalid view and leaves the source unmodified. -/
theorem C17_all_lines {m : Mem} {v : View} {t rem : List Byte} {ls : List (List Byte)} (h : ViewOf m v t)
    (hl : Lines t ls rem) :
    ∃ vs s, lineCalls m ls.length (some v) = .ok (vs, some s) ∧ ViewsOf m vs ls ∧ ViewOf m s rem ∧
      strview_split_line m (some s) none = .ok (.invalid, some s, none) := by
  induction hl generalizing v with
  | done t hn =>
    refine ⟨[], v, rfl, .nil, h, ?_⟩
    rcases C17_split_line h with ⟨line, term, rest, h1, -⟩ | ⟨-, h2⟩
    · exact absurd hn (firstLine_not_noEol h1)
    · exact h2
  | line hf hr ih =>
    rcases C17_split_line h with ⟨line, term, rest, h1, h2, h3, h4⟩ | ⟨hn, -⟩
    · obtain ⟨rfl, rfl, rfl⟩ := hf.unique h1
      obtain ⟨vs, s', e1, e2, e3, e4⟩ := ih h3
      refine ⟨_ :: vs, s', ?_, .cons h2 e2, e3, e4⟩
      simp [lineCalls, h4, e1]
    · exact absurd hn (firstLine_not_noEol hf)

/-- A line-by-line reader working one byte at a time: the current unterminated line, the terminator that may still
be completed, and the text to come. Result: terminated lines, current line, pending terminator. -/
def idealRun : List Byte → Byte → List Byte → List (List Byte) × List Byte × Byte
  | cur, p, [] => ([], cur, p)
  | cur, p, x :: t =>
    if IsEol x then
      if p ≠ 0 ∧ x ≠ p then idealRun cur 0 t
      else
        let r := idealRun [] x t
        (cur :: r.1, r.2)
    else idealRun (cur ++ [x]) 0 t

theorem idealRun_append (cur : List Byte) (p : Byte) (s t : List Byte) :
    idealRun cur p (s ++ t) =
      ((idealRun cur p s).1 ++ (idealRun (idealRun cur p s).2.1 (idealRun cur p s).2.2 t).1,
       (idealRun (idealRun cur p s).2.1 (idealRun cur p s).2.2 t).2) := by
  induction s generalizing cur p with
  | nil => simp [idealRun]
  | cons x s ih =>
    simp only [List.cons_append, idealRun]
    by_cases h1 : IsEol x
    · simp only [h1, if_true]
      by_cases h2 : p ≠ 0 ∧ x ≠ p
      · simp only [h2, ne_eq, not_false_eq_true, and_self, if_true]
        exact ih _ _
      · simp only [h2, if_false, ih, List.cons_append]
    · simp only [h1, if_false]
      exact ih _ _

theorem idealRun_noEol (cur : List Byte) (p : Byte) {s : List Byte} (h : NoEol s) (hs : s ≠ []) :
    idealRun cur p s = ([], cur ++ s, 0) := by
  induction s generalizing cur p with
  | nil => exact absurd rfl hs
  | cons x s ih =>
    have hx : ¬ IsEol x := h x (by simp)
    simp only [idealRun, hx, if_false]
    by_cases hs' : s = []
    · subst hs'; simp [idealRun]
    · rw [ih _ _ (fun y hy => h y (by simp [hy])) hs']; simp

theorem idealRun_noEol_zero (cur : List Byte) {s : List Byte} (h : NoEol s) :
    idealRun cur 0 s = ([], cur ++ s, 0) := by
  by_cases hs : s = []
  · subst hs; simp [idealRun]
  · exact idealRun_noEol cur 0 h hs

theorem idealRun_firstLine {t line term rest : List Byte} (h : FirstLine t line term rest) :
    idealRun [] 0 t = (line :: (idealRun [] (pendingAfter term) rest).1, (idealRun [] (pendingAfter term) rest).2) := by
  cases h with
  | two line a b rest hn ha hb hab =>
    rw [idealRun_append, idealRun_noEol_zero [] hn]
    have hb0 : ¬ a = 0 := by rintro rfl; revert ha; decide
    simp [idealRun, ha, hb, hb0, Ne.symm hab, pendingAfter]
  | one line a rest hn ha hr =>
    rw [idealRun_append, idealRun_noEol_zero [] hn]
    simp [idealRun, ha, pendingAfter]

/-- Every text has lines, exactly one way, and they are those of the byte-by-byte reader. -/
theorem lines_idealRun (t : List Byte) :
    Lines t (idealRun [] 0 t).1 (idealRun [] 0 t).2.1 := by
  induction hn : t.length using Nat.strongRecOn generalizing t with
  | ind n ih =>
    by_cases h : NoEol t
    · rw [idealRun_noEol_zero [] h]; exact .done t h
    · have : ∃ line a r, t = line ++ a :: r ∧ NoEol line ∧ IsEol a := by
        clear ih hn
        induction t with
        | nil => exact absurd (by intro x hx; simp at hx) h
        | cons y t ih =>
          by_cases hy : IsEol y
          · exact ⟨[], y, t, rfl, by intro x hx; simp at hx, hy⟩
          · have : ¬ NoEol t := by
              intro ht; apply h; intro x hx
              rcases List.mem_cons.1 hx with rfl | hx
              · exact hy
              · exact ht x hx
            obtain ⟨line, a, r, rfl, h1, h2⟩ := ih this
            refine ⟨y :: line, a, r, rfl, ?_, h2⟩
            intro x hx
            rcases List.mem_cons.1 hx with rfl | hx
            · exact hy
            · exact h1 x hx
      obtain ⟨line, a, r, rfl, h1, h2⟩ := this
      have hf : ∃ term rest, FirstLine (line ++ a :: r) line term rest ∧
          (term = [a] ∧ rest = r ∧ (∀ b t, rest = b :: t → IsEol b → b = a) ∨ ∃ b, term = [a, b] ∧ r = b :: rest) := by
        by_cases hb : ∃ b r', r = b :: r' ∧ IsEol b ∧ a ≠ b
        · obtain ⟨b, r', rfl, hb1, hb2⟩ := hb
          exact ⟨_, _, .two line a b r' h1 h2 hb1 hb2, .inr ⟨b, rfl, rfl⟩⟩
        · have hh : ∀ b t, r = b :: t → IsEol b → b = a := by
            rintro b t rfl hbe
            exact Classical.byContradiction fun hne => hb ⟨b, t, rfl, hbe, Ne.symm hne⟩
          exact ⟨_, _, .one line a r h1 h2 hh, .inl ⟨rfl, rfl, hh⟩⟩
      obtain ⟨term, rest, hf, hcase⟩ := hf
      rw [idealRun_firstLine hf]
      refine .line hf ?_
      have hlen : rest.length < n := by
        rw [← hn]
        rcases hcase with ⟨-, rfl, -⟩ | ⟨b, -, rfl⟩ <;> simp <;> omega
      have := ih _ hlen rest rfl
      rcases hcase with ⟨rfl, rfl, hh⟩ | ⟨b, rfl, rfl⟩
      · -- a pending terminator that is not completed has no effect
        have e : (idealRun [] a rest).1 = (idealRun [] 0 rest).1 ∧ (idealRun [] a rest).2.1 = (idealRun [] 0 rest).2.1 := by
          cases rest with
          | nil => exact ⟨rfl, rfl⟩
          | cons b r =>
            simp only [idealRun]
            by_cases hb : IsEol b
            · have := hh b r rfl hb
              subst this
              simp [hb]
            · simp [hb]
        simp only [pendingAfter]
        rw [e.1, e.2]; exact this
      · exact this

theorem Lines.unique {t rem rem' : List Byte} {ls ls' : List (List Byte)} (h : Lines t ls rem)
    (h' : Lines t ls' rem') : ls = ls' ∧ rem = rem' := by
  induction h generalizing ls' rem' with
  | done t hn =>
    cases h' with
    | done => exact ⟨rfl, rfl⟩
    | line hf => exact absurd hn (firstLine_not_noEol hf)
  | line hf hr ih =>
    cases h' with
    | done _ hn => exact absurd hn (firstLine_not_noEol hf)
    | line hf' hr' =>
      obtain ⟨rfl, rfl, rfl⟩ := hf.unique hf'
      obtain ⟨rfl, rfl⟩ := ih hr'
      exact ⟨rfl, rfl⟩

/-- C17. Every text has exactly one decomposition into terminated lines and a remainder. -/
theorem C17_lines_exist_unique (t : List Byte) :
    ∃ ls rem, Lines t ls rem ∧ ∀ ls' rem', Lines t ls' rem' → ls' = ls ∧ rem' = rem :=
  ⟨_, _, lines_idealRun t, fun _ _ h => h.unique (lines_idealRun t)⟩

example : Lines [97, 13, 10, 10, 13, 13, 98] [[97], [], []] [98] :=
  .line (.two [97] 13 10 _ (by unfold NoEol; decide) (by decide) (by decide) (by decide))
    (.line (.two [] 10 13 _ (by unfold NoEol; decide) (by decide) (by decide) (by decide))
      (.line (.one [] 13 [98] (by unfold NoEol; decide) (by decide)
        (by rintro b t h1 h2; simp at h1; obtain ⟨rfl, rfl⟩ := h1; revert h2; decide))
        (.done [98] (by unfold NoEol; decide))))

example : lineCalls (memAt 1000 [97, 13, 10, 10, 13, 13, 98]) 3 (some ⟨1000, 7⟩) =
    .ok ([⟨1000, 1⟩, ⟨1003, 0⟩, ⟨1005, 0⟩], some ⟨1006, 1⟩) := by decide +kernel

/-! ### C18 -/

/-- The client of the documentation (docs/strview-api.md lines 256-259): call `strview_split_line` with the `eol`
variable until it returns an invalid view, collecting the lines. -/
def drain (m : Mem) : Nat → View → Byte → Res (List (List Byte) × View × Byte)
  | 0, _, _ => .fuel
  | k + 1, v, e => do
    match ← strview_split_line m (some v) (some e) with
    | (r, some s, some e) =>
      if strview_is_valid r then do
        let line ← readBytes m r.data r.size.toNat
        let (ls, s, e) ← drain m k s e
        .ok (line :: ls, s, e)
      else .ok ([], s, e)
    | _ => .env .other

/-- The whole session: every received piece is appended to the unconsumed text, placed anywhere in any memory
(`place`), and drained. -/
def receive (place : Nat → List Byte → Mem × View) :
    List (List Byte) → List Byte → Byte → Res (List (List Byte) × List Byte × Byte)
  | [], buf, e => .ok ([], buf, e)
  | c :: cs, buf, e => do
    let (m, v) := place cs.length (buf ++ c)
    let (ls, s, e) ← drain m (v.size.toNat + 2) v e
    let buf ← readBytes m s.data s.size.toNat
    let (ls', buf, e) ← receive place cs buf e
    .ok (ls ++ ls', buf, e)

theorem Denotes.readBytes {m : Mem} {v : View} {l : List Byte} (h : Denotes m v l) :
    CStr.readBytes m v.data v.size.toNat = .ok l := by
  rw [h.sizeToNat]; exact readBytes_eq h.holds

theorem idealRun_skip (e : Byte) (l : List Byte) :
    (idealRun [] e l).1 = (idealRun [] 0 (skipPending e l)).1 ∧
    (idealRun [] e l).2.1 = (idealRun [] 0 (skipPending e l)).2.1 ∧
    (l ≠ [] → (idealRun [] e l).2.2 = (idealRun [] 0 (skipPending e l)).2.2) := by
  cases l with
  | nil => exact ⟨rfl, rfl, fun h => absurd rfl h⟩
  | cons c t =>
    by_cases h : e ≠ 0 ∧ IsEol c ∧ c ≠ e
    · simp only [skipPending, h, and_self, if_true, ne_eq, not_false_eq_true]
      simp only [idealRun, h, ne_eq, not_false_eq_true, and_self, if_true]
      simp
    · simp only [skipPending, h, if_false, idealRun]
      by_cases hc : IsEol c
      · have : ¬ (e ≠ 0 ∧ c ≠ e) := fun hh => h ⟨hh.1, hc, hh.2⟩
        simp [hc, this]
      · simp [hc]

theorem skipPending_self {e : Byte} {l : List Byte} (h : ∀ b t, l = b :: t → IsEol b → b = e) :
    skipPending e l = l := by
  cases l with
  | nil => rfl
  | cons b t =>
    simp only [skipPending]
    rw [if_neg]
    rintro ⟨-, h1, h2⟩
    exact h2 (h b t rfl h1)

/-- The client loop with an `eol` variable. Returns the lines, the source and the variable. -/
def lineCallsEol (m : Mem) : Nat → Option View → Option Byte → Res (List View × Option View × Option Byte)
  | 0, s, e => .ok ([], s, e)
  | n + 1, s, e => do
    let (t, s, e) ← strview_split_line m s e
    let (ts, s, e) ← lineCallsEol m n s e
    .ok (t :: ts, s, e)

theorem pendingAfter_ok {t line term rest : List Byte} (h : FirstLine t line term rest) :
    (pendingAfter term = 0 ∨ IsEol (pendingAfter term)) ∧
      (pendingAfter term ≠ 0 → ∀ b t, rest = b :: t → IsEol b → b = pendingAfter term) := by
  cases h with
  | two _ a b rest _ ha hb hab => exact ⟨.inl rfl, fun hc => absurd rfl hc⟩
  | one _ a rest _ ha hr => exact ⟨.inr ha, fun _ => hr⟩

theorem lineCallsEol_spec {m : Mem} {v : View} {t rem : List Byte} {ls : List (List Byte)} (h : ViewOf m v t)
    (hl : Lines t ls rem) (e : Byte) (he : e = 0 ∨ IsEol e) (he' : e ≠ 0 → ∀ b r, t = b :: r → IsEol b → b = e) :
    ∃ vs s e', lineCallsEol m ls.length (some v) (some e) = .ok (vs, some s, some e') ∧ ViewsOf m vs ls ∧
      ViewOf m s rem ∧ ∃ s', strview_split_line m (some s) (some e') = .ok (.invalid, some s', some e') ∧ ViewOf m s' rem := by
  have hskip : ∀ {e : Byte} {t : List Byte}, (e ≠ 0 → ∀ b r, t = b :: r → IsEol b → b = e) → skipPending e t = t := by
    intro e t he'
    by_cases h0 : e = 0
    · subst h0; cases t <;> simp [skipPending]
    · exact skipPending_self (he' h0)
  induction hl generalizing v e with
  | done t hn =>
    refine ⟨[], v, e, rfl, .nil, h, ?_⟩
    rcases split_line_eol h e he with ⟨line, term, rest, r, s, h1, -⟩ | ⟨-, s', h2, -, h3⟩
    · rw [hskip he'] at h1
      exact absurd hn (firstLine_not_noEol h1)
    · rw [hskip he'] at h2
      exact ⟨s', h3, h2⟩
  | line hf hr ih =>
    rcases split_line_eol h e he with ⟨line, term, rest, r, s, h1, h2, h3, -, -, h4⟩ | ⟨hn, -⟩
    · rw [hskip he'] at h1
      obtain ⟨rfl, rfl, rfl⟩ := hf.unique h1
      obtain ⟨p1, p2⟩ := pendingAfter_ok h1
      obtain ⟨vs, s', e', e1, e2, e3, e4⟩ := ih h3 (pendingAfter _) p1 p2
      refine ⟨r :: vs, s', e', ?_, .cons h2 e2, e3, e4⟩
      simp only [List.length_cons, lineCallsEol, h4, Res.bind_ok, e1]
    · rw [hskip he'] at hn
      exact absurd hn (firstLine_not_noEol hf)

/-- C17 with an `eol` variable that is 0 before the first call: the same lines as without, and the same remainder. -/
theorem C17_all_lines_eol {m : Mem} {v : View} {t rem : List Byte} {ls : List (List Byte)} (h : ViewOf m v t)
    (hl : Lines t ls rem) :
    ∃ vs s e', lineCallsEol m ls.length (some v) (some 0) = .ok (vs, some s, some e') ∧ ViewsOf m vs ls ∧
      ViewOf m s rem ∧ ∃ s', strview_split_line m (some s) (some e') = .ok (.invalid, some s', some e') ∧ ViewOf m s' rem :=
  lineCallsEol_spec h hl 0 (.inl rfl) (fun hc => absurd rfl hc)

/-- CR LF LF: two empty lines. -/
example : lineCallsEol (memAt 1000 [13, 10, 10, 98]) 2 (some ⟨1000, 4⟩) (some 0) =
    .ok ([⟨1000, 0⟩, ⟨1002, 0⟩], some ⟨1003, 1⟩, some 10) := by decide +kernel

/-- Draining a text whose pending character was dealt with produces what the byte-by-byte reader produces. -/
theorem drain_spec {m : Mem} {v : View} {l : List Byte} (h : ViewOf m v l) (e : Byte)
    (he : e = 0 ∨ IsEol e) (k : Nat) (hk : l.length + 1 < k) :
    ∃ s e', drain m k v e = .ok ((idealRun [] 0 (skipPending e l)).1, s, e') ∧
      ViewOf m s (idealRun [] 0 (skipPending e l)).2.1 ∧ (v.data ≤ s.data ∧ s.data + s.size ≤ v.data + v.size) ∧ (e' = 0 ∨ IsEol e') ∧
      NoEol (idealRun [] 0 (skipPending e l)).2.1 ∧
      (-- the last call was the first call
       (NoEol (skipPending e l) ∧ e' = e) ∨
       -- a line was returned: the discriminator is right, if it still matters
       ((idealRun [] 0 (skipPending e l)).2.1 = [] → e' = (idealRun [] 0 (skipPending e l)).2.2)) := by
  induction k generalizing v l e with
  | zero => omega
  | succ k ih =>
    rcases split_line_eol h e he with ⟨line, term, rest, r, s, h1, h2, h3, -, p0, h4⟩ | ⟨h1, s, h2, p0, h3⟩
    · obtain ⟨p1, p2⟩ : v.data ≤ s.data ∧ s.data + s.size ≤ v.data + v.size := by
        have g1 := h1.restAt_le
        have g2 := skipPending_length e l
        have g3 := h.size
        rw [p0]; simp only [View.part]; omega
      have hr : strview_is_valid r = true := is_valid_iff.2 h2.ne_zero
      simp only [drain, h4, Res.bind_ok, hr, if_true, h2.toDenotes.readBytes]
      have hp : pendingAfter term = 0 ∨ IsEol (pendingAfter term) := by
        generalize skipPending e l = tt at h1
        cases h1 with
        | two => exact .inl rfl
        | one _ a _ _ ha => exact .inr ha
      have hskip : skipPending (pendingAfter term) rest = rest := by
        generalize skipPending e l = tt at h1
        cases h1 with
        | two => simp only [pendingAfter]; cases rest <;> simp [skipPending]
        | one _ a _ _ ha hh => exact skipPending_self hh
      have hlen : rest.length + 1 < k := by
        have h5 : rest.length < (skipPending e l).length := by
          generalize skipPending e l = t at h1
          cases h1 <;> simp <;> omega
        have h6 : (skipPending e l).length ≤ l.length := by
          cases l with
          | nil => simp [skipPending]
          | cons c t => simp only [skipPending]; split <;> simp
        omega
      obtain ⟨s', e', d1, d2, d0, d3, d4, d5⟩ := ih h3 (pendingAfter term) hp hlen
      rw [hskip] at d1 d2 d4 d5
      -- the run of the rest, with and without the pending character
      obtain ⟨q1, q2, q3⟩ := idealRun_skip (pendingAfter term) rest
      rw [hskip] at q1 q2 q3
      rw [d1, idealRun_firstLine h1]
      simp only [Res.bind_ok]
      rw [q1, q2]
      refine ⟨s', e', rfl, d2, ⟨by omega, by omega⟩, d3, d4, .inr ?_⟩
      intro hrem
      rcases d5 with ⟨hno, rfl⟩ | d5
      · rw [idealRun_noEol_zero [] hno] at hrem
        simp at hrem
        subst hrem
        rfl
      · by_cases hre : rest = []
        · subst hre
          have := d5 rfl
          -- rest empty: the second drain made one call only
          simp only [idealRun] at this ⊢
          cases k with
          | zero => omega
          | succ k =>
            have hsz : s.size = 0 := h3.size
            simp [drain, strview_split_line, hsz, strview_is_valid, View.invalid] at d1
            exact d1.2.2.symm
        · rw [q3 hre]; exact d5 hrem
    · obtain ⟨p1, p2⟩ : v.data ≤ s.data ∧ s.data + s.size ≤ v.data + v.size := by
        have g2 := skipPending_length e l
        have g3 := h.size
        rw [p0]; simp only [View.part]; omega
      have hr : strview_is_valid View.invalid = false := rfl
      simp only [drain, h3, Res.bind_ok, hr, Bool.false_eq_true, if_false]
      rw [idealRun_noEol_zero [] h1]
      exact ⟨s, e, rfl, h2, ⟨p1, p2⟩, he, by simpa using h1, .inl ⟨h1, rfl⟩⟩

theorem idealRun_pending (t : List Byte) (h : (idealRun [] 0 t).2.2 ≠ 0) :
    (idealRun [] 0 t).2.1 = [] ∧ ∃ t1, t = t1 ++ [(idealRun [] 0 t).2.2] := by
  rcases List.eq_nil_or_concat t with rfl | ⟨t1, x, rfl⟩
  · simp [idealRun] at h
  · rw [List.concat_eq_append] at *
    rw [idealRun_append] at *
    generalize idealRun [] 0 t1 = r at *
    by_cases hx : IsEol x
    · by_cases hp : r.2.2 ≠ 0 ∧ x ≠ r.2.2
      · simp [idealRun, hx, hp] at h
      · simp only [idealRun, hx, hp, if_true, if_false]
        exact ⟨trivial, t1, rfl⟩
    · simp [idealRun, hx] at h

/-- No piece consists of one line ending character alone that completes the two-character line ending begun by the text before
it and is followed by the same character. -/
def NoLoneEol (pieces : List (List Byte)) : Prop :=
  ∀ P Q x y u w, pieces = P ++ [y] :: Q → P.flatten = u ++ [x] → Q.flatten = y :: w → IsEol x → IsEol y → x = y

theorem receive_spec (place : Nat → List Byte → Mem × View)
    (hplace : ∀ i l, (l.length : Int) ≤ INT_MAX → ViewOf (place i l).1 (place i l).2 l)
    (pieces P : List (List Byte)) (t0 buf : List Byte) (e : Byte) (hP : t0 = P.flatten)
    (hlen : ((t0 ++ pieces.flatten).length : Int) ≤ INT_MAX) (htr : NoLoneEol (P ++ pieces))
    (hbuf : buf = (idealRun [] 0 t0).2.1) (hno : NoEol buf) (hble : buf.length ≤ t0.length)
    (he : e = 0 ∨ IsEol e)
    (hst : buf = [] → e = (idealRun [] 0 t0).2.2 ∨
      ((idealRun [] 0 t0).2.2 = 0 ∧ ∃ P1 E t1 c, P = P1 ++ [c] :: E ∧ E.flatten = [] ∧ P1.flatten = t1 ++ [e] ∧ IsEol e ∧ IsEol c ∧ c ≠ e)) :
    ∃ e', receive place pieces buf e =
      .ok ((idealRun buf (idealRun [] 0 t0).2.2 pieces.flatten).1,
           (idealRun buf (idealRun [] 0 t0).2.2 pieces.flatten).2.1, e') := by
  induction pieces generalizing P t0 buf e with
  | nil => exact ⟨e, by simp [receive, idealRun]⟩
  | cons c cs ih =>
    simp only [List.flatten_cons] at hlen ⊢
    have hl : ((buf ++ c).length : Int) ≤ INT_MAX := by
      simp only [List.length_append] at hlen ⊢; omega
    have hv := hplace cs.length (buf ++ c) hl
    simp only [receive]
    generalize place cs.length (buf ++ c) = mv at *
    obtain ⟨m, v⟩ := mv
    simp only at hv ⊢
    obtain ⟨s, e', d1, d2, -, d3, d4, d5⟩ := drain_spec hv e he (v.size.toNat + 2) (by rw [hv.sizeToNat]; omega)
    simp only [d1, Res.bind_ok, d2.toDenotes.readBytes]
    by_cases hc : c = []
    · -- an empty piece changes nothing
      subst hc
      simp only [List.append_nil, List.nil_append] at *
      have hsk : skipPending e buf = buf := by
        apply skipPending_self
        rintro b t rfl hb
        exact absurd hb (hno b (by simp))
      rw [hsk, idealRun_noEol_zero [] hno] at d5 ⊢
      simp only [List.nil_append] at d5 ⊢
      have he' : buf = [] → e' = e := by
        intro hb
        rcases d5 with ⟨-, h⟩ | h
        · exact h
        · -- cannot happen: the first call already returned an invalid view
          subst hb
          have hsz : v.size = 0 := hv.size
          simp [drain, strview_split_line, hsz, strview_is_valid, View.invalid] at d1
          exact d1.2.2.symm
      obtain ⟨e'', h⟩ := ih (P ++ [[]]) t0 buf e' (by simpa using hP) hlen (by simpa using htr) hbuf hno hble d3 (fun hb => by
        rw [he' hb]
        rcases hst hb with h | ⟨h, P1, E, t1, x, e1, e2, e3⟩
        · exact .inl h
        · exact .inr ⟨h, P1, E ++ [[]], t1, x, by simp [e1], by simpa using e2, e3⟩)
      exact ⟨e'', by rw [h]; simp⟩
    · -- what the reader makes of this piece
      have hA : idealRun [] 0 (skipPending e (buf ++ c)) = idealRun buf (idealRun [] 0 t0).2.2 c ∧
          (buf = [] → skipPending e (buf ++ c) = [] → ∃ t1 x, t0 = t1 ++ [e] ∧ c = [x] ∧ IsEol e ∧ IsEol x ∧ x ≠ e) := by
        by_cases hb : buf = []
        · subst hb
          simp only [List.nil_append]
          rcases hst rfl with hp | ⟨hp, P1, E, t1, cc, hP1, hE, ht1, hee, hcc, hne⟩
          · rw [← hp]
            obtain ⟨q1, q2, q3⟩ := idealRun_skip e c
            refine ⟨(Prod.ext q1 (Prod.ext q2 (q3 hc))).symm, ?_⟩
            intro _ hs
            cases c with
            | nil => exact absurd rfl hc
            | cons x t =>
              simp only [skipPending] at hs
              by_cases hx : e ≠ 0 ∧ IsEol x ∧ x ≠ e
              · rw [if_pos hx] at hs
                subst hs
                have := idealRun_pending t0 (by rw [← hp]; exact hx.1)
                obtain ⟨-, t1, ht1⟩ := this
                rw [← hp] at ht1
                refine ⟨t1, x, ht1, rfl, ?_, hx.2.1, hx.2.2⟩
                rcases he with h0 | h0
                · exact absurd h0 hx.1
                · exact h0
              · rw [if_neg hx] at hs; simp at hs
          · have hsk : skipPending e c = c := by
              apply skipPending_self
              rintro b t rfl hbe
              apply Classical.byContradiction
              intro hbne
              have : b = cc := by
                rcases hee with rfl | rfl <;> rcases hbe with rfl | rfl <;> rcases hcc with rfl | rfl <;>
                  first | rfl | exact absurd rfl hbne | exact absurd rfl hne
              subst this
              exact hne (htr P1 (E ++ (b :: t) :: cs) e b t1 (t ++ cs.flatten) (by simp [hP1]) ht1 (by simp [hE]) hee hbe).symm
            rw [hsk, hp]
            exact ⟨rfl, fun _ h => absurd h hc⟩
        · have hsk : skipPending e (buf ++ c) = buf ++ c := by
            apply skipPending_self
            intro b t hbt hbe
            cases buf with
            | nil => exact absurd rfl hb
            | cons y ys =>
              simp at hbt
              exact absurd hbe (hno b (by simp [hbt.1]))
          have hp : (idealRun [] 0 t0).2.2 = 0 := by
            apply Classical.byContradiction
            intro hp
            exact hb (by rw [hbuf]; exact (idealRun_pending t0 hp).1)
          rw [hsk, hp, idealRun_append, idealRun_noEol_zero [] hno]
          exact ⟨by simp, fun h => absurd h hb⟩
      obtain ⟨hA, hB⟩ := hA
      have hT : idealRun [] 0 (t0 ++ c) = ((idealRun [] 0 t0).1 ++ (idealRun buf (idealRun [] 0 t0).2.2 c).1,
          (idealRun buf (idealRun [] 0 t0).2.2 c).2) := by
        rw [idealRun_append, ← hbuf]
      have hT2 : (idealRun [] 0 (t0 ++ c)).2 = (idealRun [] 0 (skipPending e (buf ++ c))).2 := by rw [hT, hA]
      have hsz : (idealRun [] 0 (skipPending e (buf ++ c))).2.1.length ≤ (t0 ++ c).length := by
        have : ∀ (x : List Byte) (p : Byte) (y : List Byte), (idealRun x p y).2.1.length ≤ x.length + y.length := by
          intro x p y
          induction y generalizing x p with
          | nil => simp [idealRun]
          | cons z y ih =>
            simp only [idealRun]
            split
            · split
              · have := ih x 0; simp only [List.length_cons]; omega
              · have := ih [] z; simp only [List.length_cons, List.length_nil] at *; omega
            · have := ih (x ++ [z]) 0; simp only [List.length_append, List.length_cons, List.length_nil] at *; omega
        rw [hA]
        have := this buf (idealRun [] 0 t0).2.2 c
        simp only [List.length_append]; omega
      obtain ⟨e'', h⟩ := ih (P ++ [c]) (t0 ++ c) _ e' (by simp [hP]) (by rwa [List.append_assoc]) (by simpa using htr)
        (by rw [hT2]) d4 hsz d3 (by
          intro hb
          rcases d5 with ⟨hn1, rfl⟩ | d5
          · right
            rw [idealRun_noEol_zero [] hn1] at hb
            simp only [List.nil_append] at hb
            rw [hT2, idealRun_noEol_zero [] hn1]
            refine ⟨rfl, ?_⟩
            have hbe : buf = [] := by
              apply Classical.byContradiction
              intro hbne
              have hsk : skipPending e' (buf ++ c) = buf ++ c := by
                apply skipPending_self
                intro b t hbt hbe
                cases buf with
                | nil => exact absurd rfl hbne
                | cons y ys =>
                  simp at hbt
                  exact absurd hbe (hno b (by simp [hbt.1]))
              rw [hsk] at hb
              simp at hb
              exact hbne hb.1
            obtain ⟨t1, x, rfl, rfl, h1, h2, h3⟩ := hB hbe hb
            exact ⟨P, [], t1, x, rfl, rfl, hP.symm, h1, h2, h3⟩
          · left
            rw [hT2]; exact d5 hb)
      refine ⟨e'', ?_⟩
      rw [h, hT2, idealRun_append, hA]
      simp

/-- C18, for every text and every way to cut it into pieces in which no piece is a lone line ending character as described by
`NoLoneEol`: wherever the unconsumed text is placed in memory after each piece, the lines obtained are the lines of the whole
text. The full property has no restriction on the pieces; it is false, see `C18_deviation_fragmented`. -/
theorem C18_fragmentation_partial (place : Nat → List Byte → Mem × View)
    (hplace : ∀ i l, (l.length : Int) ≤ INT_MAX → ViewOf (place i l).1 (place i l).2 l)
    (pieces : List (List Byte)) (hlen : (pieces.flatten.length : Int) ≤ INT_MAX) (hcut : NoLoneEol pieces) :
    ∃ ls rem e, receive place pieces [] 0 = .ok (ls, rem, e) ∧ Lines pieces.flatten ls rem := by
  obtain ⟨e, h⟩ := receive_spec place hplace pieces [] [] [] 0 rfl (by simpa using hlen) (by simpa using hcut) rfl
    (by intro x hx; simp at hx) (by simp) (.inl rfl) (fun _ => .inl rfl)
  exact ⟨_, _, e, h, lines_idealRun _⟩

theorem run_emit (cur : List Byte) {p x : Byte} (hx : IsEol x) (hp : ¬ (p ≠ 0 ∧ x ≠ p)) (t : List Byte) :
    idealRun cur p (x :: t) = (cur :: (idealRun [] x t).1, (idealRun [] x t).2) := by
  simp only [idealRun, hx, if_true, if_neg hp]

theorem run_skip (cur : List Byte) {p x : Byte} (hx : IsEol x) (hp : p ≠ 0 ∧ x ≠ p) (t : List Byte) : idealRun cur p (x :: t) = idealRun cur 0 t := by
  simp only [idealRun, hx, if_true, if_pos hp]

theorem run_char (cur : List Byte) {p x : Byte} (hx : ¬ IsEol x) (t : List Byte) : idealRun cur p (x :: t) = idealRun (cur ++ [x]) 0 t := by
  simp only [idealRun, hx, if_false]

/-- Whatever is pending at the start of a line, the reader produces the same lines up to one empty line. -/
theorem run_sublist (t : List Byte) : (∀ p q, (idealRun [] p t).1.Sublist ([] :: (idealRun [] q t).1)) ∧
    ∀ p, (idealRun [] p t).1.Sublist (idealRun [] 0 t).1 := by
  induction t with
  | nil => exact ⟨fun p q => List.nil_sublist _, fun p => List.nil_sublist _⟩
  | cons x t ih =>
    constructor
    · intro p q
      by_cases hx : IsEol x
      · by_cases hp : p ≠ 0 ∧ x ≠ p
        · rw [run_skip _ hx hp]
          by_cases hq : q ≠ 0 ∧ x ≠ q
          · rw [run_skip _ hx hq]; exact List.sublist_cons_self _ _
          · rw [run_emit _ hx hq]; exact (ih.1 0 x).trans (List.sublist_cons_self _ _)
        · rw [run_emit _ hx hp]
          by_cases hq : q ≠ 0 ∧ x ≠ q
          · rw [run_skip _ hx hq]; exact List.Sublist.cons_cons _ (ih.2 x)
          · rw [run_emit _ hx hq]; exact List.sublist_cons_self _ _
      · rw [run_char _ hx, run_char _ hx]; exact List.sublist_cons_self _ _
    · intro p
      by_cases hx : IsEol x
      · rw [run_emit (p := 0) _ hx (by simp)]
        by_cases hp : p ≠ 0 ∧ x ≠ p
        · rw [run_skip _ hx hp]; exact ih.1 0 x
        · rw [run_emit _ hx hp]; exact List.Sublist.refl _
      · rw [run_char _ hx, run_char _ hx]; exact List.Sublist.refl _

/-- What is pending at the start of a line changes neither the non-empty lines nor the remainder. -/
theorem run_nonempty (t : List Byte) : ∀ p q, (idealRun [] p t).1.filter (· ≠ []) = (idealRun [] q t).1.filter (· ≠ []) ∧
    (idealRun [] p t).2.1 = (idealRun [] q t).2.1 := by
  induction t with
  | nil => exact fun p q => ⟨rfl, rfl⟩
  | cons x t ih =>
    intro p q
    by_cases hx : IsEol x
    · have h : ∀ r, ∃ r', (idealRun [] r (x :: t)).1.filter (· ≠ []) = (idealRun [] r' t).1.filter (· ≠ []) ∧
          (idealRun [] r (x :: t)).2.1 = (idealRun [] r' t).2.1 := by
        intro r
        by_cases hr : r ≠ 0 ∧ x ≠ r
        · exact ⟨0, by rw [run_skip _ hx hr]; exact ⟨rfl, rfl⟩⟩
        · exact ⟨x, by rw [run_emit _ hx hr]; simp⟩
      obtain ⟨p', h1, h2⟩ := h p
      obtain ⟨q', h3, h4⟩ := h q
      rw [h1, h2, h3, h4]
      exact ih p' q'
    · rw [run_char _ hx, run_char _ hx]; exact ⟨rfl, rfl⟩

/-- Something is pending only at the start of a line. -/
theorem run_pending_nil (t : List Byte) : ∀ cur p, (p ≠ 0 → cur = []) → (idealRun cur p t).2.2 ≠ 0 → (idealRun cur p t).2.1 = [] := by
  induction t with
  | nil => intro cur p h h1; exact h h1
  | cons x t ih =>
    intro cur p h
    by_cases hx : IsEol x
    · by_cases hp : p ≠ 0 ∧ x ≠ p
      · rw [run_skip _ hx hp]; exact ih _ _ (fun h0 => absurd rfl h0)
      · rw [run_emit _ hx hp]; exact ih _ _ (fun _ => rfl)
    · rw [run_char _ hx]; exact ih _ _ (fun h0 => absurd rfl h0)

theorem run_length (y : List Byte) : ∀ x p, (idealRun x p y).2.1.length ≤ x.length + y.length := by
  induction y with
  | nil => intro x p; simp [idealRun]
  | cons z y ih =>
    intro x p
    by_cases hz : IsEol z
    · by_cases hp : p ≠ 0 ∧ z ≠ p
      · rw [run_skip _ hz hp]; have := ih x 0; simp only [List.length_cons]; omega
      · rw [run_emit _ hz hp]; have := ih [] z; simp only [List.length_cons, List.length_nil] at *; omega
    · rw [run_char _ hz]; have := ih (x ++ [z]) 0; simp only [List.length_append, List.length_cons, List.length_nil] at *; omega

theorem receive_any (place : Nat → List Byte → Mem × View)
    (hplace : ∀ i l, (l.length : Int) ≤ INT_MAX → ViewOf (place i l).1 (place i l).2 l)
    (pieces : List (List Byte)) (buf : List Byte) (e : Byte) (hlen : ((buf ++ pieces.flatten).length : Int) ≤ INT_MAX)
    (hno : NoEol buf) (he : e = 0 ∨ IsEol e) :
    ∃ ls e', receive place pieces buf e = .ok (ls, (idealRun buf 0 pieces.flatten).2.1, e') ∧
      ls.Sublist (idealRun buf (if buf = [] then e else 0) pieces.flatten).1 ∧
      ls.filter (· ≠ []) = (idealRun buf 0 pieces.flatten).1.filter (· ≠ []) := by
  induction pieces generalizing buf e with
  | nil => exact ⟨[], e, by simp [receive, idealRun]⟩
  | cons c cs ih =>
    simp only [List.flatten_cons] at hlen ⊢
    have hl : ((buf ++ c).length : Int) ≤ INT_MAX := by
      simp only [List.length_append] at hlen ⊢; omega
    have hv := hplace cs.length (buf ++ c) hl
    simp only [receive]
    generalize place cs.length (buf ++ c) = mv at *
    obtain ⟨m, v⟩ := mv
    simp only at hv ⊢
    obtain ⟨s, e', d1, d2, -, d3, d4, d5⟩ := drain_spec hv e he (v.size.toNat + 2) (by rw [hv.sizeToNat]; omega)
    simp only [d1, Res.bind_ok, d2.toDenotes.readBytes]
    by_cases hc : c = []
    · subst hc
      simp only [List.append_nil, List.nil_append] at *
      have hsk : skipPending e buf = buf := by
        apply skipPending_self
        rintro b t rfl hb
        exact absurd hb (hno b (by simp))
      rw [hsk, idealRun_noEol_zero [] hno] at d5 ⊢
      simp only [List.nil_append] at d5 ⊢
      have he' : buf = [] → e' = e := by
        intro hb
        rcases d5 with ⟨-, h⟩ | h
        · exact h
        · subst hb
          have hsz : v.size = 0 := hv.size
          simp [drain, strview_split_line, hsz, strview_is_valid, View.invalid] at d1
          exact d1.2.2.symm
      obtain ⟨ls, e'', h1, h2, h3⟩ := ih buf e' hlen hno d3
      refine ⟨ls, e'', by rw [h1]; simp, ?_, h3⟩
      by_cases hb : buf = []
      · rw [he' hb] at h2; exact h2
      · rw [if_neg hb] at h2 ⊢; exact h2
    · -- what the reader makes of this piece
      have hA : idealRun [] 0 (skipPending e (buf ++ c)) = idealRun buf (if buf = [] then e else 0) c := by
        by_cases hb : buf = []
        · subst hb
          obtain ⟨q1, q2, q3⟩ := idealRun_skip e c
          simp only [List.nil_append, if_true]
          exact (Prod.ext q1 (Prod.ext q2 (q3 hc))).symm
        · have hsk : skipPending e (buf ++ c) = buf ++ c := by
            apply skipPending_self
            intro b t hbt hbe
            cases buf with
            | nil => exact absurd rfl hb
            | cons y ys =>
              simp at hbt
              exact absurd hbe (hno b (by simp [hbt.1]))
          rw [hsk, if_neg hb, idealRun_append, idealRun_noEol_zero [] hno]
          simp
      have hW : (idealRun buf (if buf = [] then e else 0) (c ++ cs.flatten)).1.filter (· ≠ []) =
            (idealRun buf 0 (c ++ cs.flatten)).1.filter (· ≠ []) ∧
          (idealRun buf (if buf = [] then e else 0) (c ++ cs.flatten)).2.1 = (idealRun buf 0 (c ++ cs.flatten)).2.1 := by
        by_cases hb : buf = []
        · subst hb; exact run_nonempty _ _ _
        · rw [if_neg hb]; exact ⟨rfl, rfl⟩
      have hP : ∀ p, (p ≠ 0 → buf = []) → (idealRun buf p c).2.2 ≠ 0 → (idealRun buf p c).2.1 = [] := fun p => run_pending_nil c buf p
      have hP := hP (if buf = [] then e else 0) (by intro h; by_cases hb : buf = []; exact hb; simp [hb] at h)
      rw [← hW.1, ← hW.2]
      clear hW
      have hz : NoEol (skipPending e (buf ++ c)) → (idealRun [] 0 (skipPending e (buf ++ c))).2.2 = 0 := by
        intro h; rw [idealRun_noEol_zero [] h]
      rw [hA] at d4 d5 hz ⊢
      have hsz := run_length c buf (if buf = [] then e else 0)
      rw [idealRun_append]
      generalize idealRun buf (if buf = [] then e else 0) c = L at *
      obtain ⟨l1, R, p⟩ := L
      simp only at d4 d5 hsz hP hz ⊢
      obtain ⟨ls, e'', h1, h2, h3⟩ := ih R e' (by simp only [List.length_append] at hlen ⊢; omega) d4 d3
      have hR : (idealRun R 0 cs.flatten).1.filter (· ≠ []) = (idealRun R p cs.flatten).1.filter (· ≠ []) ∧
          (idealRun R 0 cs.flatten).2.1 = (idealRun R p cs.flatten).2.1 := by
        by_cases hp : p = 0
        · rw [hp]; exact ⟨rfl, rfl⟩
        · rw [hP hp]; exact run_nonempty _ _ _
      refine ⟨l1 ++ ls, e'', ?_, ?_, ?_⟩
      · rw [h1, hR.2]; simp
      · refine List.Sublist.append (List.Sublist.refl _) (h2.trans ?_)
        by_cases hb : R = []
        · subst hb
          simp only [if_true]
          rcases d5 with ⟨hn1, rfl⟩ | d5
          · rw [hz hn1]
            exact (run_sublist _).2 _
          · rw [d5 rfl]; exact List.Sublist.refl _
        · have h0 : p = 0 := by
            apply Classical.byContradiction
            intro h; exact hb (hP h)
          rw [if_neg hb, h0]; exact List.Sublist.refl _
      · rw [List.filter_append, List.filter_append, h3, hR.1]

/-- C18 for every text and **every** way to cut it, without any restriction: the reader never fails, what it keeps is the text
after the last line ending, the lines it returns are lines of the whole text in their order, and every line that is not empty is
among them, whole. What is missing for the full property: empty lines can be lost (`C18_deviation_fragmented`). -/
theorem C18_any_fragmentation_partial (place : Nat → List Byte → Mem × View)
    (hplace : ∀ i l, (l.length : Int) ≤ INT_MAX → ViewOf (place i l).1 (place i l).2 l)
    (pieces : List (List Byte)) (hlen : (pieces.flatten.length : Int) ≤ INT_MAX) :
    ∃ ls rem e all, receive place pieces [] 0 = .ok (ls, rem, e) ∧ Lines pieces.flatten all rem ∧
      ls.Sublist all ∧ ls.filter (· ≠ []) = all.filter (· ≠ []) := by
  obtain ⟨ls, e, h1, h2, h3⟩ := receive_any place hplace pieces [] 0 (by simpa using hlen) (by intro x hx; simp at hx) (.inl rfl)
  exact ⟨ls, _, e, _, h1, lines_idealRun _, by simpa using h2, h3⟩

/-- The lines returned do not depend on the cut, apart from empty ones: two ways to cut one text give the same non-empty lines and
the same remainder. -/
theorem C18_cuts_agree_partial (place : Nat → List Byte → Mem × View)
    (hplace : ∀ i l, (l.length : Int) ≤ INT_MAX → ViewOf (place i l).1 (place i l).2 l)
    (P Q : List (List Byte)) (hPQ : P.flatten = Q.flatten) (hlen : (P.flatten.length : Int) ≤ INT_MAX) :
    ∃ ls ls' rem e e', receive place P [] 0 = .ok (ls, rem, e) ∧ receive place Q [] 0 = .ok (ls', rem, e') ∧
      ls.filter (· ≠ []) = ls'.filter (· ≠ []) := by
  obtain ⟨ls, rem, e, all, h1, h2, -, h3⟩ := C18_any_fragmentation_partial place hplace P hlen
  obtain ⟨ls', rem', e', all', k1, k2, -, k3⟩ := C18_any_fragmentation_partial place hplace Q (hPQ ▸ hlen)
  rw [← hPQ] at k2
  obtain ⟨rfl, rfl⟩ := h2.unique k2
  exact ⟨ls, ls', rem, e, e', h1, k1, h3.trans k3.symm⟩

/-- C18 for every text, if no piece is a single byte. -/
theorem C18_pieces_of_two (place : Nat → List Byte → Mem × View)
    (hplace : ∀ i l, (l.length : Int) ≤ INT_MAX → ViewOf (place i l).1 (place i l).2 l)
    (pieces : List (List Byte)) (hlen : (pieces.flatten.length : Int) ≤ INT_MAX) (h2 : ∀ p ∈ pieces, p.length ≠ 1) :
    ∃ ls rem e, receive place pieces [] 0 = .ok (ls, rem, e) ∧ Lines pieces.flatten ls rem := by
  refine C18_fragmentation_partial place hplace pieces hlen ?_
  rintro P Q x y u w rfl
  exact absurd rfl (h2 [y] (by simp))

/-- C18 for every way to cut it into pieces, if the text contains neither CR LF LF nor LF CR CR. -/
theorem C18_text_without_triples (place : Nat → List Byte → Mem × View)
    (hplace : ∀ i l, (l.length : Int) ≤ INT_MAX → ViewOf (place i l).1 (place i l).2 l)
    (pieces : List (List Byte)) (hlen : (pieces.flatten.length : Int) ≤ INT_MAX)
    (h1 : ¬ [13, 10, 10] <:+: pieces.flatten) (h2 : ¬ [10, 13, 13] <:+: pieces.flatten) :
    ∃ ls rem e, receive place pieces [] 0 = .ok (ls, rem, e) ∧ Lines pieces.flatten ls rem := by
  refine C18_fragmentation_partial place hplace pieces hlen ?_
  rintro P Q x y u w rfl e1 e2 hx hy
  have e3 : (P ++ [y] :: Q).flatten = u ++ [x, y, y] ++ w := by simp [e1, e2]
  rw [e3] at h1 h2
  rcases hx with rfl | rfl <;> rcases hy with rfl | rfl
  · rfl
  · exact absurd ⟨u, w, rfl⟩ h1
  · exact absurd ⟨u, w, rfl⟩ h2
  · rfl

/-- Placing each text at address 4096 of a memory that holds nothing else. -/
def placeAt : Nat → List Byte → Mem × View := fun _ l => (memAt 4096 l, ⟨4096, l.length⟩)

theorem placeAt_ok (i : Nat) (l : List Byte) (h : (l.length : Int) ≤ INT_MAX) :
    ViewOf (placeAt i l).1 (placeAt i l).2 l :=
  viewOf_memAt 4096 l (by decide) (by simp only [INT_MAX, litBase] at *; omega) h

/-- Pieces `a CR`, `LF b`, `LF LF` give the lines `a`, `b`, and an empty line. -/
example : (∀ p ∈ [[97, 13], [10, 98], [10, 10]], p.length ≠ 1) ∧
    ¬ [13, 10, 10] <:+: [[97, 13], [10, 98], [10, 10]].flatten ∧ ¬ [10, 13, 13] <:+: [[97, 13], [10, 98], [10, 10]].flatten ∧
    receive placeAt [[97, 13], [10, 98], [10, 10]] [] 0 = .ok ([[97], [98], []], [], 10) := by
  exact ⟨by decide, by decide, by decide, by decide +kernel⟩

/-- `a CR`, `LF`, `LF`, `b CR`, `c`: the empty line after `a` is lost, `a` and `b` are not. -/
example : receive placeAt [[97, 13], [10], [10], [98, 13], [99]] [] 0 = .ok ([[97], [98]], [99], 13) ∧
    Lines [97, 13, 10, 10, 98, 13, 99] [[97], [], [98]] [99] := by
  refine ⟨by decide +kernel, ?_⟩
  have := lines_idealRun [97, 13, 10, 10, 98, 13, 99]
  simpa [idealRun, IsEol] using this

/-- C18 is false in general: CR LF LF in one piece is two lines; in three pieces it is one. -/
theorem C18_deviation_fragmented :
    ∃ ls rem e ls' rem' e', receive placeAt [[13, 10, 10]] [] 0 = .ok (ls, rem, e) ∧
      receive placeAt [[13], [10], [10]] [] 0 = .ok (ls', rem', e') ∧ ls ≠ ls' := by
  refine ⟨[[], []], [], 10, [[]], [], 13, by decide +kernel, by decide +kernel, by decide⟩

end CStr
