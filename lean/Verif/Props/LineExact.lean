import Verif.Props.Line
import Verif.Spec.LineExact
/-! Property C18: the lines obtained from every fragmentation, exactly. -/
namespace CStr

/-- What is pending after a text. -/
theorem pending_eq (t : List Byte) : (idealRun [] 0 t).2.2 = if openEnd t.reverse then t.getLastD 0 else 0 := by
  rcases List.eq_nil_or_concat t with rfl | ⟨t1, x, rfl⟩
  · rfl
  · rw [List.concat_eq_append]
    have ih := pending_eq t1
    rw [idealRun_append, ih]
    simp only [List.reverse_append, List.reverse_cons, List.reverse_nil, List.nil_append, List.cons_append, openEnd, List.getLastD_concat]
    by_cases hx : IsEol x
    · have hx0 : x ≠ 0 := by rcases hx with rfl | rfl <;> decide
      by_cases ho : openEnd t1.reverse = true
      · rcases List.eq_nil_or_concat t1 with rfl | ⟨t2, y, rfl⟩
        · simp [openEnd] at ho
        · rw [List.concat_eq_append] at ho ⊢
          simp only [List.reverse_append, List.reverse_cons, List.reverse_nil, List.nil_append, List.cons_append] at ho ⊢
          have hy : IsEol y := by
            simp only [openEnd, Bool.and_eq_true, decide_eq_true_eq] at ho
            exact ho.1
          have hy0 : y ≠ 0 := by rcases hy with rfl | rfl <;> decide
          by_cases hxy : y = x
          · subst hxy; simp [idealRun, hx, ho]
          · have hyx : ¬ x = y := fun h => hxy h.symm
            simp [idealRun, hx, ho, hxy, hyx, hy0]
      · simp [idealRun, hx, ho]
    · simp [idealRun, hx]
termination_by t.length
decreasing_by simp_all

theorem drain_none {m : Mem} {v : View} {l : List Byte} (h : ViewOf m v l) (e : Byte) (he : e = 0 ∨ IsEol e) (k : Nat) (hn : NoEol (skipPending e l)) :
    ∃ s, drain m (k + 1) v e = .ok ([], s, e) := by
  rcases split_line_eol h e he with ⟨line, term, rest, r, s, h1, -⟩ | ⟨-, s, -, -, h3⟩
  · exact absurd hn (firstLine_not_noEol h1)
  · exact ⟨s, by simp [drain, h3, strview_is_valid, View.invalid]⟩

theorem run_rem_length (x : List Byte) (p : Byte) (y : List Byte) : (idealRun x p y).2.1.length ≤ x.length + y.length := by
  induction y generalizing x p with
  | nil => simp [idealRun]
  | cons z y ih =>
    simp only [idealRun]
    split
    · split
      · have := ih x 0; simp only [List.length_cons]; omega
      · have := ih [] z; simp only [List.length_cons, List.length_nil] at *; omega
    · have := ih (x ++ [z]) 0; simp only [List.length_append, List.length_cons, List.length_nil] at *; omega

theorem receive_exact (place : Nat → List Byte → Mem × View)
    (hplace : ∀ i l, (l.length : Int) ≤ INT_MAX → ViewOf (place i l).1 (place i l).2 l)
    (pieces : List (List Byte)) (t0 buf : List Byte) (e : Byte)
    (hlen : ((t0 ++ pieces.flatten).length : Int) ≤ INT_MAX)
    (hbuf : buf = (idealRun [] 0 t0).2.1) (hno : NoEol buf) (hble : buf.length ≤ t0.length)
    (he : e = 0 ∨ IsEol e) (hst : buf = [] → e = (idealRun [] 0 t0).2.2) :
    ∃ ls rem e', receive place pieces buf e = .ok (ls, rem, e') ∧
      (idealRun [] 0 (heard t0 pieces)).1 = (idealRun [] 0 t0).1 ++ ls ∧ rem = (idealRun [] 0 (heard t0 pieces)).2.1 := by
  induction pieces generalizing t0 buf e with
  | nil => exact ⟨[], buf, e, by simp [receive], by simp [heard], by simpa [heard] using hbuf⟩
  | cons c cs ih =>
    simp only [List.flatten_cons] at hlen
    have hl : ((buf ++ c).length : Int) ≤ INT_MAX := by
      simp only [List.length_append] at hlen ⊢; omega
    have hv := hplace cs.length (buf ++ c) hl
    simp only [receive]
    generalize place cs.length (buf ++ c) = mv at *
    obtain ⟨m, v⟩ := mv
    simp only at hv ⊢
    have hdn := drain_none hv e he (v.size.toNat + 1)
    obtain ⟨s, e', d1, d2, -, d3, d4, d5⟩ := drain_spec hv e he (v.size.toNat + 2) (by rw [hv.sizeToNat]; omega)
    have hdn' : NoEol (skipPending e (buf ++ c)) → e' = e := by
      intro hn
      obtain ⟨s', hs'⟩ := hdn hn
      rw [d1] at hs'
      simp at hs'
      exact hs'.2.2
    simp only [d1, Res.bind_ok, d2.toDenotes.readBytes]
    -- nothing is read
    by_cases hq : skipPending e (buf ++ c) = buf ∧ heard t0 (c :: cs) = heard t0 cs
    · obtain ⟨hsk, hh⟩ := hq
      have he' := hdn' (by rw [hsk]; exact hno)
      rw [hsk, idealRun_noEol_zero [] hno]
      simp only [List.nil_append]
      rw [he']
      obtain ⟨ls, rem, e'', h1, h2, h3⟩ := ih t0 buf e (by simp only [List.length_append] at hlen ⊢; omega) hbuf hno hble he hst
      exact ⟨ls, rem, e'', by rw [h1]; simp, by rw [hh]; exact h2, by rw [hh]; exact h3⟩
    have hc : c ≠ [] := by
      rintro rfl
      refine hq ⟨?_, by simp only [heard, List.append_nil, ite_self]⟩
      rw [List.append_nil]
      apply skipPending_self
      rintro b t rfl hb
      exact absurd hb (hno b (by simp))
    have hcomp : ¬ Completes t0 c := by
      intro hcomp
      refine hq ⟨?_, by simp only [heard, if_pos hcomp]⟩
      obtain ⟨y, rfl, hy, ho, hne⟩ := hcomp
      have hp := pending_eq t0
      rw [if_pos ho] at hp
      rcases List.eq_nil_or_concat t0 with rfl | ⟨t1, x, rfl⟩
      · simp [openEnd] at ho
      · rw [List.concat_eq_append] at *
        simp only [List.reverse_append, List.reverse_cons, List.reverse_nil, List.nil_append, List.cons_append, openEnd, Bool.and_eq_true,
          decide_eq_true_eq] at ho
        have hx0 : x ≠ 0 := by rcases ho.1 with rfl | rfl <;> decide
        rw [List.getLastD_concat] at hp
        have hb : buf = [] := by rw [hbuf]; exact (idealRun_pending _ (by rw [hp]; exact hx0)).1
        have hex : e = x := by rw [hst hb, hp]
        have hyx : y ≠ x := by
          rintro rfl
          simp at hne
        subst hb hex
        simp [skipPending, hx0, hy, hyx]
    have hheard : heard t0 (c :: cs) = heard (t0 ++ c) cs := by simp only [heard, if_neg hcomp]
    rw [hheard]
    -- what the reader makes of this piece
    have hA : idealRun [] 0 (skipPending e (buf ++ c)) = idealRun buf (idealRun [] 0 t0).2.2 c ∧ skipPending e (buf ++ c) ≠ [] := by
      by_cases hb : buf = []
      · subst hb
        have hp := hst rfl
        simp only [List.nil_append]
        rw [← hp]
        obtain ⟨q1, q2, q3⟩ := idealRun_skip e c
        refine ⟨(Prod.ext q1 (Prod.ext q2 (q3 hc))).symm, ?_⟩
        intro hs
        cases c with
        | nil => exact hc rfl
        | cons x t =>
          simp only [skipPending] at hs
          by_cases hx : e ≠ 0 ∧ IsEol x ∧ x ≠ e
          · rw [if_pos hx] at hs
            subst hs
            apply hcomp
            have hpe := pending_eq t0
            by_cases ho : openEnd t0.reverse = true
            · refine ⟨x, rfl, hx.2.1, ho, ?_⟩
              rw [if_pos ho, ← hp] at hpe
              intro hl
              rw [List.getLastD_eq_getLast?, hl] at hpe
              exact hx.2.2 hpe.symm
            · rw [if_neg ho, ← hp] at hpe
              exact absurd hpe hx.1
          · rw [if_neg hx] at hs
            cases hs
      · have hsk : skipPending e (buf ++ c) = buf ++ c := by
          apply skipPending_self
          intro b t hbt hbe
          cases buf with
          | nil => exact absurd rfl hb
          | cons y ys =>
            simp at hbt
            exact absurd hbe (hno b (by simp [hbt.1]))
        have hp : (idealRun [] 0 t0).2.2 = 0 := by
          apply Classical.byContradiction
          intro hp
          exact hb (by rw [hbuf]; exact (idealRun_pending t0 hp).1)
        rw [hsk, hp, idealRun_append, idealRun_noEol_zero [] hno]
        exact ⟨by simp, by simp [hb]⟩
    obtain ⟨hA, hB⟩ := hA
    have hT : idealRun [] 0 (t0 ++ c) = ((idealRun [] 0 t0).1 ++ (idealRun buf (idealRun [] 0 t0).2.2 c).1,
        (idealRun buf (idealRun [] 0 t0).2.2 c).2) := by
      rw [idealRun_append, ← hbuf]
    have hT2 : (idealRun [] 0 (t0 ++ c)).2 = (idealRun [] 0 (skipPending e (buf ++ c))).2 := by rw [hT, hA]
    have hsz : (idealRun [] 0 (skipPending e (buf ++ c))).2.1.length ≤ (t0 ++ c).length := by
      rw [hA]
      have := run_rem_length buf (idealRun [] 0 t0).2.2 c
      simp only [List.length_append]; omega
    obtain ⟨ls, rem, e'', h1, h2, h3⟩ := ih (t0 ++ c) _ e' (by rwa [List.append_assoc]) (by rw [hT2]) d4 hsz d3 (by
      intro hb
      rcases d5 with ⟨hn1, -⟩ | d5
      · rw [idealRun_noEol_zero [] hn1] at hb
        exact absurd (by simpa using hb) hB
      · rw [hT2]
        exact d5 hb)
    refine ⟨_, rem, e'', by rw [h1]; rfl, ?_, h3⟩
    rw [h2, hT, hA]
    simp

/-- C18, exactly, for every text and every way to cut it: the lines obtained are the lines of the text without the pieces that are nothing but the second
character of a line ending. (The property itself, that these are the lines of the whole text, holds for the cuts in which this makes no difference.) -/
theorem C18_exact (place : Nat → List Byte → Mem × View)
    (hplace : ∀ i l, (l.length : Int) ≤ INT_MAX → ViewOf (place i l).1 (place i l).2 l)
    (pieces : List (List Byte)) (hlen : (pieces.flatten.length : Int) ≤ INT_MAX) :
    ∃ ls rem e, receive place pieces [] 0 = .ok (ls, rem, e) ∧ Lines (heard [] pieces) ls rem := by
  obtain ⟨ls, rem, e, h1, h2, h3⟩ := receive_exact place hplace pieces [] [] 0 (by simpa using hlen) rfl (by intro x hx; simp at hx) (by simp) (.inl rfl)
    (fun _ => rfl)
  refine ⟨ls, rem, e, h1, ?_⟩
  have := lines_idealRun (heard [] pieces)
  rw [h2, ← h3] at this
  simpa [idealRun] using this

example : ∃ ls rem e, receive placeAt [[97, 13], [10], [10], [98, 13], [99]] [] 0 = .ok (ls, rem, e) ∧
    Lines [97, 13, 98, 13, 99] ls rem :=
  C18_exact placeAt placeAt_ok [[97, 13], [10], [10], [98, 13], [99]] (by decide)

/-- The lines obtained are those of the text exactly for the cuts in which leaving out the pieces that only complete a line ending leaves the lines of the text as
they are. -/
theorem C18_right_iff (place : Nat → List Byte → Mem × View)
    (hplace : ∀ i l, (l.length : Int) ≤ INT_MAX → ViewOf (place i l).1 (place i l).2 l)
    (pieces : List (List Byte)) (hlen : (pieces.flatten.length : Int) ≤ INT_MAX) (all : List (List Byte)) (last : List Byte)
    (h : Lines pieces.flatten all last) :
    (∃ e, receive place pieces [] 0 = .ok (all, last, e)) ↔ Lines (heard [] pieces) all last := by
  obtain ⟨ls, rem, e, h1, h2⟩ := C18_exact place hplace pieces hlen
  rw [h1]
  constructor
  · rintro ⟨e', he⟩
    cases he
    exact h2
  · intro h'
    obtain ⟨rfl, rfl⟩ := h2.unique h'
    exact ⟨e, rfl⟩

example : ∃ e, receive placeAt [[97, 13], [10], [98, 10]] [] 0 = .ok ([[97], [98]], [], e) :=
  (C18_right_iff placeAt placeAt_ok [[97, 13], [10], [98, 10]] (by decide) [[97], [98]] [] (lines_idealRun [97, 13, 10, 98, 10])).2
    (lines_idealRun [97, 13, 98, 10])

/-- Not only one text: whenever the second character of a line ending arrives alone and the next piece begins with the same character (and no further line
ending), an empty line of the text is missing. -/
theorem C18_every_lone_deviation (place : Nat → List Byte → Mem × View)
    (hplace : ∀ i l, (l.length : Int) ≤ INT_MAX → ViewOf (place i l).1 (place i l).2 l)
    (u w : List Byte) (x y : Byte) (hu : NoEol u) (hw : NoEol w) (hx : IsEol x) (hy : IsEol y) (hxy : x ≠ y)
    (hlen : ((u ++ x :: y :: y :: w).length : Int) ≤ INT_MAX) :
    Lines (u ++ x :: y :: y :: w) [u, []] w ∧
    ∃ e, receive place [u ++ [x], [y], y :: w] [] 0 = .ok ([u], w, e) := by
  have hw1 : ∀ b t, w = b :: t → IsEol b → b = y := by
    rintro b t rfl hb
    exact absurd hb (hw b (by simp))
  refine ⟨.line (.two u x y (y :: w) hu hx hy hxy) (.line (.one [] y w (by intro z hz; simp at hz) hy hw1) (.done w hw)), ?_⟩
  obtain ⟨ls, rem, e, h1, h2⟩ := C18_exact place hplace [u ++ [x], [y], y :: w] (by
    simp only [List.flatten_cons, List.flatten_nil, List.length_append, List.length_cons, List.length_nil] at hlen ⊢; omega)
  have hop : openEnd (x :: u.reverse) = true := by
    have : openEnd u.reverse = false := by
      cases hr : u.reverse with
      | nil => rfl
      | cons z r =>
        have : ¬ IsEol z := hu z (by rw [← List.mem_reverse, hr]; simp)
        simp [openEnd, this]
    simp [openEnd, hx, this]
  have c1 : ¬ Completes [] (u ++ [x]) := by
    rintro ⟨z, -, -, h, -⟩
    simp [openEnd] at h
  have c2 : Completes (u ++ [x]) [y] := ⟨y, rfl, hy, by simpa using hop, by simpa using hxy⟩
  have hL : Lines (heard [] [u ++ [x], [y], y :: w]) [u] w := by
    by_cases c3 : Completes (u ++ [x]) (y :: w)
    · have hh : heard [] [u ++ [x], [y], y :: w] = u ++ [x] := by simp [heard, c1, c2, c3]
      obtain ⟨z, hz, -⟩ := c3
      cases hz
      rw [hh]
      exact .line (.one u x [] hu hx (by intro b t h; cases h)) (.done [] hw)
    · have hh : heard [] [u ++ [x], [y], y :: w] = u ++ x :: y :: w := by simp [heard, c1, c2, c3]
      rw [hh]
      exact .line (.two u x y w hu hx hy hxy) (.done w hw)
  obtain ⟨rfl, rfl⟩ := h2.unique hL
  exact ⟨e, h1⟩

example : ∃ e, receive placeAt [[97, 98, 13], [10], [10, 99]] [] 0 = .ok ([[97, 98]], [99], e) :=
  (C18_every_lone_deviation placeAt placeAt_ok [97, 98] [99] 13 10 (by simp [NoEol, IsEol]) (by simp [NoEol, IsEol]) (by decide) (by decide) (by decide) (by decide)).2

end CStr
