import Verif.Spec.Count
import Verif.Props.Replace
/-
  C78: counting the occurrences of a text, and the size of the text with its occurrences replaced.
-/
namespace CStr

theorem Disjointly.more {n : List Byte} {h : List Byte} {k : Nat} (x : Disjointly n h k) (l : List Byte) : Disjointly n (l ++ h) k := by
  cases x with
  | done => exact .done _
  | @next a b k rest =>
    have := Disjointly.next (a := l ++ a) rest
    simpa using this

/-- What is left behind the first occurrence has at most one occurrence less. -/
theorem Disjointly.first {n a b : List Byte} {k : Nat} (first : ∀ a' b', a ++ n ++ b = a' ++ n ++ b' → a.length ≤ a'.length)
    (x : Disjointly n (a ++ n ++ b) (k + 1)) : Disjointly n b k := by
  generalize e : a ++ n ++ b = h at x
  cases x with
  | @next a' b' k rest =>
    have h1 := first a' b' e
    have hd : b = ((a' ++ n).drop (a ++ n).length) ++ b' := by
      have := congrArg (List.drop (a ++ n).length) e
      rw [List.drop_left, List.drop_append_of_le_length (by simp only [List.length_append]; omega)] at this
      exact this
    rw [hd]
    exact rest.more _

/-- C78. Counting the occurrences of a text that is not empty, with `strview_find_first`, `strview_split_left` and `strview_split_index`:
the result is the greatest number of them that do not overlap, and the size of the text with them replaced follows from it. -/
theorem C78_count {m : Mem} {w : View} {n : List Byte} (hn : n ≠ []) (hw : ViewOf m w n) (k : Nat) :
    ∀ {h : List Byte} {v : View} (_ : ViewOf m v h) (_ : h.length < k),
    ∃ c, countAll m w k v = .ok c ∧ Disjointly n h c ∧ (∀ c', Disjointly n h c' → c' ≤ c) ∧
      ∀ r t, Replaced n r h t → t.length + c * n.length = h.length + c * r.length := by
  have hl : 0 < n.length := List.length_pos_iff.2 hn
  induction k with
  | zero => intros; omega
  | succ k ih =>
    intro h v hv hk
    rcases C78_cut_at_first hv hw with ⟨l, r', x, y, rfl, hmin, hcut, hx, hy, -, -⟩ | ⟨absent, hcut⟩
    · simp only [List.length_append] at hk
      obtain ⟨c, e, h1, h2, h3⟩ := ih hy (by omega)
      refine ⟨c + 1, ?_, .next h1, ?_, ?_⟩
      · simp only [countAll, hcut, Res.bind_ok, is_valid_iff.2 hx.ne_zero, if_true, e]
      · intro c' hc
        cases c' with
        | zero => omega
        | succ c' => have := h2 c' (hc.first hmin); omega
      · intro r t ht
        generalize e0 : l ++ n ++ r' = h0 at ht
        cases ht with
        | none absent => exact absurd e0.symm (absent _ _)
        | @some a' b' t' first' rest' =>
          have g1 := hmin a' b' e0
          have g2 := first' l r' e0.symm
          rw [List.append_assoc, List.append_assoc] at e0
          obtain ⟨rfl, e2⟩ := List.append_inj e0 (by omega)
          have := List.append_cancel_left e2
          subst this
          have := h3 r t' rest'
          simp only [List.length_append, Nat.add_mul, Nat.one_mul]
          omega
    · refine ⟨0, ?_, .done _, ?_, ?_⟩
      · simp only [countAll, hcut, Res.bind_ok]; rfl
      · intro c' hc
        cases hc with
        | done => exact Nat.le_refl _
        | next rest => exact absurd rfl (absent _ _)
      · intro r t ht
        cases ht with
        | none => omega
        | some _ _ => exact absurd rfl (absent _ _)

-- `aaa` has one `aa`; the conditions of the theorem hold
example : countAll (exSt exEmpty [97, 97, 97]).mem ⟨exQ, 2⟩ 4 ⟨exQ, 3⟩ = .ok 1 ∧ countAll (exSt exEmpty [97, 45, 98, 45]).mem ⟨exQ + 1, 1⟩ 5 ⟨exQ, 4⟩ = .ok 2 := by
  decide +kernel

example : ViewOf (exSt exEmpty [97, 45, 98, 45]).mem ⟨exQ + 0, 4⟩ [97, 45, 98, 45] ∧ ViewOf (exSt exEmpty [97, 45, 98, 45]).mem ⟨exQ + 1, 1⟩ [45] :=
  ⟨⟨(exSt_elsewhere exEmpty_valid (by decide) 0 4 (by decide)).toDenotes, by decide +kernel⟩,
    ⟨(exSt_elsewhere exEmpty_valid (by decide) 1 1 (by decide)).toDenotes, by decide +kernel⟩⟩

end CStr
