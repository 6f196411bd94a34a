import Verif.Spec.Group
import Verif.Props.Reverse
/-
  C78: the characters of a text in groups, counted from its end.
-/
namespace CStr

/-- C78. Prepending the last `n` characters of a text to a buffer again and again, with a separator between the groups, with
`strview_split_index(&src, -n)` and `strbuf_prepend`: the buffer gets the text in groups of `n` characters, the first of which
may be shorter, in front of what it had, and no other memory changes. -/
theorem C78_group_from_end {cfg : Cfg} (hcfg : cfg.Ok) {n : Nat} (hn : 0 < n) (hn' : (n : Int) ≤ INT_MAX) {r a : List Byte} {x : View}
    (ha : 0 < a.length) (ha' : a.length ≤ n) (L : List (List Byte)) :
    ∀ (_ : ∀ g ∈ L, g.length = n) {s : St} (_ : s.Sane) {p : Addr} {b : Buf} (_ : BufAt s p b) {v : View} (_ : 0 < v.data)
      (_ : Elsewhere s p (storage b.cap) v (a :: L).flatten) (_ : Elsewhere s p (storage b.cap) x r)
      (_ : b.HasRoom cfg (b.data.length + (r.intercalate (a :: L)).length)) (k : Nat) (_ : L.length + 1 < k),
    (b.Dynamic ∧ groupFromEnd cfg n x k v p s = .env .alloc) ∨
    ∃ p' s' cap, groupFromEnd cfg n x k v p s = .ok (p', s') ∧ BufAt s' p' ⟨r.intercalate (a :: L) ++ b.data, cap, b.al⟩ ∧ s'.Sane ∧
      OnlyBlock s s' p (storage b.cap) p' (storage cap) := by
  have hmin : INT_MIN ≤ -(n : Int) := by have : INT_MIN = -INT_MAX - 1 := by decide
                                         omega
  have hmax : -(n : Int) ≤ INT_MAX := by omega
  induction L using List.reverseRecOn with
  | nil =>
    intro _ s hs p b hb v hvp hv hx hroom k hk
    obtain ⟨k, rfl⟩ : ∃ j, k = j + 2 := ⟨k - 2, by simp only [List.length_nil] at hk; omega⟩
    have e1 : [a].flatten = a := by simp
    have e2 : r.intercalate [a] = a := by simp [List.intercalate]
    rw [e1] at hv
    rw [e2] at hroom ⊢
    have hsz := hv.size
    obtain ⟨u, w, e, hu, hw, ⟨h, -⟩ | ⟨-, h2, h3⟩⟩ := C14_split_index ⟨hv.toDenotes, hvp⟩ (-(n : Int)) hmin hmax
    · omega
    have hwl : w.length = a.length := by omega
    have hul : u = [] := by
      have := congrArg List.length e
      simp only [List.length_append] at this
      exact List.length_eq_zero_iff.1 (by omega)
    subst hul
    rw [List.nil_append] at e
    subst e
    have hap := hv.apart
    rcases hap with rfl | hap
    · simp at ha
    have hyE : Elsewhere s p (storage b.cap) (v.part ([] : List Byte).length a.length) a :=
      ⟨hw.toDenotes, .inr (by simp only [View.part, List.length_nil]; omega)⟩
    have ec : groupFromEnd cfg n x (k + 2) v p s = (do
        match ← strbuf_prepend_strview cfg s (some p) (v.part ([] : List Byte).length a.length) with
        | (_, some buf, s) => .ok (buf, s)
        | _ => .env .other) := by
      rw [groupFromEnd, if_neg (by omega), h3]
      simp only [Res.bind_ok, View.part, List.length_nil]
      rfl
    rw [ec]
    rcases prepend_elsewhere hcfg hs hb hyE hroom (Nat.le_refl _) with ⟨d, e⟩ | ⟨u, p', s', cap, e, g1, g2, g3, _⟩
    · exact .inl ⟨d, by rw [e]; rfl⟩
    · exact .inr ⟨p', s', cap, by rw [e]; rfl, g1, g2, g3⟩
  | append_singleton L z ih =>
    intro hg s hs p b hb v hvp hv hx hroom k hk
    obtain ⟨k, rfl⟩ : ∃ j, k = j + 1 := ⟨k - 1, by omega⟩
    have hzl : z.length = n := hg z (by simp)
    have e1 : (a :: (L ++ [z])).flatten = (a :: L).flatten ++ z := by simp
    have e2 : r.intercalate (a :: (L ++ [z])) = r.intercalate (a :: L) ++ (r ++ z) := by
      rw [← List.cons_append, intercalate_snoc (by simp)]
    have hne : 0 < ((a :: L).flatten).length := by simp only [List.flatten_cons, List.length_append]; omega
    rw [e1] at hv
    rw [e2] at hroom ⊢
    generalize hX : (a :: L).flatten = X at hv hne
    simp only [List.length_append] at hroom
    have hsz := hv.size
    simp only [List.length_append] at hsz
    obtain ⟨u, w, e, hu, hw, ⟨h, -⟩ | ⟨-, h2, h3⟩⟩ := C14_split_index ⟨hv.toDenotes, hvp⟩ (-(n : Int)) hmin hmax
    · omega
    simp only [List.length_append] at h2
    have hwl : w.length = z.length := by omega
    obtain ⟨rfl, rfl⟩ := List.append_inj' e hwl.symm
    have hap := hv.apart
    rcases hap with hap | hap
    · simp only [List.append_eq_nil_iff] at hap
      rw [hap.1] at hne
      simp at hne
    simp only [List.length_append] at hap
    have hyE : Elsewhere s p (storage b.cap) (v.part X.length z.length) z := ⟨hw.toDenotes, .inr (by simp only [View.part]; omega)⟩
    have hzE : Elsewhere s p (storage b.cap) (v.part 0 X.length) X := ⟨hu.toDenotes, .inr (by simp only [View.part]; omega)⟩
    have hus := hu.size
    have ec : groupFromEnd cfg n x (k + 1) v p s = (do
        match ← strbuf_prepend_strview cfg s (some p) (v.part X.length z.length) with
        | (_, some buf, s) =>
          match ← strbuf_prepend_strview cfg s (some buf) x with
          | (_, some buf, s) => groupFromEnd cfg n x k (v.part 0 X.length) buf s
          | _ => .env .other
        | _ => .env .other) := by
      rw [groupFromEnd, if_neg (by omega), h3]
      simp only [Res.bind_ok, if_pos (show (v.part 0 X.length).size ≠ 0 by omega)]
      rfl
    rw [ec]
    rcases prepend_elsewhere hcfg hs hb hyE hroom (by omega) with ⟨d, e⟩ | ⟨u, p1, s1, cap1, e, g1, g2, g3, g4⟩
    · exact .inl ⟨d, by rw [e]; rfl⟩
    rw [e]
    simp only [Res.bind_ok]
    have ho1 := fun {v : View} {l : List Byte} (h : Elsewhere s p (storage b.cap) v l) => h.after g3 (storage_pos _) g1.top
    rcases prepend_elsewhere hcfg g2 g1 (ho1 hx) g4 (by simp only [List.length_append]; omega) with ⟨d, e⟩ | ⟨u2, p2, s2, cap2, e2, k1, k2, k3, k4⟩
    · exact .inl ⟨d, by rw [e]; rfl⟩
    rw [e2]
    simp only [Res.bind_ok]
    have ho2 := fun {v : View} {l : List Byte} (h : Elsewhere s p (storage b.cap) v l) => (ho1 h).after k3 (storage_pos _) k1.top
    subst hX
    rcases ih (fun g i => hg g (by simp [i])) k2 k1 hu.pos (ho2 hzE) (ho2 hx)
        (by convert k4 using 1; simp only [List.length_append]; omega) k
        (by simp only [List.length_append, List.length_singleton] at hk; omega) with
      ⟨d, e⟩ | ⟨p', s', cap, i1, i2, i3, i4⟩
    · exact .inl ⟨d, e⟩
    · exact .inr ⟨p', s', cap, i1, by simpa using i2, i3, (g3.trans k3).trans i4⟩

-- `12345` in groups of two, with `,` between them; the conditions of the theorem hold
example : replacedIn (groupFromEnd isoCfg 2 ⟨exQ + 5, 1⟩ 4 ⟨exQ, 5⟩ exP (exSt exEmpty [49, 50, 51, 52, 53, 44])) =
    .ok [49, 44, 50, 51, 44, 52, 53] ∧ [44].intercalate ([[49], [50, 51], [52, 53]] : List (List Byte)) = [49, 44, 50, 51, 44, 52, 53] := by
  decide +kernel

example : ([[49], [50, 51], [52, 53]] : List (List Byte)).flatten = [49, 50, 51, 52, 53] ∧
    Elsewhere (exSt exEmpty [49, 50, 51, 52, 53, 44]) exP (storage exEmpty.cap) ⟨exQ + 0, 5⟩ [49, 50, 51, 52, 53] ∧
    Elsewhere (exSt exEmpty [49, 50, 51, 52, 53, 44]) exP (storage exEmpty.cap) ⟨exQ + 5, 1⟩ [44] ∧
    exEmpty.HasRoom isoCfg (exEmpty.data.length + 7) :=
  ⟨by decide, exSt_elsewhere exEmpty_valid (by decide) 0 5 (by decide), exSt_elsewhere exEmpty_valid (by decide) 5 1 (by decide),
    .inr ⟨by decide, by decide⟩⟩

end CStr
