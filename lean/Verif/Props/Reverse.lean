import Verif.Spec.Reverse
import Verif.Props.Replace
/-
  C78: the fields of a text in reverse order.
-/
namespace CStr

/-- One `strbuf_prepend` of a text outside the buffer, into a buffer with room. -/
theorem prepend_elsewhere {cfg : Cfg} (hcfg : cfg.Ok) {s : St} (hs : s.Sane) {p : Addr} {b : Buf} (hb : BufAt s p b) {v : View} {l : List Byte}
    (hv : Elsewhere s p (storage b.cap) v l) {N : Nat} (hroom : b.HasRoom cfg N) (hN : b.data.length + l.length ≤ N) :
    (b.Dynamic ∧ strbuf_prepend_strview cfg s (some p) v = .env .alloc) ∨
    ∃ u p' s' cap, strbuf_prepend_strview cfg s (some p) v = .ok (u, some p', s') ∧ BufAt s' p' ⟨l ++ b.data, cap, b.al⟩ ∧ s'.Sane ∧
      OnlyBlock s s' p (storage b.cap) p' (storage cap) ∧ Buf.HasRoom ⟨l ++ b.data, cap, b.al⟩ cfg N := by
  obtain ⟨hf, hh⟩ := hroom.fits hcfg (k := b.data.length + l.length) hN
  rcases C34_prepend hcfg hs hb hv.source hf hh with ⟨⟨g1, _⟩, g2⟩ | ⟨p1, s1, g1, g2⟩
  · refine .inl ⟨?_, g2⟩
    by_contra hd
    exact g1 (by simp only [Buf.capFor, if_neg (fun h => hd h.1 : ¬ (b.Dynamic ∧ _))])
  · exact .inr ⟨_, p1, s1, _, g1, g2.buf, g2.sane, g2.only, hroom.after hcfg _ _⟩

theorem cut_unique {c : Byte} {a a' x x' : List Byte} (h : c ∉ a) (h' : c ∉ a') (e : a ++ c :: x = a' ++ c :: x') : a = a' ∧ x = x' := by
  induction a generalizing a' with
  | nil =>
    cases a' with
    | nil => simpa using e
    | cons y a' => simp only [List.nil_append, List.cons_append, List.cons.injEq] at e; simp [e.1] at h'
  | cons y a ih =>
    cases a' with
    | nil => simp only [List.nil_append, List.cons_append, List.cons.injEq] at e; simp [e.1] at h
    | cons y' a' =>
      simp only [List.cons_append, List.cons.injEq] at e
      obtain ⟨rfl, rfl⟩ := ih (fun i => h (by simp [i])) (fun i => h' (by simp [i])) e.2
      exact ⟨by rw [e.1], rfl⟩

theorem intercalate_cons {r a : List Byte} {L : List (List Byte)} (h : L ≠ []) : r.intercalate (a :: L) = a ++ (r ++ r.intercalate L) := by
  cases L with
  | nil => exact absurd rfl h
  | cons x L => simp [List.intercalate]

theorem intercalate_snoc {r a : List Byte} {L : List (List Byte)} (h : L ≠ []) : r.intercalate (L ++ [a]) = r.intercalate L ++ (r ++ a) := by
  induction L with
  | nil => exact absurd rfl h
  | cons x L ih =>
    by_cases hL : L = []
    · subst hL; simp [List.intercalate]
    · rw [List.cons_append, intercalate_cons (by simp), ih hL, intercalate_cons hL]; simp

/-- C78. Prepending the fields of a text to a buffer one by one, with a separator between them, with `strview_split_first_delim` and
`strbuf_prepend`: the buffer gets the fields in reverse order in front of what it had, and no other memory changes. -/
theorem C78_reverse_fields {cfg : Cfg} (hcfg : cfg.Ok) {c : Byte} (hc : c ≠ 0) {r : List Byte} {dp : Addr} (hdp : 0 < dp) {x : View}
    (a : List Byte) (L : List (List Byte)) :
    ∀ (_ : ∀ f ∈ a :: L, c ∉ f) {s : St} (_ : s.Sane) {p : Addr} {b : Buf} (_ : BufAt s p b) {v : View} (_ : 0 < v.data)
      (_ : Elsewhere s p (storage b.cap) v ([c].intercalate (a :: L))) (_ : Elsewhere s p (storage b.cap) ⟨dp, 2⟩ [c, 0])
      (_ : Elsewhere s p (storage b.cap) x r) (_ : b.HasRoom cfg (b.data.length + (r.intercalate (a :: L).reverse).length))
      (k : Nat) (_ : L.length < k),
    (b.Dynamic ∧ reverseFields cfg dp x k v p s = .env .alloc) ∨
    ∃ p' s' cap, reverseFields cfg dp x k v p s = .ok (p', s') ∧ BufAt s' p' ⟨r.intercalate (a :: L).reverse ++ b.data, cap, b.al⟩ ∧ s'.Sane ∧
      OnlyBlock s s' p (storage b.cap) p' (storage cap) := by
  induction L generalizing a with
  | nil =>
    intro hf s hs p b hb v hvp hv hd hx hroom k hk
    obtain ⟨k, rfl⟩ : ∃ j, k = j + 1 := ⟨k - 1, by simp only [List.length_nil] at hk; omega⟩
    have e1 : [c].intercalate [a] = a := by simp [List.intercalate]
    have e2 : r.intercalate [a].reverse = a := by simp [List.intercalate]
    rw [e1] at hv
    rw [e2] at hroom ⊢
    have hcs : CString s.mem dp [c] := ⟨hdp, by have := hd.max; simp only [List.length_cons, List.length_nil] at this ⊢; omega, by simpa using hc.symm, hd.holds⟩
    rcases C10_split_first_delim ⟨hv.toDenotes, hvp⟩ hcs with ⟨a', d, c', z, e0, hdm, -⟩ | ⟨-, e⟩
    · simp only [List.mem_singleton] at hdm
      exact absurd (by rw [e0, hdm]; simp) (hf a (by simp))
    have ec : reverseFields cfg dp x (k + 1) v p s = (do
        match ← strbuf_prepend_strview cfg s (some p) v with
        | (_, some buf, s) => .ok (buf, s)
        | _ => .env .other) := by
      simp only [reverseFields, e, Res.bind_ok]; rfl
    rw [ec]
    rcases prepend_elsewhere hcfg hs hb hv hroom (Nat.le_refl _) with ⟨d, e⟩ | ⟨u, p', s', cap, e, g1, g2, g3, _⟩
    · exact .inl ⟨d, by rw [e]; rfl⟩
    · exact .inr ⟨p', s', cap, by rw [e]; rfl, g1, g2, g3⟩
  | cons a2 L ih =>
    intro hf s hs p b hb v hvp hv hd hx hroom k hk
    obtain ⟨k, rfl⟩ : ∃ j, k = j + 1 := ⟨k - 1, by omega⟩
    have e2 : r.intercalate (a :: a2 :: L).reverse = r.intercalate (a2 :: L).reverse ++ (r ++ a) := by
      rw [List.reverse_cons, intercalate_snoc (by simp)]
    have e3 : [c].intercalate (a :: a2 :: L) = a ++ c :: [c].intercalate (a2 :: L) := by rw [intercalate_cons (by simp)]; rfl
    rw [e3] at hv
    rw [e2] at hroom ⊢
    generalize hX : [c].intercalate (a2 :: L) = X at hv
    simp only [List.length_append] at hroom
    have hcs : CString s.mem dp [c] := ⟨hdp, by have := hd.max; simp only [List.length_cons, List.length_nil] at this ⊢; omega, by simpa using hc.symm, hd.holds⟩
    rcases C10_split_first_delim ⟨hv.toDenotes, hvp⟩ hcs with ⟨a', d, c', z, e0, hdm, ha, e, hy, hz, hz1, hz2⟩ | ⟨ha, -⟩
    swap
    · exact absurd (ha c (by simp)) (by simp)
    simp only [List.mem_singleton] at hdm
    subst hdm
    obtain ⟨rfl, rfl⟩ := cut_unique (hf a (by simp)) (fun i => ha _ i (by simp)) e0
    have hap := hv.apart
    have hsz := hv.size
    simp only [List.length_append, List.length_cons, List.length_nil, List.append_eq_nil_iff, reduceCtorEq, and_false, false_and, false_or] at hap hsz
    have hzs := hz.size
    have hyE : Elsewhere s p (storage b.cap) (v.part 0 a.length) a := ⟨hy.toDenotes, .inr (by simp only [View.part]; omega)⟩
    have hzE : Elsewhere s p (storage b.cap) z X := ⟨hz.toDenotes, .inr (by omega)⟩
    have ec : reverseFields cfg dp x (k + 1) v p s = (do
        match ← strbuf_prepend_strview cfg s (some p) (v.part 0 a.length) with
        | (_, some buf, s) =>
          match ← strbuf_prepend_strview cfg s (some buf) x with
          | (_, some buf, s) => reverseFields cfg dp x k z buf s
          | _ => .env .other
        | _ => .env .other) := by
      simp only [reverseFields, e, Res.bind_ok, is_valid_iff.2 hz.ne_zero, if_true]; rfl
    rw [ec]
    rcases prepend_elsewhere hcfg hs hb hyE hroom (by omega) with ⟨d, e⟩ | ⟨u, p1, s1, cap1, e, g1, g2, g3, g4⟩
    · exact .inl ⟨d, by rw [e]; rfl⟩
    rw [e]
    simp only [Res.bind_ok]
    have ho1 := fun {v : View} {l : List Byte} (h : Elsewhere s p (storage b.cap) v l) => h.after g3 (storage_pos _) g1.top
    rcases prepend_elsewhere hcfg g2 g1 (ho1 hx) g4 (by simp only [List.length_append]; omega) with ⟨d, e⟩ | ⟨u2, p2, s2, cap2, e2, k1, k2, k3, k4⟩
    · exact .inl ⟨d, by rw [e]; rfl⟩
    rw [e2]
    simp only [Res.bind_ok]
    have ho2 := fun {v : View} {l : List Byte} (h : Elsewhere s p (storage b.cap) v l) => (ho1 h).after k3 (storage_pos _) k1.top
    subst hX
    rcases ih a2 (fun f i => hf f (List.mem_cons_of_mem _ i)) k2 k1 hz.pos (ho2 hzE) (ho2 hd) (ho2 hx)
        (by convert k4 using 1; simp only [List.length_append]; omega) k (by simp only [List.length_cons] at hk; omega) with
      ⟨d, e⟩ | ⟨p', s', cap, i1, i2, i3, i4⟩
    · exact .inl ⟨d, e⟩
    · exact .inr ⟨p', s', cap, i1, by simpa using i2, i3, (g3.trans k3).trans i4⟩

-- `a,bc,` with the separator `-`, in front of what an empty buffer has; the conditions of the theorem hold
example : replacedIn (reverseFields isoCfg (exQ + 5) ⟨exQ + 7, 1⟩ 3 ⟨exQ, 5⟩ exP (exSt exEmpty [97, 44, 98, 99, 44, 44, 0, 45])) =
    .ok [45, 98, 99, 45, 97] ∧ [45].intercalate ([[97], [98, 99], []] : List (List Byte)).reverse = [45, 98, 99, 45, 97] := by decide +kernel

example : [44].intercalate ([[97], [98, 99], []] : List (List Byte)) = [97, 44, 98, 99, 44] ∧
    (∀ f ∈ ([[97], [98, 99], []] : List (List Byte)), 44 ∉ f) ∧
    Elsewhere (exSt exEmpty [97, 44, 98, 99, 44, 44, 0, 45]) exP (storage exEmpty.cap) ⟨exQ + 0, 5⟩ [97, 44, 98, 99, 44] ∧
    Elsewhere (exSt exEmpty [97, 44, 98, 99, 44, 44, 0, 45]) exP (storage exEmpty.cap) ⟨exQ + 5, 2⟩ [44, 0] ∧
    Elsewhere (exSt exEmpty [97, 44, 98, 99, 44, 44, 0, 45]) exP (storage exEmpty.cap) ⟨exQ + 7, 1⟩ [45] ∧
    exEmpty.HasRoom isoCfg (exEmpty.data.length + 5) :=
  ⟨by decide, by decide, exSt_elsewhere exEmpty_valid (by decide) 0 5 (by decide), exSt_elsewhere exEmpty_valid (by decide) 5 2 (by decide),
    exSt_elsewhere exEmpty_valid (by decide) 7 1 (by decide), .inr ⟨by decide, by decide⟩⟩

end CStr
