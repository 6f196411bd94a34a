import Verif.Spec.Path
import Verif.Props.Reverse
/-
  C78: the parts of a file path.
-/
namespace CStr

theorem split_last_one {m : Mem} {v : View} {p : Addr} {c : Byte} {a b : List Byte} (hv : ViewOf m v (a ++ c :: b)) (hd : CString m p [c]) (hb : c ∉ b) :
    ∃ r x, strview_split_last_delim m (some v) p false = .ok (r, some x) ∧ ViewOf m x a ∧ ViewOf m r b := by
  have s0 : SplitsBwd false [c] (a ++ c :: b) a c b := by simp [SplitsBwd]
  rcases C11_split_last_delim hv hd false with ⟨pre, d, post, r, h1, h2, h3, h4, h5, -⟩ | ⟨h1, -⟩
  · have h6 := h2 a c b s0
    obtain ⟨e, hm, -⟩ := h1
    simp only [List.mem_singleton] at hm
    subst hm
    have e' := congrArg List.reverse e
    simp only [List.reverse_append, List.reverse_cons, List.append_assoc, List.singleton_append] at e'
    have hpost : d ∉ post := by
      intro hi
      have e1 := congrArg (List.drop (a.length + 1)) e
      have e2 : (a ++ d :: b).drop (a.length + 1) = b := by simp [List.drop_append]
      rw [e2] at e1
      have : post = (pre ++ d :: post).drop (pre.length + 1) := by simp [List.drop_append]
      rw [this, ← e] at hi
      refine hb (List.mem_of_mem_drop (i := pre.length - a.length) ?_)
      have e3 : b.drop (pre.length - a.length) = (a ++ d :: b).drop (pre.length + 1) := by
        have : pre.length + 1 = (a.length + 1) + (pre.length - a.length) := by omega
        rw [this, ← List.drop_drop, e2]
      rw [e3]
      exact hi
    obtain ⟨g1, g2⟩ := cut_unique (by simpa using hb) (by simpa using hpost) e'
    obtain rfl := List.reverse_injective g1
    obtain rfl := List.reverse_injective g2
    exact ⟨r, _, h3, h4, h5⟩
  · exact absurd s0 (h1 _ _ _)

/-- C78. Splitting a path at its last separator and the name at its last dot, with `strview_split_last_delim`, gives the directory,
the name and the extension. -/
theorem C78_path_parts {m : Mem} {sep dot : Addr} {c e : Byte} (hs : CString m sep [c]) (he : CString m dot [e]) {dir name ext : List Byte}
    (hn : c ∉ name ++ e :: ext) (hx : e ∉ ext) {v : View} (hv : ViewOf m v (dir ++ c :: (name ++ e :: ext))) :
    ∃ x y z, pathParts m sep dot v = .ok (x, y, z) ∧ ViewOf m x dir ∧ ViewOf m y name ∧ ViewOf m z ext := by
  obtain ⟨r, x, h1, h2, h3⟩ := split_last_one hv hs hn
  obtain ⟨z, y, k1, k2, k3⟩ := split_last_one h3 he hx
  exact ⟨x, y, z, by simp only [pathParts, h1, k1, Res.bind_ok], h2, k2, k3⟩

theorem split_last_absent {m : Mem} {v : View} {p : Addr} {c : Byte} {a : List Byte} (hv : ViewOf m v a) (hd : CString m p [c]) (ha : c ∉ a) :
    strview_split_last_delim m (some v) p false = .ok (v, some .invalid) := by
  rcases C11_split_last_delim hv hd false with ⟨pre, d, post, r, ⟨rfl, hm, -⟩, -⟩ | ⟨-, h⟩
  · simp only [List.mem_singleton] at hm
    subst hm
    simp at ha
  · exact h

/-- C78. If the path has no separator, the directory is invalid. If the name has no dot, the extension is the whole name and
the name is invalid: a program must test the name, not the extension. -/
theorem C78_path_missing {m : Mem} {sep dot : Addr} {c e : Byte} (hs : CString m sep [c]) (he : CString m dot [e]) {v : View} :
    (∀ name ext, c ∉ name ++ e :: ext → e ∉ ext → ViewOf m v (name ++ e :: ext) →
      ∃ y z, pathParts m sep dot v = .ok (.invalid, y, z) ∧ ViewOf m y name ∧ ViewOf m z ext) ∧
    (∀ dir name, c ∉ name → e ∉ name → ViewOf m v (dir ++ c :: name) →
      ∃ x z, pathParts m sep dot v = .ok (x, .invalid, z) ∧ ViewOf m x dir ∧ ViewOf m z name) ∧
    (∀ name, c ∉ name → e ∉ name → ViewOf m v name → pathParts m sep dot v = .ok (.invalid, .invalid, v)) := by
  refine ⟨fun name ext h1 h2 hv => ?_, fun dir name h1 h2 hv => ?_, fun name h1 h2 hv => ?_⟩
  · obtain ⟨z, y, k1, k2, k3⟩ := split_last_one hv he h2
    exact ⟨y, z, by simp only [pathParts, split_last_absent hv hs h1, k1, Res.bind_ok], k2, k3⟩
  · obtain ⟨r, x, k1, k2, k3⟩ := split_last_one hv hs h1
    exact ⟨x, r, by simp only [pathParts, k1, split_last_absent k3 he h2, Res.bind_ok], k2, k3⟩
  · simp only [pathParts, split_last_absent hv hs h1, split_last_absent hv he h2, Res.bind_ok]

-- `b/c`: no dot
example : pathParts (exSt exEmpty [98, 47, 99, 47, 0, 46, 0]).mem (exQ + 3) (exQ + 5) ⟨exQ, 3⟩ = .ok (⟨exQ, 1⟩, .invalid, ⟨exQ + 2, 1⟩) := by
  decide +kernel

-- `a.b/c.d.e`; the conditions of the theorem hold
example : pathParts (exSt exEmpty [97, 46, 98, 47, 99, 46, 100, 46, 101, 47, 0, 46, 0]).mem (exQ + 9) (exQ + 11) ⟨exQ, 9⟩ =
    .ok (⟨exQ, 3⟩, ⟨exQ + 4, 3⟩, ⟨exQ + 8, 1⟩) := by decide +kernel

example : ViewOf (exSt exEmpty [97, 46, 98, 47, 99, 46, 100, 46, 101, 47, 0, 46, 0]).mem ⟨exQ + 0, 9⟩ ([97, 46, 98] ++ 47 :: ([99, 46, 100] ++ 46 :: [101])) ∧
    CString (exSt exEmpty [97, 46, 98, 47, 99, 46, 100, 46, 101, 47, 0, 46, 0]).mem (exQ + 9) [47] ∧
    CString (exSt exEmpty [97, 46, 98, 47, 99, 46, 100, 46, 101, 47, 0, 46, 0]).mem (exQ + 11) [46] :=
  ⟨⟨(exSt_elsewhere exEmpty_valid (by decide) 0 9 (by decide)).toDenotes, by decide +kernel⟩,
    ⟨by decide +kernel, by decide, by decide, (exSt_elsewhere exEmpty_valid (by decide) 9 2 (by decide)).holds⟩,
    ⟨by decide +kernel, by decide, by decide, (exSt_elsewhere exEmpty_valid (by decide) 11 2 (by decide)).holds⟩⟩

end CStr
