import Verif.Spec.Replace
import Verif.Props.Combine
/-
  C78: replacing every occurrence of a text with the functions of the library.
-/
namespace CStr

/-- There is one result of replacing the occurrences of a text that is not empty. -/
theorem replaced_exists {n : List Byte} (hn : n ≠ []) (r : List Byte) : ∀ (k : Nat) (h : List Byte), h.length ≤ k → ∃ t, Replaced n r h t := by
  intro k
  induction k with
  | zero =>
    intro h hk
    have : h = [] := List.length_eq_zero_iff.1 (by omega)
    subst this
    exact ⟨_, .none fun a b e => hn (List.append_eq_nil_iff.1 (List.append_eq_nil_iff.1 e.symm).1).2⟩
  | succ k ih =>
    intro h hk
    by_cases hex : ∃ i a b, h = a ++ n ++ b ∧ a.length = i
    · classical
      obtain ⟨a, b, e, hi⟩ := Nat.find_spec hex
      have hl : 0 < n.length := List.length_pos_iff.2 hn
      have hlen := congrArg List.length e
      simp only [List.length_append] at hlen
      obtain ⟨t, ht⟩ := ih b (by omega)
      subst e
      refine ⟨_, .some (fun a' b' e' => ?_) ht⟩
      rw [hi]
      exact Nat.find_min' hex ⟨a', b', e', rfl⟩
    · exact ⟨h, .none fun a b e => hex ⟨_, a, b, e, rfl⟩⟩

theorem replaced_unique {n r h t u : List Byte} (ht : Replaced n r h t) (hu : Replaced n r h u) : t = u := by
  induction ht generalizing u with
  | none absent =>
    cases hu with
    | none => rfl
    | some => exact absurd rfl (absent _ _)
  | @some a b t first rest ih =>
    generalize e : a ++ n ++ b = h at hu
    cases hu with
    | none absent => exact absurd e.symm (absent _ _)
    | @some a' b' t' first' rest' =>
      have h1 := first a' b' e
      have h2 := first' a b e.symm
      have e' := e
      rw [List.append_assoc, List.append_assoc] at e'
      obtain ⟨rfl, e2⟩ := List.append_inj e' (by omega)
      have := List.append_cancel_left e2
      subst this
      rw [ih rest']

/-- C78. Replacing the occurrences of a text that is not empty has exactly one result; the text itself in place of it changes nothing,
and a text that does not occur either. -/
theorem C78_replaced_determined {n : List Byte} (hn : n ≠ []) (r h : List Byte) :
    (∃ t, Replaced n r h t ∧ ∀ u, Replaced n r h u → u = t) ∧ Replaced n n h h ∧ ((∀ a b, h ≠ a ++ n ++ b) → ∀ u, Replaced n r h u → u = h) := by
  refine ⟨?_, ?_, fun ha u hu => replaced_unique hu (.none ha)⟩
  · obtain ⟨t, ht⟩ := replaced_exists hn r _ h (Nat.le_refl _)
    exact ⟨t, ht, fun u hu => replaced_unique hu ht⟩
  · obtain ⟨t, ht⟩ := replaced_exists hn n _ h (Nat.le_refl _)
    have : t = h := by
      clear hn
      induction ht with
      | none => rfl
      | some _ _ ih => rw [ih]
    rwa [this] at ht

-- `a-b-` with `-` replaced by `<>`
example : Replaced [45] [60, 62] [97, 45, 98, 45] [97, 60, 62, 98, 60, 62] := by
  refine .some (a := [97]) (b := [98, 45]) (t := [98, 60, 62]) ?_ (.some (a := [98]) (b := []) (t := []) ?_ (.none ?_))
  · intro a' b' e; cases a' with
    | nil => simp at e
    | cons => simp
  · intro a' b' e; cases a' with
    | nil => simp at e
    | cons => simp
  · intro a b e; simp at e

/-- One `strbuf_append` of a text outside the buffer, into a buffer with room. -/
theorem append_elsewhere {cfg : Cfg} (hcfg : cfg.Ok) {s : St} (hs : s.Sane) {p : Addr} {b : Buf} (hb : BufAt s p b) {v : View} {l : List Byte}
    (hv : Elsewhere s p (storage b.cap) v l) {N : Nat} (hroom : b.HasRoom cfg N) (hN : b.data.length + l.length ≤ N) :
    (b.Dynamic ∧ strbuf_append_strview cfg s (some p) v = .env .alloc) ∨
    ∃ u p' s' cap, strbuf_append_strview cfg s (some p) v = .ok (u, some p', s') ∧ BufAt s' p' ⟨b.data ++ l, cap, b.al⟩ ∧ s'.Sane ∧
      OnlyBlock s s' p (storage b.cap) p' (storage cap) ∧ Buf.HasRoom ⟨b.data ++ l, cap, b.al⟩ cfg N := by
  obtain ⟨hf, hh⟩ := hroom.fits hcfg (k := b.data.length + l.length) hN
  rcases C33_append hcfg hs hb hv.source hf hh with ⟨⟨g1, _⟩, g2⟩ | ⟨p1, s1, g1, g2⟩
  · refine .inl ⟨?_, g2⟩
    by_contra hd
    exact g1 (by simp only [Buf.capFor, if_neg (fun h => hd h.1 : ¬ (b.Dynamic ∧ _))])
  · exact .inr ⟨_, p1, s1, _, g1, g2.buf, g2.sane, g2.only, hroom.after hcfg _ _⟩

/-- C78. Replacing every occurrence of a text by another while copying into a buffer, with `strview_find_first`, `strview_split_left`,
`strview_split_index` and `strbuf_append`: the buffer gets the text with its occurrences replaced, from the left and without overlap, and
no other memory changes. -/
theorem C78_replace_all {cfg : Cfg} (hcfg : cfg.Ok) {n r h t : List Byte} (hn : n ≠ []) (ht : Replaced n r h t) {w x : View} :
    ∀ {s : St} (_ : s.Sane) {p : Addr} {b : Buf} (_ : BufAt s p b) {v : View} (_ : 0 < v.data) (_ : 0 < w.data)
      (_ : Elsewhere s p (storage b.cap) v h) (_ : Elsewhere s p (storage b.cap) w n) (_ : Elsewhere s p (storage b.cap) x r)
      (_ : b.HasRoom cfg (b.data.length + t.length)) (k : Nat) (_ : h.length < k),
    (b.Dynamic ∧ replaceAll cfg w x k v p s = .env .alloc) ∨
    ∃ p' s' cap, replaceAll cfg w x k v p s = .ok (p', s') ∧ BufAt s' p' ⟨b.data ++ t, cap, b.al⟩ ∧ s'.Sane ∧
      OnlyBlock s s' p (storage b.cap) p' (storage cap) := by
  have hl : 0 < n.length := List.length_pos_iff.2 hn
  induction ht with
  | @none h absent =>
    intro s hs p b hb v hvp hwp hv hw hx hroom k hk
    obtain ⟨k, rfl⟩ : ∃ j, k = j + 1 := ⟨k - 1, by omega⟩
    rcases C78_cut_at_first ⟨hv.toDenotes, hvp⟩ ⟨hw.toDenotes, hwp⟩ with ⟨l, r', _, _, e, _⟩ | ⟨_, h2⟩
    · exact absurd e (absent _ _)
    have ec : replaceAll cfg w x (k + 1) v p s = (do
        match ← strbuf_append_strview cfg s (some p) v with
        | (_, some buf, s) => .ok (buf, s)
        | _ => .env .other) := by
      simp only [replaceAll, h2, Res.bind_ok]; rfl
    rw [ec]
    rcases append_elsewhere hcfg hs hb hv hroom (Nat.le_refl _) with ⟨d, e⟩ | ⟨u, p', s', cap, e, g1, g2, g3, _⟩
    · exact .inl ⟨d, by rw [e]; rfl⟩
    · exact .inr ⟨p', s', cap, by rw [e]; rfl, g1, g2, g3⟩
  | @some a c t first rest ih =>
    intro s hs p b hb v hvp hwp hv hw hx hroom k hk
    obtain ⟨k, rfl⟩ : ∃ j, k = j + 1 := ⟨k - 1, by omega⟩
    simp only [List.length_append] at hk hroom
    rcases C78_cut_at_first ⟨hv.toDenotes, hvp⟩ ⟨hw.toDenotes, hwp⟩ with ⟨l, r', y, z, e, hmin, hcut, hy, hz, hyd, hzd⟩ | ⟨h1, _⟩
    swap
    · exact absurd rfl (h1 _ _)
    have h1 := first l r' e
    have h2 := hmin a c rfl
    rw [List.append_assoc, List.append_assoc] at e
    obtain ⟨rfl, e2⟩ := List.append_inj e (by omega)
    have := List.append_cancel_left e2
    subst this
    have hap := hv.apart
    simp only [List.length_append, List.append_eq_nil_iff, hn, and_false, false_and, false_or] at hap
    have hyE : Elsewhere s p (storage b.cap) y a := ⟨hy.toDenotes, .inr (by rw [hyd]; omega)⟩
    have hzE : Elsewhere s p (storage b.cap) z c := ⟨hz.toDenotes, .inr (by rw [hzd]; omega)⟩
    have ec : replaceAll cfg w x (k + 1) v p s = (do
        match ← strbuf_append_strview cfg s (some p) y with
        | (_, some buf, s) =>
          match ← strbuf_append_strview cfg s (some buf) x with
          | (_, some buf, s) => replaceAll cfg w x k z buf s
          | _ => .env .other
        | _ => .env .other) := by
      simp only [replaceAll, hcut, Res.bind_ok, is_valid_iff.2 hy.ne_zero, if_true]; rfl
    rw [ec]
    rcases append_elsewhere hcfg hs hb hyE hroom (by omega) with ⟨d, e⟩ | ⟨u, p1, s1, cap1, e, g1, g2, g3, g4⟩
    · exact .inl ⟨d, by rw [e]; rfl⟩
    rw [e]
    simp only [Res.bind_ok]
    have ho1 := fun {v : View} {l : List Byte} (h : Elsewhere s p (storage b.cap) v l) => h.after g3 (storage_pos _) g1.top
    rcases append_elsewhere hcfg g2 g1 (ho1 hx) g4 (by simp only [List.length_append]; omega) with ⟨d, e⟩ | ⟨u2, p2, s2, cap2, e2, k1, k2, k3, k4⟩
    · exact .inl ⟨d, by rw [e]; rfl⟩
    rw [e2]
    simp only [Res.bind_ok]
    have ho2 := fun {v : View} {l : List Byte} (h : Elsewhere s p (storage b.cap) v l) => (ho1 h).after k3 (storage_pos _) k1.top
    rcases ih k2 k1 hz.pos hwp (ho2 hzE) (ho2 hw) (ho2 hx) (by convert k4 using 1; simp only [List.length_append]; omega) k (by omega) with
      ⟨d, e⟩ | ⟨p', s', cap, i1, i2, i3, i4⟩
    · exact .inl ⟨d, e⟩
    · exact .inr ⟨p', s', cap, i1, by simpa using i2, i3, (g3.trans k3).trans i4⟩

theorem delimsChanged_free {ds r l : List Byte} (h : ∀ x ∈ l, x ∉ ds) : delimsChanged ds r l = l := by
  induction l with
  | nil => rfl
  | cons x l ih =>
    simp only [delimsChanged, List.flatMap_cons, if_neg (h x (by simp))] at ih ⊢
    rw [ih fun y hy => h y (by simp [hy])]; rfl

theorem delimsChanged_cut {ds r a b : List Byte} {d : Byte} (h : ∀ x ∈ a, x ∉ ds) (hd : d ∈ ds) :
    delimsChanged ds r (a ++ d :: b) = a ++ (r ++ delimsChanged ds r b) := by
  have := delimsChanged_free (r := r) h
  simp only [delimsChanged, List.flatMap_append, List.flatMap_cons, if_pos hd] at this ⊢
  rw [this]

/-- C78. Copying the fields of a text into a buffer with another separator between them, with `strview_split_first_delim` and
`strbuf_append`: the buffer gets the text with the separator in place of each delimiter, and no other memory changes. -/
theorem C78_change_delims {cfg : Cfg} (hcfg : cfg.Ok) {ds r : List Byte} (hds : (0 : Byte) ∉ ds) {dp : Addr} (hdp : 0 < dp) {x : View} (k : Nat) :
    ∀ {h : List Byte} {s : St} (_ : s.Sane) {p : Addr} {b : Buf} (_ : BufAt s p b) {v : View} (_ : 0 < v.data)
      (_ : Elsewhere s p (storage b.cap) v h) (_ : Elsewhere s p (storage b.cap) ⟨dp, ds.length + 1⟩ (ds ++ [0]))
      (_ : Elsewhere s p (storage b.cap) x r) (_ : b.HasRoom cfg (b.data.length + (delimsChanged ds r h).length)) (_ : h.length < k),
    (b.Dynamic ∧ changeDelims cfg dp x k v p s = .env .alloc) ∨
    ∃ p' s' cap, changeDelims cfg dp x k v p s = .ok (p', s') ∧ BufAt s' p' ⟨b.data ++ delimsChanged ds r h, cap, b.al⟩ ∧ s'.Sane ∧
      OnlyBlock s s' p (storage b.cap) p' (storage cap) := by
  induction k with
  | zero => intros; omega
  | succ k ih =>
    intro h s hs p b hb v hvp hv hd hx hroom hk
    have hcs : CString s.mem dp ds := ⟨hdp, by have := hd.max; simp only [List.length_append, List.length_singleton] at this; omega, hds, hd.holds⟩
    rcases C10_split_first_delim ⟨hv.toDenotes, hvp⟩ hcs with ⟨a, d, c, z, rfl, hdm, ha, e, hy, hz, hz1, hz2⟩ | ⟨ha, e⟩
    · rw [delimsChanged_cut ha hdm] at hroom ⊢
      simp only [List.length_append, List.length_cons] at hroom hk
      have hap := hv.apart
      have hsz := hv.size
      simp only [List.length_append, List.length_cons, List.append_eq_nil_iff, reduceCtorEq, and_false, false_or] at hap hsz
      have hzs := hz.size
      have hyE : Elsewhere s p (storage b.cap) (v.part 0 a.length) a := ⟨hy.toDenotes, .inr (by simp only [View.part]; omega)⟩
      have hzE : Elsewhere s p (storage b.cap) z c := ⟨hz.toDenotes, .inr (by omega)⟩
      have ec : changeDelims cfg dp x (k + 1) v p s = (do
          match ← strbuf_append_strview cfg s (some p) (v.part 0 a.length) with
          | (_, some buf, s) =>
            match ← strbuf_append_strview cfg s (some buf) x with
            | (_, some buf, s) => changeDelims cfg dp x k z buf s
            | _ => .env .other
          | _ => .env .other) := by
        simp only [changeDelims, e, Res.bind_ok, is_valid_iff.2 hz.ne_zero, if_true]; rfl
      rw [ec]
      rcases append_elsewhere hcfg hs hb hyE hroom (by omega) with ⟨d, e⟩ | ⟨u, p1, s1, cap1, e, g1, g2, g3, g4⟩
      · exact .inl ⟨d, by rw [e]; rfl⟩
      rw [e]
      simp only [Res.bind_ok]
      have ho1 := fun {v : View} {l : List Byte} (h : Elsewhere s p (storage b.cap) v l) => h.after g3 (storage_pos _) g1.top
      rcases append_elsewhere hcfg g2 g1 (ho1 hx) g4 (by simp only [List.length_append]; omega) with ⟨d, e⟩ | ⟨u2, p2, s2, cap2, e2, k1, k2, k3, k4⟩
      · exact .inl ⟨d, by rw [e]; rfl⟩
      rw [e2]
      simp only [Res.bind_ok]
      have ho2 := fun {v : View} {l : List Byte} (h : Elsewhere s p (storage b.cap) v l) => (ho1 h).after k3 (storage_pos _) k1.top
      rcases ih k2 k1 hz.pos (ho2 hzE) (ho2 hd) (ho2 hx) (by convert k4 using 1; simp only [List.length_append]; omega) (by omega) with
        ⟨d, e⟩ | ⟨p', s', cap, i1, i2, i3, i4⟩
      · exact .inl ⟨d, e⟩
      · exact .inr ⟨p', s', cap, i1, by simpa using i2, i3, (g3.trans k3).trans i4⟩
    · rw [delimsChanged_free ha] at hroom ⊢
      have ec : changeDelims cfg dp x (k + 1) v p s = (do
          match ← strbuf_append_strview cfg s (some p) v with
          | (_, some buf, s) => .ok (buf, s)
          | _ => .env .other) := by
        simp only [changeDelims, e, Res.bind_ok]; rfl
      rw [ec]
      rcases append_elsewhere hcfg hs hb hv hroom (Nat.le_refl _) with ⟨d, e⟩ | ⟨u, p', s', cap, e, g1, g2, g3, _⟩
      · exact .inl ⟨d, by rw [e]; rfl⟩
      · exact .inr ⟨p', s', cap, by rw [e]; rfl, g1, g2, g3⟩

/-- C78. Splitting a text at one delimiter and joining the fields with the same delimiter between them gives the text back. -/
theorem C78_split_join {cfg : Cfg} (hcfg : cfg.Ok) {c : Byte} (hc : c ≠ 0) {dp : Addr} (hdp : 0 < dp) {x : View} {h : List Byte} {s : St} (hs : s.Sane)
    {p : Addr} {b : Buf} (hb : BufAt s p b) {v : View} (hvp : 0 < v.data) (hv : Elsewhere s p (storage b.cap) v h)
    (hd : Elsewhere s p (storage b.cap) ⟨dp, 2⟩ [c, 0]) (hx : Elsewhere s p (storage b.cap) x [c])
    (hroom : b.HasRoom cfg (b.data.length + h.length)) :
    (b.Dynamic ∧ changeDelims cfg dp x (h.length + 1) v p s = .env .alloc) ∨
    ∃ p' s' cap, changeDelims cfg dp x (h.length + 1) v p s = .ok (p', s') ∧ BufAt s' p' ⟨b.data ++ h, cap, b.al⟩ := by
  have e : delimsChanged [c] [c] h = h := by
    have e1 : (fun y : Byte => if y ∈ [c] then [c] else [y]) = fun y => [y] := by
      funext y
      by_cases hy : y = c <;> simp [hy]
    simp only [delimsChanged, e1, List.flatMap_singleton']
  have := C78_change_delims hcfg (ds := [c]) (r := [c]) (by simpa using hc.symm) hdp (h.length + 1) hs hb hvp hv hd hx (by rw [e]; exact hroom) (by omega)
  rw [e] at this
  rcases this with h | ⟨p', s', cap, h1, h2, -⟩
  exacts [.inl h, .inr ⟨p', s', cap, h1, h2⟩]

/-- What `replaceAll` leaves in the buffer, for the examples. -/
def replacedIn (r : Res (Addr × St)) : Res (List Byte) := do
  let (p, s) ← r
  let n ← getSize s.mem p
  readBytes s.mem (p + 24) n.toNat

-- `a-b-` with `-` replaced by `<>`, into a buffer that has to grow; the conditions of the theorem hold
example : replacedIn (replaceAll isoCfg ⟨exQ + 1, 1⟩ ⟨exQ + 4, 2⟩ 5 ⟨exQ, 4⟩ exP (exSt exEmpty [97, 45, 98, 45, 60, 62])) =
    .ok [97, 60, 62, 98, 60, 62] := by decide +kernel

example : Elsewhere (exSt exEmpty [97, 45, 98, 45, 60, 62]) exP (storage exEmpty.cap) ⟨exQ + 0, 4⟩ [97, 45, 98, 45] ∧
    Elsewhere (exSt exEmpty [97, 45, 98, 45, 60, 62]) exP (storage exEmpty.cap) ⟨exQ + 1, 1⟩ [45] ∧
    Elsewhere (exSt exEmpty [97, 45, 98, 45, 60, 62]) exP (storage exEmpty.cap) ⟨exQ + 4, 2⟩ [60, 62] ∧
    exEmpty.HasRoom isoCfg (exEmpty.data.length + 6) :=
  ⟨exSt_elsewhere exEmpty_valid (by decide) 0 4 (by decide), exSt_elsewhere exEmpty_valid (by decide) 1 1 (by decide),
    exSt_elsewhere exEmpty_valid (by decide) 4 2 (by decide), .inr ⟨by decide, by decide⟩⟩

-- `,a,` split at `,` and joined with `,`; the conditions of the theorem hold
example : replacedIn (changeDelims isoCfg (exQ + 2) ⟨exQ, 1⟩ 4 ⟨exQ, 3⟩ exP (exSt exEmpty [44, 97, 44, 0])) = .ok [44, 97, 44] ∧
    Elsewhere (exSt exEmpty [44, 97, 44, 0]) exP (storage exEmpty.cap) ⟨exQ + 2, 2⟩ [44, 0] ∧ exEmpty.HasRoom isoCfg (exEmpty.data.length + 3) :=
  ⟨by decide +kernel, exSt_elsewhere exEmpty_valid (by decide) 2 2 (by decide), .inr ⟨by decide, by decide⟩⟩

-- `a,;b` with `-` in place of `,` and `;`
example : replacedIn (changeDelims isoCfg (exQ + 4) ⟨exQ + 7, 1⟩ 5 ⟨exQ, 4⟩ exP (exSt exEmpty [97, 44, 59, 98, 44, 59, 0, 45])) =
    .ok [97, 45, 45, 98] ∧ delimsChanged [44, 59] [45] [97, 44, 59, 98] = [97, 45, 45, 98] := by decide +kernel

example : Elsewhere (exSt exEmpty [97, 44, 59, 98, 44, 59, 0, 45]) exP (storage exEmpty.cap) ⟨exQ + 0, 4⟩ [97, 44, 59, 98] ∧
    Elsewhere (exSt exEmpty [97, 44, 59, 98, 44, 59, 0, 45]) exP (storage exEmpty.cap) ⟨exQ + 4, 3⟩ [44, 59, 0] ∧
    Elsewhere (exSt exEmpty [97, 44, 59, 98, 44, 59, 0, 45]) exP (storage exEmpty.cap) ⟨exQ + 7, 1⟩ [45] ∧
    exEmpty.HasRoom isoCfg (exEmpty.data.length + 4) :=
  ⟨exSt_elsewhere exEmpty_valid (by decide) 0 4 (by decide), exSt_elsewhere exEmpty_valid (by decide) 4 3 (by decide),
    exSt_elsewhere exEmpty_valid (by decide) 7 1 (by decide), .inr ⟨by decide, by decide⟩⟩

end CStr
