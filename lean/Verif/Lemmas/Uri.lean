import Verif.Spec.Uri
import Verif.Props.Split
import Verif.Props.Find
import Verif.Props.SubTrim
import Verif.Lemmas.Strnum
namespace CStr

theorem litColon_cstring (m : Mem) : CString m litColon [58] := lit_cstring m 32 _ (by decide) (by decide) (by decide)
theorem litSlash_cstring (m : Mem) : CString m litSlash [47] := lit_cstring m 34 _ (by decide) (by decide) (by decide)
theorem litAt_cstring (m : Mem) : CString m litAt [64] := lit_cstring m 43 _ (by decide) (by decide) (by decide)
theorem litCSS_cstring (m : Mem) : CString m litColonSlashSlash [58, 47, 47] := lit_cstring m 49 _ (by decide) (by decide) (by decide)

theorem View.Inside.trans {a b c : View} (h1 : a.Inside b) (h2 : b.Inside c) : a.Inside c := by
  rcases h1 with h1 | ⟨p1, p2, p3, p4⟩
  · exact .inl h1
  · rcases h2 with rfl | ⟨q1, q2, q3, q4⟩
    · simp only [View.invalid] at p3 p4; omega
    · exact .inr ⟨p1, p2, by omega, by omega⟩

theorem View.Inside.refl_of {m : Mem} {v : View} {o : Option (List Byte)} (h : Component m v o) : v.Inside v := by
  cases o with
  | none => exact .inl h
  | some l =>
    have h : ViewOf m v l := h
    have := h.size
    exact .inr ⟨h.pos, by omega, Int.le_refl _, Int.le_refl _⟩

theorem View.Inside.invalid (v : View) : View.invalid.Inside v := .inl rfl

theorem Component.isValid {m : Mem} {v : View} {o : Option (List Byte)} (h : Component m v o) : strview_is_valid v = o.isSome := by
  cases o with
  | none =>
    have h : v = .invalid := h
    subst h; rfl
  | some l =>
    have h : ViewOf m v l := h
    have := h.pos
    simp only [strview_is_valid, Option.isSome_some, decide_eq_true_eq]
    omega

/-- Cutting at the first `c`. -/
def cut (c : Byte) : Option (List Byte) → Option (List Byte) × Option (List Byte)
  | none => (none, none)
  | some l => if c ∈ l then (some (l.takeWhile (· != c)), some ((l.dropWhile (· != c)).drop 1)) else (some l, none)

theorem cut_mem {c : Byte} {a b : List Byte} (h : c ∉ a) : cut c (some (a ++ c :: b)) = (some a, some b) := by
  simp only [cut]
  rw [if_pos (by simp)]
  have h1 : (a ++ c :: b).takeWhile (· != c) = a := by
    rw [List.takeWhile_append_of_pos (by intro x hx; simp only [bne_iff_ne, ne_eq]; rintro rfl; exact h hx)]
    simp
  have h2 : (a ++ c :: b).dropWhile (· != c) = c :: b := by
    rw [List.dropWhile_append_of_pos (by intro x hx; simp only [bne_iff_ne, ne_eq]; rintro rfl; exact h hx)]
    simp
  rw [h1, h2]; rfl

theorem cut_not_mem {c : Byte} {l : List Byte} (h : c ∉ l) : cut c (some l) = (some l, none) := by
  simp only [cut]; rw [if_neg h]

theorem split_nn_invalid {m : Mem} {p : Addr} {ds : List Byte} (h : CString m p ds) : split_first_nn m .invalid p false = .ok (.invalid, .invalid) := by
  simp only [split_first_nn, cstr_eq h, Res.bind_ok]
  rfl

theorem split_cut {m : Mem} {v : View} {o : Option (List Byte)} (h : Component m v o) {p : Addr} {c : Byte} (hp : CString m p [c]) :
    ∃ u r, splitLocal m v p = .ok (u, r) ∧ Component m u (cut c o).1 ∧ Component m r (cut c o).2 ∧ u.Inside v ∧ r.Inside v := by
  cases o with
  | none =>
    have h : v = .invalid := h
    subst h
    refine ⟨.invalid, .invalid, ?_, rfl, rfl, .inl rfl, .inl rfl⟩
    simp only [splitLocal, strview_split_first_delim, split_nn_invalid hp, Res.bind_ok]
  | some l =>
    have h : ViewOf m v l := h
    rcases C10_split_first_delim h hp with ⟨tok, d, rest, r, hl, hd, hno, e, h1, h2, h3, h4⟩ | ⟨hno, e⟩
    · have hdc : d = c := by simpa using hd
      subst hdc
      have hc : d ∉ tok := fun hx => hno d hx (by simp)
      refine ⟨v.part 0 tok.length, r, by simp only [splitLocal, e, Res.bind_ok], ?_, ?_, ?_, ?_⟩
      · rw [hl, cut_mem hc]; exact h1
      · rw [hl, cut_mem hc]; exact h2
      · have := h.size; have := h.pos
        have hl' := congrArg List.length hl
        rw [List.length_append, List.length_cons] at hl'
        right; simp only [View.part]; omega
      · have := h.size; have := h.pos; have := h2.pos; have := h2.size
        right; omega
    · have hc : c ∉ l := fun hx => hno c hx (by simp)
      refine ⟨v, .invalid, by simp only [splitLocal, e, Res.bind_ok], ?_, ?_, View.Inside.refl_of (o := some l) h, .inl rfl⟩
      · rw [cut_not_mem hc]; exact h
      · rw [cut_not_mem hc]; rfl

/-- Does the text occur? -/
def Has (n : List Byte) : Option (List Byte) → Prop
  | none => False
  | some l => ∃ i, OccursAt id n l i

theorem has_char {c : Byte} {l : List Byte} : Has [c] (some l) ↔ c ∈ l := by
  constructor
  · rintro ⟨i, pre, mid, post, rfl, -, hm⟩
    simp only [List.map_id] at hm
    subst hm; simp
  · intro h
    obtain ⟨a, b, rfl⟩ := List.append_of_mem h
    exact ⟨a.length, a, [c], b, by simp, rfl, rfl⟩

theorem find_has {m : Mem} {v : View} {o : Option (List Byte)} (h : Component m v o) {p : Addr} {n : List Byte} (hp : CString m p n) :
    ∃ w, strview_find_first_cstr m v p = .ok w ∧ (strview_is_valid w = true ↔ Has n o) := by
  obtain ⟨e, -, hn⟩ := C07_find_first_cstr (v := v) hp
  rw [e]
  cases o with
  | none =>
    have h : v = .invalid := h
    subst h
    exact ⟨.invalid, (C07_find_first_invalid m _).2.1, ⟨(fun h => by cases h), fun h => False.elim h⟩⟩
  | some l =>
    have h : ViewOf m v l := h
    rcases C07_find_first h hn with ⟨i, ⟨h1, -⟩, h2, e⟩ | ⟨hno, e⟩
    · refine ⟨_, e, fun _ => ⟨i, h1⟩, fun _ => ?_⟩
      have := h.pos
      exact is_valid_iff.2 (by simp only [View.part]; omega)
    · exact ⟨_, e, (fun h => by cases h), fun ⟨i, hi⟩ => absurd hi (hno i)⟩

/-- `strview_sub(uri, 2, INT_MAX)`. -/
def dropTwo : Option (List Byte) → Option (List Byte)
  | none => none
  | some [] => some []
  | some l => if l.length ≤ 2 then none else some (l.drop 2)

theorem sub_two {m : Mem} {v : View} {o : Option (List Byte)} (h : Component m v o) :
    ∃ w, strview_sub v 2 INT_MAX = .ok w ∧ Component m w (dropTwo o) ∧ w.Inside v := by
  cases o with
  | none =>
    have h : v = .invalid := h
    subst h
    exact ⟨.invalid, rfl, rfl, .inl rfl⟩
  | some l =>
    have h : ViewOf m v l := h
    by_cases h0 : l = []
    · subst h0
      exact ⟨v, C05_sub_empty h.toDenotes _ _, h, View.Inside.refl_of (o := some []) h⟩
    · have hd : dropTwo (some l) = if l.length ≤ 2 then none else some (l.drop 2) := by
        cases l with
        | nil => exact absurd rfl h0
        | cons a l => rfl
      rw [hd]
      have hmax := h.max
      have hf2 : fromEnd l.length 2 = 2 := by simp only [fromEnd]; rw [if_neg (by omega)]
      have hfm : fromEnd l.length INT_MAX = INT_MAX := by simp only [fromEnd]; rw [if_neg (by decide)]
      by_cases h2 : l.length ≤ 2
      · rw [if_pos h2]
        exact ⟨.invalid, C05_sub_out_of_range h h0 2 INT_MAX (by decide) (by decide) (by decide) (by decide) (by rw [hf2]; omega), rfl, .inl rfl⟩
      · rw [if_neg h2]
        obtain ⟨B, E, hB, hE, hBE, hEl, e, hv⟩ := C05_sub_in_range h h0 2 INT_MAX (by decide) (by decide) (by decide) (by decide)
          (by rw [hf2, hfm]; simp only [INT_MAX] at hmax ⊢; omega)
        rw [hf2] at hB
        rw [hfm] at hE
        have hB2 : B = 2 := by omega
        have hEl2 : E = l.length := by omega
        subst hB2 hEl2
        rw [List.take_length] at hv
        refine ⟨_, e, hv, ?_⟩
        have := h.pos; have := h.size
        right; simp only [View.part]; omega

/-- The components found, as texts. -/
structure UriText where
  scheme : Option (List Byte)
  host : Option (List Byte)
  path : Option (List Byte)
  user : Option (List Byte)
  port : Option (List Byte)

open Classical in
/-- `parse_uri` on texts. -/
noncomputable def parseScheme (o : Option (List Byte)) : Option (List Byte) × Option (List Byte) :=
  if Has [58, 47, 47] o then ((cut 58 o).1, dropTwo (cut 58 o).2) else (none, o)

/-- The user and the rest. -/
def parseUser (o : Option (List Byte)) : Option (List Byte) × Option (List Byte) :=
  if (cut 64 o).2.isSome then cut 64 o else ((cut 64 o).2, (cut 64 o).1)

/-- Starts with a digit. -/
def digitFirst : Option (List Byte) → Bool
  | some (c :: _) => isDigit c
  | _ => false

open Classical in
noncomputable def parseRest (scheme user o : Option (List Byte)) : UriText :=
  if Has [58] o then
    if digitFirst (cut 58 o).2 then ⟨scheme, (cut 58 o).1, (cut 47 (cut 58 o).2).2, user, (cut 47 (cut 58 o).2).1⟩
    else ⟨(cut 58 o).1, none, if (cut 58 o).2 = some [] then none else (cut 58 o).2, user, none⟩
  else ⟨scheme, (cut 47 o).1, (cut 47 o).2, user, none⟩

noncomputable def parseText (o : Option (List Byte)) : UriText :=
  parseRest (parseScheme o).1 (parseUser (parseScheme o).2).1 (parseUser (parseScheme o).2).2

/-- The views are the texts, and all are parts of `v`. -/
structure UriIs (m : Mem) (v : View) (u : Uri) (t : UriText) : Prop where
  scheme : Component m u.scheme t.scheme
  host : Component m u.host t.host
  path : Component m u.path t.path
  user : Component m u.user t.user
  port : Component m u.port t.port
  schemeIn : u.scheme.Inside v
  hostIn : u.host.Inside v
  pathIn : u.path.Inside v
  userIn : u.user.Inside v
  portIn : u.port.Inside v

theorem scheme_text {m : Mem} {v : View} {o : Option (List Byte)} (h : Component m v o) :
    ∃ s r, parse_scheme m v = .ok (s, r) ∧ Component m s (parseScheme o).1 ∧ Component m r (parseScheme o).2 ∧ s.Inside v ∧ r.Inside v := by
  obtain ⟨w, e, hw⟩ := find_has h (litCSS_cstring m)
  simp only [parse_scheme, e, Res.bind_ok, parseScheme]
  by_cases hh : Has [58, 47, 47] o
  · rw [if_pos (hw.2 hh), if_pos hh]
    obtain ⟨u, r, e1, h1, h2, h3, h4⟩ := split_cut h (litColon_cstring m)
    obtain ⟨x, e2, h5, h6⟩ := sub_two h2
    exact ⟨u, x, by rw [e1, Res.bind_ok]; simp only; rw [e2, Res.bind_ok], h1, h5, h3, h6.trans h4⟩
  · rw [if_neg (fun hx => hh (hw.1 hx)), if_neg hh]
    exact ⟨.invalid, v, rfl, rfl, h, .inl rfl, View.Inside.refl_of h⟩

theorem Component.inv {m : Mem} : Component m .invalid none := rfl

theorem parse_text {m : Mem} {v : View} {o : Option (List Byte)} (h : Component m v o) :
    ∃ u, parse_uri m v = .ok u ∧ UriIs m v u (parseText o) := by
  obtain ⟨sch, r0, e0, c1, c2, i1, i2⟩ := scheme_text h
  obtain ⟨us, r1, e1, c3, c4, i3, i4⟩ := split_cut c2 (litAt_cstring m)
  rw [parse_uri, e0, Res.bind_ok]
  simp only
  rw [e1, Res.bind_ok]
  simp only
  rw [c4.isValid, parseText]
  -- the user
  have hu : ∃ user uri, (if (!(cut 64 (parseScheme o).2).2.isSome) = true then strview_swap us r1 else (us, r1)) = (user, uri) ∧
      Component m user (parseUser (parseScheme o).2).1 ∧ Component m uri (parseUser (parseScheme o).2).2 ∧ user.Inside v ∧ uri.Inside v := by
    simp only [parseUser]
    cases hs : (cut 64 (parseScheme o).2).2.isSome
    · exact ⟨r1, us, rfl, c4, c3, i4.trans i2, i3.trans i2⟩
    · exact ⟨us, r1, rfl, c3, c4, i3.trans i2, i4.trans i2⟩
  obtain ⟨user, uri, eu, c5, c6, i5, i6⟩ := hu
  rw [eu]
  simp only
  generalize (parseUser (parseScheme o).2).1 = tu at *
  generalize (parseUser (parseScheme o).2).2 = o2 at *
  generalize (parseScheme o).1 = ts at *
  obtain ⟨w, ew, hw⟩ := find_has c6 (litColon_cstring m)
  rw [ew, Res.bind_ok]
  by_cases hh : Has [58] o2
  · rw [if_neg (by rw [hw.2 hh]; decide), parseRest, if_pos hh]
    obtain ⟨a, b, e2, c7, c8, i7, i8⟩ := split_cut c6 (litColon_cstring m)
    rw [e2, Res.bind_ok]
    simp only
    have hsome : (cut 58 o2).2.isSome = true := by
      cases o2 with
      | none => exact hh.elim
      | some l => simp only [cut]; rw [if_pos (has_char.1 hh)]; rfl
    rw [c8.isValid, hsome]
    simp only [Bool.not_true, Bool.false_eq_true, if_false]
    obtain ⟨l2, hl2⟩ := Option.isSome_iff_exists.1 hsome
    rw [hl2] at c8 ⊢
    have c8' : ViewOf m b l2 := c8
    have hdig : (if b.size ≠ 0 then do let c ← load m b.data; Res.ok (isDigit c) else Res.ok false) = Res.ok (digitFirst (some l2)) := by
      cases l2 with
      | nil => rw [if_neg (by rw [c8'.size]; simp)]; rfl
      | cons c l2 =>
        have := c8'.size
        rw [List.length_cons] at this
        rw [if_pos (by omega)]
        have hc := (Holds.cons_iff.1 c8'.holds).1
        simp only [load, hc, Res.bind_ok, digitFirst]
    rw [hdig, Res.bind_ok]
    cases hd : digitFirst (some l2)
    · simp only [Bool.false_eq_true, if_false]
      refine ⟨_, rfl, ?_⟩
      by_cases h0 : l2 = []
      · subst h0
        have h0s : b.size = 0 := c8'.size
        refine ⟨c7, rfl, ?_, c5, rfl, i7.trans i6, .inl rfl, ?_, i5, .inl rfl⟩
        · simp only [h0s, ne_eq, not_true, if_false, if_true]; exact Component.inv
        · simp only [h0s, ne_eq, not_true, if_false]; exact .inl rfl
      · have hs : b.size ≠ 0 := by
          rw [c8'.size]; simpa using h0
        refine ⟨c7, rfl, ?_, c5, rfl, i7.trans i6, .inl rfl, ?_, i5, .inl rfl⟩
        · simp only [hs, ne_eq, not_false_eq_true, if_true]
          rw [if_neg (by simpa using h0)]; exact c8
        · simp only [hs, ne_eq, not_false_eq_true, if_true]; exact i8.trans i6
    · simp only [if_true]
      obtain ⟨pt, pa, e3, c9, c10, i9, i10⟩ := split_cut c8 (litSlash_cstring m)
      rw [e3, Res.bind_ok]
      simp only
      refine ⟨_, rfl, ?_⟩
      have hpath : (if strview_is_valid pa = true then pa else View.invalid) = pa := by
        cases hv : strview_is_valid pa
        · rw [c10.isValid] at hv
          cases hcc : (cut 47 (some l2)).2 with
          | none =>
            rw [hcc] at c10
            exact c10.symm
          | some x => rw [hcc] at hv; cases hv
        · rfl
      refine ⟨c1, c7, ?_, c5, c9, i1, i7.trans i6, ?_, i5, (i9.trans i8).trans i6⟩
      · simp only [hpath]; exact c10
      · simp only [hpath]; exact (i10.trans i8).trans i6
  · have hw' : strview_is_valid w = false := by
      cases hv : strview_is_valid w
      · rfl
      · exact absurd (hw.1 hv) hh
    rw [if_pos (by rw [hw']; rfl), parseRest, if_neg hh]
    obtain ⟨a, b, e2, c7, c8, i7, i8⟩ := split_cut c6 (litSlash_cstring m)
    rw [e2, Res.bind_ok]
    simp only
    cases hv : strview_is_valid b
    · have hb : b = .invalid ∧ (cut 47 o2).2 = none := by
        rw [c8.isValid] at hv
        cases hcc : (cut 47 o2).2 with
        | none => rw [hcc] at c8; exact ⟨c8, rfl⟩
        | some x => rw [hcc] at hv; cases hv
      refine ⟨_, rfl, c1, c7, ?_, c5, rfl, i1, i7.trans i6, .inl rfl, i5, .inl rfl⟩
      simp only [hb.2]
      exact Component.inv
    · exact ⟨_, rfl, c1, c7, c8, c5, rfl, i1, i7.trans i6, i8.trans i6, i5, .inl rfl⟩

end CStr
