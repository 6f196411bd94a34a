import Verif.Lemmas.PrnfLoop
import Verif.Spec.PrnfForm
/-! Every format string is a list of items, or goes wrong in a way that is listed. -/
namespace CStr

theorem stem_eq (c : Conv) : c.stem = 37 :: (c.flags.map Flag.char ++ (widthText c.width ++ (precText c.prec ++ c.len.text))) := by
  simp only [Conv.stem, List.cons_append, List.append_assoc]
  rfl

theorem text_stem (c : Conv) : c.text = c.stem ++ [c.letter] := rfl

theorem exists_flags (t : List Byte) : ∃ fs : List Flag, ∃ r, t = fs.map Flag.char ++ r ∧ ∀ b ∈ r.head?, NonFlag b := by
  induction t with
  | nil => exact ⟨[], [], rfl, by simp⟩
  | cons b t ih =>
    obtain ⟨fs, r, e, h⟩ := ih
    by_cases hb : NonFlag b
    · exact ⟨[], b :: t, rfl, by simpa using hb⟩
    · rw [nonFlag_char, not_forall] at hb
      obtain ⟨f, hf⟩ := hb
      exact ⟨f :: fs, r, by rw [e, List.map_cons, Decidable.not_not.1 hf]; rfl, h⟩

theorem exists_digits (t : List Byte) : ∃ ds r, t = ds ++ r ∧ (∀ b ∈ ds, isDigit b = true) ∧ ∀ b ∈ r.head?, isDigit b = false := by
  induction t with
  | nil => exact ⟨[], [], rfl, by simp, by simp⟩
  | cons b t ih =>
    obtain ⟨ds, r, e, h1, h2⟩ := ih
    by_cases hb : isDigit b = true
    · exact ⟨b :: ds, r, by rw [e]; rfl, by simpa [hb] using h1, h2⟩
    · exact ⟨[], b :: t, rfl, by simp, by simpa using hb⟩

theorem exists_width {t : List Byte} (ht : ∀ b ∈ t.head?, NonFlag b) :
    (∃ w r, t = widthText w ++ r ∧ (∀ x, w = some x → x.Ok ∧ ∀ ds, x = .digits ds → ds ≠ [] ∧ ds.head? ≠ some 48) ∧
      (w = none → r = t) ∧ ∀ b ∈ r.head?, AfterWidth w b) ∨
    ∃ ds rest, t = ds ++ rest ∧ TooGreat ds ∧ ds.head? ≠ some 48 := by
  by_cases hs : t.head? = some 42
  · obtain ⟨r, rfl⟩ : ∃ r, t = 42 :: r := by
      cases t with
      | nil => simp at hs
      | cons b r => simp at hs; exact ⟨r, by rw [hs]⟩
    exact .inl ⟨some (.star 0), r, rfl, by rintro x ⟨⟩; exact ⟨⟨by decide, by decide⟩, by rintro ds ⟨⟩⟩, by simp, fun _ _ => trivial⟩
  · obtain ⟨ds, r, rfl, h1, h2⟩ := exists_digits t
    cases ds with
    | nil =>
      refine .inl ⟨none, r, rfl, by simp, fun _ => rfl, fun b hb => ⟨h2 b hb, ?_⟩⟩
      rintro rfl
      exact hs hb
    | cons d ds =>
      have h0 : (d :: ds).head? ≠ some 48 := by
        have := (ht d (by simp)).1
        simpa using this
      by_cases hg : INT_MAX < (decVal (d :: ds) : Int)
      · exact .inr ⟨d :: ds, r, rfl, ⟨h1, hg⟩, h0⟩
      · refine .inl ⟨some (.digits (d :: ds)), r, rfl, ?_, by simp, h2⟩
        rintro x ⟨⟩
        exact ⟨⟨h1, by omega⟩, by rintro ds' ⟨⟩; exact ⟨by simp, h0⟩⟩

theorem exists_prec (t : List Byte) :
    (∃ w r, t = precText w ++ r ∧ (∀ x, w = some x → x.Ok) ∧ (w = none → r = t) ∧ ∀ b ∈ r.head?, AfterPrec w b) ∨
    ∃ ds rest, t = 46 :: ds ++ rest ∧ TooGreat ds := by
  by_cases hp : t.head? = some 46
  · obtain ⟨t, rfl⟩ : ∃ r, t = 46 :: r := by
      cases t with
      | nil => simp at hp
      | cons b r => simp at hp; exact ⟨r, by rw [hp]⟩
    by_cases hs : t.head? = some 42
    · obtain ⟨r, rfl⟩ : ∃ r, t = 42 :: r := by
        cases t with
        | nil => simp at hs
        | cons b r => simp at hs; exact ⟨r, by rw [hs]⟩
      exact .inl ⟨some (.star 0), r, rfl, by rintro x ⟨⟩; exact ⟨by decide, by decide⟩, by simp, fun _ _ => trivial⟩
    · obtain ⟨ds, r, rfl, h1, h2⟩ := exists_digits t
      by_cases hg : INT_MAX < (decVal ds : Int)
      · exact .inr ⟨ds, r, rfl, h1, hg⟩
      · refine .inl ⟨some (.digits ds), r, rfl, by rintro x ⟨⟩; exact ⟨h1, by omega⟩, by simp, fun b hb => ⟨h2 b hb, ?_⟩⟩
        rintro rfl rfl
        exact hs hb
  · refine .inl ⟨none, t, rfl, by simp, fun _ => rfl, ?_⟩
    rintro b hb rfl
    exact hp hb

theorem exists_len (t : List Byte) : ∃ l : LenMod, ∃ r, t = l.text ++ r ∧ (l = .none → r = t) ∧ ∀ b ∈ r.head?, AfterLen l b := by
  cases t with
  | nil => exact ⟨.none, [], rfl, fun _ => rfl, by simp⟩
  | cons b t =>
    by_cases h1 : b = 104
    · subst h1
      cases t with
      | nil => exact ⟨.h, [], rfl, by simp, by simp⟩
      | cons b t =>
        by_cases h : b = 104
        · subst h; exact ⟨.hh, t, rfl, by simp, fun _ _ => trivial⟩
        · exact ⟨.h, b :: t, rfl, by simp, by rintro x ⟨⟩; exact h⟩
    by_cases h2 : b = 108
    · subst h2
      cases t with
      | nil => exact ⟨.l, [], rfl, by simp, by simp⟩
      | cons b t =>
        by_cases h : b = 108
        · subst h; exact ⟨.ll, t, rfl, by simp, fun _ _ => trivial⟩
        · exact ⟨.l, b :: t, rfl, by simp, by rintro x ⟨⟩; exact h⟩
    by_cases h3 : b = 116
    · subst h3; exact ⟨.t, t, rfl, by simp, fun _ _ => trivial⟩
    by_cases h4 : b = 122
    · subst h4; exact ⟨.z, t, rfl, by simp, fun _ _ => trivial⟩
    exact ⟨.none, b :: t, rfl, fun _ => rfl, by rintro x ⟨⟩; exact ⟨h1, h2, h3, h4⟩⟩

/-- A text after `%` that is not another `%`: malformed, or a complete placeholder. -/
theorem exists_conv {t : List Byte} (ht : t.head? ≠ some 37) :
    Malformed (37 :: t) ∨ ∃ c : Conv, ∃ rest, 37 :: t = c.text ++ rest ∧ c.Numbers ∧ c.Ends := by
  obtain ⟨fs, r1, rfl, hf⟩ := exists_flags t
  rcases exists_width hf with ⟨w, r2, rfl, hw, hw0, hw1⟩ | ⟨ds, rest, rfl, hg, h0⟩
  · rcases exists_prec r2 with ⟨p, r3, rfl, hp, hp0, hp1⟩ | ⟨ds, rest, rfl, hg⟩
    · obtain ⟨l, r4, rfl, hl0, hl1⟩ := exists_len r3
      cases r4 with
      | nil =>
        refine .inl ?_
        have := Unfinished.intro ⟨fs, w, p, l, 0, .other⟩ ⟨hw, hp⟩
        exact .inl (by simpa [stem_eq] using this)
      | cons b rest =>
        refine .inr ⟨⟨fs, w, p, l, b, .other⟩, rest, by simp [text_stem, stem_eq], ⟨hw, hp⟩, ?_⟩
        have hb := hl1 b (by simp)
        have hb1 : l = .none → AfterPrec p b := by rintro rfl; exact hp1 b (by simp [LenMod.text])
        have hb2 : l = .none → p = none → AfterWidth w b := by rintro rfl rfl; exact hw1 b (by simp [LenMod.text, precText])
        have hb3 : l = .none → p = none → w = none → NonFlag b := by
          rintro rfl rfl rfl; exact hf b (by simp [LenMod.text, precText, widthText])
        constructor
        · rintro ⟨⟩; obtain ⟨h1, h2, h3, h4⟩ := hb; simp [h1, h2, h3, h4]
        · rintro ⟨⟩; exact hb
        · rintro ⟨⟩; exact hb
        · rintro h ⟨⟩; exact hb1 h
        · rintro h ds ⟨⟩; exact (hb1 h).1
        · rintro h ⟨⟩; exact (hb1 h).2 rfl
        · rintro h h' ds ⟨⟩; exact hb2 h h'
        · rintro h h' ⟨⟩; exact ⟨(hb2 h h').1, (hb2 h h').2, nonFlag_char.1 (hb3 h h' rfl)⟩
        · rintro ⟨⟩ ⟨⟩ ⟨⟩ ⟨⟩ h
          simp only at h
          subst h
          exact ht (by simp [LenMod.text, precText, widthText])
    · refine .inl ?_
      have := Overlong.prec ⟨fs, w, none, .none, 0, .other⟩ ⟨hw, by simp⟩ rfl rfl ds rest hg
      exact .inr (by simpa [stem_eq, precText, LenMod.text] using this)
  · refine .inl ?_
    have := Overlong.width fs ds rest hg h0
    exact .inr (by simpa using this)

/-- Items, or items up to a mistake. -/
theorem exists_items (m : Mem) (n : Nat) (t : List Byte) (hn : t.length ≤ n) (h0 : (0 : Byte) ∉ t) (va : List VArg) :
    (∃ is more, t = formatText is ∧ va = formatArgs is ++ more ∧ ItemsOk m is) ∨
    ∃ is more u, t = formatText is ++ u ∧ va = formatArgs is ++ more ∧ ItemsBefore m (u ++ [0]) is ∧ (Malformed u ∨ BadArgs m more u) := by
  induction n generalizing t va with
  | zero =>
    have : t = [] := List.length_eq_zero_iff.1 (by omega)
    subst this
    exact .inl ⟨[], va, rfl, rfl, trivial⟩
  | succ n ih =>
    -- one item in front
    have step : ∀ (i : FmtItem) (r : List Byte) (va' : List VArg), t = i.text ++ r → va = i.args ++ va' → i.Ok m ((r ++ [0]).headD 0) →
        (∃ is more, t = formatText is ∧ va = formatArgs is ++ more ∧ ItemsOk m is) ∨
        ∃ is more u, t = formatText is ++ u ∧ va = formatArgs is ++ more ∧ ItemsBefore m (u ++ [0]) is ∧ (Malformed u ∨ BadArgs m more u) := by
      intro i r va' e1 e2 hi
      have hl := item_text_ne i
      have hr : r.length ≤ n := by rw [e1, List.length_append] at hn; omega
      have hr0 : (0 : Byte) ∉ r := fun h => h0 (by rw [e1]; simp [h])
      rcases ih r hr hr0 va' with ⟨is, more, f1, f2, f3⟩ | ⟨is, more, u, f1, f2, f3, f4⟩
      · exact .inl ⟨i :: is, more, by rw [e1, f1]; simp [formatText], by rw [e2, f2]; simp [formatArgs], ⟨by rw [← f1]; exact hi, f3⟩⟩
      · refine .inr ⟨i :: is, more, u, by rw [e1, f1]; simp [formatText], by rw [e2, f2]; simp [formatArgs], ⟨?_, f3⟩, f4⟩
        rw [← List.append_assoc, ← f1]; exact hi
    cases t with
    | nil => exact .inl ⟨[], va, rfl, rfl, trivial⟩
    | cons b t =>
      have hb0 : b ≠ 0 := by rintro rfl; simp at h0
      by_cases hb : b = 37
      · subst hb
        by_cases ht : t.head? = some 37
        · obtain ⟨r, rfl⟩ : ∃ r, t = 37 :: r := by
            cases t with
            | nil => simp at ht
            | cons b r => simp at ht; exact ⟨r, by rw [ht]⟩
          exact step .percent r va rfl rfl trivial
        · rcases exists_conv ht with h | ⟨c, rest, e, hc, he⟩
          · exact .inr ⟨[], va, _, rfl, rfl, trivial, .inl h⟩
          · by_cases hbad : BadArgs m va (37 :: t)
            · exact .inr ⟨[], va, _, rfl, rfl, trivial, .inr hbad⟩
            · have hgood : ∃ c' : Conv, c'.text = c.text ∧ ∃ more, va = c'.args ++ more ∧ c'.Ok m := by
                apply Classical.byContradiction
                intro hno
                refine hbad ⟨c, rest, e, hc, he, fun c' h1 more h2 h3 => hno ⟨c', h1, more, h2, h3⟩⟩
              obtain ⟨c', h1, more, h2, h3⟩ := hgood
              exact step (.conv c') rest more (by rw [e, ← h1]; rfl) h2 h3
      by_cases hv : b = 11
      · subst hv
        obtain ⟨ds, r, rfl, h1, h2⟩ := exists_digits t
        by_cases hds : ds = []
        · subst hds
          refine step .vtab r va rfl rfl ?_
          cases r with
          | nil => exact (by decide : isDigit 0 = false)
          | cons x r => exact h2 x (by simp)
        by_cases hg : INT_MAX < (decVal ds : Int)
        · exact .inr ⟨[], va, _, rfl, rfl, trivial, .inl (.inr (.column ds r ⟨h1, hg⟩))⟩
        by_cases hp : FmtItem.Printable ((r ++ [0]).headD 0)
        · cases r with
          | nil => exact absurd hp (by decide)
          | cons x r =>
            exact step (.align ds x) r va (by simp [FmtItem.text]) rfl ⟨⟨hds, h1, by omega⟩, hp, h2 x (by simp)⟩
        · exact step (.alignNone ds) r va rfl rfl ⟨⟨hds, h1, by omega⟩, hp⟩
      exact step (.lit b) t va rfl rfl ⟨hb0, hb, hv⟩

/-! ### What the code does with them -/

theorem prnf_atoi_overflow {m : Mem} {ds rest : List Byte} (k : Nat) (a : Addr) (v : Nat) (h : Holds m a (ds ++ rest))
    (hd : ∀ b ∈ ds, isDigit b = true) (hk : ds.length < k) (hv0 : (v : Int) ≤ INT_MAX)
    (hv : INT_MAX < ((ds.foldl (fun n b => n * 10 + (b.toNat - 48)) v : Nat) : Int)) :
    prnf_atoi m k a v = .ub .signedOverflow := by
  induction ds generalizing k a v with
  | nil => simp only [List.foldl_nil] at hv; omega
  | cons b ds ih =>
    obtain ⟨k, rfl⟩ : ∃ j, k = j + 1 := ⟨k - 1, by simp at hk; omega⟩
    simp only [List.length_cons] at hk
    have hb : isDigit b = true := hd b (by simp)
    simp only [List.foldl_cons] at hv
    rw [prnf_atoi, h.load_head, Res.bind_ok, if_pos hb]
    by_cases h1 : (v : Int) * 10 ≤ INT_MAX
    · rw [ckInt_ok (by simp only [INT_MIN]; omega) h1, Res.bind_ok, digit_val hb]
      have e : ((v : Int) * 10 + ((b.toNat - 48 : Nat) : Int)) = ((v * 10 + (b.toNat - 48) : Nat) : Int) := by omega
      rw [e]
      by_cases h2 : ((v * 10 + (b.toNat - 48) : Nat) : Int) ≤ INT_MAX
      · rw [ckInt_ok (by simp only [INT_MIN]; omega) h2, Res.bind_ok]
        exact ih k (a + 1) _ (Holds.cons_iff.1 h).2 (fun b hb => hd b (by simp [hb])) (by omega) h2 hv
      · rw [ckInt, if_neg (fun h => h2 h.2)]; rfl
    · rw [ckInt, if_neg (fun h => h1 h.2)]; rfl

section
variable {σ : Type} {K : Sink σ}

/-- The number is computed in an `int`. -/
theorem core_loop_overlong {u : List Byte} (hu : Overlong u) (k : Nat) (o : OutInfo σ) (fmt : Addr) (va : List VArg)
    (h : Holds (K.mem o.w) fmt (u ++ [0])) (hsz : u.length < strBound) : core_loop K (k + 1) o fmt va = .ub .signedOverflow := by
  cases hu with
  | width flags ds rest great first =>
    obtain ⟨hd, hg⟩ := great
    simp only [List.length_cons, List.length_append, List.length_map] at hsz
    simp only [List.cons_append, List.append_assoc] at h
    have h2 := (Holds.cons_iff.1 h).2
    have h3 := (Holds.append_iff.1 h2).2
    rw [List.length_map] at h3
    cases ds with
    | nil => exact absurd hg (by decide)
    | cons d ds =>
      have hnf : Hd NonFlag ((d :: ds) ++ (rest ++ [0])) := ⟨d, _, rfl, digit_nonflag (hd d (by simp)) (by simpa using first)⟩
      have hpf := parse_flags_eq strBound (fmt + 1) {} h2 hnf (by omega)
      have hat := prnf_atoi_overflow (rest := rest ++ [0]) strBound _ 0 h3 hd (by simp only [List.length_cons] at *; omega) (by decide) hg
      obtain ⟨x, t, hx, hx'⟩ : Hd (fun b => b ≠ 37) (flags.map Flag.char ++ ((d :: ds) ++ (rest ++ [0]))) := by
        cases flags with
        | nil =>
          refine ⟨d, _, rfl, ?_⟩
          rintro rfl
          exact absurd (hd 37 (by simp)) (by decide)
        | cons f fs => exact ⟨f.char, _, rfl, by cases f <;> decide⟩
      have h4 := h2
      rw [hx] at h4
      have hd42 : d ≠ 42 := by rintro rfl; exact absurd (hd 42 (by simp)) (by decide)
      simp only [List.cons_append] at h3
      simp only [core_loop, h.load_head, Res.bind_ok, if_neg (show ¬ (37 : Byte) = 0 by decide), if_true, h4.load_head, if_neg hx', parse_placeholder,
        hpf, parse_width, h3.load_head, if_neg hd42]
      rw [show prnf_atoi (K.mem o.w) strBound (fmt + 1 + ↑flags.length) 0 = .ub .signedOverflow from hat]
      rfl
  | prec c hn hnone hlen ds rest great =>
    obtain ⟨hd, hg⟩ := great
    have hw := hn.width
    simp only [stem_eq, hnone, hlen, precText, LenMod.text, List.append_nil, List.length_cons, List.length_append, List.length_map] at hsz
    simp only [stem_eq, hnone, hlen, precText, LenMod.text, List.append_nil, List.cons_append, List.append_assoc] at h
    have h2 := (Holds.cons_iff.1 h).2
    have h3 := (Holds.append_iff.1 h2).2
    have h4 := (Holds.append_iff.1 h3).2
    rw [List.length_map] at h3 h4
    have h5 := (Holds.cons_iff.1 h4).2
    have hnf : Hd NonFlag (widthText c.width ++ 46 :: (ds ++ (rest ++ [0]))) := by
      match hw' : c.width with
      | none => exact ⟨46, _, rfl, by unfold NonFlag; decide⟩
      | some (.star v) => exact ⟨42, _, rfl, by unfold NonFlag; decide⟩
      | some (.digits (d :: e)) => exact ⟨d, _, rfl, digit_nonflag ((hw _ hw').1.1 d (by simp)) (by simpa using ((hw _ hw').2 _ rfl).2)⟩
      | some (.digits []) => exact absurd rfl ((hw _ hw').2 _ rfl).1
    have hpf := parse_flags_eq strBound (fmt + 1) {} h2 hnf (by omega)
    have haw : Hd (AfterWidth c.width) (46 :: (ds ++ (rest ++ [0]))) := by
      refine ⟨46, _, rfl, ?_⟩
      match c.width with
      | none => exact ⟨by decide, by decide⟩
      | some (.digits ds) => exact (by decide : isDigit 46 = false)
      | some (.star v) => trivial
    have hpw := parse_width_eq (p := c.flags.foldl applyFlag {}) h3 haw (fun x hx => ⟨(hw x hx).1, fun ds e => ((hw x hx).2 ds e).1⟩)
      (by rw [applyFlags_eq]; exact ⟨rfl, rfl⟩) (fun x hx => by simp only [hx, widthText] at hsz; omega)
    have hat := prnf_atoi_overflow (rest := rest ++ [0]) strBound _ 0 h5 hd (by omega) (by decide) hg
    obtain ⟨x, t, hx, hx'⟩ : Hd (fun b => b ≠ 37) (c.flags.map Flag.char ++ (widthText c.width ++ 46 :: (ds ++ (rest ++ [0])))) := by
      cases c.flags with
      | nil =>
        match hw' : c.width with
        | none => exact ⟨46, _, rfl, by decide⟩
        | some (.star v) => exact ⟨42, _, rfl, by decide⟩
        | some (.digits (d :: e)) =>
          refine ⟨d, _, rfl, ?_⟩
          rintro rfl
          exact absurd ((hw _ hw').1.1 37 (by simp)) (by decide)
        | some (.digits []) => exact absurd rfl ((hw _ hw').2 _ rfl).1
      | cons f fs => exact ⟨f.char, _, rfl, by cases f <;> decide⟩
    have h6 := h2
    rw [hx] at h6
    cases ds with
    | nil => exact absurd hg (by decide)
    | cons d ds =>
      have hd42 : d ≠ 42 := by rintro rfl; exact absurd (hd 42 (by simp)) (by decide)
      simp only [List.cons_append] at h5
      simp only [core_loop, h.load_head, Res.bind_ok, if_neg (show ¬ (37 : Byte) = 0 by decide), if_true, h6.load_head, if_neg hx', parse_placeholder,
        hpf, hpw, parse_prec, h4.load_head, h5.load_head, if_neg hd42]
      rw [show prnf_atoi (K.mem o.w) strBound _ 0 = .ub .signedOverflow from hat]
      rfl
  | column ds rest great =>
    obtain ⟨hd, hg⟩ := great
    simp only [List.length_cons, List.length_append] at hsz
    simp only [List.cons_append, List.append_assoc] at h
    have h2 := (Holds.cons_iff.1 h).2
    have hat := prnf_atoi_overflow (rest := rest ++ [0]) strBound _ 0 h2 hd (by omega) (by decide) hg
    cases ds with
    | nil => exact absurd hg (by decide)
    | cons d ds =>
      simp only [List.cons_append] at h2
      simp only [core_loop, h.load_head, Res.bind_ok, if_neg (show ¬ (11 : Byte) = 0 by decide), if_neg (show ¬ (11 : Byte) = 37 by decide), if_true,
        print_col_alignment, h2.load_head]
      rw [show prnf_atoi (K.mem o.w) strBound (fmt + 1) 0 = .ub .signedOverflow from hat]
      rfl

/-- The terminator is taken for the type letter. -/
theorem core_loop_unfinished {c : Conv} (hv : c.value = .other) (hl : c.letter = 0) (k : Nat) (o : OutInfo σ) (fmt : Addr) (va : List VArg)
    (hc : c.Ok (K.mem o.w)) (h : Holds (K.mem o.w) fmt (c.stem ++ [0])) (hsz : c.stem.length < strBound) :
    core_loop K (k + 1) o fmt (c.args ++ va) = core_loop K k o (fmt + (c.stem.length + 1 : Nat)) va := by
  have e : c.stem ++ [0] = 37 :: c.tailText := by rw [← conv_text, text_stem, hl]
  have hel : c.tailText.length = c.stem.length := by
    have := congrArg List.length e
    simp only [List.length_append, List.length_cons, List.length_nil] at this
    omega
  rw [e] at h
  have h2 := (Holds.cons_iff.1 h).2
  obtain ⟨x, t, hx, hx'⟩ := tailText_hd hc.ends hc.numbers []
  rw [List.append_nil] at hx
  have h3 := h2
  rw [hx] at h3
  have h4 : Holds (K.mem o.w) (fmt + 1) (c.tailText ++ []) := by rw [List.append_nil]; exact h2
  simp only [core_loop, h.load_head, Res.bind_ok, if_neg (show ¬ (37 : Byte) = 0 by decide), if_true, h3.load_head, if_neg hx',
    parse_placeholder_eq hc.typed h4 (by omega), read_varg_eq hc.typed]
  have hp : print_placeholder K o c.value.varg c.ph = .ok o := by
    have : c.ph.type = .none := by simp [Conv.ph, hv, Value.ty]
    unfold print_placeholder
    rw [this]
  rw [hp, Res.bind_ok]
  congr 1
  omega

end

end CStr
