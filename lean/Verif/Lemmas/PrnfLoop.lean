import Verif.Lemmas.PrnfPrint
/-! Columns, and the main loop of the formatter. -/
namespace CStr

theorem column_nil : column [] = 0 := rfl

theorem column_snoc (done : List Byte) (x : Byte) :
    column (done ++ [x]) = if x = 13 ∨ x = 10 then 0 else if FmtItem.Printable x then column done + 1 else column done := by
  simp only [column, List.reverse_append, List.reverse_cons, List.reverse_nil, List.nil_append, List.cons_append, List.takeWhile_cons]
  by_cases h : x = 13 ∨ x = 10
  · rw [if_pos h, if_neg]
    · rfl
    · rcases h with rfl | rfl <;> simp
  · rw [if_neg h, if_pos (by simp only [not_or] at h; simp [h.1, h.2]), List.filter_cons]
    by_cases hp : FmtItem.Printable x
    · simp [hp]
    · simp [hp]

section
variable {σ : Type} {K : Sink σ}

theorem out_char_col {o o' : OutInfo σ} {x : Byte} {done : List Byte} (hcol : o.col = column done) (h : out_char K o x = .ok o') :
    o'.col = column (done ++ [x]) := by
  obtain ⟨o1, o2, h1, h2, rfl⟩ := out_char_inv h
  have e1 := (out_dest_keep h1).1
  have e2 := (out_col_keep h2).2.2.2.2
  simp only [column_snoc, e2, e1, hcol]
  split
  · rfl
  · split <;> simp

theorem out_list_col {l : List Byte} {o o' : OutInfo σ} {done : List Byte} (hcol : o.col = column done) (h : out_list K o l = .ok o') :
    o'.col = column (done ++ l) := by
  induction l generalizing o done with
  | nil => simp only [out_list, Res.ok.injEq] at h; subst h; simpa using hcol
  | cons x l ih =>
    simp only [out_list] at h
    cases hc : out_char K o x with
    | ok o1 =>
      rw [hc, Res.bind_ok] at h
      have := ih (out_char_col hcol hc) h
      simpa using this
    | ub w => rw [hc] at h; cases h
    | fuel => rw [hc] at h; cases h
    | env w => rw [hc] at h; cases h

theorem out_to_col_eq {n : Nat} (k : Nat) (o : OutInfo σ) {done : List Byte} (hcol : o.col = column done) {x : Byte}
    (hx : FmtItem.Printable x) (hk : n - column done < k) :
    out_to_col K k o n x = out_list K o (List.replicate (n - column done) x) := by
  induction k generalizing o done with
  | zero => omega
  | succ k ih =>
    rw [out_to_col]
    by_cases hlt : column done < n
    · rw [if_pos (by omega)]
      obtain ⟨j, hj⟩ : ∃ j, n - column done = j + 1 := ⟨n - column done - 1, by omega⟩
      rw [hj, List.replicate_succ, out_list]
      apply Res.bind_congr_ok
      intro o1 h1
      have hc1 := out_char_col hcol h1
      have hstep : column (done ++ [x]) = column done + 1 := by
        rw [column_snoc, if_neg, if_pos hx]
        rintro (rfl | rfl) <;> revert hx <;> decide
      rw [ih o1 hc1 (by omega), hstep]
      congr 2; omega
    · rw [if_neg (by omega)]
      have : n - column done = 0 := by omega
      rw [this]; rfl

end

/-- What the items print after `done`. -/
def formatRest : List Byte → List FmtItem → List Byte
  | _, [] => []
  | done, i :: is => i.output (column done) ++ formatRest (done ++ i.output (column done)) is

theorem formatOutputFrom_eq (done : List Byte) (is : List FmtItem) : formatOutputFrom done is = done ++ formatRest done is := by
  induction is generalizing done with
  | nil => simp [formatOutputFrom, formatRest]
  | cons i is ih => rw [formatOutputFrom, formatRest, ih, List.append_assoc]

theorem formatOutput_eq (is : List FmtItem) : formatOutput is = formatRest [] is := by
  rw [formatOutput, formatOutputFrom_eq]; rfl

theorem item_text_ne (i : FmtItem) : 1 ≤ i.text.length := by
  cases i <;> simp [FmtItem.text, Conv.text]

theorem length_items (is : List FmtItem) : is.length ≤ (formatText is).length := by
  induction is with
  | nil => simp
  | cons i is ih =>
    simp only [formatText, List.flatMap_cons, List.length_append, List.length_cons]
    have := item_text_ne i
    simp only [formatText] at ih
    omega

theorem conv_text (c : Conv) : c.text = 37 :: c.tailText := by
  simp only [Conv.text, Conv.tailText, List.cons_append]; rfl

theorem next_cons (is : List FmtItem) {u : List Byte} (hu : u ≠ []) : ∃ t, formatText is ++ u = (formatText is ++ u).headD 0 :: t := by
  obtain ⟨b, t, e⟩ := List.exists_cons_of_ne_nil (show formatText is ++ u ≠ [] by simp [hu])
  exact ⟨t, by rw [e]; rfl⟩

theorem itemsBefore_iff {m : Mem} {is : List FmtItem} : ItemsBefore m [0] is ↔ ItemsOk m is := by
  induction is with
  | nil => exact Iff.rfl
  | cons i is ih => simp only [ItemsBefore, ItemsOk, ih]

theorem tailText_hd {c : Conv} (he : c.Ends) (hn : c.Numbers) (more : List Byte) : Hd (fun b => b ≠ 37) (c.tailText ++ more) := by
  have e : c.tailText ++ more = c.flags.map Flag.char ++ (widthText c.width ++ (precText c.prec ++ (c.len.text ++ c.letter :: more))) := by
    simp [Conv.tailText, List.append_assoc]
  rw [e]
  cases hf : c.flags with
  | cons f fs => exact ⟨f.char, _, rfl, by cases f <;> decide⟩
  | nil =>
    cases hw : c.width with
    | some w =>
      obtain ⟨h1, h2⟩ := hn.width w hw
      cases w with
      | star v => exact ⟨42, _, rfl, by decide⟩
      | digits ds =>
        obtain ⟨h3, -⟩ := h2 ds rfl
        cases ds with
        | nil => exact absurd rfl h3
        | cons d ds =>
          refine ⟨d, _, rfl, ?_⟩
          rintro rfl
          exact absurd (h1.1 37 (by simp)) (by decide)
    | none =>
      cases hp : c.prec with
      | some p => exact ⟨46, _, rfl, by decide⟩
      | none =>
        cases hl : c.len with
        | none => exact ⟨_, _, rfl, he.percent hl hp hw hf⟩
        | _ => exact ⟨_, _, rfl, by decide⟩

theorem digit_printable {b : Byte} (h : isDigit b = true) : FmtItem.Printable b := by
  simp only [isDigit, Bool.and_eq_true, decide_eq_true_eq, UInt8.le_iff_toNat_le] at h
  simp only [FmtItem.Printable, UInt8.le_iff_toNat_le, UInt8.lt_iff_toNat_lt]
  have : (32 : UInt8).toNat = 32 := rfl
  have : (128 : UInt8).toNat = 128 := rfl
  have : (48 : UInt8).toNat = 48 := rfl
  have : (57 : UInt8).toNat = 57 := rfl
  omega

section
variable {σ : Type} {K : Sink σ}

/-- The loop over the items in front of the rest `u` of the format string. -/
theorem core_loop_before {I : OutInfo σ → Prop} {L : Int} (hI : Stable K L I) (more : List VArg) {u : List Byte} (hu : u ≠ []) (is : List FmtItem)
    (k : Nat) (fmt : Addr) (done : List Byte) (o : OutInfo σ) (ho : I o)
    (hF : ∀ o, I o → Holds (K.mem o.w) fmt (formatText is ++ u) ∧ ItemsBefore (K.mem o.w) u is)
    (hsz : (formatText is).length < strBound) (hcol : o.col = column done)
    (hlen : ((formatRest done is).length : Int) ≤ INT_MAX) (hL : o.char_cnt + (formatRest done is).length ≤ L) :
    core_loop K (is.length + k) o fmt (formatArgs is ++ more) =
      (out_list K o (formatRest done is) >>= fun o => core_loop K k o (fmt + (formatText is).length) more) := by
  induction is generalizing k fmt done o with
  | nil => simp [formatRest, out_list, formatArgs, formatText]
  | cons i is ih =>
    rw [show (i :: is).length + k = (is.length + k) + 1 by simp only [List.length_cons]; omega]
    have hF' : ∀ o, I o → Holds (K.mem o.w) fmt (i.text ++ (formatText is ++ u)) ∧
        i.Ok (K.mem o.w) ((formatText is ++ u).headD 0) ∧ ItemsBefore (K.mem o.w) u is := by
      intro o ho
      have := hF o ho
      simpa [formatText, ItemsBefore] using this
    obtain ⟨hH, hi, -⟩ := hF' o ho
    have hsz' : i.text.length + (formatText is).length < strBound := by simpa [formatText] using hsz
    have hlen' : ((i.output (column done)).length : Int) ≤ INT_MAX ∧
        ((formatRest (done ++ i.output (column done)) is).length : Int) ≤ INT_MAX := by
      simp only [formatRest, List.length_append] at hlen
      omega
    have hL' : o.char_cnt + (i.output (column done)).length +
        (formatRest (done ++ i.output (column done)) is).length ≤ L := by
      simp only [formatRest, List.length_append] at hL
      omega
    have hargs : formatArgs (i :: is) ++ more = i.args ++ (formatArgs is ++ more) := by simp [formatArgs]
    -- the rest of the items, once this one is printed
    have next : ∀ (f' : Addr), f' = fmt + i.text.length →
        (out_list K o (i.output (column done)) >>= fun o => core_loop K (is.length + k) o f' (formatArgs is ++ more)) =
        (out_list K o (formatRest done (i :: is)) >>= fun o => core_loop K k o (fmt + (formatText (i :: is)).length) more) := by
      intro f' hf'
      rw [formatRest, out_list_append, Res.bind_assoc']
      apply Res.bind_congr_ok
      intro o1 h1
      subst hf'
      rw [show fmt + ((formatText (i :: is)).length : Int) = fmt + i.text.length + (formatText is).length by
        simp only [formatText, List.flatMap_cons, List.length_append]; omega]
      exact ih k _ (done ++ i.output (column done)) o1 (inv_out_list hI ho h1 (by omega))
        (fun o ho => ⟨(Holds.append_iff.1 (hF' o ho).1).2, (hF' o ho).2.2⟩) (by omega)
        (out_list_col hcol h1) hlen'.2
        (by have := out_list_cnt h1; omega)
    rw [core_loop, hargs]
    obtain ⟨tl, htl⟩ := next_cons is hu
    generalize hnx : (formatText is ++ u).headD 0 = nx at hi htl
    cases i with
    | lit b =>
      obtain ⟨h1, h2, h3⟩ := hi
      simp only [FmtItem.text, List.cons_append, List.nil_append] at hH
      simp only [hH.load_head, Res.bind_ok, if_neg h1, if_neg h2, if_neg h3, FmtItem.args, List.nil_append]
      have := next (fmt + 1) (by simp [FmtItem.text])
      simpa only [FmtItem.output, out_list_single] using this
    | percent =>
      simp only [FmtItem.text, List.cons_append, List.nil_append] at hH
      simp only [hH.load_head, (Holds.cons_iff.1 hH).2.load_head, Res.bind_ok, FmtItem.args, List.nil_append, if_true]
      rw [if_neg (by decide)]
      have := next (fmt + 2) (by simp [FmtItem.text])
      simpa only [FmtItem.output, out_list_single] using this
    | conv c =>
      have hc : c.Ok (K.mem o.w) := hi
      simp only [FmtItem.text, conv_text, List.cons_append] at hH hsz'
      have hH2 := (Holds.cons_iff.1 hH).2
      obtain ⟨b, t, hbt, hb⟩ := tailText_hd hc.ends hc.numbers (formatText is ++ u)
      have hH3 := hH2
      rw [hbt] at hH3
      simp only [hH.load_head, hH3.load_head, Res.bind_ok, if_true, if_neg hb]
      rw [if_neg (by decide), parse_placeholder_eq hc.typed hH2 (by simp only [List.length_cons] at hsz'; omega)]
      simp only [Res.bind_ok, FmtItem.args]
      rw [read_varg_eq hc.typed]
      simp only [Res.bind_ok]
      rw [print_conv_eq hI (fun o ho => (hF' o ho).2.1) o ho hlen'.1 (by simp only [FmtItem.output] at hL'; omega)]
      exact next _ (by simp only [FmtItem.text, conv_text, List.length_cons]; omega)
    | vtab =>
      have hnd : isDigit nx = false := hi
      simp only [FmtItem.text, List.cons_append, List.nil_append] at hH
      have hH2 := (Holds.cons_iff.1 hH).2
      have hat := prnf_atoi_eq (ds := []) (rest := formatText is ++ u) strBound (fmt + 1) 0 hH2 (by simp)
        ⟨nx, tl, htl, hnd⟩ (by simp [strBound]) (by decide)
      have hat' : prnf_atoi (K.mem o.w) strBound (fmt + 1) 0 = .ok (0, fmt + 1) := by simpa using hat
      rw [htl] at hH2
      simp only [hH.load_head, Res.bind_ok, if_neg (show ¬ (11 : Byte) = 0 by decide), if_neg (show ¬ (11 : Byte) = 37 by decide), if_true,
        print_col_alignment, hH2.load_head, hat', hnd, Bool.not_false, FmtItem.args, List.nil_append, Res.bind_assoc']
      have := next (fmt + 1) (by simp [FmtItem.text])
      simpa only [FmtItem.output, out_list_single] using this
    | align ds pad =>
      obtain ⟨⟨h1, h2, h3⟩, h4, h5⟩ := hi
      simp only [FmtItem.text, List.cons_append, List.append_assoc, List.nil_append] at hH
      have hH2 := (Holds.cons_iff.1 hH).2
      have hat := prnf_atoi_eq (ds := ds) (rest := pad :: (formatText is ++ u)) strBound (fmt + 1) 0 hH2 h2
        ⟨pad, _, rfl, h5⟩ (by simp only [FmtItem.text, List.length_append, List.length_cons] at hsz'; omega) h3
      have hat' : prnf_atoi (K.mem o.w) strBound (fmt + 1) 0 = .ok ((decVal ds : Nat), fmt + 1 + ds.length) := by
        simpa [decVal] using hat
      have hpad := (Holds.append_iff.1 hH2).2.load_head
      obtain ⟨d, ds', rfl⟩ : ∃ d t, ds = d :: t := by
        cases ds with
        | nil => exact absurd rfl h1
        | cons d t => exact ⟨d, t, rfl⟩
      simp only [List.cons_append] at hH2
      have hd : isDigit d = true := h2 d (by simp)
      have hge : ¬ charToInt pad < 32 := by have := (charToInt_printable pad).2 h4; omega
      have hp0 : pad ≠ 0 := by rintro rfl; revert h4; decide
      simp only [hH.load_head, Res.bind_ok, if_neg (show ¬ (11 : Byte) = 0 by decide), if_neg (show ¬ (11 : Byte) = 37 by decide), if_true,
        print_col_alignment, hH2.load_head, hat', hpad, hd, Bool.not_true, Bool.false_eq_true, if_false, hge, ne_eq, hp0, not_false_eq_true,
        FmtItem.args, List.nil_append, Res.bind_assoc']
      rw [out_to_col_eq loopBound o hcol h4 (by simp only [loopBound, INT_MAX] at *; omega)]
      exact next _ (by simp [FmtItem.text]; omega)
    | alignNone ds =>
      obtain ⟨⟨h1, h2, h3⟩, h4⟩ := hi
      have hnd : isDigit nx = false := by
        rw [← Bool.not_eq_true]; intro h; exact h4 (digit_printable h)
      simp only [FmtItem.text, List.cons_append, List.append_assoc, List.nil_append] at hH
      have hH2 := (Holds.cons_iff.1 hH).2
      have hat := prnf_atoi_eq (ds := ds) (rest := formatText is ++ u) strBound (fmt + 1) 0 hH2 h2
        ⟨nx, tl, htl, hnd⟩ (by simp only [FmtItem.text, List.length_cons] at hsz'; omega) h3
      have hat' : prnf_atoi (K.mem o.w) strBound (fmt + 1) 0 = .ok ((decVal ds : Nat), fmt + 1 + ds.length) := by
        simpa [decVal] using hat
      have hpad := (Holds.append_iff.1 hH2).2
      rw [htl] at hpad
      obtain ⟨d, ds', rfl⟩ : ∃ d t, ds = d :: t := by
        cases ds with
        | nil => exact absurd rfl h1
        | cons d t => exact ⟨d, t, rfl⟩
      simp only [List.cons_append] at hH2
      have hd : isDigit d = true := h2 d (by simp)
      have hlt : charToInt nx < 32 := by
        have : ¬ charToInt nx > 31 := fun h => h4 ((charToInt_printable nx).1 h)
        omega
      simp only [hH.load_head, Res.bind_ok, if_neg (show ¬ (11 : Byte) = 0 by decide), if_neg (show ¬ (11 : Byte) = 37 by decide), if_true,
        print_col_alignment, hH2.load_head, hat', hpad.load_head, hd, Bool.not_true, Bool.false_eq_true, if_false, hlt, ne_eq, not_true_eq_false,
        FmtItem.args, List.nil_append]
      exact next _ (by simp [FmtItem.text]; omega)

theorem core_loop_eq {I : OutInfo σ → Prop} {L : Int} (hI : Stable K L I) (more : List VArg) (is : List FmtItem)
    (k : Nat) (fmt : Addr) (done : List Byte) (o : OutInfo σ) (ho : I o)
    (hF : ∀ o, I o → Holds (K.mem o.w) fmt (formatText is ++ [0]) ∧ ItemsOk (K.mem o.w) is)
    (hsz : (formatText is).length < strBound) (hk : is.length < k) (hcol : o.col = column done)
    (hlen : ((formatRest done is).length : Int) ≤ INT_MAX) (hL : o.char_cnt + (formatRest done is).length ≤ L) :
    core_loop K k o fmt (formatArgs is ++ more) = out_list K o (formatRest done is) := by
  obtain ⟨j, rfl⟩ : ∃ j, k = is.length + (j + 1) := ⟨k - is.length - 1, by omega⟩
  rw [core_loop_before hI more (by simp) is (j + 1) fmt done o ho (fun o ho => ⟨(hF o ho).1, itemsBefore_iff.2 (hF o ho).2⟩) hsz hcol hlen hL]
  have : ∀ o1, out_list K o (formatRest done is) = .ok o1 → core_loop K (j + 1) o1 (fmt + (formatText is).length) more = .ok o1 := by
    intro o1 h1
    have h := (Holds.append_iff.1 (hF o1 (inv_out_list hI ho h1 (by omega))).1).2
    simp [core_loop, h.load_head]
  rw [Res.bind_congr_ok (g := .ok) this]
  cases out_list K o (formatRest done is) <;> rfl

/-- `core_prnf` prints the output of the format and ends it. -/
theorem core_prnf_eq {I : OutInfo σ → Prop} {L : Int} (hI : Stable K L I) {is : List FmtItem} {fmt : Addr}
    (more : List VArg) (o : OutInfo σ) (ho : I o) (hF : ∀ o, I o → Format (K.mem o.w) fmt is) (hcol : o.col = 0)
    (hlen : ((formatOutput is).length : Int) ≤ INT_MAX) (hL : o.char_cnt + (formatOutput is).length ≤ L) :
    core_prnf K o fmt (formatArgs is ++ more) =
      (out_list K o (formatOutput is) >>= fun o => out_terminate K o >>= fun o => .ok (o.char_cnt, o.w)) := by
  rw [formatOutput_eq] at hlen hL ⊢
  have hsz := (hF o ho).size
  have := length_items is
  rw [core_prnf, core_loop_eq hI more is strBound fmt [] o ho (fun o ho => ⟨(hF o ho).text, (hF o ho).items⟩)
    (by simp only [strBound]; omega) (by simp only [strBound]; omega) (by rw [hcol]; rfl) hlen hL]

end

end CStr
