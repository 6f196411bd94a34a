import Verif.Lemmas.PrnfFloat
/-! Printing of one placeholder. -/
namespace CStr

section
variable {σ : Type} {K : Sink σ}

theorem padded_int {c : Conv} (ht : is_type_int c.value.ty = true) (t : List Byte) : fieldOf c.ph t = c.field c.intPad t := by
  have hty : c.ph.type = c.value.ty := rfl
  have hs : c.value.ty ≠ .str := by intro h; rw [h] at ht; simp [is_type_int] at ht
  have hc : is_centered_string c.ph = false := by
    rw [← Bool.not_eq_true]; intro h; exact hs (hty ▸ centered_str h)
  have hn : is_type_numeric c.value.ty = true := by
    cases h : c.value.ty <;> simp_all [is_type_int, is_type_numeric]
  have hw : c.ph.width.toNat = c.minWidth := by simp [Conv.ph]
  have hp : (if is_type_numeric c.ph.type && c.ph.flag_zero && !(c.ph.prec_specified && is_type_int c.ph.type) then (48 : Byte) else 32) =
      c.intPad := by
    rw [hty, hn, ht]
    simp only [Conv.ph, Conv.intPad]
    rcases Option.eq_none_or_eq_some c.prec with h | ⟨q, h⟩ <;> by_cases hz : Flag.zero ∈ c.flags <;> simp [hz, h]
  simp only [fieldOf, padBefore, padAfter, hc, hp, hw, Conv.field]
  by_cases hl : c.left = true
  · have : c.ph.flag_minus = true := hl
    simp [hl, this]
  · have : c.ph.flag_minus = false := by simpa [Conv.ph] using hl
    simp [hl, this]

theorem zeroPad_eq (c : Conv) (n : Nat) : zeroPad c.ph (printBytes 10 n).length ++ printBytes 10 n = c.decDigits n := by
  simp only [Conv.decDigits, zeroPad]
  cases hp : c.prec with
  | none => simp [Conv.ph, hp]
  | some p =>
    simp only [Conv.ph, hp, Option.isSome_some, Bool.true_and, countVal]
    split
    · rfl
    · rename_i h
      have : p.val.toNat - (printBytes 10 n).length = 0 := by simp at h; omega
      rw [this]; rfl

theorem minWidth_lt {c : Conv} (hc : c.Typed) : 0 ≤ c.ph.width ∧ c.ph.width < INT_MAX := by
  simp only [Conv.ph, Conv.minWidth]
  cases hw : c.width with
  | none => decide
  | some w => have := (hc.width w hw).2.1; simp only; omega

theorem length_field (c : Conv) (pad : Byte) (t : List Byte) : t.length ≤ (c.field pad t).length := by
  simp only [Conv.field]; split <;> simp

theorem centred_eq {c : Conv} {a : Addr} {l : List Byte} (hv : c.value = .str a l) : is_centered_string c.ph = decide c.centred := by
  have hty : c.ph.type = .str := by simp [Conv.ph, hv, Value.ty]
  simp only [is_centered_string, hty, decide_true, Bool.true_and]
  rcases Option.eq_none_or_eq_some c.prec with h | ⟨p, h⟩
  · simp [Conv.ph, Conv.centred, isStar, countVal, h]
  · cases p with
    | star v => simp [Conv.ph, Conv.centred, isStar, countVal, h]
    | digits ds =>
      by_cases hw : c.minWidth = 0 <;> by_cases hd : decVal ds = 0 <;>
        simp [Conv.ph, Conv.centred, isStar, countVal, h, hw, hd, Count.val]

theorem padded_str {c : Conv} {a : Addr} {l : List Byte} (hv : c.value = .str a l) (t : List Byte) :
    fieldOf c.ph t = if c.centred then c.centre t else c.field 32 t := by
  have hw : c.ph.width.toNat = c.minWidth := by simp [Conv.ph]
  have hty : c.ph.type = .str := by simp [Conv.ph, hv, Value.ty]
  simp only [fieldOf, padBefore, padAfter, centred_eq hv, hty, hw]
  by_cases hc : c.centred
  · simp [hc, Conv.centre]
  · simp only [hc, decide_false, Bool.false_eq_true, if_false, is_type_numeric, Conv.field]
    by_cases hl : c.left = true
    · have : c.ph.flag_minus = true := hl
      simp [hl, this]
    · have : c.ph.flag_minus = false := by simpa [Conv.ph] using hl
      simp [hl, this]

theorem print_conv_eq {I : OutInfo σ → Prop} {L : Int} (hI : Stable K L I) {c : Conv}
    (hR : ∀ o, I o → c.Ok (K.mem o.w)) (o : OutInfo σ) (ho : I o) (hlen : (c.output.length : Int) ≤ INT_MAX)
    (hL : o.char_cnt + c.output.length ≤ L) :
    print_placeholder K o c.value.varg c.ph = out_list K o c.output := by
  have hc := hR o ho
  have hv := hc.value
  obtain ⟨h0, h1⟩ := minWidth_lt hc.typed
  have hty : c.ph.type = c.value.ty := rfl
  unfold print_placeholder
  rw [hty]
  cases hval : c.value with
  | dec v =>
    simp only [hval] at hv
    simp only [Value.varg, Value.ty]
    have hsz : -(2 ^ 63) < v ∧ v < 2 ^ 63 := by
      split at hv <;> omega
    have e : (if (if v < 0 then 45 else c.ph.sign_pad) ≠ 0 then [if v < 0 then 45 else c.ph.sign_pad] else []) ++
        zeroPad c.ph (printBytes 10 v.natAbs).length ++ printBytes 10 v.natAbs =
        (if v < 0 then [45] else c.plusSign) ++ c.decDigits v.natAbs := by
      rw [List.append_assoc, zeroPad_eq]
      congr 1
      by_cases hneg : v < 0
      · simp [hneg]
      · simp only [hneg, if_false]; exact signPad_eq c
    have ho' : c.output = c.field c.intPad ((if v < 0 then [45] else c.plusSign) ++ c.decDigits v.natAbs) := by
      simp only [Conv.output, hval]
    rw [print_dec_signed o (by rw [hty, hval]; rfl) h0 h1 hsz.1 hsz.2, e, padded_int (by rw [hval]; rfl), ho']
    rw [e]
    rw [ho'] at hlen
    have := length_field c c.intPad ((if v < 0 then [45] else c.plusSign) ++ c.decDigits v.natAbs)
    omega
  | udec v =>
    simp only [hval] at hv
    simp only [Value.varg, Value.ty]
    have ho' : c.output = c.field c.intPad (c.decDigits v) := by simp only [Conv.output, hval]
    rw [print_dec_unsigned o (by rw [hty, hval]; rfl) h0 h1 (by split at hv <;> omega), zeroPad_eq, padded_int (by rw [hval]; rfl), ho']
    rw [zeroPad_eq]
    rw [ho'] at hlen
    have := length_field c c.intPad (c.decDigits v)
    omega
  | hex v =>
    simp only [hval] at hv
    simp only [Value.varg, Value.ty]
    have ho' : c.output = c.field c.intPad (Conv.hexDigits (c.digitCount 2).toNat v) := by simp only [Conv.output, hval]
    rw [print_hex_eq o h0 h1 (c.digitCount 2).toNat _ (by omega) (by omega), padded_int (by rw [hval]; rfl), ho']
    have : (if c.ph.prec_specified then c.ph.prec else (c.ph.size_modifier : Int) * 2) = c.digitCount 2 := by
      rcases Option.eq_none_or_eq_some c.prec with h | ⟨p, h⟩ <;> simp [Conv.ph, Conv.digitCount, countVal, h]
    rw [this]; omega
  | bin v =>
    simp only [hval] at hv
    simp only [Value.varg, Value.ty]
    have ho' : c.output = c.field c.intPad (Conv.binDigits (c.digitCount 8).toNat v) := by simp only [Conv.output, hval]
    rw [print_bin_eq o h0 h1 (c.digitCount 8).toNat _ (by omega) (by omega), padded_int (by rw [hval]; rfl), ho']
    have : (if c.ph.prec_specified then c.ph.prec else (c.ph.size_modifier : Int) * 8) = c.digitCount 8 := by
      rcases Option.eq_none_or_eq_some c.prec with h | ⟨p, h⟩ <;> simp [Conv.ph, Conv.digitCount, countVal, h]
    rw [this]; omega
  | chr v =>
    simp only [Value.varg, Value.ty, Conv.output, hval, out_list_single]
  | str a l =>
    simp only [hval] at hv
    simp only [Value.varg, Value.ty]
    have hp : 0 ≤ c.ph.prec := by
      simp only [Conv.ph, countVal]
      cases hp : c.prec with
      | none => decide
      | some p => exact hv.2 p hp
    have ho' : c.output = if c.centred then c.centre l
        else c.field 32 (match c.prec with | some p => l.take p.val.toNat | none => l) := by simp only [Conv.output, hval]; rfl
    have e : fieldOf c.ph (strPart c.ph l) = c.output := by
      rw [padded_str hval, ho']
      simp only [strPart, centred_eq hval]
      by_cases hcen : c.centred
      · simp [hcen]
      · simp only [hcen, if_false, decide_false, Bool.not_false, Bool.and_true]
        rcases Option.eq_none_or_eq_some c.prec with h | ⟨p, h⟩ <;> simp [Conv.ph, countVal, h]
    rw [print_str_eq hI (l := l) (fun o ho => by have := (hR o ho).value; simp only [hval] at this; exact this.1) o ho h0 h1 hp
      (by rw [e]; exact hL), e]
  | flt x =>
    simp only [hval] at hv
    have ht : c.value.ty = .float := by rw [hval]; rfl
    obtain ⟨e1, e2⟩ := get_prec_eq (.inl ht) hv
    rw [ht] at e1 e2
    simp only [Value.varg, Value.ty, Conv.output, hval]
    exact print_float_eq (post := 0) (.inl ht) h0 h1 e1 e2 (toFloat_valid x) o
  | eng x j =>
    simp only [hval] at hv
    have ht : c.value.ty = .eng := by rw [hval]; rfl
    obtain ⟨e1, e2⟩ := get_prec_eq (.inr ht) hv.2
    rw [ht] at e1 e2
    simp only [Value.varg, Value.ty, Conv.output, hval, get_eng_eq hv.1, Res.bind_ok]
    rw [(siByte_eq hv.1.low hv.1.high).2]
    exact print_float_eq (.inr ht) h0 h1 e1 e2 (engValue_valid (toFloat_valid x) j) o
  | other => simp only [Value.ty, Conv.output, hval, out_list]

end

end CStr
