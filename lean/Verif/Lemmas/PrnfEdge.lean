import Verif.Spec.PrnfEdge
import Verif.Lemmas.PrnfForm
import Verif.Props.Prnf
import Verif.Lemmas.Alias
/-
  What the formatter does with the arguments of Spec/PrnfEdge.lean.
-/
namespace CStr

/-- A result or undefined behaviour. -/
def Res.OkOrUb (r : Res α) : Prop := (∃ a, r = .ok a) ∨ r.IsUb

theorem Res.OkOrUb.ok {a : α} : (Res.ok a).OkOrUb := .inl ⟨a, rfl⟩
theorem Res.OkOrUb.ub {w : UB} : (Res.ub w : Res α).OkOrUb := .inr ⟨w, rfl⟩

theorem Res.OkOrUb.bind {r : Res α} {f : α → Res β} (h : r.OkOrUb) (hf : ∀ a, r = .ok a → (f a).OkOrUb) : (r >>= f).OkOrUb := by
  rcases h with ⟨a, rfl⟩ | h
  · exact hf a rfl
  · exact .inr (IsUb.bind h f)

theorem Res.OkOrUb.bindUb {r : Res α} {f : α → Res β} (h : r.OkOrUb) (hf : ∀ a, r = .ok a → (f a).IsUb) : (r >>= f).IsUb := by
  rcases h with ⟨a, rfl⟩ | h
  · exact hf a rfl
  · exact IsUb.bind h f

theorem ckInt_okOrUb (n : Int) : (ckInt n).OkOrUb := by
  unfold ckInt
  split
  · exact .ok
  · exact .ub

theorem ckInt_val {n k : Int} (h : ckInt n = .ok k) : k = n ∧ INT_MIN ≤ n ∧ n ≤ INT_MAX := by
  unfold ckInt at h
  split at h
  · next hn => injection h with h; exact ⟨h.symm, hn⟩
  · cases h

theorem store_okOrUb (m : Mem) (a : Addr) (b : Byte) : (store m a b).OkOrUb := by
  unfold store
  split
  · exact .ok
  · exact .ub

section
variable {m : Mem}

theorem out_char_okOrUb (o : OutInfo (List Byte)) (x : Byte) : (out_char (collect m) o x).OkOrUb := by
  unfold out_char
  refine Res.OkOrUb.bind ?_ fun o1 _ => Res.OkOrUb.bind ?_ fun o2 _ => Res.OkOrUb.bind (ckInt_okOrUb _) fun _ _ => .ok
  · simp only [out_dest, collect, Res.bind_ok]
    split
    · refine Res.OkOrUb.bind (ckInt_okOrUb _) fun n _ => ?_
      split
      · exact Res.OkOrUb.bind (store_okOrUb _ _ _) fun _ _ => .ok
      · exact .ok
    · exact .ok
  · unfold out_col
    split
    · exact .ok
    · split
      · exact Res.OkOrUb.bind (ckInt_okOrUb _) fun _ _ => .ok
      · exact .ok

theorem out_repeat_okOrUb (k : Nat) : ∀ (o : OutInfo (List Byte)) (n : Int) (x : Byte), INT_MIN ≤ n → n ≤ INT_MAX →
    (0 ≤ n → n < k) → (n < 0 → n - INT_MIN + 1 < k) → (out_repeat (collect m) k o n x).OkOrUb := by
  induction k with
  | zero => intro o n x h1 h2 h3 h4; omega
  | succ k ih =>
    intro o n x h1 h2 h3 h4
    unfold out_repeat
    split
    · exact .ok
    · refine Res.OkOrUb.bind (ckInt_okOrUb _) fun n' hn => Res.OkOrUb.bind (out_char_okOrUb _ _) fun o' _ => ?_
      obtain ⟨rfl, i1, i2⟩ := ckInt_val hn
      exact ih _ _ _ i1 i2 (by omega) (by omega)

theorem out_repeat_ofInt (o : OutInfo (List Byte)) (n : Int) (x : Byte) (h1 : INT_MIN ≤ n) (h2 : n ≤ INT_MAX) : (out_repeat (collect m) loopBound o n x).OkOrUb := by
  simp only [INT_MIN, INT_MAX] at h1 h2
  exact out_repeat_okOrUb _ _ _ _ (by simp only [INT_MIN]; omega) (by simp only [INT_MAX]; omega) (by simp only [loopBound]; omega) (by simp only [loopBound, INT_MIN]; omega)

theorem tdiv_int {d : Int} (h1 : INT_MIN ≤ d) (h2 : d ≤ INT_MAX) : INT_MIN ≤ d.tdiv 2 ∧ d.tdiv 2 ≤ INT_MAX := by
  simp only [INT_MIN, INT_MAX] at *
  rcases Int.le_total 0 d with h | h
  · rw [Int.tdiv_eq_ediv_of_nonneg h]; omega
  · obtain ⟨e, rfl⟩ : ∃ e, d = -e := ⟨-d, by omega⟩
    rw [Int.neg_tdiv, Int.tdiv_eq_ediv_of_nonneg (by omega)]; omega

theorem prepad_okOrUb (o : OutInfo (List Byte)) (p : Placeholder) (n : Int) : (prepad (collect m) o p n).OkOrUb := by
  unfold prepad
  simp only
  split
  · refine Res.OkOrUb.bind (ckInt_okOrUb _) fun d hd => ?_
    obtain ⟨rfl, i1, i2⟩ := ckInt_val hd
    exact out_repeat_ofInt _ _ _ (tdiv_int i1 i2).1 (tdiv_int i1 i2).2
  · split
    · refine Res.OkOrUb.bind (ckInt_okOrUb _) fun d hd => ?_
      obtain ⟨rfl, i1, i2⟩ := ckInt_val hd
      exact out_repeat_ofInt _ _ _ i1 i2
    · simp only [Res.bind_ok]
      exact out_repeat_ofInt _ 0 _ (by decide) (by decide)

theorem out_list_okOrUb (l : List Byte) : ∀ o : OutInfo (List Byte), (out_list (collect m) o l).OkOrUb := by
  induction l with
  | nil => intro o; exact .ok
  | cons x l ih =>
    intro o
    exact Res.OkOrUb.bind (out_char_okOrUb _ _) fun o' _ => ih o'

theorem print_hex_loop_bad (v : Nat) (k : Nat) (o : OutInfo (List Byte)) {n : Int} (h : ¬ (1 ≤ n % 64 ∧ n % 64 ≤ 16)) :
    (print_hex_loop (collect m) v (k + 1) o ((n * 4) % 256).toNat).IsUb := by
  unfold print_hex_loop
  simp only
  rw [if_neg (by omega)]
  exact ⟨_, rfl⟩

theorem print_str_loop_neg (k : Nat) : ∀ (o : OutInfo (List Byte)) (n : Int) (a : Addr), INT_MIN ≤ n → n < 0 → n - INT_MIN + 1 < k →
    (print_str_loop (collect m) k o n a).IsUb := by
  induction k with
  | zero => intro o n a h1 h2 h3; omega
  | succ k ih =>
    intro o n a h1 h2 h3
    unfold print_str_loop
    rw [if_neg (by omega)]
    refine Res.OkOrUb.bindUb (ckInt_okOrUb _) fun n' hn => ?_
    obtain ⟨rfl, i1, i2⟩ := ckInt_val hn
    refine Res.OkOrUb.bindUb ?_ fun c _ => Res.OkOrUb.bindUb (out_char_okOrUb _ _) fun o' _ => ih _ _ _ i1 (by omega) (by omega)
    unfold load
    split
    · exact .ok
    · exact .ub

theorem prnf_strlen_loop_end (t : List Byte) : ∀ (k : Nat) (a : Addr) (n : Int), Holds m a t → (0 : Byte) ∉ t → load m (a + t.length) = .ub .badRead →
    n ≤ INT_MAX → INT_MAX - n + 1 < k → (prnf_strlen_loop m k a n).IsUb := by
  induction t with
  | nil =>
    intro k a n _ _ he hn hk
    obtain ⟨k, rfl⟩ : ∃ j, k = j + 1 := ⟨k - 1, by omega⟩
    unfold prnf_strlen_loop
    have : load m a = .ub .badRead := by simpa using he
    rw [this]
    exact ⟨_, rfl⟩
  | cons b t ih =>
    intro k a n h h0 he hn hk
    obtain ⟨k, rfl⟩ : ∃ j, k = j + 1 := ⟨k - 1, by omega⟩
    simp only [List.mem_cons, not_or] at h0
    unfold prnf_strlen_loop
    rw [h.load_head, Res.bind_ok, if_neg (fun e => h0.1 e.symm)]
    refine Res.OkOrUb.bindUb (ckInt_okOrUb _) fun n' hn' => ?_
    obtain ⟨rfl, i1, i2⟩ := ckInt_val hn'
    refine ih k (a + 1) _ (Holds.cons_iff.1 h).2 h0.2 ?_ i2 (by omega)
    rw [← he]
    congr 1
    simp only [List.length_cons]
    omega

theorem prnf_strlen_loop_okOrUb (k : Nat) : ∀ (a : Addr) (n : Int), 0 ≤ n → n ≤ INT_MAX → INT_MAX - n + 1 < k →
    (prnf_strlen_loop m k a n).OkOrUb ∧ ∀ r, prnf_strlen_loop m k a n = .ok r → 0 ≤ r ∧ r ≤ INT_MAX := by
  induction k with
  | zero => intro a n h0 hn hk; omega
  | succ k ih =>
    intro a n h0 hn hk
    unfold prnf_strlen_loop
    cases hl : load m a with
    | ok c =>
      rw [Res.bind_ok]
      split
      · exact ⟨.ok, fun r hr => by injection hr with hr; omega⟩
      · cases hc : ckInt (n + 1) with
        | ok n' =>
          obtain ⟨rfl, i1, i2⟩ := ckInt_val hc
          exact ih _ _ (by omega) i2 (by omega)
        | ub w => exact ⟨.ub, fun r hr => by cases hr⟩
        | fuel => have := ckInt_okOrUb (n + 1); rw [hc] at this; rcases this with ⟨_, h⟩ | ⟨_, h⟩ <;> cases h
        | env w => have := ckInt_okOrUb (n + 1); rw [hc] at this; rcases this with ⟨_, h⟩ | ⟨_, h⟩ <;> cases h
    | ub w => exact ⟨.ub, fun r hr => by cases hr⟩
    | fuel => unfold load at hl; split at hl <;> cases hl
    | env w => unfold load at hl; split at hl <;> cases hl

theorem prnf_strlen_okOrUb (a : Addr) : (prnf_strlen m a).OkOrUb ∧ ∀ r, prnf_strlen m a = .ok r → 0 ≤ r ∧ r ≤ INT_MAX := by
  unfold prnf_strlen
  split
  · exact prnf_strlen_loop_okOrUb _ _ _ (by decide) (by decide) (by decide)
  · exact ⟨.ok, fun r hr => by injection hr with hr; subst hr; decide⟩

theorem print_undefined {c : Conv} (hc : c.Typed) (h : c.Undefined m) (o : OutInfo (List Byte)) :
    (print_placeholder (collect m) o c.value.varg c.ph).IsUb := by
  have hty : c.ph.type = c.value.ty := rfl
  have hprec : ∀ q : Nat, (if c.ph.prec_specified = true then c.ph.prec else c.ph.size_modifier * (q : Int)) = c.digitCount q := by
    intro q
    cases hp : c.prec <;> simp [Conv.ph, Conv.digitCount, hp, countVal]
  unfold print_placeholder
  cases h with
  | llongMin hv =>
    have hval := hc.value
    simp only [hv] at hval
    simp only [hty, hv, Value.ty, Value.varg]
    exact ⟨.signedOverflow, by simp [print_dec, hty, hv, Value.ty, is_type_unsigned, toInt64]⟩
  | hexCount hv hn =>
    simp only [hty, hv, Value.ty, Value.varg]
    unfold print_hex
    have := hprec 2
    push_cast at this
    simp only [this]
    have hnot : is_centered_string c.ph = false := by
      rw [← Bool.not_eq_true]; intro h; have := centered_str h; rw [hty, hv] at this; cases this
    have hw : c.ph.width = (c.minWidth : Int) := rfl
    by_cases hpad : (c.minWidth : Int) - c.digitCount 2 ≤ INT_MAX ∨ c.left = true
    swap
    · simp only [not_or] at hpad
      refine IsUb.bind ⟨.signedOverflow, ?_⟩ _
      have hm : c.ph.flag_minus = false := by simpa [Conv.ph] using hpad.2
      simp only [INT_MAX] at hpad
      have h2 := (minWidth_lt hc).1
      rw [hw] at h2
      by_cases hw' : (c.minWidth : Int) > c.digitCount 2
      · simp only [prepad, hnot, Bool.false_and, Bool.false_eq_true, if_false, hm, hw, hw', decide_true, Bool.not_false, Bool.and_true, if_true]
        rw [ckInt, if_neg (by simp only [INT_MAX]; omega)]
        rfl
      · omega
    refine Res.OkOrUb.bindUb (prepad_okOrUb _ _ _) fun o1 _ => Res.OkOrUb.bindUb (ckInt_okOrUb _) fun q hq => ?_
    obtain ⟨rfl, hoff⟩ := ckInt_val hq
    by_cases hn' : 1 ≤ c.digitCount 2 % 64 ∧ c.digitCount 2 % 64 ≤ 16
    · have e4 : (c.digitCount 2 * 4 % 256).toNat = 4 * (c.digitCount 2 % 64).toNat := by omega
      rw [e4, print_hex_loop_eq _ _ _ _ (by omega) (by omega) (by simp only [loopBound]; omega)]
      refine Res.OkOrUb.bindUb (out_list_okOrUb _ _) fun o2 _ => ?_
      have hpad' : ¬ (c.minWidth : Int) - c.digitCount 2 ≤ INT_MAX := fun h => hn ⟨hn'.1, hn'.2, hoff, h⟩
      have hm : c.ph.flag_minus = true := by simpa [hpad', Conv.ph] using hpad
      have h2 := (minWidth_lt hc).1
      rw [hw] at h2
      simp only [INT_MAX] at hpad'
      refine ⟨.signedOverflow, ?_⟩
      have hw' : (c.minWidth : Int) > c.digitCount 2 := by omega
      simp only [postpad, hnot, Bool.false_and, Bool.false_eq_true, if_false, hm, hw, hw', decide_true, Bool.and_true, if_true]
      rw [ckInt, if_neg (by simp only [INT_MAX]; omega)]
      rfl
    obtain ⟨k, hk⟩ : ∃ k, loopBound = k + 1 := ⟨loopBound - 1, by simp only [loopBound]⟩
    rw [hk]
    exact IsUb.bind (print_hex_loop_bad _ k _ hn') _
  | binCount hv hn =>
    simp only [hty, hv, Value.ty, Value.varg]
    unfold print_bin
    have := hprec 8
    push_cast at this
    simp only [this]
    refine Res.OkOrUb.bindUb (prepad_okOrUb _ _ _) fun o1 _ => Res.OkOrUb.bindUb (ckInt_okOrUb _) fun q hq => ?_
    obtain ⟨rfl, -⟩ := ckInt_val hq
    rw [if_neg (by omega)]
    exact ⟨_, rfl⟩
  | @negPrec a l p hv hp hn =>
    simp only [hty, hv, Value.ty, Value.varg]
    have hp1 : c.ph.prec_specified = true := by simp [Conv.ph, hp]
    have hp2 : c.ph.prec = p.val := by simp [Conv.ph, hp, countVal]
    have hp3 : c.ph.prec_is_dynamic = true := by
      cases p with
      | digits ds => simp [Count.val] at hn; omega
      | star v => simp [Conv.ph, hp, isStar]
    have hlow : INT_MIN ≤ p.val := by
      have := hc.prec p hp
      cases p with
      | digits ds => simp [Count.val] at hn; omega
      | star v => exact this.1
    unfold print_str
    refine Res.OkOrUb.bindUb (prnf_strlen_okOrUb a).1 fun r hr => ?_
    have := (prnf_strlen_okOrUb a).2 r hr
    have e : (if (c.ph.prec_specified && decide (c.ph.prec < r) && !is_centered_string c.ph) = true then c.ph.prec else r) = p.val := by
      rw [if_pos, hp2]
      simp only [is_centered_string, hp1, hp2, hp3]
      simp
      omega
    simp only [e]
    exact Res.OkOrUb.bindUb (prepad_okOrUb _ _ _) fun o1 _ => IsUb.bind (print_str_loop_neg _ _ _ _ hlow hn (by simp only [loopBound, INT_MIN]; omega)) _
  | @noEnd a l t hv ha ht h0 hend =>
    simp only [hty, hv, Value.ty, Value.varg]
    unfold print_str prnf_strlen
    rw [if_pos ha]
    exact IsUb.bind (prnf_strlen_loop_end t _ _ _ ht h0 hend (by decide) (by decide)) _

end

section
variable {σ : Type} {K : Sink σ}

theorem core_loop_typed {c : Conv} {rest : List Byte} (k : Nat) (o : OutInfo σ) (fmt : Addr) (va : List VArg)
    (hc : c.Typed) (h : Holds (K.mem o.w) fmt (c.text ++ rest)) (hsz : c.text.length < strBound) :
    core_loop K (k + 1) o fmt (c.args ++ va) =
      (print_placeholder K o c.value.varg c.ph >>= fun o => core_loop K k o (fmt + c.text.length) va) := by
  have e : c.text ++ rest = 37 :: (c.tailText ++ rest) := by rw [conv_text]; rfl
  have hel : c.text.length = c.tailText.length + 1 := by rw [conv_text]; rfl
  rw [e] at h
  have h2 := (Holds.cons_iff.1 h).2
  obtain ⟨x, t, hx, hx'⟩ := tailText_hd hc.ends hc.numbers rest
  have h3 := h2
  rw [hx] at h3
  simp only [core_loop, h.load_head, Res.bind_ok, if_neg (show ¬ (37 : Byte) = 0 by decide), if_true, h3.load_head, if_neg hx',
    parse_placeholder_eq hc h2 (by omega), read_varg_eq hc]
  have : fmt + 1 + (c.tailText.length : Int) = fmt + (c.text.length : Int) := by omega
  rw [this]

theorem print_hex_count {c : Conv} {v : Nat} (hc : c.Typed) (hv : c.value = .hex v) (hn : c.HexCount) (o : OutInfo σ) :
    print_placeholder K o c.value.varg c.ph = out_list K o (c.hexOutput v) := by
  have hty : c.ph.type = c.value.ty := rfl
  obtain ⟨n1, n2, n3, n4⟩ := hn
  have hnot : is_centered_string c.ph = false := by
    rw [← Bool.not_eq_true]; intro h; have := centered_str h; rw [hty, hv] at this; cases this
  have hw : c.ph.width = (c.minWidth : Int) := rfl
  have hdig : (if c.ph.prec_specified then c.ph.prec else (c.ph.size_modifier : Int) * 2) = c.digitCount 2 := by
    rcases Option.eq_none_or_eq_some c.prec with h | ⟨p, h⟩ <;> simp [Conv.ph, Conv.digitCount, countVal, h]
  have hpc : (if is_type_numeric c.ph.type && c.ph.flag_zero && !(c.ph.prec_specified && is_type_int c.ph.type) then (48 : Byte) else 32) =
      c.intPad := by
    rw [hty, hv]
    simp only [Conv.ph, Conv.intPad, Value.ty, is_type_numeric, is_type_int]
    rcases Option.eq_none_or_eq_some c.prec with h | ⟨q, h⟩ <;> by_cases hz : Flag.zero ∈ c.flags <;> simp [hz, h]
  have h2 := (minWidth_lt hc).1
  rw [hw] at h2
  have e4 : (c.digitCount 2 * 4 % 256).toNat = 4 * (c.digitCount 2 % 64).toNat := by omega
  have pre : ∀ o : OutInfo σ, prepad K o c.ph (c.digitCount 2) = out_list K o (if c.left then [] else List.replicate (c.minWidth - c.digitCount 2).toNat c.intPad) := by
    intro o
    unfold prepad
    simp only [hnot, Bool.false_and, Bool.false_eq_true, if_false, hpc, hw]
    by_cases hl : c.left = true
    · have hm : c.ph.flag_minus = true := by simpa [Conv.ph] using hl
      simp only [hl, hm, Bool.not_true, Bool.false_and, Bool.false_eq_true, if_false, if_true, Res.bind_ok]
      exact out_repeat_int o _ (by decide) (by decide)
    · have hm : c.ph.flag_minus = false := by simpa [Conv.ph] using hl
      simp only [hl, hm, Bool.not_false, Bool.true_and, Bool.false_eq_true, if_false]
      by_cases hlt : (c.minWidth : Int) > c.digitCount 2
      · simp only [hlt, decide_true, if_true]
        rw [ckInt_ok (by simp only [INT_MIN]; omega) n4, Res.bind_ok]
        exact out_repeat_int o _ (by omega) n4
      · simp only [hlt, decide_false, Bool.false_eq_true, if_false, Res.bind_ok]
        rw [show ((c.minWidth : Int) - c.digitCount 2).toNat = 0 by omega]
        exact out_repeat_int o _ (by decide) (by decide)
  have post : ∀ o : OutInfo σ, postpad K o c.ph (c.digitCount 2) = out_list K o (if c.left then List.replicate (c.minWidth - c.digitCount 2).toNat 32 else []) := by
    intro o
    unfold postpad
    simp only [hnot, Bool.false_and, Bool.false_eq_true, if_false, hw]
    by_cases hl : c.left = true
    · have hm : c.ph.flag_minus = true := by simpa [Conv.ph] using hl
      simp only [hl, hm, Bool.true_and, if_true]
      by_cases hlt : (c.minWidth : Int) > c.digitCount 2
      · simp only [hlt, decide_true, if_true]
        rw [ckInt_ok (by simp only [INT_MIN]; omega) n4, Res.bind_ok]
        exact out_repeat_int o _ (by omega) n4
      · simp only [hlt, decide_false, Bool.false_eq_true, if_false, Res.bind_ok]
        rw [show ((c.minWidth : Int) - c.digitCount 2).toNat = 0 by omega]
        exact out_repeat_int o _ (by decide) (by decide)
    · have hm : c.ph.flag_minus = false := by simpa [Conv.ph] using hl
      simp only [hl, hm, Bool.false_and, Bool.false_eq_true, if_false, Res.bind_ok]
      exact out_repeat_int o _ (by decide) (by decide)
  have : print_placeholder K o c.value.varg c.ph = print_hex K o c.ph v := by
    unfold print_placeholder
    rw [hty, hv]
    rfl
  rw [this]
  unfold print_hex
  simp only [hdig]
  have ho : c.hexOutput v = (if c.left then [] else List.replicate (c.minWidth - c.digitCount 2).toNat c.intPad) ++
      (Conv.hexDigits (c.digitCount 2 % 64).toNat v ++ (if c.left then List.replicate (c.minWidth - c.digitCount 2).toNat 32 else [])) := by
    unfold Conv.hexOutput
    by_cases hl : c.left = true <;> simp [hl]
  rw [ho, out_list_append, pre]
  congr 1; funext o
  rw [ckInt_ok n3.1 n3.2, Res.bind_ok, e4, print_hex_loop_eq _ _ _ _ (by omega) (by omega) (by simp only [loopBound]; omega), out_list_append]
  congr 1; funext o
  exact post o

theorem print_float_wrap {c : Conv} {x : Flt} {p : Count} (hc : c.Typed) (hv : c.value = .flt x) (hp : c.prec = some p) (o : OutInfo σ) :
    print_placeholder K o c.value.varg c.ph = out_list K o ({ c with prec := some (.star (p.val % 256)) } : Conv).output := by
  obtain ⟨h0, h1⟩ := minWidth_lt hc
  have hty : c.ph.type = c.value.ty := rfl
  have hP : get_prec c.ph = min 19 (p.val % 256).toNat := by
    have hs : c.ph.prec_specified = true := by simp [Conv.ph, hp]
    have hq : c.ph.prec = p.val := by simp [Conv.ph, hp, countVal]
    simp only [get_prec, hs, hq, if_true]
    split <;> omega
  have : print_placeholder K o c.value.varg c.ph = print_float K o c.ph x.toFloat 0 := by
    unfold print_placeholder
    rw [hty, hv]
    rfl
  rw [this, print_float_eq (.inl (by rw [hv]; rfl)) h0 h1 hP (by omega) (toFloat_valid x)]
  congr 1
  simp only [Conv.output, hv, Conv.places, Count.val]
  rfl

theorem print_eng_wrap {c : Conv} {x : Flt} {j : Int} {p : Count} (hc : c.Typed) (hv : c.value = .eng x j) (hj : EngExp x.toFloat j) (hp : c.prec = some p) (o : OutInfo σ) :
    print_placeholder K o c.value.varg c.ph = out_list K o ({ c with prec := some (.star (p.val % 256)) } : Conv).output := by
  obtain ⟨h0, h1⟩ := minWidth_lt hc
  have hty : c.ph.type = c.value.ty := rfl
  have ht : c.value.ty = .eng := by rw [hv]; rfl
  have hP : get_prec c.ph = min 19 (p.val % 256).toNat := by
    have hs : c.ph.prec_specified = true := by simp [Conv.ph, hp]
    have hq : c.ph.prec = p.val := by simp [Conv.ph, hp, countVal]
    simp only [get_prec, hs, hq, if_true]
    split <;> omega
  have : print_placeholder K o c.value.varg c.ph = (get_eng x.toFloat >>= fun r => print_float K o c.ph r.1 r.2) := by
    unfold print_placeholder
    rw [hty, hv]
    rfl
  rw [this, get_eng_eq hj, Res.bind_ok, print_float_eq (.inr ht) h0 h1 hP (by omega) (engValue_valid (toFloat_valid x) j), ← (siByte_eq hj.low hj.high).2]
  congr 1
  simp only [Conv.output, hv, Conv.places, Count.val]
  rfl

end

end CStr
