import Verif.Spec.Prnf
import Verif.Lemmas.Write
/-! Output of the formatter: every printing function emits a list of characters. -/
namespace CStr

theorem Res.bind_assoc' {α β γ : Type} (x : Res α) (f : α → Res β) (g : β → Res γ) :
    ((x >>= f) >>= g) = (x >>= fun a => f a >>= g) := by cases x <;> rfl

theorem Res.bind_congr_ok {α β : Type} {x : Res α} {f g : α → Res β} (h : ∀ a, x = .ok a → f a = g a) :
    (x >>= f) = (x >>= g) := by
  cases x with
  | ok a => exact h a rfl
  | ub w => rfl
  | fuel => rfl
  | env w => rfl

theorem Res.bind_pure' {α : Type} (x : Res α) : (x >>= fun a => .ok a) = x := by cases x <;> rfl

theorem ckInt_ok {x : Int} (h : INT_MIN ≤ x) (h' : x ≤ INT_MAX) : ckInt x = .ok x := if_pos ⟨h, h'⟩

section
variable {σ : Type} {K : Sink σ}

theorem out_list_append (o : OutInfo σ) (l r : List Byte) :
    out_list K o (l ++ r) = (out_list K o l >>= fun o => out_list K o r) := by
  induction l generalizing o with
  | nil => rfl
  | cons x l ih =>
    simp only [List.cons_append, out_list, Res.bind_assoc']
    congr 1; funext o; exact ih o

theorem out_list_single (o : OutInfo σ) (x : Byte) : out_list K o [x] = out_char K o x := by
  simp only [out_list]
  exact Res.bind_pure' _

theorem out_list_cons (o : OutInfo σ) (x : Byte) (l : List Byte) :
    (out_char K o x >>= fun o => out_list K o l) = out_list K o (x :: l) := rfl

theorem out_repeat_eq (k n : Nat) (o : OutInfo σ) (x : Byte) (hk : n < k) (hn : (n : Int) ≤ INT_MAX) :
    out_repeat K k o n x = out_list K o (List.replicate n x) := by
  induction n generalizing k o with
  | zero =>
    obtain ⟨k, rfl⟩ : ∃ j, k = j + 1 := ⟨k - 1, by omega⟩
    simp [out_repeat, out_list]
  | succ n ih =>
    obtain ⟨k, rfl⟩ : ∃ j, k = j + 1 := ⟨k - 1, by omega⟩
    rw [out_repeat, if_neg (by omega), ckInt_ok (by simp only [INT_MIN]; omega) (by omega), Res.bind_ok, List.replicate_succ, out_list]
    congr 1; funext o
    have e : ((n + 1 : Nat) : Int) - 1 = n := by omega
    rw [e]; exact ih _ _ (by omega) (by omega)

theorem out_repeat_int {n : Int} (o : OutInfo σ) (x : Byte) (h0 : 0 ≤ n) (hn : n ≤ INT_MAX) :
    out_repeat K loopBound o n x = out_list K o (List.replicate n.toNat x) := by
  have e : n = (n.toNat : Int) := by omega
  have := out_repeat_eq (K := K) loopBound n.toNat o x (by simp only [loopBound, INT_MAX] at *; omega) (by omega)
  rwa [← e] at this

/-- Padding in front of a text of `n` characters. -/
def padBefore (p : Placeholder) (n : Nat) : List Byte :=
  if is_centered_string p then List.replicate ((p.width.toNat - n) / 2) 32
  else if p.flag_minus then []
  else List.replicate (p.width.toNat - n)
    (if is_type_numeric p.type && p.flag_zero && !(p.prec_specified && is_type_int p.type) then 48 else 32)

/-- Padding after a text of `n` characters. -/
def padAfter (p : Placeholder) (n : Nat) : List Byte :=
  if is_centered_string p then List.replicate (p.width.toNat - n - (p.width.toNat - n) / 2) 32
  else if p.flag_minus then List.replicate (p.width.toNat - n) 32
  else []

theorem centered_str {p : Placeholder} (h : is_centered_string p = true) : p.type = .str := by
  simp [is_centered_string] at h; exact h.1.1.1.1

theorem prepad_eq {p : Placeholder} {n : Nat} (o : OutInfo σ) (h0 : 0 ≤ p.width) (h1 : p.width < INT_MAX) (hn : (n : Int) ≤ INT_MAX) :
    prepad K o p n = out_list K o (padBefore p n) := by
  simp only [prepad, padBefore]
  by_cases hc : is_centered_string p = true
  · simp only [hc, Bool.true_and, if_true, centered_str hc, is_type_numeric]
    by_cases hw : (n : Int) < p.width
    · simp only [hw, decide_true, if_true]
      rw [ckInt_ok (by simp only [INT_MIN, INT_MAX] at *; omega) (by omega)]
      simp only [Res.bind_ok]
      have e : (p.width - (n : Int)).tdiv 2 = (((p.width.toNat - n) / 2 : Nat) : Int) := by
        rw [Int.tdiv_eq_ediv_of_nonneg (by omega)]; omega
      rw [e, out_repeat_int _ _ (by omega) (by simp only [INT_MAX] at *; omega), Int.toNat_natCast]
      rfl
    · simp only [hw, decide_false, Bool.false_eq_true, if_false]
      rw [if_neg (by simp)]
      have e : p.width.toNat - n = 0 := by omega
      simp only [Res.bind_ok, e]
      rw [out_repeat_int _ _ (by omega) (by decide)]
      rfl
  · simp only [hc, Bool.false_and, Bool.false_eq_true, if_false]
    by_cases hm : p.flag_minus = true
    · simp only [hm, Bool.not_true, Bool.false_and, Bool.false_eq_true, if_false, if_true, Res.bind_ok]
      rw [out_repeat_int _ _ (by omega) (by decide)]
      rfl
    · simp only [hm, Bool.not_false, Bool.true_and, Bool.false_eq_true, if_false]
      by_cases hw : p.width > (n : Int)
      · simp only [hw, decide_true, if_true]
        rw [ckInt_ok (by simp only [INT_MIN, INT_MAX] at *; omega) (by omega)]
        simp only [Res.bind_ok]
        rw [out_repeat_int _ _ (by omega) (by simp only [INT_MAX] at *; omega)]
        congr 2; omega
      · simp only [hw, decide_false, Bool.false_eq_true, if_false, Res.bind_ok]
        have e : p.width.toNat - n = 0 := by omega
        rw [e, out_repeat_int _ _ (by omega) (by decide)]
        rfl

theorem postpad_eq {p : Placeholder} {n : Nat} (o : OutInfo σ) (h0 : 0 ≤ p.width) (h1 : p.width < INT_MAX) (hn : (n : Int) ≤ INT_MAX) :
    postpad K o p n = out_list K o (padAfter p n) := by
  simp only [postpad, padAfter]
  by_cases hc : is_centered_string p = true
  · simp only [hc, Bool.true_and, if_true]
    by_cases hw : (n : Int) < p.width
    · simp only [hw, decide_true, if_true]
      rw [ckInt_ok (by simp only [INT_MIN, INT_MAX] at *; omega) (by omega)]
      simp only [Res.bind_ok]
      by_cases hd : (p.width - (n : Int)) % 2 = 0
      · simp only [hd, ne_eq, not_true, if_false]
        have e : (p.width - (n : Int)) / 2 = ((p.width.toNat - n - (p.width.toNat - n) / 2 : Nat) : Int) := by omega
        rw [e, out_repeat_int _ _ (by omega) (by simp only [INT_MAX] at *; omega), Int.toNat_natCast]
      · simp only [hd, ne_eq, not_false_eq_true, if_true]
        rw [ckInt_ok (by simp only [INT_MIN, INT_MAX] at *; omega) (by omega)]
        simp only [Res.bind_ok]
        have e : (p.width - (n : Int) + 1) / 2 = ((p.width.toNat - n - (p.width.toNat - n) / 2 : Nat) : Int) := by omega
        rw [e, out_repeat_int _ _ (by omega) (by simp only [INT_MAX] at *; omega), Int.toNat_natCast]
    · simp only [hw, decide_false, Bool.false_eq_true, if_false]
      rw [if_neg (by simp)]
      have e : p.width.toNat - n = 0 := by omega
      simp only [Res.bind_ok, e]
      rw [out_repeat_int _ _ (by omega) (by decide)]
      rfl
  · simp only [hc, Bool.false_and, Bool.false_eq_true, if_false]
    by_cases hm : p.flag_minus = true
    · simp only [hm, Bool.true_and, if_true]
      by_cases hw : p.width > (n : Int)
      · simp only [hw, decide_true, if_true]
        rw [ckInt_ok (by simp only [INT_MIN, INT_MAX] at *; omega) (by omega)]
        simp only [Res.bind_ok]
        rw [out_repeat_int _ _ (by omega) (by simp only [INT_MAX] at *; omega)]
        congr 2; omega
      · simp only [hw, decide_false, Bool.false_eq_true, if_false, Res.bind_ok]
        have e : p.width.toNat - n = 0 := by omega
        rw [e, out_repeat_int _ _ (by omega) (by decide)]
        rfl
    · simp only [hm, Bool.false_and, Bool.false_eq_true, if_false, Res.bind_ok]
      rw [out_repeat_int _ _ (by omega) (by decide)]
      rfl

/-- A text with the padding around it. -/
def fieldOf (p : Placeholder) (t : List Byte) : List Byte := padBefore p t.length ++ t ++ padAfter p t.length

end

/-! ### Digits -/

theorem printBytes_step {n : Nat} (h : 10 ≤ n) : printBytes 10 n = printBytes 10 (n / 10) ++ [UInt8.ofNat (48 + n % 10)] := by
  rw [printBytes, Nat.toDigits_of_base_le (by decide) h, List.map_append, ← printBytes]
  congr 1
  have : n % 10 < 10 := Nat.mod_lt _ (by decide)
  generalize n % 10 = d at this
  match d, this with
  | 0, _ => rfl
  | 1, _ => rfl
  | 2, _ => rfl
  | 3, _ => rfl
  | 4, _ => rfl
  | 5, _ => rfl
  | 6, _ => rfl
  | 7, _ => rfl
  | 8, _ => rfl
  | 9, _ => rfl

theorem printBytes_small {n : Nat} (h : n < 10) : printBytes 10 n = [UInt8.ofNat (48 + n)] := by
  match n, h with
  | 0, _ => rfl
  | 1, _ => rfl
  | 2, _ => rfl
  | 3, _ => rfl
  | 4, _ => rfl
  | 5, _ => rfl
  | 6, _ => rfl
  | 7, _ => rfl
  | 8, _ => rfl
  | 9, _ => rfl

theorem printBytes_len {k n : Nat} (h : n < 10 ^ (k + 1)) : (printBytes 10 n).length ≤ k + 1 := by
  induction k generalizing n with
  | zero => rw [printBytes_small (by omega)]; simp
  | succ k ih =>
    by_cases h' : n < 10
    · rw [printBytes_small h']; simp
    · rw [printBytes_step (by omega), List.length_append]
      have : n / 10 < 10 ^ (k + 1) := by rw [Nat.pow_succ] at h; omega
      have := ih this
      simp; omega

/-- The first loop stops at a number of at most 32 bits; the digits written so far complete those of the rest. -/
theorem asc_loop_first (k n : Nat) (l : List Byte) (h : n < 4294967296 * 10 ^ k) :
    (asc_loop 4294967295 k n l).1 ≤ 4294967295 ∧
    ∃ r, (asc_loop 4294967295 k n l).2 = l ++ r ∧
      (printBytes 10 n).reverse = r ++ (printBytes 10 (asc_loop 4294967295 k n l).1).reverse ∧
      ((asc_loop 4294967295 k n l).1 = 0 → r = [] ∧ n = 0) := by
  induction k generalizing n l with
  | zero => exact ⟨by simp only [asc_loop]; omega, [], by simp [asc_loop], by simp [asc_loop], by simp [asc_loop]⟩
  | succ k ih =>
    simp only [asc_loop]
    split
    · next hg =>
      obtain ⟨h1, r, h2, h3, h4⟩ := ih (n / 10) (l ++ [UInt8.ofNat (48 + n % 10)]) (by rw [Nat.pow_succ] at h; omega)
      refine ⟨h1, UInt8.ofNat (48 + n % 10) :: r, by rw [h2]; simp, ?_, fun h0 => ?_⟩
      · rw [printBytes_step (by omega), List.reverse_append, h3]; simp
      · have := (h4 h0).2; omega
    · exact ⟨by simp only; omega, [], by simp, by simp, by simp⟩

/-- The second loop writes all digits. -/
theorem asc_loop_second (k n : Nat) (l : List Byte) (h : n < 10 ^ k) (h0 : 0 < n) :
    (asc_loop 0 k n l).2 = l ++ (printBytes 10 n).reverse := by
  induction k generalizing n l with
  | zero => simp at h; omega
  | succ k ih =>
    simp only [asc_loop]
    rw [if_pos (by omega)]
    by_cases hn : n < 10
    · have e : n / 10 = 0 := by omega
      have e' : n % 10 = n := by omega
      rw [e, e', printBytes_small hn]
      cases k <;> simp [asc_loop]
    · rw [ih (n / 10) _ (by rw [Nat.pow_succ] at h; omega) (by omega), printBytes_step (n := n) (by omega)]
      simp

theorem ulong2asc_rev_eq {n : Nat} (h : n < 2 ^ 64) : ulong2asc_rev n = .ok (printBytes 10 n).reverse := by
  obtain ⟨h1, r, h2, h3, h4⟩ := asc_loop_first 64 n [] (by
    have : (10 : Nat) ^ 64 ≥ 4294967296 := by decide
    omega)
  have hlen : (printBytes 10 n).reverse.length ≤ 20 := by
    rw [List.length_reverse]; exact printBytes_len (by omega)
  by_cases h0 : (asc_loop 4294967295 64 n []).1 = 0
  · obtain ⟨rfl, rfl⟩ := h4 h0
    rfl
  · have hs := asc_loop_second 64 _ (asc_loop 4294967295 64 n []).2 (by
      have : (10 : Nat) ^ 64 > 4294967295 := by decide
      omega) (Nat.pos_of_ne_zero h0)
    have e : (asc_loop 0 64 (asc_loop 4294967295 64 n []).1 (asc_loop 4294967295 64 n []).2).2 = (printBytes 10 n).reverse := by
      rw [hs, h2, h3]; simp
    have hne : (printBytes 10 n).reverse.length ≠ 0 := by
      simp [printBytes, Nat.toDigits_ne_nil]
    show (let l := if (asc_loop 0 64 (asc_loop 4294967295 64 n []).1 (asc_loop 4294967295 64 n []).2).2.length = 0 then [48]
        else (asc_loop 0 64 (asc_loop 4294967295 64 n []).1 (asc_loop 4294967295 64 n []).2).2
      if l.length ≤ DEC_BUF_SIZE then Res.ok l else .ub .badWrite) = _
    rw [e, if_neg hne]
    exact if_pos hlen

/-! ### What a character changes -/

theorem charToInt_printable (x : Byte) : charToInt x > 31 ↔ FmtItem.Printable x := by
  simp only [charToInt, FmtItem.Printable, UInt8.le_iff_toNat_le, UInt8.lt_iff_toNat_lt]
  have : (32 : UInt8).toNat = 32 := rfl
  have : (128 : UInt8).toNat = 128 := rfl
  have := x.toNat_lt
  split <;> omega

section
variable {σ : Type} {K : Sink σ}

theorem out_dest_keep {o o' : OutInfo σ} {x : Byte} (h : out_dest K o x = .ok o') :
    o'.col = o.col ∧ o'.char_cnt = o.char_cnt ∧ o'.size_limit = o.size_limit := by
  have hH : ∀ o1, (match K.call with
      | some f => (do let w ← f o.w x; .ok { o with w := w } : Res (OutInfo σ))
      | none => .ok o) = .ok o1 → o1.col = o.col ∧ o1.char_cnt = o.char_cnt ∧ o1.size_limit = o.size_limit := by
    intro o1 h1
    cases hc : K.call with
    | none => rw [hc] at h1; simp only [Res.ok.injEq] at h1; subst h1; exact ⟨rfl, rfl, rfl⟩
    | some f =>
      rw [hc] at h1
      simp only at h1
      cases hf : f o.w x with
      | ok w => rw [hf] at h1; simp only [Res.bind_ok, Res.ok.injEq] at h1; subst h1; exact ⟨rfl, rfl, rfl⟩
      | ub w => rw [hf] at h1; cases h1
      | fuel => rw [hf] at h1; cases h1
      | env w => rw [hf] at h1; cases h1
  simp only [out_dest] at h
  by_cases hb : o.buf ≠ 0
  · rw [if_pos hb] at h
    cases hk : ckInt (o.char_cnt + 1) with
    | ok n =>
      rw [hk, Res.bind_ok] at h
      by_cases hn : n < o.size_limit
      · rw [if_pos hn] at h
        cases hs : store (K.mem o.w) o.buf x with
        | ok m => rw [hs] at h; simp only [Res.bind_ok, Res.ok.injEq] at h; subst h; exact ⟨rfl, rfl, rfl⟩
        | ub w => rw [hs] at h; cases h
        | fuel => rw [hs] at h; cases h
        | env w => rw [hs] at h; cases h
      · rw [if_neg hn] at h; exact hH _ h
    | ub w => rw [hk] at h; cases h
    | fuel => rw [hk] at h; cases h
    | env w => rw [hk] at h; cases h
  · rw [if_neg hb] at h; exact hH _ h

theorem ckInt_inv {x y : Int} (h : ckInt x = .ok y) : y = x := by
  simp only [ckInt] at h
  split at h
  · simp only [Res.ok.injEq] at h; exact h.symm
  · cases h

theorem out_col_keep {o o' : OutInfo σ} {x : Byte} (h : out_col o x = .ok o') :
    o'.char_cnt = o.char_cnt ∧ o'.size_limit = o.size_limit ∧ o'.buf = o.buf ∧ o'.w = o.w ∧
    o'.col = if x = 13 ∨ x = 10 then 0 else if FmtItem.Printable x then o.col + 1 else o.col := by
  simp only [out_col] at h
  by_cases h1 : x = 13 ∨ x = 10
  · simp only [h1, if_true, Res.ok.injEq] at h ⊢; subst h; exact ⟨rfl, rfl, rfl, rfl, rfl⟩
  · simp only [h1, if_false] at h ⊢
    by_cases h2 : FmtItem.Printable x
    · rw [if_pos ((charToInt_printable x).2 h2)] at h
      cases hk : ckInt (o.col + 1) with
      | ok c => rw [hk] at h; simp only [Res.bind_ok, Res.ok.injEq] at h; subst h; simp [h2, ckInt_inv hk]
      | ub w => rw [hk] at h; cases h
      | fuel => rw [hk] at h; cases h
      | env w => rw [hk] at h; cases h
    · rw [if_neg (fun h => h2 ((charToInt_printable x).1 h))] at h
      simp only [Res.ok.injEq] at h; subst h; simp [h2]

/-- The parts of a successful `out_char`. -/
theorem out_char_inv {o o' : OutInfo σ} {x : Byte} (h : out_char K o x = .ok o') :
    ∃ o1 o2, out_dest K o x = .ok o1 ∧ out_col o1 x = .ok o2 ∧ o' = { o2 with char_cnt := o.char_cnt + 1 } := by
  simp only [out_char] at h
  cases h1 : out_dest K o x with
  | ok o1 =>
    rw [h1, Res.bind_ok] at h
    cases h2 : out_col o1 x with
    | ok o2 =>
      rw [h2, Res.bind_ok] at h
      cases h3 : ckInt (o2.char_cnt + 1) with
      | ok n =>
        rw [h3, Res.bind_ok, Res.ok.injEq] at h
        refine ⟨o1, o2, rfl, h2, ?_⟩
        rw [← h, ckInt_inv h3, (out_col_keep h2).1, (out_dest_keep h1).2.1]
      | ub w => rw [h3] at h; cases h
      | fuel => rw [h3] at h; cases h
      | env w => rw [h3] at h; cases h
    | ub w => rw [h2] at h; cases h
    | fuel => rw [h2] at h; cases h
    | env w => rw [h2] at h; cases h
  | ub w => rw [h1] at h; cases h
  | fuel => rw [h1] at h; cases h
  | env w => rw [h1] at h; cases h

theorem out_char_cnt {o o' : OutInfo σ} {x : Byte} (h : out_char K o x = .ok o') : o'.char_cnt = o.char_cnt + 1 := by
  obtain ⟨o1, o2, h1, h2, rfl⟩ := out_char_inv h
  rfl

theorem out_list_cnt {l : List Byte} {o o' : OutInfo σ} (h : out_list K o l = .ok o') : o'.char_cnt = o.char_cnt + l.length := by
  induction l generalizing o with
  | nil => simp only [out_list, Res.ok.injEq] at h; subst h; simp
  | cons x l ih =>
    simp only [out_list] at h
    cases hc : out_char K o x with
    | ok o1 =>
      rw [hc, Res.bind_ok] at h
      rw [ih h, out_char_cnt hc, List.length_cons]; omega
    | ub w => rw [hc] at h; cases h
    | fuel => rw [hc] at h; cases h
    | env w => rw [hc] at h; cases h

/-- `I` holds after every character as long as at most `L` characters are printed. -/
def Stable (K : Sink σ) (L : Int) (I : OutInfo σ → Prop) : Prop :=
  ∀ o x o', I o → out_char K o x = .ok o' → o'.char_cnt ≤ L → I o'

end

end CStr
