import Verif.Lemmas.PrnfOut
/-! The printing functions of the formatter for one placeholder. -/
namespace CStr

section
variable {σ : Type} {K : Sink σ}

/-- Zeros in front of `n` digits to satisfy the precision. -/
def zeroPad (p : Placeholder) (n : Nat) : List Byte :=
  if p.prec_specified && p.prec > n then List.replicate (p.prec.toNat - n) 48 else []

/-- The common part of `print_dec` once sign and digits are known. -/
theorem print_dec_tail {p : Placeholder} (o : OutInfo σ) (h0 : 0 ≤ p.width) (h1 : p.width < INT_MAX)
    (sg : Byte) (ds : List Byte)
    (hlen : (((if sg ≠ 0 then [sg] else []) ++ zeroPad p ds.length ++ ds).length : Int) ≤ INT_MAX) :
    (let number_len : Int := ds.reverse.length
     let zero_pad_len := if p.prec_specified && p.prec > number_len then p.prec - number_len else 0
     (do
      let number_len ← ckInt (number_len + zero_pad_len)
      let number_len ← if sg ≠ 0 then ckInt (number_len + 1) else .ok number_len
      let o ← prepad K o p number_len
      let o ← if sg ≠ 0 then out_char K o sg else .ok o
      let o ← out_repeat K loopBound o zero_pad_len 48
      let o ← out_list K o ds.reverse.reverse
      postpad K o p number_len)) =
    out_list K o (fieldOf p ((if sg ≠ 0 then [sg] else []) ++ zeroPad p ds.length ++ ds)) := by
  simp only [List.length_reverse, List.reverse_reverse]
  obtain ⟨z, hz, hz'⟩ : ∃ z : Nat, (if p.prec_specified && p.prec > (ds.length : Int) then p.prec - (ds.length : Int) else 0) = (z : Int) ∧
      zeroPad p ds.length = List.replicate z 48 := by
    simp only [zeroPad]
    split
    · next h => exact ⟨p.prec.toNat - ds.length, by simp at h; omega, rfl⟩
    · exact ⟨0, by simp, by simp⟩
  rw [hz'] at hlen ⊢
  rw [hz]
  simp only [List.length_append, List.length_replicate] at hlen
  have a1 : ckInt ((ds.length : Int) + z) = .ok ((ds.length : Int) + z) :=
    ckInt_ok (by simp only [INT_MIN]; omega) (by omega)
  rw [a1, Res.bind_ok]
  by_cases hs : sg = 0
  · simp only [hs, ne_eq, not_true, if_false, List.nil_append, Res.bind_ok] at hlen ⊢
    have e : (ds.length : Int) + z = ((List.replicate z (48 : Byte) ++ ds).length : Nat) := by
      simp only [List.length_append, List.length_replicate]; omega
    have hl : ((List.replicate z (48 : Byte) ++ ds).length : Int) ≤ INT_MAX := by omega
    rw [e, prepad_eq _ h0 h1 hl, fieldOf, out_list_append, out_list_append]
    simp only [Res.bind_assoc']
    congr 1; funext o
    rw [out_list_append]
    simp only [Res.bind_assoc']
    rw [out_repeat_int _ _ (by omega) (by omega), Int.toNat_natCast]
    congr 1; funext o
    congr 1; funext o
    exact postpad_eq _ h0 h1 hl
  · simp only [hs, ne_eq, not_false_eq_true, if_true, List.length_cons, List.length_nil] at hlen ⊢
    have e : (ds.length : Int) + z + 1 = (([sg] ++ List.replicate z (48 : Byte) ++ ds).length : Nat) := by
      simp only [List.length_append, List.length_replicate, List.length_cons, List.length_nil]; omega
    have hl : (([sg] ++ List.replicate z (48 : Byte) ++ ds).length : Int) ≤ INT_MAX := by omega
    rw [ckInt_ok (by simp only [INT_MIN]; omega) (by omega), Res.bind_ok, e, prepad_eq _ h0 h1 hl, fieldOf, out_list_append, out_list_append]
    simp only [Res.bind_assoc']
    congr 1; funext o
    rw [out_list_append, out_list_append, out_list_single]
    simp only [Res.bind_assoc']
    congr 1; funext o
    rw [out_repeat_int _ _ (by omega) (by omega), Int.toNat_natCast]
    congr 1; funext o
    congr 1; funext o
    exact postpad_eq _ h0 h1 hl

theorem print_dec_unsigned {p : Placeholder} {n : Nat} (o : OutInfo σ) (ht : is_type_unsigned p.type = true) (h0 : 0 ≤ p.width)
    (h1 : p.width < INT_MAX) (hn : n < 2 ^ 64)
    (hlen : ((zeroPad p (printBytes 10 n).length ++ printBytes 10 n).length : Int) ≤ INT_MAX) :
    print_dec K o p n = out_list K o (fieldOf p (zeroPad p (printBytes 10 n).length ++ printBytes 10 n)) := by
  have := print_dec_tail (K := K) o h0 h1 0 (printBytes 10 n) (by simpa using hlen)
  simp only [ne_eq, not_true, if_false, List.nil_append] at this
  rw [← this]
  simp only [print_dec, ht, if_true, Res.bind_ok, ulong2asc_rev_eq hn, ne_eq, not_true, if_false]

theorem toInt64_of {v : Int} (h : -(2 ^ 63) ≤ v) (h' : v < 2 ^ 63) : toInt64 (v % 2 ^ 64).toNat = v := by
  simp only [toInt64]
  split <;> omega

theorem print_dec_signed {p : Placeholder} {v : Int} (o : OutInfo σ) (ht : p.type = .int) (h0 : 0 ≤ p.width)
    (h1 : p.width < INT_MAX) (hv : -(2 ^ 63) < v) (hv' : v < 2 ^ 63)
    (hlen : (((if (if v < 0 then 45 else p.sign_pad) ≠ 0 then [if v < 0 then 45 else p.sign_pad] else []) ++
      zeroPad p (printBytes 10 v.natAbs).length ++ printBytes 10 v.natAbs).length : Int) ≤ INT_MAX) :
    print_dec K o p (v % 2 ^ 64).toNat = out_list K o (fieldOf p
      ((if (if v < 0 then 45 else p.sign_pad) ≠ 0 then [if v < 0 then 45 else p.sign_pad] else []) ++
        zeroPad p (printBytes 10 v.natAbs).length ++ printBytes 10 v.natAbs)) := by
  have := print_dec_tail (K := K) o h0 h1 (if v < 0 then 45 else p.sign_pad) (printBytes 10 v.natAbs) hlen
  rw [← this]
  have hu : is_type_unsigned p.type = false := by simp [ht, is_type_unsigned]
  simp only [print_dec, hu, Bool.false_eq_true, if_false, toInt64_of (Int.le_of_lt hv) hv']
  by_cases hneg : v < 0
  · have e : (-v).toNat = v.natAbs := by omega
    simp only [hneg, if_true]
    rw [if_neg (by omega)]
    simp only [Res.bind_ok, e, ulong2asc_rev_eq (n := v.natAbs) (by omega)]
  · have e : (v % 2 ^ 64).toNat = v.natAbs := by omega
    simp only [hneg, if_false]
    simp only [Res.bind_ok, e, ulong2asc_rev_eq (n := v.natAbs) (by omega)]

/-! ### Binary and hexadecimal -/

theorem binDigits_succ (n v : Nat) :
    Conv.binDigits (n + 1) v = UInt8.ofNat (48 + v / 2 ^ n % 2) :: Conv.binDigits n v := by
  simp only [Conv.binDigits]
  rw [List.range_succ, List.reverse_append]
  rfl

theorem bit_char (v k : Nat) : (if v &&& 2 ^ k ≠ 0 then (49 : Byte) else 48) = UInt8.ofNat (48 + v / 2 ^ k % 2) := by
  have h : v &&& 2 ^ k ≠ 0 ↔ v / 2 ^ k % 2 = 1 := by
    rw [← decide_eq_true_iff (p := v / 2 ^ k % 2 = 1), ← Nat.testBit_eq_decide_div_mod_eq]
    constructor
    · intro hne
      obtain ⟨i, hi⟩ := Nat.exists_testBit_of_ne_zero hne
      rw [Nat.testBit_and, Nat.testBit_two_pow, Bool.and_eq_true, decide_eq_true_iff] at hi
      exact hi.2 ▸ hi.1
    · intro ht e
      have := congrArg (Nat.testBit · k) e
      simp only [Nat.testBit_and, Nat.testBit_two_pow, ht, Nat.zero_testBit, decide_true, Bool.and_true] at this
      cases this
  rcases Nat.mod_two_eq_zero_or_one (v / 2 ^ k) with h2 | h2
  · rw [if_neg (by rw [h]; omega), h2]; rfl
  · rw [if_pos (h.2 h2), h2]; rfl

theorem print_bits_eq (v k : Nat) (o : OutInfo σ) : print_bits K v k o = out_list K o (Conv.binDigits k v) := by
  induction k generalizing o with
  | zero => rfl
  | succ k ih =>
    rw [print_bits, binDigits_succ, out_list, bit_char]
    congr 1; funext o; exact ih o

theorem print_bin_eq {p : Placeholder} {v : Nat} (o : OutInfo σ) (h0 : 0 ≤ p.width) (h1 : p.width < INT_MAX) (n : Nat)
    (hn : (if p.prec_specified then p.prec else (p.size_modifier : Int) * 8) = n) (hn1 : 1 ≤ n) (hn2 : n ≤ 64) :
    print_bin K o p v = out_list K o (fieldOf p (Conv.binDigits n v)) := by
  have hl : (Conv.binDigits n v).length = n := by simp [Conv.binDigits]
  simp only [print_bin, hn]
  rw [prepad_eq _ h0 h1 (by simp only [INT_MAX]; omega), fieldOf, out_list_append, out_list_append, hl]
  simp only [Res.bind_assoc']
  congr 1; funext o
  rw [ckInt_ok (by simp only [INT_MIN]; omega) (by simp only [INT_MAX]; omega), Res.bind_ok, if_pos (by omega), print_bits_eq]
  have e : ((n : Int) - 1).toNat + 1 = n := by omega
  rw [e]
  congr 1; funext o
  exact postpad_eq _ h0 h1 (by simp only [INT_MAX]; omega)

theorem hexDigits_succ (n v : Nat) :
    Conv.hexDigits (n + 1) v =
      (if v / 16 ^ n % 16 < 10 then UInt8.ofNat (48 + v / 16 ^ n % 16) else UInt8.ofNat (55 + v / 16 ^ n % 16)) ::
        Conv.hexDigits n v := by
  simp only [Conv.hexDigits]
  rw [List.range_succ, List.reverse_append]
  rfl

theorem hex_char (v n : Nat) : ascii_hex_digit ((v >>> (4 * n)) % 256) =
    if v / 16 ^ n % 16 < 10 then UInt8.ofNat (48 + v / 16 ^ n % 16) else UInt8.ofNat (55 + v / 16 ^ n % 16) := by
  simp only [ascii_hex_digit]
  rw [Nat.shiftRight_eq_div_pow, Nat.pow_mul, show (2 : Nat) ^ 4 = 16 from rfl]
  have e : v / 16 ^ n % 256 % 16 = v / 16 ^ n % 16 := by omega
  rw [e]
  split
  · rfl
  · congr 1; omega

theorem print_hex_loop_eq (v : Nat) (k n : Nat) (o : OutInfo σ) (h1 : 1 ≤ n) (h2 : n ≤ 16) (hk : n ≤ k) :
    print_hex_loop K v k o (4 * n) = out_list K o (Conv.hexDigits n v) := by
  induction n generalizing k o with
  | zero => omega
  | succ n ih =>
    obtain ⟨k, rfl⟩ : ∃ j, k = j + 1 := ⟨k - 1, by omega⟩
    rw [print_hex_loop]
    have e : (4 * (n + 1) + 252) % 256 = 4 * n := by omega
    simp only [e]
    rw [if_pos (by omega), hexDigits_succ, out_list, hex_char]
    congr 1; funext o
    by_cases hn : n = 0
    · subst hn; rfl
    · rw [if_neg (by omega), ih _ _ (by omega) (by omega) (by omega)]

theorem print_hex_eq {p : Placeholder} {v : Nat} (o : OutInfo σ) (h0 : 0 ≤ p.width) (h1 : p.width < INT_MAX) (n : Nat)
    (hn : (if p.prec_specified then p.prec else (p.size_modifier : Int) * 2) = n) (hn1 : 1 ≤ n) (hn2 : n ≤ 16) :
    print_hex K o p v = out_list K o (fieldOf p (Conv.hexDigits n v)) := by
  have hl : (Conv.hexDigits n v).length = n := by simp [Conv.hexDigits]
  simp only [print_hex, hn]
  rw [prepad_eq _ h0 h1 (by simp only [INT_MAX]; omega), fieldOf, out_list_append, out_list_append, hl]
  simp only [Res.bind_assoc']
  congr 1; funext o
  rw [ckInt_ok (by simp only [INT_MIN]; omega) (by simp only [INT_MAX]; omega), Res.bind_ok]
  have e : ((n : Int) * 4 % 256).toNat = 4 * n := by omega
  rw [e, print_hex_loop_eq v _ n o hn1 hn2 (by simp only [loopBound]; omega)]
  congr 1; funext o
  exact postpad_eq _ h0 h1 (by simp only [INT_MAX]; omega)

/-! ### Strings -/

theorem prnf_strlen_loop_eq {m : Mem} {l : List Byte} (k : Nat) (a : Addr) (n : Nat) (h : Holds m a (l ++ [0]))
    (hz : (0 : Byte) ∉ l) (hk : l.length < k) (hl : ((n + l.length : Nat) : Int) ≤ INT_MAX) :
    prnf_strlen_loop m k a n = .ok ((n + l.length : Nat) : Int) := by
  induction l generalizing k a n with
  | nil =>
    obtain ⟨k, rfl⟩ : ∃ j, k = j + 1 := ⟨k - 1, by simp at hk; omega⟩
    simp only [List.nil_append] at h
    simp [prnf_strlen_loop, h.load_head]
  | cons b l ih =>
    obtain ⟨k, rfl⟩ : ∃ j, k = j + 1 := ⟨k - 1, by simp at hk; omega⟩
    have hb : b ≠ 0 := fun e => hz (by simp [e])
    simp only [List.length_cons] at hl
    rw [prnf_strlen_loop, h.load_head, Res.bind_ok, if_neg hb, ckInt_ok (by simp only [INT_MIN]; omega) (by omega), Res.bind_ok]
    have := ih k (a + 1) (n + 1) (Holds.cons_iff.1 h).2 (fun h => hz (by simp [h])) (by simp at hk; omega) (by omega)
    have e : ((n : Int) + 1) = ((n + 1 : Nat) : Int) := by omega
    rw [e, this]
    congr 2; simp; omega

theorem prnf_strlen_eq {m : Mem} {a : Addr} {l : List Byte} (h : a = 0 ∧ l = [] ∨ CString m a l) :
    prnf_strlen m a = .ok l.length := by
  rcases h with ⟨rfl, rfl⟩ | h
  · rfl
  · have := h.pos
    rw [prnf_strlen, if_pos (by omega)]
    have := prnf_strlen_loop_eq strBound a 0 h.holds h.noNul (by have := h.max; simp only [strBound, INT_MAX] at *; omega) (by simpa using h.max)
    simpa using this

/-- The loop of `print_str` under an invariant that keeps the string in memory. -/
theorem print_str_loop_eq {I : OutInfo σ → Prop} {L : Int} (hI : Stable K L I) {l : List Byte} {a : Addr}
    (hR : ∀ o, I o → Holds (K.mem o.w) a l) (k : Nat) (o : OutInfo σ) (ho : I o) (hk : l.length < k)
    (hl : (l.length : Int) ≤ INT_MAX) (hL : o.char_cnt + l.length ≤ L) :
    print_str_loop K k o l.length a = out_list K o l := by
  induction l generalizing k a o with
  | nil =>
    obtain ⟨k, rfl⟩ : ∃ j, k = j + 1 := ⟨k - 1, by simp at hk; omega⟩
    simp [print_str_loop, out_list]
  | cons b l ih =>
    obtain ⟨k, rfl⟩ : ∃ j, k = j + 1 := ⟨k - 1, by simp at hk; omega⟩
    simp only [List.length_cons] at hl hk hL ⊢
    rw [print_str_loop, if_neg (by omega), ckInt_ok (by simp only [INT_MIN]; omega) (by omega), Res.bind_ok,
      (hR o ho).load_head, Res.bind_ok, out_list]
    apply Res.bind_congr_ok
    intro o' ho'
    have e : (((l.length + 1 : Nat) : Int) - 1) = (l.length : Int) := by omega
    rw [e]
    have hcnt := out_char_cnt ho'
    exact ih (fun o h => (Holds.cons_iff.1 (hR o h)).2) k o' (hI _ _ _ ho ho' (by omega)) (by omega) (by omega) (by omega)

theorem inv_out_list {I : OutInfo σ → Prop} {L : Int} (hI : Stable K L I) {l : List Byte} {o o' : OutInfo σ}
    (ho : I o) (h : out_list K o l = .ok o') (hL : o.char_cnt + l.length ≤ L) : I o' := by
  induction l generalizing o with
  | nil => simp only [out_list, Res.ok.injEq] at h; exact h ▸ ho
  | cons x l ih =>
    simp only [out_list] at h
    cases hc : out_char K o x with
    | ok o1 =>
      rw [hc, Res.bind_ok] at h
      have hcnt := out_char_cnt hc
      simp only [List.length_cons] at hL
      exact ih (hI _ _ _ ho hc (by omega)) h (by omega)
    | ub w => rw [hc] at h; cases h
    | fuel => rw [hc] at h; cases h
    | env w => rw [hc] at h; cases h

/-- The part of the string that is printed. -/
def strPart (p : Placeholder) (l : List Byte) : List Byte :=
  if p.prec_specified && !is_centered_string p then l.take p.prec.toNat else l

theorem print_str_eq {I : OutInfo σ → Prop} {L : Int} (hI : Stable K L I) {l : List Byte} {a : Addr}
    (hR : ∀ o, I o → (a = 0 ∧ l = [] ∨ CString (K.mem o.w) a l)) {p : Placeholder} (o : OutInfo σ) (ho : I o)
    (h0 : 0 ≤ p.width) (h1 : p.width < INT_MAX) (hp : 0 ≤ p.prec)
    (hL : o.char_cnt + (fieldOf p (strPart p l)).length ≤ L) :
    print_str K o p a = out_list K o (fieldOf p (strPart p l)) := by
  have hl : (l.length : Int) ≤ INT_MAX := by
    rcases hR o ho with ⟨-, rfl⟩ | h
    · decide
    · exact h.max
  have hpl : ((strPart p l).length : Int) ≤ INT_MAX := by
    simp only [strPart]; split <;> (try simp only [List.length_take]) <;> omega
  have e : (if p.prec_specified && p.prec < (l.length : Int) && !is_centered_string p then p.prec else (l.length : Int)) =
      ((strPart p l).length : Int) := by
    simp only [strPart]
    by_cases hs : p.prec_specified = true <;> by_cases hc : is_centered_string p = true <;> simp [hs, hc] <;> omega
  simp only [print_str, prnf_strlen_eq (hR o ho), Res.bind_ok, e]
  rw [prepad_eq _ h0 h1 hpl, fieldOf, out_list_append, out_list_append]
  simp only [Res.bind_assoc']
  apply Res.bind_congr_ok
  intro o1 ho1
  have := print_str_loop_eq hI (l := strPart p l) (a := a) (fun o h => by
    rcases hR o h with ⟨-, rfl⟩ | h
    · have : strPart p [] = [] := by simp [strPart]
      rw [this]; exact Holds.nil _ _
    · have := (Holds.append_iff.1 h.holds).1
      simp only [strPart]; split
      · exact this.take _
      · exact this) loopBound o1
    (inv_out_list hI ho ho1 (by simp only [fieldOf, List.length_append] at hL; omega)) (by simp only [loopBound, INT_MAX] at *; omega) hpl
    (by have := out_list_cnt ho1; simp only [fieldOf, List.length_append] at hL; omega)
  rw [this]
  congr 1; funext o
  exact postpad_eq _ h0 h1 hpl

end
end CStr
