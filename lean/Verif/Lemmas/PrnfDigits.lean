import Verif.Lemmas.PrnfDest
/-! The digits printed by the formatter denote the number, and other facts about the specification. -/
namespace CStr

theorem digit_byte {d : Nat} (h : d < 10) : isDigit (UInt8.ofNat (48 + d)) = true ∧ (UInt8.ofNat (48 + d)).toNat - 48 = d := by
  match d, h with
  | 0, _ | 1, _ | 2, _ | 3, _ | 4, _ | 5, _ | 6, _ | 7, _ | 8, _ | 9, _ => decide

theorem decVal_snoc (ds : List Byte) (b : Byte) : decVal (ds ++ [b]) = decVal ds * 10 + (b.toNat - 48) := by
  simp [decVal, List.foldl_append]

theorem decVal_zeros (k : Nat) (ds : List Byte) : decVal (List.replicate k 48 ++ ds) = decVal ds := by
  induction k with
  | zero => rfl
  | succ k ih => rw [List.replicate_succ, List.cons_append]; simpa [decVal] using ih

theorem printBytes_facts (n : Nat) : (∀ b ∈ printBytes 10 n, isDigit b = true) ∧ decVal (printBytes 10 n) = n ∧ printBytes 10 n ≠ [] ∧
    (n ≠ 0 → (printBytes 10 n).head? ≠ some 48) := by
  induction n using Nat.strongRecOn with
  | _ n ih =>
    by_cases h : n < 10
    · rw [printBytes_small h]
      obtain ⟨h1, h2⟩ := digit_byte h
      refine ⟨by simpa using h1, by simpa [decVal] using h2, by simp, ?_⟩
      intro h0
      simp only [List.head?_cons, ne_eq, Option.some.injEq]
      intro e
      rw [e] at h2
      exact h0 (by simpa using h2.symm)
    · obtain ⟨i1, i2, i3, i4⟩ := ih (n / 10) (by omega)
      obtain ⟨h1, h2⟩ := digit_byte (show n % 10 < 10 by omega)
      rw [printBytes_step (by omega)]
      refine ⟨?_, ?_, by simp, ?_⟩
      · intro b hb
        rw [List.mem_append, List.mem_singleton] at hb
        rcases hb with hb | rfl
        · exact i1 b hb
        · exact h1
      · rw [decVal_snoc, i2, h2]; omega
      · intro _
        rw [List.head?_append]
        have := i4 (by omega)
        cases hp : printBytes 10 (n / 10) with
        | nil => exact absurd hp i3
        | cons a t => rw [hp] at this; simpa using this

theorem hex_byte {d : Nat} (h : d < 16) :
    digitOf (if d < 10 then UInt8.ofNat (48 + d) else UInt8.ofNat (55 + d)) = d :=
  (by decide : ∀ d : Fin 16, digitOf (if d.val < 10 then UInt8.ofNat (48 + d.val) else UInt8.ofNat (55 + d.val)) = d.val) ⟨d, h⟩

theorem foldl_digits {base : Nat} (hb : 0 < base) (f : Nat → Byte) (v : Nat) (hf : ∀ i, digitOf (f i) = v / base ^ i % base)
    (n acc : Nat) : (((List.range n).reverse.map f).foldl (fun n b => n * base + digitOf b) acc) = acc * base ^ n + v % base ^ n := by
  induction n generalizing acc with
  | zero => simp [Nat.mod_one]
  | succ n ih =>
    rw [List.range_succ, List.reverse_append, List.map_append, List.foldl_append]
    simp only [List.reverse_cons, List.reverse_nil, List.nil_append, List.map_cons, List.map_nil, List.foldl_cons, List.foldl_nil]
    rw [ih, hf, Nat.pow_succ, Nat.mod_mul, Nat.add_mul, Nat.mul_assoc, Nat.mul_comm base (base ^ n), Nat.mul_comm (v / base ^ n % base)]
    omega

theorem hexDigits_val (n v : Nat) : baseVal 16 (Conv.hexDigits n v) = v % 16 ^ n := by
  have := foldl_digits (base := 16) (by decide)
    (fun i => if v / 16 ^ i % 16 < 10 then UInt8.ofNat (48 + v / 16 ^ i % 16) else UInt8.ofNat (55 + v / 16 ^ i % 16)) v
    (fun i => hex_byte (Nat.mod_lt _ (by decide))) n 0
  simpa [baseVal, Conv.hexDigits] using this

theorem binDigits_val (n v : Nat) : baseVal 2 (Conv.binDigits n v) = v % 2 ^ n := by
  have := foldl_digits (base := 2) (by decide) (fun i => UInt8.ofNat (48 + v / 2 ^ i % 2)) v
    (fun i => by
      have : v / 2 ^ i % 2 < 2 := Nat.mod_lt _ (by decide)
      generalize v / 2 ^ i % 2 = d at this
      match d, this with
      | 0, _ => decide
      | 1, _ => decide) n 0
  simpa [baseVal, Conv.binDigits] using this

theorem hexDigits_mem (n v : Nat) (b : Byte) (h : b ∈ Conv.hexDigits n v) : 48 ≤ b ∧ b ≤ 57 ∨ 65 ≤ b ∧ b ≤ 70 := by
  simp only [Conv.hexDigits, List.mem_map] at h
  obtain ⟨i, -, rfl⟩ := h
  have : v / 16 ^ i % 16 < 16 := Nat.mod_lt _ (by decide)
  generalize v / 16 ^ i % 16 = d at this
  exact (by decide : ∀ d : Fin 16, 48 ≤ (if d.val < 10 then UInt8.ofNat (48 + d.val) else UInt8.ofNat (55 + d.val)) ∧
    (if d.val < 10 then UInt8.ofNat (48 + d.val) else UInt8.ofNat (55 + d.val)) ≤ 57 ∨
    65 ≤ (if d.val < 10 then UInt8.ofNat (48 + d.val) else UInt8.ofNat (55 + d.val)) ∧
    (if d.val < 10 then UInt8.ofNat (48 + d.val) else UInt8.ofNat (55 + d.val)) ≤ 70) ⟨d, this⟩

theorem binDigits_mem (n v : Nat) (b : Byte) (h : b ∈ Conv.binDigits n v) : b = 48 ∨ b = 49 := by
  simp only [Conv.binDigits, List.mem_map] at h
  obtain ⟨i, -, rfl⟩ := h
  have : v / 2 ^ i % 2 < 2 := Nat.mod_lt _ (by decide)
  generalize v / 2 ^ i % 2 = d at this
  match d, this with
  | 0, _ => decide
  | 1, _ => decide

/-- Negative limits: nothing but the terminator is stored. -/
theorem core_prnf_neg {m : Mem} {dst : Addr} {lim : Int} {is : List FmtItem} {fmt : Addr} (more : List VArg) (h : lim < 0)
    (hF : Format m fmt is) (hlen : ((formatOutput is).length : Int) ≤ INT_MAX) (hw : Writable m dst 1) :
    core_prnf memSink { size_limit := lim, buf := dst, w := m } fmt (formatArgs is ++ more) =
      .ok (((formatOutput is).length : Int), put m dst [0]) := by
  have hpos : 0 < dst := by have := (hw 0 (by omega)).1; omega
  have hI : Stable memSink INT_MAX (fun o : OutInfo Mem => o.w = m ∧ o.size_limit < 0 ∧ 0 ≤ o.char_cnt) := by
    rintro o x o' ⟨rfl, ho, hc⟩ hx -
    obtain ⟨o1, o2, h1, h2, rfl⟩ := out_char_inv hx
    obtain ⟨c1, c2, c3, c4, -⟩ := out_col_keep h2
    have : o1 = o := by
      simp only [out_dest, memSink] at h1
      split at h1
      · cases hk : ckInt (o.char_cnt + 1) with
        | ok k =>
          rw [hk, Res.bind_ok] at h1
          have := ckInt_inv hk
          rw [if_neg (by omega)] at h1
          simp only [Res.ok.injEq] at h1; exact h1.symm
        | ub y => rw [hk] at h1; cases h1
        | fuel => rw [hk] at h1; cases h1
        | env y => rw [hk] at h1; cases h1
      · simp only [Res.ok.injEq] at h1; exact h1.symm
    subst this
    exact ⟨c4, by simp only [c2]; exact ho, by simp only; omega⟩
  rw [core_prnf_eq hI more _ ⟨rfl, h, Int.le_refl _⟩ (fun o ho => by obtain ⟨rfl, -⟩ := ho; exact hF) rfl hlen (by simpa using hlen),
    out_list_none rfl _ _ (by simp only; omega) (Int.le_refl 0) (Int.le_refl 0) (by simpa using hlen)]
  simp only [Res.bind_ok, out_terminate]
  rw [if_pos (by omega)]
  have : store (memSink.mem m) dst 0 = .ok (put m dst [0]) := store_eq 0 hw
  rw [this, Res.bind_ok, Res.bind_ok]
  simp [memSink]

theorem toInt32_small {n : Nat} (h : (n : Int) ≤ INT_MAX) : toInt32 (n % 2 ^ 32) = n := by
  simp only [INT_MAX] at h
  have : n % 2 ^ 32 = n := Nat.mod_eq_of_lt (by omega)
  rw [this, toInt32, if_pos (by omega)]

theorem formatOutputFrom_append (d : List Byte) (is js : List FmtItem) :
    formatOutputFrom d (is ++ js) = formatOutputFrom (formatOutputFrom d is) js := by
  induction is generalizing d with
  | nil => rfl
  | cons i is ih => exact ih _

end CStr
