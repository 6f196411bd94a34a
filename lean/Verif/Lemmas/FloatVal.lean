import Verif.Lemmas.Float
/-! Helper lemmas: assembling the value of a floating point literal. -/
namespace CStr

/-- Value of a list of decimal digits. -/
def decNum (ds : List Byte) : Nat := codeNum 10 0 ds

/-- `cs` are the pieces in which the digits are converted: each piece fits 64 bits and no piece could be longer. -/
inductive Chunks : List (List Byte) → Prop
  | nil : Chunks []
  | last {c : List Byte} : c ≠ [] → decNum c < 18446744073709551616 → Chunks [c]
  | more {c : List Byte} {b : Byte} {d : List Byte} {cs : List (List Byte)} : c ≠ [] →
      decNum c < 18446744073709551616 → 18446744073709551616 ≤ decNum (c ++ [b]) → Chunks ((b :: d) :: cs) →
      Chunks (c :: (b :: d) :: cs)

def intFold {F : Type} (ops : FloatOps F) : List (List Byte) → F → F
  | [], r => r
  | c :: cs, r => intFold ops cs (ops.mul (ops.add r (ops.ofULL (decNum c))) (ops.pow10 cs.flatten.length))

def fracFold {F : Type} (ops : FloatOps F) : List (List Byte) → Int → F → F
  | [], _, r => r
  | c :: cs, p, r => fracFold ops cs (p - c.length)
      (ops.add r (ops.mul (ops.ofULL (decNum c)) (ops.pow10 (p - c.length))))

theorem consume_decimal_step {m : Mem} {a : Addr} {ds : List Byte} (h : Holds m a ds) (hd : ∀ b ∈ ds, isDigit b = true)
    (hne : ds ≠ []) (hmax : (ds.length : Int) ≤ INT_MAX) :
    ∃ err j, 0 < j ∧ j ≤ ds.length ∧ decNum (ds.take j) < 18446744073709551616 ∧
      (j < ds.length → 18446744073709551616 ≤ decNum (ds.take (j + 1))) ∧
      consume_decimal_digits m ⟨a, ds.length⟩ = .ok (err, decNum (ds.take j), ⟨a + j, (ds.drop j).length⟩) := by
  have hD : Denotes m ⟨a, ds.length⟩ (ds ++ []) := ⟨by simp, by simpa using hmax, by simpa using h⟩
  obtain ⟨err, j, ⟨a1, a2, a3⟩, e⟩ := (consume_digits_code (.inl rfl) hD (by simpa [codeDigit] using hd) (by simp)).2 hne
  have hmore : j < ds.length → 18446744073709551616 ≤ decNum (ds.take (j + 1)) := by
    intro hj
    rcases a3 with ⟨-, rfl⟩ | ⟨-, -, a4⟩
    · omega
    · exact a4
  refine ⟨err, j, ?_, a1, a2, hmore, ?_⟩
  · apply Nat.pos_of_ne_zero
    rintro rfl
    have hpos := List.length_pos_iff.2 hne
    have := hmore hpos
    cases ds with
    | nil => simp at hpos
    | cons b t =>
      simp only [Nat.zero_add, List.take_succ_cons, List.take_zero, decNum, codeNum_cons, codeNum_nil] at this
      have := codeVal_lt (.inl rfl) (b := b) (base := 10) (by simpa [codeDigit] using hd b (by simp))
      omega
  · have e' : consume_decimal_digits m ⟨a, ds.length⟩ = .ok (err, codeNum 10 0 (ds.take j),
        View.part ⟨a, ds.length⟩ j (ds.drop j ++ []).length) := by
      simpa only [consume_digits, if_true] using e
    rw [e', List.append_nil]
    rfl

theorem Chunks.cons {ds : List Byte} {j : Nat} (hne : ds ≠ []) (hj : 0 < j) (hjl : j ≤ ds.length)
    (h1 : decNum (ds.take j) < 18446744073709551616)
    (h2 : j < ds.length → 18446744073709551616 ≤ decNum (ds.take (j + 1)))
    {cs : List (List Byte)} (hcs : Chunks cs) (hf : cs.flatten = ds.drop j) : Chunks (ds.take j :: cs) := by
  have htake : ds.take j ≠ [] := by
    intro h
    have := congrArg List.length h
    rw [List.length_take] at this
    have := List.length_pos_iff.2 hne
    simp only [List.length_nil] at *
    omega
  cases hcs with
  | nil => exact .last htake h1
  | @last c hc hc2 =>
    cases c with
    | nil => exact absurd rfl hc
    | cons b d =>
      refine .more htake h1 ?_ (.last hc hc2)
      simp only [List.flatten_cons, List.flatten_nil, List.append_nil] at hf
      have hlt : j < ds.length := by
        have := congrArg List.length hf
        rw [List.length_drop] at this
        simp at this
        omega
      have := h2 hlt
      rw [List.take_add_one] at this
      have hb : ds[j]? = some b := by
        have := congrArg List.head? hf
        rw [List.head?_drop] at this
        simpa using this.symm
      rw [hb] at this
      exact this
  | @more c b' d' cs' hc hc2 hc3 hcs' =>
    cases c with
    | nil => exact absurd rfl hc
    | cons b d =>
      refine .more htake h1 ?_ (.more hc hc2 hc3 hcs')
      simp only [List.flatten_cons, List.cons_append] at hf
      have hlt : j < ds.length := by
        have := congrArg List.length hf
        rw [List.length_drop] at this
        simp at this
        omega
      have := h2 hlt
      rw [List.take_add_one] at this
      have hb : ds[j]? = some b := by
        have := congrArg List.head? hf
        rw [List.head?_drop] at this
        simpa using this.symm
      rw [hb] at this
      exact this

theorem integral_loop_spec {F : Type} (ops : FloatOps F) {m : Mem} (k : Nat) :
    ∀ (ds : List Byte) (a : Addr) (r : F), ds.length < k → Holds m a ds → (∀ b ∈ ds, isDigit b = true) →
      (ds.length : Int) ≤ INT_MAX →
      ∃ cs, Chunks cs ∧ cs.flatten = ds ∧ integral_loop ops m k ⟨a, ds.length⟩ r = .ok (intFold ops cs r) := by
  induction k with
  | zero => intro ds a r h; omega
  | succ k ih =>
    intro ds a r hk h hd hmax
    by_cases hne : ds = []
    · subst hne
      exact ⟨[], .nil, rfl, by simp [integral_loop, intFold]⟩
    · have hpos := List.length_pos_iff.2 hne
      obtain ⟨err, j, hj, hjl, h1, h2, e⟩ := consume_decimal_step h hd hne hmax
      obtain ⟨cs, hc, hf, e2⟩ := ih (ds.drop j) (a + j)
        (ops.mul (ops.add r (ops.ofULL (decNum (ds.take j)))) (ops.pow10 (ds.drop j).length))
        (by rw [List.length_drop]; omega) (h.drop j hjl) (fun b hb => hd b (List.mem_of_mem_drop hb))
        (by rw [List.length_drop]; omega)
      refine ⟨ds.take j :: cs, Chunks.cons hne hj hjl h1 h2 hc hf, by simp [hf], ?_⟩
      have h0 : (ds.length : Int) ≠ 0 := by omega
      simp only [integral_loop, h0, ne_eq, not_false_eq_true, if_true, e, Res.bind_ok, e2, intFold, hf]

theorem fractional_loop_spec {F : Type} (ops : FloatOps F) {m : Mem} (k : Nat) :
    ∀ (ds : List Byte) (a : Addr) (p : Int) (r : F), ds.length < k → Holds m a ds → (∀ b ∈ ds, isDigit b = true) →
      p ≤ 0 → INT_MIN ≤ p - ds.length → (ds.length : Int) ≤ INT_MAX →
      ∃ cs, Chunks cs ∧ cs.flatten = ds ∧ fractional_loop ops m k ⟨a, ds.length⟩ p r = .ok (fracFold ops cs p r) := by
  induction k with
  | zero => intro ds a p r h; omega
  | succ k ih =>
    intro ds a p r hk h hd hp hp2 hmax
    by_cases hne : ds = []
    · subst hne
      exact ⟨[], .nil, rfl, by simp [fractional_loop, fracFold]⟩
    · have hpos := List.length_pos_iff.2 hne
      obtain ⟨err, j, hj, hjl, h1, h2, e⟩ := consume_decimal_step h hd hne hmax
      have hlen : (ds.take j).length = j := by rw [List.length_take]; omega
      have hpow : p - ds.length + (ds.drop j).length = p - (ds.take j).length := by
        rw [hlen, List.length_drop]; omega
      obtain ⟨cs, hc, hf, e2⟩ := ih (ds.drop j) (a + j) (p - (ds.take j).length)
        (ops.add r (ops.mul (ops.ofULL (decNum (ds.take j))) (ops.pow10 (p - (ds.take j).length))))
        (by rw [List.length_drop]; omega) (h.drop j hjl) (fun b hb => hd b (List.mem_of_mem_drop hb))
        (by omega) (by rw [List.length_drop, hlen]; omega) (by rw [List.length_drop]; omega)
      refine ⟨ds.take j :: cs, Chunks.cons hne hj hjl h1 h2 hc hf, by simp [hf], ?_⟩
      have h0 : (ds.length : Int) ≠ 0 := by omega
      simp only [fractional_loop, h0, ne_eq, not_false_eq_true, if_true]
      rw [chk_ok hp2 (by simp only [INT_MAX] at *; omega), Res.bind_ok, e, Res.bind_ok]
      dsimp only
      rw [hpow, chk_ok (by rw [hlen]; omega) (by rw [hlen]; simp only [INT_MAX] at *; omega), Res.bind_ok, e2]
      rfl

/-- The result of `make_float_type` for given digits, up to the splitting into pieces. -/
structure Assembled {F : Type} (ops : FloatOps F) (i f : List Byte) (e : Int) (val : F) : Prop where
  eq : ∃ ci cf f' z, Chunks ci ∧ ci.flatten = i ∧ Chunks cf ∧ cf.flatten = f' ∧ f = f' ++ List.replicate z 48 ∧
    (∀ x, f'.getLast? = some x → x ≠ 48) ∧ val = ops.mul (fracFold ops cf 0 (intFold ops ci ops.zero)) (ops.pow10 e)

theorem all_eq_replicate {l : List Byte} {c : Byte} (h : ∀ x ∈ l, x ∈ [c]) : l = List.replicate l.length c := by
  rw [List.eq_replicate_iff]
  exact ⟨rfl, fun b hb => by simpa using h b hb⟩

theorem make_float_spec {F : Type} (ops : FloatOps F) {m : Mem} {iv fv : View} {i f : List Byte} (hi : Denotes m iv i)
    (hf : Denotes m fv f) (di : ∀ b ∈ i, isDigit b = true) (df : ∀ b ∈ f, isDigit b = true) (e : Int) :
    ∃ val, make_float_type ops m iv fv e = .ok val ∧ Assembled ops i f e val := by
  have hiv : iv = ⟨iv.data, i.length⟩ := by rw [← hi.size]
  obtain ⟨ci, c1, c2, c3⟩ := integral_loop_spec ops (iv.size.toNat + 1) i iv.data ops.zero
    (by rw [hi.sizeToNat]; omega) hi.holds di hi.max
  rw [← hiv] at c3
  obtain ⟨e1, e2, e3, hlit⟩ := C06_trim_cstr (v := fv) (litZero_cstring m)
  obtain ⟨f', suf, hsplit, hz, hlast, et, hd⟩ := C06_trim_end hf hlit
  have hsuf := all_eq_replicate hz
  have hsz : (fv.part 0 f'.length).size.toNat = f'.length := by simp [View.part]
  have hmaxf := hf.max
  rw [hsplit, List.length_append] at hmaxf
  obtain ⟨cf, d1, d2, d3⟩ := fractional_loop_spec ops ((fv.part 0 f'.length).size.toNat + 1) f' (fv.part 0 f'.length).data
    0 (intFold ops ci ops.zero) (by rw [hsz]; omega) hd.holds
    (fun b hb => df b (by rw [hsplit]; exact List.mem_append_left _ hb)) (by omega)
    (by simp only [INT_MIN, INT_MAX] at *; omega) (by omega)
  refine ⟨_, ?_, ⟨ci, cf, f', suf.length, c1, c2, d1, d2, by rw [← hsuf]; exact hsplit,
    fun x hx => by simpa using hlast x hx, rfl⟩⟩
  have hpart : (fv.part 0 f'.length) = ⟨(fv.part 0 f'.length).data, f'.length⟩ := rfl
  rw [← hpart] at d3
  simp only [make_float_type, c3, Res.bind_ok, e2, et, d3]

/-! ### The whole conversion -/

/-- What is stored for a computed value. -/
def signedOut {F : Type} (ops : FloatOps F) (neg : Bool) (val : F) : F :=
  if ops.isNan val then ops.nan else if neg then ops.neg val else val

theorem not_word {b : Byte} {t w : List Byte} {c : Byte} (hc : c = 73 ∨ c = 78) (hb : isDigit b = true ∨ b = 46) :
    ∀ r, ¬ StartsWithWord (c :: w) (b :: t) r := by
  rintro r ⟨q, e, hq⟩
  cases q with
  | nil => simp at hq
  | cons x q =>
    simp only [List.cons_append, List.cons.injEq] at e
    simp only [List.map_cons, List.cons.injEq] at hq
    rw [← e.1] at hq
    have h1 : ∀ b : Byte, isDigit b = true ∨ b = 46 → toUpper b ≠ 73 ∧ toUpper b ≠ 78 := by
      apply forall_byte; decide +kernel
    rcases hc with rfl | rfl
    · exact (h1 b hb).1 hq.1
    · exact (h1 b hb).2 hq.1

theorem word_infinty_inf {l : List Byte} (h : ∀ r, ¬ StartsWithWord wordInf l r) : ∀ r, ¬ StartsWithWord wordInfinty l r := by
  rintro r ⟨q, rfl, hq⟩
  refine h (q.drop 3 ++ r) ⟨q.take 3, by rw [← List.append_assoc, List.take_append_drop], ?_⟩
  rw [List.map_take, hq]
  rfl

/-- The first half of the conversions up to the sign. -/
theorem process_start {m : Mem} {v : View} {l l1 l2 : List Byte} {o : UInt32} {neg : Bool} (h : ViewOf m v l)
    (h1 : AfterSpaces o l l1) (h2 : AfterSign o l1 neg l2) :
    ∃ p, l = p ++ l2 ∧ process_float_components m { fcInit o with num := v } = (do
      let (sp, num) ← consume_float_special m (v.part p.length l2.length)
      let fc := { fcInit o with num := num, is_neg := neg, special := sp }
      if sp = .none then do
        let fc ← float_digits m fc
        if !strview_is_valid fc.integral ∧ !strview_is_valid fc.fractional then .ok (EINVAL, fc)
        else float_exponent m fc
      else .ok (0, fc)) := by
  obtain ⟨p1, rfl, e1⟩ := consume_space_spec h h1
  obtain ⟨p2, rfl, e2⟩ := consume_sign_spec h.suffix h2
  refine ⟨p1 ++ p2, by simp, ?_⟩
  rw [View.part_part] at e2
  rw [List.length_append]
  unfold consume_opt_sign at e2
  simp only [process_float_components, fcInit, is_valid_of h, if_true, e1, Res.bind_ok]
  by_cases hf : (!flag o STRNUM_NOSIGN) = true
  · rw [if_pos hf] at e2 ⊢
    simp only [e2, Res.bind_ok]
  · rw [if_neg hf] at e2 ⊢
    simp only [Res.ok.injEq, Prod.mk.injEq] at e2
    rw [e2.2, ← e2.1]

/-- The three conversions on a non-NULL source. -/
theorem value_f_some {F : Type} (ops : FloatOps F) (t : FTy) (m : Mem) (dst : Option F) (v : View) (o : UInt32) :
    strnum_value_f ops t m dst (some v) o = (do
      let (err, fc) ← process_float_components m { fcInit o with num := v }
      finish_float ops m dst (some v) err fc) := by
  cases t <;> rfl

theorem value_f_special {F : Type} (ops : FloatOps F) (t : FTy) {m : Mem} {v u : View} {l l1 l2 p : List Byte}
    {o : UInt32} {neg : Bool} {sp : Special} (dst : Option F) (h : ViewOf m v l)
    (h1 : AfterSpaces o l l1) (h2 : AfterSign o l1 neg l2) (hp : l = p ++ l2) (hsp : sp ≠ .none)
    (hu : consume_float_special m (v.part p.length l2.length) = .ok (sp, u)) :
    strnum_value_f ops t m dst (some v) o = .ok (0, dst.map (fun _ => signedOut ops neg
      (match sp with | .inf => ops.inf | _ => ops.nan)), some u) := by
  obtain ⟨p', e', hpr⟩ := process_start h h1 h2
  have hpp : p' = p := List.append_cancel_right (e'.symm.trans hp)
  subst hpp
  rw [value_f_some, hpr, hu]
  simp only [Res.bind_ok, hsp, if_false, finish_float, if_true, false_and]
  cases sp with
  | none => exact absurd rfl hsp
  | inf => rfl
  | nan => rfl

theorem value_f_num {F : Type} (ops : FloatOps F) (t : FTy) {m : Mem} {v : View} {l l1 l2 l3 l4 i f rest : List Byte}
    {o : UInt32} {neg : Bool} {e : Int} (h : ViewOf m v l)
    (h1 : AfterSpaces o l l1) (h2 : AfterSign o l1 neg l2) (h3 : DecRun l2 i l3) (h4 : AfterPoint l3 f l4)
    (hne : i ≠ [] ∨ f ≠ []) (h5 : AfterExponent o l4 e rest) :
    (ExpOutOfRange e → ∀ dst, strnum_value_f ops t m dst (some v) o = .ok (ERANGE, dst, some v)) ∧
    (¬ ExpOutOfRange e → ∃ val, Assembled ops i f e val ∧
      ∀ dst, strnum_value_f ops t m dst (some v) o = if ops.isPosInf val then .ok (ERANGE, dst, some v)
        else .ok (0, dst.map (fun _ => signedOut ops neg val), some (v.part (l.length - rest.length) rest.length))) := by
  obtain ⟨p, e', hpr⟩ := process_start h h1 h2
  have hv2 : ViewOf m (v.part p.length l2.length) l2 := by rw [e'] at h; exact h.suffix
  have hfd : ∃ b t, l2 = b :: t ∧ (isDigit b = true ∨ b = 46) := by
    rw [h3.split]
    cases i with
    | cons b t => exact ⟨b, _, rfl, .inl (h3.digit b (by simp))⟩
    | nil =>
      cases h4 with
      | point hr => exact ⟨46, _, rfl, .inr rfl⟩
      | none => simp at hne
  obtain ⟨b, t', hl2, hb⟩ := hfd
  have hspec := (consume_float_special_spec hv2).2 (by rw [hl2]; exact not_word (.inl rfl) hb)
  have hspec := (hspec.2 (by rw [hl2]; exact not_word (.inl rfl) hb)).2 (by rw [hl2]; exact not_word (.inr rfl) hb)
  obtain ⟨iv, fv, p2, e2, hfl, d1, d2, v1, v2⟩ := float_digits_spec (m := m)
    (fc := { fcInit o with num := v.part p.length l2.length, is_neg := neg, special := .none }) hv2 h3 h4 rfl
  have hv3 : ViewOf m ((v.part p.length l2.length).part p2.length l4.length) l4 :=
    (show ∀ w, ViewOf m w l2 → ViewOf m (w.part p2.length l4.length) l4 from
      fun w hw => by rw [e2] at hw; exact hw.suffix) _ hv2
  obtain ⟨p3, fc', e3, x1, x2⟩ := float_exponent_spec (m := m)
    (fc := { fcInit o with num := (v.part p.length l2.length).part p2.length l4.length, is_neg := neg, special := .none,
                           integral := iv, fractional := fv }) hv3 h5 rfl
  have hvalid : ¬ ((!strview_is_valid iv) = true ∧ (!strview_is_valid fv) = true) := by
    rintro ⟨c1, c2⟩
    simp only [Bool.not_eq_true', Bool.eq_false_iff, ne_eq] at c1 c2
    rcases hne with hh | hh
    · exact c1 (v1.2 hh)
    · exact c2 (v2.2 hh)
  have hproc : process_float_components m { fcInit o with num := v } =
      float_exponent m { fcInit o with num := (v.part p.length l2.length).part p2.length l4.length, is_neg := neg,
                                        special := .none, integral := iv, fractional := fv } := by
    rw [hpr, hspec]
    simp only [Res.bind_ok, if_true, hfl, hvalid, if_false]
  have hR0 : ERANGE ≠ 0 := by decide
  constructor
  · intro hx dst
    rw [value_f_some, hproc, x1 hx, Res.bind_ok]
    simp only [finish_float, hR0, if_false]
  · intro hx
    obtain ⟨y1, y2, y3, y4, y5, y6, y7⟩ := x2 hx
    have df : ∀ b ∈ f, isDigit b = true := by
      cases h4 with
      | point hr => exact hr.digit
      | none => simp
    dsimp only at y2 y4 y5 y6 y7
    obtain ⟨val, hval, has⟩ := make_float_spec ops d1 d2 h3.digit df e
    refine ⟨val, has, fun dst => ?_⟩
    rw [value_f_some, hproc, y1, Res.bind_ok]
    simp only [finish_float, if_true, y7, y3, y4, y5, y6, y2, hval, Res.bind_ok, true_and]
    have hl : (p ++ (p2 ++ (p3 ++ rest))).length - rest.length = p.length + (p2.length + p3.length) := by
      simp only [List.length_append]; omega
    have hl' : l.length - rest.length = p.length + (p2.length + p3.length) := by
      rw [e', e2, e3]; exact hl
    rw [hl', View.part_part, View.part_part]
    rfl

theorem value_f_none {F : Type} (ops : FloatOps F) (t : FTy) {m : Mem} {v : View} {l l1 l2 l4 : List Byte}
    {o : UInt32} {neg : Bool} (dst : Option F) (h : ViewOf m v l)
    (h1 : AfterSpaces o l l1) (h2 : AfterSign o l1 neg l2) (hi : ∀ r, ¬ StartsWithWord wordInf l2 r)
    (hn : ∀ r, ¬ StartsWithWord wordNan l2 r) (h3 : DecRun l2 [] l2) (h4 : AfterPoint l2 [] l4) :
    strnum_value_f ops t m dst (some v) o = .ok (EINVAL, dst, some v) := by
  obtain ⟨p, e', hpr⟩ := process_start h h1 h2
  have hv2 : ViewOf m (v.part p.length l2.length) l2 := by rw [e'] at h; exact h.suffix
  have hspec := (((consume_float_special_spec hv2).2 (word_infinty_inf hi)).2 hi).2 hn
  obtain ⟨iv, fv, p2, e2, hfl, d1, d2, v1, v2⟩ := float_digits_spec (m := m)
    (fc := { fcInit o with num := v.part p.length l2.length, is_neg := neg, special := .none }) hv2 h3 h4 rfl
  have hvalid : ((!strview_is_valid iv) = true ∧ (!strview_is_valid fv) = true) := by
    constructor
    · cases hc : strview_is_valid iv with
      | false => rfl
      | true => exact absurd rfl (v1.1 hc)
    · cases hc : strview_is_valid fv with
      | false => rfl
      | true => exact absurd rfl (v2.1 hc)
  have hE0 : EINVAL ≠ 0 := by decide
  rw [value_f_some, hpr, hspec]
  simp only [Res.bind_ok, if_true, hfl, hvalid.1, hvalid.2, and_self, finish_float, hE0, if_false]

end CStr
