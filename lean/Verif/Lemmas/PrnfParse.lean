import Verif.Lemmas.PrnfConv
/-! Parsing of placeholders and fetching of their arguments. -/
namespace CStr

/-- The list starts with a byte of the given kind. -/
def Hd (P : Byte → Prop) (l : List Byte) : Prop := ∃ b t, l = b :: t ∧ P b

theorem Hd.mono {P Q : Byte → Prop} (h : ∀ b, P b → Q b) {l : List Byte} : Hd P l → Hd Q l := by
  rintro ⟨b, t, rfl, hb⟩; exact ⟨b, t, rfl, h b hb⟩

theorem Hd.append {P : Byte → Prop} {l r : List Byte} (hl : ∀ b ∈ l.head?, P b) (hr : Hd P r) : Hd P (l ++ r) := by
  cases l with
  | nil => exact hr
  | cons b t => exact ⟨b, t ++ r, rfl, hl b (by simp)⟩

theorem digit_val {c : Byte} (h : isDigit c = true) : ((c &&& 15).toNat : Int) = ((c.toNat - 48 : Nat) : Int) := by
  simp only [isDigit, Bool.and_eq_true, decide_eq_true_eq] at h
  have h1 : 48 ≤ c.toNat := by simpa using UInt8.le_iff_toNat_le.1 h.1
  have h2 : c.toNat ≤ 57 := by simpa using UInt8.le_iff_toNat_le.1 h.2
  have e : c = UInt8.ofNat c.toNat := by simp
  generalize c.toNat = n at *
  subst e
  have : n = 48 ∨ n = 49 ∨ n = 50 ∨ n = 51 ∨ n = 52 ∨ n = 53 ∨ n = 54 ∨ n = 55 ∨ n = 56 ∨ n = 57 := by omega
  rcases this with rfl | rfl | rfl | rfl | rfl | rfl | rfl | rfl | rfl | rfl <;> rfl

theorem decVal_mono (ds : List Byte) (v : Nat) : v ≤ ds.foldl (fun n b => n * 10 + (b.toNat - 48)) v := by
  induction ds generalizing v with
  | nil => simp
  | cons b ds ih => simp only [List.foldl_cons]; exact Nat.le_trans (by omega) (ih _)

theorem prnf_atoi_eq {m : Mem} {ds rest : List Byte} (k : Nat) (a : Addr) (v : Nat) (h : Holds m a (ds ++ rest))
    (hd : ∀ b ∈ ds, isDigit b = true) (hr : Hd (fun b => isDigit b = false) rest) (hk : ds.length < k)
    (hv : ((ds.foldl (fun n b => n * 10 + (b.toNat - 48)) v : Nat) : Int) ≤ INT_MAX) :
    prnf_atoi m k a v = .ok ((ds.foldl (fun n b => n * 10 + (b.toNat - 48)) v : Nat), a + ds.length) := by
  induction ds generalizing k a v with
  | nil =>
    obtain ⟨k, rfl⟩ : ∃ j, k = j + 1 := ⟨k - 1, by simp at hk; omega⟩
    obtain ⟨b, t, rfl, hb⟩ := hr
    simp only [List.nil_append] at h
    simp [prnf_atoi, h.load_head, hb]
  | cons b ds ih =>
    obtain ⟨k, rfl⟩ : ∃ j, k = j + 1 := ⟨k - 1, by simp at hk; omega⟩
    simp only [List.length_cons] at hk ⊢
    have hb : isDigit b = true := hd b (by simp)
    have hm := decVal_mono ds (v * 10 + (b.toNat - 48))
    simp only [List.foldl_cons] at hv ⊢
    rw [prnf_atoi, h.load_head, Res.bind_ok, if_pos hb, ckInt_ok (by simp only [INT_MIN]; omega) (by omega), Res.bind_ok, digit_val hb,
      ckInt_ok (by simp only [INT_MIN]; omega) (by omega), Res.bind_ok]
    have e : ((v : Int) * 10 + ((b.toNat - 48 : Nat) : Int)) = ((v * 10 + (b.toNat - 48) : Nat) : Int) := by omega
    rw [e, ih k (a + 1) _ (Holds.cons_iff.1 h).2 (fun b hb => hd b (by simp [hb])) (by omega) hv]
    congr 2; omega

/-- The text of an optional width. -/
def widthText : Option Count → List Byte
  | some w => w.text
  | none => []
/-- The text of an optional precision. -/
def precText : Option Count → List Byte
  | some p => 46 :: p.text
  | none => []
/-- The number written in the text. -/
def statVal : Option Count → Int
  | some (.digits ds) => decVal ds
  | _ => 0
/-- The number comes from the arguments. -/
def isStar : Option Count → Bool
  | some (.star _) => true
  | _ => false
/-- The arguments for an optional count. -/
def countArgs : Option Count → List VArg
  | some w => w.args
  | none => []
/-- The value of an optional count. -/
def countVal : Option Count → Int
  | some w => w.val
  | none => 0

theorem statVal_eq {w : Option Count} (h : isStar w = false) : statVal w = countVal w := by
  cases w with
  | none => rfl
  | some w => cases w with
    | digits ds => rfl
    | star v => simp [isStar] at h

/-! ### Flags -/

/-- The effect of one flag. -/
def applyFlag (p : Placeholder) : Flag → Placeholder
  | .zero => { p with flag_zero := true }
  | .minus => { p with flag_minus := true }
  | .plus => { p with sign_pad := 43 }
  | .space => { p with sign_pad := 32 }
  | .hash => p
  | .quote => p

/-- Not a flag character. -/
def NonFlag (b : Byte) : Prop := b ≠ 48 ∧ b ≠ 45 ∧ b ≠ 43 ∧ b ≠ 32 ∧ b ≠ 35 ∧ b ≠ 39

theorem parse_flags_eq {m : Mem} {fs : List Flag} {rest : List Byte} (k : Nat) (a : Addr) (p : Placeholder)
    (h : Holds m a (fs.map Flag.char ++ rest)) (hr : Hd NonFlag rest) (hk : fs.length < k) :
    parse_flags m k a p = .ok (fs.foldl applyFlag p, a + fs.length) := by
  induction fs generalizing k a p with
  | nil =>
    obtain ⟨k, rfl⟩ : ∃ j, k = j + 1 := ⟨k - 1, by simp at hk; omega⟩
    obtain ⟨b, t, rfl, h1, h2, h3, h4, h5, h6⟩ := hr
    simp only [List.map_nil, List.nil_append] at h
    simp [parse_flags, h.load_head, h1, h2, h3, h4, h5, h6]
  | cons f fs ih =>
    obtain ⟨k, rfl⟩ : ∃ j, k = j + 1 := ⟨k - 1, by simp at hk; omega⟩
    simp only [List.map_cons, List.cons_append, List.length_cons] at h hk ⊢
    have e : a + ((fs.length + 1 : Nat) : Int) = a + 1 + fs.length := by omega
    rw [e, List.foldl_cons, ← ih k (a + 1) (applyFlag p f) (Holds.cons_iff.1 h).2 (by omega), parse_flags, h.load_head, Res.bind_ok]
    cases f <;> rfl

theorem applyFlags_eq (fs : List Flag) (p : Placeholder) :
    fs.foldl applyFlag p = { p with
      flag_zero := p.flag_zero || decide (Flag.zero ∈ fs)
      flag_minus := p.flag_minus || decide (Flag.minus ∈ fs)
      sign_pad := match fs.reverse.find? (fun f => f = .plus || f = .space) with
        | some f => f.char
        | none => p.sign_pad } := by
  induction fs generalizing p with
  | nil => simp
  | cons f fs ih =>
    rw [List.foldl_cons, ih]
    simp only [List.reverse_cons, List.find?_append]
    cases hfind : fs.reverse.find? (fun f => f = .plus || f = .space) with
    | some g => cases f <;> simp [applyFlag]
    | none => cases f <;> simp [applyFlag, Flag.char]

/-! ### The whole placeholder -/

/-- The type of an argument. -/
def Value.ty : Value → PTy
  | dec _ => .int
  | udec _ => .uint
  | hex _ => .hex
  | bin _ => .bin
  | chr _ => .char
  | str _ _ => .str
  | flt _ => .float
  | eng _ _ => .eng
  | other => .none

/-- The character in front of a number that is not negative, 0 if there is none. -/
def Conv.signPad (c : Conv) : Byte :=
  match c.flags.reverse.find? (fun f => f = .plus || f = .space) with
  | some f => f.char
  | none => 0

/-- The placeholder as parsed. -/
def Conv.parsed (c : Conv) : Placeholder where
  flag_minus := decide (Flag.minus ∈ c.flags)
  flag_zero := decide (Flag.zero ∈ c.flags)
  sign_pad := c.signPad
  prec_specified := c.prec.isSome
  width := statVal c.width
  prec := statVal c.prec
  prec_is_dynamic := isStar c.prec
  width_is_dynamic := isStar c.width
  size_modifier := c.len.bytes
  type := c.value.ty

/-- The placeholder after the dynamic width and precision are known. -/
def Conv.ph (c : Conv) : Placeholder where
  flag_minus := c.left
  flag_zero := decide (Flag.zero ∈ c.flags)
  sign_pad := c.signPad
  prec_specified := c.prec.isSome
  width := c.minWidth
  prec := countVal c.prec
  prec_is_dynamic := isStar c.prec
  width_is_dynamic := isStar c.width
  size_modifier := c.len.bytes
  type := c.value.ty

/-- What is clear of a type letter: it continues nothing. -/
def TypeLetter (b : Byte) : Prop :=
  NonFlag b ∧ isDigit b = false ∧ b ≠ 42 ∧ b ≠ 46 ∧ b ≠ 104 ∧ b ≠ 108 ∧ b ≠ 116 ∧ b ≠ 122 ∧ b ≠ 37

theorem typeLetters_spec : ∀ b ∈ typeLetters, TypeLetter b := by
  unfold TypeLetter NonFlag; decide

theorem nonFlag_char {b : Byte} : NonFlag b ↔ ∀ f : Flag, b ≠ f.char := by
  constructor
  · rintro ⟨h1, h2, h3, h4, h5, h6⟩ f
    cases f <;> assumption
  · exact fun h => ⟨h .zero, h .minus, h .plus, h .space, h .hash, h .quote⟩

theorem TypeLetter.ends {c : Conv} (h : TypeLetter c.letter) : c.Ends := by
  obtain ⟨h1, h2, h3, h4, h5, h6, h7, h8, h9⟩ := h
  exact ⟨by simp [h5, h6, h7, h8], fun _ => h5, fun _ => h6, fun _ _ => h4, fun _ _ _ => h2, fun _ _ => h3, fun _ _ _ _ => h2,
    fun _ _ _ => ⟨h2, h3, nonFlag_char.1 h1⟩, fun _ _ _ _ => h9⟩

theorem Value.HasLetter.mem {v : Value} {c : Byte} (h : v.HasLetter c) (hv : v ≠ .other) : c ∈ typeLetters := by
  cases v with
  | other => exact absurd rfl hv
  | _ =>
    simp only [Value.HasLetter, List.mem_cons, List.not_mem_nil, or_false] at h
    first
      | (rcases h with rfl | rfl <;> decide)
      | (subst h; decide)

theorem Value.HasLetter.type {v : Value} {c : Byte} (h : v.HasLetter c) : typeOfLetter c = v.ty := by
  cases v with
  | other =>
    simp only [Value.HasLetter, typeLetters, List.mem_cons, List.not_mem_nil, or_false, not_or] at h
    simp_all [typeOfLetter, Value.ty]
  | _ =>
    simp only [Value.HasLetter, List.mem_cons, List.not_mem_nil, or_false] at h
    first
      | (rcases h with rfl | rfl <;> rfl)
      | (subst h; rfl)

theorem Conv.Ok.typed {c : Conv} {m : Mem} (hc : c.Ok m) : c.Typed := by
  refine ⟨hc.letter, hc.width, hc.prec, ?_⟩
  have h := hc.value
  cases hv : c.value with
  | dec v =>
    simp only [hv] at h ⊢
    split at h
    · next h8 => rw [if_pos h8]; omega
    · next h8 => rw [if_neg h8]; exact h
  | hex v => simp only [hv] at h ⊢; exact h.1
  | bin v => simp only [hv] at h ⊢; exact h.1
  | udec v => simp only [hv] at h ⊢; exact h
  | other => simp only [hv] at h ⊢; exact h
  | _ => trivial

theorem Conv.Typed.ends {c : Conv} (hc : c.Typed) : c.Ends := by
  by_cases hv : c.value = .other
  · have := hc.value
    rw [hv] at this
    exact this
  · exact (typeLetters_spec _ (hc.letter.mem hv)).ends

theorem Conv.Ok.ends {c : Conv} {m : Mem} (hc : c.Ok m) : c.Ends := by
  by_cases hv : c.value = .other
  · have := hc.value
    rw [hv] at this
    exact this
  · exact (typeLetters_spec _ (hc.letter.mem hv)).ends

/-- What may follow a width. -/
def AfterWidth : Option Count → Byte → Prop
  | none, b => isDigit b = false ∧ b ≠ 42
  | some (.digits _), b => isDigit b = false
  | some (.star _), _ => True

/-- What may follow a precision. -/
def AfterPrec : Option Count → Byte → Prop
  | none, b => b ≠ 46
  | some (.digits ds), b => isDigit b = false ∧ (ds = [] → b ≠ 42)
  | some (.star _), _ => True

/-- What may follow a length modifier. -/
def AfterLen : LenMod → Byte → Prop
  | .none, b => b ≠ 104 ∧ b ≠ 108 ∧ b ≠ 116 ∧ b ≠ 122
  | .h, b => b ≠ 104
  | .l, b => b ≠ 108
  | _, _ => True

/-- The end of a placeholder: the type letter. -/
theorem hd_letter {c : Conv} (he : c.Ends) (more : List Byte) : Hd (AfterLen c.len) (c.letter :: more) := by
  refine ⟨_, _, rfl, ?_⟩
  have h1 := he.len
  have h2 := he.len_h
  have h3 := he.len_l
  cases hl : c.len <;> simp_all [AfterLen]

theorem hd_len {c : Conv} (he : c.Ends) (more : List Byte) : Hd (AfterPrec c.prec) (c.len.text ++ c.letter :: more) := by
  by_cases hl : c.len = .none
  · rw [hl]
    refine ⟨_, _, rfl, ?_⟩
    match hp : c.prec with
    | none => exact he.prec hl hp
    | some (.digits ds) => exact ⟨he.prec_digits hl ds hp, fun e => he.prec_star hl (by rw [hp, e])⟩
    | some (.star v) => trivial
  · have : ∀ b ∈ c.len.text.head?, b = 104 ∨ b = 108 ∨ b = 116 ∨ b = 122 := by
      cases c.len <;> simp [LenMod.text]
    have hne : c.len.text ≠ [] := by
      revert hl
      cases c.len <;> simp [LenMod.text]
    obtain ⟨b, t, e⟩ := List.exists_cons_of_ne_nil hne
    have hb := this b (by simp [e])
    refine ⟨b, t ++ c.letter :: more, by rw [e]; rfl, ?_⟩
    match hp : c.prec with
    | none => rcases hb with rfl | rfl | rfl | rfl <;> simp [AfterPrec]
    | some (.digits ds) => rcases hb with rfl | rfl | rfl | rfl <;> exact ⟨by decide, fun _ => by decide⟩
    | some (.star v) => trivial

theorem hd_prec {c : Conv} (he : c.Ends) (more : List Byte) :
    Hd (AfterWidth c.width) (precText c.prec ++ (c.len.text ++ c.letter :: more)) := by
  match hp : c.prec with
  | some p =>
    refine ⟨46, _, rfl, ?_⟩
    match c.width with
    | none => exact ⟨by decide, by decide⟩
    | some (.digits ds) => exact (by decide : isDigit 46 = false)
    | some (.star v) => trivial
  | none =>
    by_cases hl : c.len = .none
    · rw [hl]
      refine ⟨_, _, rfl, ?_⟩
      match hw : c.width with
      | none => exact ⟨(he.width hl hp hw).1, (he.width hl hp hw).2.1⟩
      | some (.digits ds) => exact he.width_digits hl hp ds hw
      | some (.star v) => trivial
    · have : ∀ b ∈ c.len.text.head?, b = 104 ∨ b = 108 ∨ b = 116 ∨ b = 122 := by
        cases c.len <;> simp [LenMod.text]
      have hne : c.len.text ≠ [] := by
        revert hl
        cases c.len <;> simp [LenMod.text]
      obtain ⟨b, t, e⟩ := List.exists_cons_of_ne_nil hne
      have hb := this b (by simp [e])
      refine ⟨b, t ++ c.letter :: more, by rw [e]; rfl, ?_⟩
      match c.width with
      | none => rcases hb with rfl | rfl | rfl | rfl <;> exact ⟨by decide, by decide⟩
      | some (.digits ds) => rcases hb with rfl | rfl | rfl | rfl <;> (simp only [AfterWidth]; decide)
      | some (.star v) => trivial

theorem digit_nonflag {b : Byte} (h : isDigit b = true) (h0 : b ≠ 48) : NonFlag b := by
  refine ⟨h0, ?_, ?_, ?_, ?_, ?_⟩ <;> (rintro rfl; revert h; decide)

theorem Conv.Typed.numbers {c : Conv} (hc : c.Typed) : c.Numbers :=
  ⟨fun w hw => ⟨(hc.width w hw).1, (hc.width w hw).2.2⟩, hc.prec⟩

theorem Conv.Ok.numbers {c : Conv} {m : Mem} (hc : c.Ok m) : c.Numbers :=
  ⟨fun w hw => ⟨(hc.width w hw).1, (hc.width w hw).2.2⟩, hc.prec⟩

theorem hd_width {c : Conv} (he : c.Ends) (hn : c.Numbers) (more : List Byte) :
    Hd NonFlag (widthText c.width ++ (precText c.prec ++ (c.len.text ++ c.letter :: more))) := by
  cases hw : c.width with
  | some w =>
    obtain ⟨h1, h2⟩ := hn.width w hw
    cases w with
    | star v => exact ⟨42, _, rfl, by unfold NonFlag; decide⟩
    | digits ds =>
      obtain ⟨h3, h4⟩ := h2 ds rfl
      cases ds with
      | nil => exact absurd rfl h3
      | cons d ds => exact ⟨d, _, rfl, digit_nonflag (h1.1 _ (by simp)) (by simpa using h4)⟩
  | none =>
    cases hp : c.prec with
    | some p => exact ⟨46, _, rfl, by unfold NonFlag; decide⟩
    | none =>
      cases hl : c.len with
      | none => exact ⟨_, _, rfl, nonFlag_char.2 (he.width hl hp hw).2.2⟩
      | _ => exact ⟨_, _, rfl, by unfold NonFlag; decide⟩

theorem parse_width_eq {m : Mem} {a : Addr} {p : Placeholder} {w : Option Count} {rest : List Byte}
    (h : Holds m a (widthText w ++ rest)) (hr : Hd (AfterWidth w) rest)
    (hw : ∀ x, w = some x → x.Ok ∧ ∀ ds, x = .digits ds → ds ≠ []) (hp : p.width = 0 ∧ p.width_is_dynamic = false)
    (hlen : ∀ x, w = some x → x.text.length < strBound) :
    parse_width m a p = .ok ({ p with
      width := statVal w
      width_is_dynamic := isStar w },
      a + (widthText w).length) := by
  obtain ⟨p1, p2⟩ := hp
  cases w with
  | none =>
    simp only [widthText, precText, List.nil_append] at h
    obtain ⟨b, t, rfl, h2, h3⟩ := hr
    have := prnf_atoi_eq (ds := []) (rest := b :: t) strBound a 0 h (by simp) ⟨b, t, rfl, h2⟩ (by simp [strBound]) (by decide)
    simp only [List.foldl_nil, List.length_nil] at this
    simp only [parse_width, h.load_head, Res.bind_ok, if_neg h3]
    have e : prnf_atoi m strBound a 0 = .ok (0, a) := by simpa using this
    rw [e]
    simp only [Res.bind_ok, List.length_nil]
    cases p; simp_all [isStar, statVal, countVal, countArgs, widthText, precText]
  | some w =>
    obtain ⟨hok, hne⟩ := hw w rfl
    have hl := hlen w rfl
    cases w with
    | star v =>
      simp only [widthText, precText, Count.text, List.cons_append, List.nil_append] at h
      simp only [parse_width, h.load_head, Res.bind_ok, if_true]
      cases p; simp_all [isStar, statVal, countVal, countArgs, widthText, precText, widthText, precText, Count.text]
    | digits ds =>
      simp only [widthText, precText, Count.text] at h hl
      have hne := hne ds rfl
      have := prnf_atoi_eq (ds := ds) (rest := rest) strBound a 0 h hok.1 hr hl hok.2
      have e : prnf_atoi m strBound a 0 = .ok ((decVal ds : Nat), a + ds.length) := by simpa [decVal] using this
      cases ds with
      | nil => exact absurd rfl hne
      | cons d ds =>
        simp only [List.cons_append] at h
        have hd : d ≠ 42 := by
          rintro rfl; exact absurd (hok.1 42 (by simp)) (by decide)
        simp only [parse_width, h.load_head, Res.bind_ok, if_neg hd, e]
        cases p; simp_all [isStar, statVal, countVal, countArgs, widthText, precText, widthText, precText, Count.text]

theorem parse_prec_eq {m : Mem} {a : Addr} {p : Placeholder} {w : Option Count} {rest : List Byte}
    (h : Holds m a (precText w ++ rest)) (hr : Hd (AfterPrec w) rest)
    (hw : ∀ x, w = some x → x.Ok) (hp : p.prec = 0 ∧ p.prec_is_dynamic = false ∧ p.prec_specified = false)
    (hlen : ∀ x, w = some x → x.text.length < strBound) :
    parse_prec m a p = .ok ({ p with
      prec_specified := w.isSome
      prec := statVal w
      prec_is_dynamic := isStar w },
      a + (precText w).length) := by
  obtain ⟨p1, p2, p3⟩ := hp
  cases w with
  | none =>
    simp only [widthText, precText, List.nil_append] at h
    obtain ⟨b, t, rfl, h4⟩ := hr
    simp only [parse_prec, h.load_head, Res.bind_ok, if_neg h4]
    cases p; simp_all [isStar, statVal, countVal, countArgs, widthText, precText]
  | some w =>
    have hok := hw w rfl
    have hl := hlen w rfl
    cases w with
    | star v =>
      simp only [widthText, precText, Count.text, List.cons_append, List.nil_append] at h
      have h2 := (Holds.cons_iff.1 h).2
      simp only [parse_prec, h.load_head, Res.bind_ok, if_true, h2.load_head]
      cases p; simp_all [isStar, statVal, countVal, countArgs, widthText, precText, widthText, precText, Count.text]
    | digits ds =>
      simp only [widthText, precText, Count.text, List.cons_append] at h hl
      have h2 := (Holds.cons_iff.1 h).2
      have := prnf_atoi_eq (ds := ds) (rest := rest) strBound (a + 1) 0 h2 hok.1 (hr.mono fun b h => h.1) hl hok.2
      have e : prnf_atoi m strBound (a + 1) 0 = .ok ((decVal ds : Nat), a + 1 + ds.length) := by simpa [decVal] using this
      obtain ⟨x, t, hx, hx'⟩ : Hd (fun b => b ≠ 42) (ds ++ rest) := by
        cases ds with
        | nil => exact hr.mono fun b h => h.2 rfl
        | cons d ds =>
          refine ⟨d, ds ++ rest, rfl, ?_⟩
          rintro rfl
          exact absurd (hok.1 42 (by simp)) (by decide)
      have h3 := h2
      rw [hx] at h3
      simp only [parse_prec, h.load_head, Res.bind_ok, if_true, h3.load_head, if_neg hx', e]
      have e2 : a + 1 + (ds.length : Int) = a + ((46 :: ds : List Byte).length : Nat) := by simp; omega
      rw [e2]
      cases p; simp_all [isStar, statVal, countVal, countArgs, widthText, precText, widthText, precText, Count.text]

theorem parse_size_eq {m : Mem} {a : Addr} {p : Placeholder} {len : LenMod} {rest : List Byte}
    (h : Holds m a (len.text ++ rest)) (hr : Hd (AfterLen len) rest) (hp : p.size_modifier = 4) :
    parse_size m a p = .ok ({ p with size_modifier := len.bytes }, a + len.text.length) := by
  obtain ⟨b, t, rfl, hb⟩ := hr
  cases len <;> simp only [LenMod.text, List.cons_append, List.nil_append] at h
  case none =>
    obtain ⟨h1, h2, h3, h4⟩ := hb
    simp [parse_size, h.load_head, h1, h2, h3, h4, LenMod.text, LenMod.bytes, ← hp]
  all_goals have hh := (Holds.cons_iff.1 h).2
  case hh => simp [parse_size, h.load_head, hh.load_head, LenMod.text, LenMod.bytes]
  case h => simp [parse_size, h.load_head, hh.load_head, LenMod.text, LenMod.bytes, show ¬ b = 104 from hb]
  case l => simp [parse_size, h.load_head, hh.load_head, LenMod.text, LenMod.bytes, show ¬ b = 108 from hb]
  case ll => simp [parse_size, h.load_head, hh.load_head, LenMod.text, LenMod.bytes]
  case z => simp [parse_size, h.load_head, LenMod.text, LenMod.bytes]
  case t => simp [parse_size, h.load_head, LenMod.text, LenMod.bytes]

/-- The characters of a placeholder after `%`. -/
def Conv.tailText (c : Conv) : List Byte :=
  c.flags.map Flag.char ++ widthText c.width ++
    precText c.prec ++ c.len.text ++ [c.letter]

theorem parse_placeholder_eq {m : Mem} {a : Addr} {c : Conv} {more : List Byte} (hc : c.Typed)
    (h : Holds m a (c.tailText ++ more)) (hlen : c.tailText.length < strBound) :
    parse_placeholder m a = .ok (c.parsed, a + c.tailText.length) := by
  have hlen' : c.flags.length + (widthText c.width).length +
      (precText c.prec).length + c.len.text.length + 1 < strBound := by
    simp [Conv.tailText] at hlen; omega
  have e : c.tailText ++ more = c.flags.map Flag.char ++ (widthText c.width ++
      (precText c.prec ++ (c.len.text ++ c.letter :: more))) := by
    simp [Conv.tailText, List.append_assoc]
  rw [e] at h
  obtain ⟨-, h3⟩ := Holds.append_iff.1 h
  obtain ⟨-, h2⟩ := Holds.append_iff.1 h3
  obtain ⟨-, h1⟩ := Holds.append_iff.1 h2
  obtain ⟨-, h0⟩ := Holds.append_iff.1 h1
  rw [List.length_map] at h0 h1 h2 h3
  simp only [parse_placeholder]
  rw [parse_flags_eq strBound a {} h (hd_width hc.ends hc.numbers more) (by omega)]
  simp only [Res.bind_ok, applyFlags_eq]
  rw [parse_width_eq h3 (hd_prec hc.ends more) (fun x hx => ⟨(hc.width x hx).1, fun ds e => ((hc.width x hx).2.2 ds e).1⟩) ⟨rfl, rfl⟩
    (fun x hx => by simp only [hx, widthText] at hlen'; omega)]
  simp only [Res.bind_ok]
  rw [parse_prec_eq h2 (hd_len hc.ends more) hc.prec ⟨rfl, rfl, rfl⟩ (fun x hx => by simp only [hx, precText, List.length_cons] at hlen'; omega)]
  simp only [Res.bind_ok]
  rw [parse_size_eq h1 (hd_letter hc.ends more) rfl]
  simp only [Res.bind_ok]
  rw [h0.load_head, Res.bind_ok, hc.letter.type]
  congr 2
  simp [Conv.tailText]; omega

/-! ### Arguments -/

/-- The argument as it is stored in the union. -/
def Value.varg : Value → Varg
  | dec v => .bits (v % 2 ^ 64).toNat
  | udec v => .bits v
  | hex v => .bits v
  | bin v => .bits v
  | chr v => .c (UInt8.ofNat (v % 256).toNat)
  | str a _ => .str a
  | flt x => .f x.toFloat
  | eng x _ => .f x.toFloat
  | other => .unset

theorem toInt32_of' {v : Int} (h : INT_MIN ≤ v) (h' : v ≤ INT_MAX) : toInt32 (v % 4294967296).toNat = v := by
  simp only [toInt32, INT_MIN, INT_MAX] at *
  split <;> omega

theorem toInt32_of {v : Int} (h : INT_MIN ≤ v) (h' : v ≤ INT_MAX) : toInt32 (v % 2 ^ 32).toNat = v := by
  simp only [toInt32, INT_MIN, INT_MAX] at *
  split <;> omega

/-- The second half of `read_dynamic`. -/
def dynP (p : Placeholder) (va : List VArg) : Res (Placeholder × List VArg) :=
  if p.prec_is_dynamic then do
    let (n, va) ← va_int va
    .ok ({ p with prec := toInt32 n }, va)
  else .ok (p, va)

/-- The first half of `read_dynamic`. -/
def dynW (p : Placeholder) (va : List VArg) : Res (Placeholder × List VArg) :=
  if p.width_is_dynamic then do
    let (w, va) ← va_int va
    if toInt32 w < 0 then
      let w ← ckInt (-toInt32 w)
      .ok ({ p with width := w, flag_minus := true }, va)
    else .ok ({ p with width := toInt32 w }, va)
  else .ok (p, va)

theorem read_dynamic_split (p : Placeholder) (va : List VArg) :
    read_dynamic p va = (dynW p va >>= fun x => dynP x.1 x.2) := by
  unfold read_dynamic dynW
  by_cases h : p.width_is_dynamic = true
  · simp only [h, if_true]
    cases va_int va with
    | ok r =>
      obtain ⟨n, va'⟩ := r
      simp only [Res.bind_ok]
      by_cases hn : toInt32 n < 0
      · simp only [hn, if_true]
        cases ckInt (-toInt32 n) <;> rfl
      · simp only [hn, if_false]; rfl
    | ub w => rfl
    | fuel => rfl
    | env w => rfl
  · simp only [h]; rfl

theorem dynP_eq {c : Conv} (hc : c.Typed) (q : Placeholder) (va : List VArg) (h1 : q.prec_is_dynamic = isStar c.prec)
    (h2 : q.prec = statVal c.prec) : dynP q (countArgs c.prec ++ va) = .ok ({ q with prec := countVal c.prec }, va) := by
  cases hp : c.prec with
  | none => rw [hp] at h1 h2; cases q; simp_all [dynP, isStar, statVal, countVal, countArgs]
  | some p =>
    cases p with
    | digits ds => rw [hp] at h1 h2; cases q; simp_all [dynP, isStar, statVal, countVal, countArgs, Count.args, Count.val]
    | star v =>
      rw [hp] at h1
      have := hc.prec _ hp
      simp [dynP, h1, isStar, countArgs, Count.args, va_int, countVal, Count.val, toInt32_of' this.1 this.2]

theorem dynW_eq {c : Conv} (hc : c.Typed) (va : List VArg) :
    dynW c.parsed (countArgs c.width ++ va) = .ok ({ c.parsed with width := c.minWidth, flag_minus := c.left }, va) := by
  cases hw : c.width with
  | none => simp [dynW, Conv.parsed, hw, isStar, statVal, countArgs, Conv.left, Conv.minWidth]
  | some w =>
    obtain ⟨h1, h2, h3⟩ := hc.width w hw
    cases w with
    | digits ds => simp [dynW, Conv.parsed, hw, isStar, statVal, countArgs, Count.args, Count.val, Conv.left, Conv.minWidth]
    | star v =>
      simp only [Count.val] at h2
      by_cases hneg : v < 0
      · have : ckInt (-v) = .ok (-v) := ckInt_ok (by simp only [INT_MIN]; omega) (by omega)
        simp [dynW, Conv.parsed, hw, isStar, statVal, countArgs, Count.args, Count.val, Conv.left, Conv.minWidth, va_int,
          toInt32_of' h1.1 h1.2, hneg, this]
        omega
      · simp [dynW, Conv.parsed, hw, isStar, statVal, countArgs, Count.args, Count.val, Conv.left, Conv.minWidth, va_int,
          toInt32_of' h1.1 h1.2, hneg]
        omega

theorem read_dynamic_eq {c : Conv} (hc : c.Typed) (va : List VArg) :
    read_dynamic c.parsed (countArgs c.width ++ (countArgs c.prec ++ va)) = .ok (c.ph, va) := by
  rw [read_dynamic_split, dynW_eq hc, Res.bind_ok, dynP_eq hc _ _ rfl rfl]
  rfl

theorem conv_args (c : Conv) (va : List VArg) :
    c.args ++ va = countArgs c.width ++ (countArgs c.prec ++ (c.value.args c.len ++ va)) := by
  simp only [Conv.args, List.append_assoc]; rfl

theorem read_varg_eq {c : Conv} (hc : c.Typed) (va : List VArg) :
    read_varg c.parsed (c.args ++ va) = .ok (c.ph, c.value.varg, va) := by
  have hv := hc.value
  rw [read_varg, conv_args, read_dynamic_eq hc]
  simp only [Res.bind_ok]
  have hty : c.ph.type = c.value.ty := rfl
  have hsz : c.ph.size_modifier = c.len.bytes := rfl
  cases hval : c.value with
  | dec v =>
    simp only [hval] at hv
    simp only [hty, hval, Value.ty, hsz, Value.args]
    by_cases h8 : c.len.bytes = 8
    · simp only [h8, if_true, List.cons_append, List.nil_append, va_llong, Res.bind_ok, Value.varg]
    · rw [if_neg h8] at hv
      simp only [h8, if_false, List.cons_append, List.nil_append, va_int, Res.bind_ok, Value.varg]
      rw [toInt32_of (by simp only [INT_MIN]; omega) (by simp only [INT_MAX]; omega)]
  | udec v =>
    simp only [hval] at hv
    simp only [hty, hval, Value.ty, hsz, Value.args]
    by_cases h8 : c.len.bytes = 8
    · rw [if_pos h8] at hv
      simp only [h8, if_true, List.cons_append, List.nil_append, va_llong, Res.bind_ok, Value.varg]
      congr 4; omega
    · rw [if_neg h8] at hv
      simp only [h8, if_false, List.cons_append, List.nil_append, va_int, Res.bind_ok, Value.varg]
      congr 4; omega
  | hex v =>
    simp only [hval] at hv
    simp only [hty, hval, Value.ty, hsz, Value.args]
    by_cases h8 : c.len.bytes = 8
    · rw [if_pos h8] at hv
      simp only [h8, if_true, List.cons_append, List.nil_append, va_llong, Res.bind_ok, Value.varg]
      congr 4; omega
    · rw [if_neg h8] at hv
      simp only [h8, if_false, List.cons_append, List.nil_append, va_int, Res.bind_ok, Value.varg]
      congr 4; omega
  | bin v =>
    simp only [hval] at hv
    simp only [hty, hval, Value.ty, hsz, Value.args]
    by_cases h8 : c.len.bytes = 8
    · rw [if_pos h8] at hv
      simp only [h8, if_true, List.cons_append, List.nil_append, va_llong, Res.bind_ok, Value.varg]
      congr 4; omega
    · rw [if_neg h8] at hv
      simp only [h8, if_false, List.cons_append, List.nil_append, va_int, Res.bind_ok, Value.varg]
      congr 4; omega
  | chr v =>
    simp only [hty, hval, Value.ty, Value.args, List.cons_append, List.nil_append, va_int, Res.bind_ok, Value.varg]
    congr 5; omega
  | str a l => simp only [hty, hval, Value.ty, Value.args, List.cons_append, List.nil_append, Value.varg]
  | flt x => simp only [hty, hval, Value.ty, Value.args, List.cons_append, List.nil_append, Value.varg]
  | eng x j => simp only [hty, hval, Value.ty, Value.args, List.cons_append, List.nil_append, Value.varg]
  | other => simp only [hty, hval, Value.ty, Value.args, List.nil_append, Value.varg]

end CStr
