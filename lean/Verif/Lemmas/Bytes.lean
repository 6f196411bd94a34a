import Verif.Spec.Buf
import Verif.Lemmas.Write
/-! Little endian encoding, writing inside a held range, header fields. -/
namespace CStr

theorem leBytes_length (k n : Nat) : (leBytes k n).length = k := by
  induction k generalizing n with
  | zero => rfl
  | succ k ih => simp [leBytes, ih]

theorem leVal_leBytes (k n : Nat) : leVal (leBytes k n) = n % 256 ^ k := by
  induction k generalizing n with
  | zero => simp [leBytes, leVal, Nat.mod_one]
  | succ k ih =>
    simp only [leBytes, leVal, ih]
    rw [Nat.pow_succ', Nat.mod_mul]
    have : (UInt8.ofNat (n % 256)).toNat = n % 256 := by
      simp
    rw [this]

theorem toInt32_ofInt32 {x : Int} (h1 : INT_MIN ≤ x) (h2 : x ≤ INT_MAX) : toInt32 (ofInt32 x) = x := by
  simp only [INT_MIN, INT_MAX] at h1 h2
  simp only [toInt32]
  split
  · next h => simp only [ofInt32] at h ⊢; omega
  · next h => simp only [ofInt32] at h ⊢; omega

theorem toInt32_range {n : Nat} (h : n < 4294967296) : INT_MIN ≤ toInt32 n ∧ toInt32 n ≤ INT_MAX := by
  simp only [toInt32, INT_MIN, INT_MAX]
  split <;> omega

theorem toInt32_nat {n : Nat} (h : (n : Int) ≤ INT_MAX) : toInt32 n = n := by
  simp only [INT_MAX] at h
  simp only [toInt32]
  rw [if_pos (by omega)]

theorem ofInt32_nat {n : Nat} (h : (n : Int) ≤ INT_MAX) : ofInt32 n = n := by
  simp only [INT_MAX] at h
  simp only [ofInt32]; omega

theorem Holds.writable {m : Mem} {a : Addr} {l : List Byte} (h : Holds m a l) (hp : 0 < a)
    (ht : a + l.length ≤ litBase) : Writable m a l.length := by
  intro i hi
  have := h i hi
  simp only [rd] at this
  rw [if_neg (by omega), if_neg (by omega)] at this
  exact ⟨by omega, by omega, by rw [this]; rfl⟩

/-- Overwriting the middle part of a held range. -/
theorem Holds.put_mid {m : Mem} {a : Addr} {X Y Y' Z : List Byte} (h : Holds m a (X ++ Y ++ Z))
    (hl : Y'.length = Y.length) (hp : 0 < a) (ht : a + (X ++ Y ++ Z).length ≤ litBase) :
    Holds (put m (a + X.length) Y') a (X ++ Y' ++ Z) := by
  have hw := h.writable hp ht
  rw [Holds.append_iff, Holds.append_iff] at h ⊢
  obtain ⟨⟨h1, h2⟩, h3⟩ := h
  refine ⟨⟨holds_put_outside h1 (by omega), holds_put ?_⟩, ?_⟩
  · have := hw.sub X.length Y.length (by simp)
    rw [hl]; exact this
  · have : ((X ++ Y').length : Int) = (X ++ Y).length := by simp [hl]
    rw [this]
    apply holds_put_outside h3
    right
    simp only [List.length_append]; omega

/-- `m'` differs from `m` at most in the `n` bytes from `p`. -/
def Within (m m' : Mem) (p : Addr) (n : Nat) : Prop := ∀ a, ¬ InRange p n a → m' a = m a

theorem Within.refl (m : Mem) (p : Addr) (n : Nat) : Within m m p n := fun _ _ => rfl

theorem Within.trans {m m' m'' : Mem} {p : Addr} {n : Nat} (h : Within m m' p n) (h' : Within m' m'' p n) :
    Within m m'' p n := fun a ha => (h' a ha).trans (h a ha)

theorem within_put {m : Mem} {a : Addr} {l : List Byte} {p : Addr} {n : Nat} (h1 : p ≤ a)
    (h2 : a + l.length ≤ p + n) : Within m (put m a l) p n := by
  intro x hx
  apply put_outside
  simp only [InRange] at hx; omega

theorem Within.holds {m m' : Mem} {p : Addr} {n : Nat} (h : Within m m' p n) {a : Addr} {l : List Byte}
    (hh : Holds m a l) (hd : l = [] ∨ a + l.length ≤ p ∨ p + n ≤ a) : Holds m' a l := by
  rcases hd with rfl | hd
  · exact Holds.nil _ _
  · apply hh.congr
    intro i hi
    apply h
    simp only [InRange]; omega

/-- The storage of a buffer as one list: header fields, then `rest` (the bytes from `cstr` on). The `size` field is not
related to `rest` here, so that this also describes the states inside an operation. -/
structure Raw (m : Mem) (p : Addr) (sz cap : Nat) (al : Alloc) (rest : List Byte) : Prop where
  pos : 0 < p
  aligned : p % 8 = 0
  top : p + 24 + rest.length ≤ litBase
  szMax : (sz : Int) ≤ INT_MAX
  capMax : (cap : Int) ≤ INT_MAX
  app : al.app < 2 ^ 64
  fn : al.fn < 2 ^ 64
  holds : Holds m p (hdrBytes sz cap al ++ rest)

theorem hdrBytes_length (sz cap : Nat) (al : Alloc) : (hdrBytes sz cap al).length = 24 := by
  simp [hdrBytes, leBytes_length]

namespace Raw
variable {m : Mem} {p : Addr} {sz cap : Nat} {al : Alloc} {rest : List Byte}

theorem checkPtr (h : Raw m p sz cap al rest) : checkPtr p = .ok () := by
  have h1 := h.pos
  have h2 := h.aligned
  simp only [CStr.checkPtr]
  rw [if_neg (by omega)]

/-- The bytes from `cstr` on. -/
theorem body (h : Raw m p sz cap al rest) : Holds m (cstrOf p) rest := by
  have := (Holds.append_iff.1 h.holds).2
  rw [hdrBytes_length] at this
  exact this

theorem writable (h : Raw m p sz cap al rest) : Writable m p (24 + rest.length) := by
  have := h.holds.writable h.pos (by
    have := h.top
    simp only [List.length_append, hdrBytes_length]; omega)
  simpa only [List.length_append, hdrBytes_length] using this

theorem getField (h : Raw m p sz cap al rest) {A B C : List Byte} (e : hdrBytes sz cap al ++ rest = A ++ B ++ C) :
    getField m p A.length B.length = .ok (leVal B) := by
  have hh := h.holds
  rw [e, Holds.append_iff, Holds.append_iff] at hh
  simp [CStr.getField, h.checkPtr, readBytes_eq hh.1.2]

theorem getSize (h : Raw m p sz cap al rest) : getSize m p = .ok sz := by
  have := h.getField (A := []) (B := leBytes 4 sz)
    (C := leBytes 4 cap ++ leBytes 8 al.app ++ leBytes 8 al.fn ++ rest) (by simp [hdrBytes])
  simp only [List.length_nil, leBytes_length, leVal_leBytes] at this
  have h1 := h.szMax
  have h2 : sz % 256 ^ 4 = sz := by
    apply Nat.mod_eq_of_lt; simp only [INT_MAX] at h1; omega
  simp [CStr.getSize, this, h2, toInt32_nat h1]

theorem getCap (h : Raw m p sz cap al rest) : getCap m p = .ok cap := by
  have := h.getField (A := leBytes 4 sz) (B := leBytes 4 cap)
    (C := leBytes 8 al.app ++ leBytes 8 al.fn ++ rest) (by simp [hdrBytes])
  simp only [leBytes_length, leVal_leBytes] at this
  have h1 := h.capMax
  have h2 : cap % 256 ^ 4 = cap := by
    apply Nat.mod_eq_of_lt; simp only [INT_MAX] at h1; omega
  simp [CStr.getCap, this, h2, toInt32_nat h1]

theorem getFn (h : Raw m p sz cap al rest) : CStr.getField m p 16 8 = .ok al.fn := by
  have := h.getField (A := leBytes 4 sz ++ leBytes 4 cap ++ leBytes 8 al.app) (B := leBytes 8 al.fn)
    (C := rest) (by simp [hdrBytes])
  simp only [leBytes_length, leVal_leBytes, List.length_append] at this
  have h1 := h.fn
  rw [this, Nat.mod_eq_of_lt (by omega)]

theorem getAlloc (h : Raw m p sz cap al rest) : getAlloc m p = .ok al := by
  have := h.getField (A := leBytes 4 sz ++ leBytes 4 cap) (B := leBytes 8 al.app)
    (C := leBytes 8 al.fn ++ rest) (by simp [hdrBytes])
  simp only [leBytes_length, leVal_leBytes, List.length_append] at this
  have h1 := h.app
  have h2 : al.app % 256 ^ 8 = al.app := Nat.mod_eq_of_lt (by omega)
  rw [h2] at this
  simp [CStr.getAlloc, this, h.getFn]

theorem is_dynamic (h : Raw m p sz cap al rest) : buf_is_dynamic m p = .ok (decide (al.fn ≠ 0)) := by
  simp [buf_is_dynamic, h.getFn]

/-- `buf->size = v`. -/
theorem setSize (h : Raw m p sz cap al rest) {v : Nat} (hv : (v : Int) ≤ INT_MAX) :
    ∃ m', setSize m p v = .ok m' ∧ Raw m' p v cap al rest ∧ Within m m' p (24 + rest.length) := by
  have hh : Holds m p ([] ++ leBytes 4 sz ++ (leBytes 4 cap ++ leBytes 8 al.app ++ leBytes 8 al.fn ++ rest)) := by
    have := h.holds
    simpa [hdrBytes] using this
  have hm := hh.put_mid (Y' := leBytes 4 v) (by simp [leBytes_length]) h.pos (by
    have := h.top
    simp only [List.length_append, leBytes_length, List.length_nil]; omega)
  refine ⟨put m p (leBytes 4 v), ?_, ⟨h.pos, h.aligned, h.top, hv, h.capMax, h.app, h.fn, ?_⟩, ?_⟩
  · simp only [CStr.setSize, setField, h.checkPtr, Res.bind_ok, ofInt32_nat hv]
    rw [show p + ((0 : Nat) : Int) = p by omega]
    apply writeBytes_eq
    exact h.writable.mono (by simp [leBytes_length]; omega)
  · simpa [hdrBytes] using hm
  · exact within_put (by omega) (by simp [leBytes_length]; omega)

/-- `buf->capacity = v`. -/
theorem setCap (h : Raw m p sz cap al rest) {v : Nat} (hv : (v : Int) ≤ INT_MAX) :
    ∃ m', setCap m p v = .ok m' ∧ Raw m' p sz v al rest ∧ Within m m' p (24 + rest.length) := by
  have hh : Holds m p (leBytes 4 sz ++ leBytes 4 cap ++ (leBytes 8 al.app ++ leBytes 8 al.fn ++ rest)) := by
    have := h.holds
    simpa [hdrBytes] using this
  have hm := hh.put_mid (Y' := leBytes 4 v) (by simp [leBytes_length]) h.pos (by
    have := h.top
    simp only [List.length_append, leBytes_length]; omega)
  simp only [leBytes_length] at hm
  refine ⟨put m (p + 4) (leBytes 4 v), ?_, ⟨h.pos, h.aligned, h.top, h.szMax, hv, h.app, h.fn, ?_⟩, ?_⟩
  · simp only [CStr.setCap, setField, h.checkPtr, Res.bind_ok, ofInt32_nat hv]
    apply writeBytes_eq
    exact h.writable.sub 4 _ (by simp [leBytes_length]; omega)
  · simpa [hdrBytes] using hm
  · exact within_put (by omega) (by simp [leBytes_length]; omega)

/-- Writing inside the content area. -/
theorem write {X Y Z : List Byte} (h : Raw m p sz cap al (X ++ Y ++ Z)) {Y' : List Byte} (hl : Y'.length = Y.length) :
    Writable m (cstrOf p + X.length) Y'.length ∧
    Raw (put m (cstrOf p + X.length) Y') p sz cap al (X ++ Y' ++ Z) ∧
    Within m (put m (cstrOf p + X.length) Y') p (24 + (X ++ Y ++ Z).length) := by
  have hw := h.writable
  have hm := (show Holds m p ((hdrBytes sz cap al ++ X) ++ Y ++ Z) by
    have := h.holds
    simpa using this).put_mid hl h.pos (by
      have := h.top
      simp only [List.length_append, hdrBytes_length] at this ⊢; omega)
  have e : p + ((hdrBytes sz cap al ++ X).length : Int) = cstrOf p + X.length := by
    simp only [cstrOf, hdrLen, List.length_append, hdrBytes_length]; omega
  rw [e] at hm
  refine ⟨?_, ⟨h.pos, h.aligned, ?_, h.szMax, h.capMax, h.app, h.fn, by simpa using hm⟩, ?_⟩
  · have := hw.sub (24 + X.length) Y'.length (by simp only [List.length_append]; omega)
    have e2 : p + ((24 + X.length : Nat) : Int) = cstrOf p + X.length := by
      simp only [cstrOf, hdrLen]; omega
    rwa [e2] at this
  · have := h.top
    simp only [List.length_append, hl] at this ⊢; omega
  · apply within_put
    · simp only [cstrOf, hdrLen]; omega
    · simp only [cstrOf, hdrLen, List.length_append, hl]; omega

theorem store {X Z : List Byte} {y : Byte} (h : Raw m p sz cap al (X ++ y :: Z)) (c : Byte) :
    ∃ m', store m (cstrOf p + X.length) c = .ok m' ∧ Raw m' p sz cap al (X ++ c :: Z) ∧
      Within m m' p (24 + (X ++ y :: Z).length) := by
  have h' : Raw m p sz cap al (X ++ [y] ++ Z) := by simpa using h
  obtain ⟨h1, h2, h3⟩ := h'.write (Y' := [c]) rfl
  refine ⟨_, store_eq c (by simpa using h1), by simpa using h2, by simpa using h3⟩

theorem memmove {X Y Z : List Byte} (h : Raw m p sz cap al (X ++ Y ++ Z)) {src : Addr} {l : List Byte}
    (hs : Holds m src l) (hl : l.length = Y.length) :
    ∃ m', memmove m (cstrOf p + X.length) src l.length = .ok m' ∧ Raw m' p sz cap al (X ++ l ++ Z) ∧
      Within m m' p (24 + (X ++ Y ++ Z).length) := by
  obtain ⟨h1, h2, h3⟩ := h.write hl
  exact ⟨_, memmove_eq hs h1, h2, h3⟩

theorem memcpy {X Y Z : List Byte} (h : Raw m p sz cap al (X ++ Y ++ Z)) {src : Addr} {l : List Byte}
    (hs : Holds m src l) (hl : l.length = Y.length)
    (hd : l = [] ∨ cstrOf p + X.length + l.length ≤ src ∨ src + l.length ≤ cstrOf p + X.length) :
    ∃ m', memcpy m (cstrOf p + X.length) src l.length = .ok m' ∧ Raw m' p sz cap al (X ++ l ++ Z) ∧
      Within m m' p (24 + (X ++ Y ++ Z).length) := by
  obtain ⟨h1, h2, h3⟩ := h.write hl
  exact ⟨_, memcpy_eq hs h1 hd, h2, h3⟩

/-- `empty_buf`. -/
theorem empty {y : Byte} {Z : List Byte} (h : Raw m p sz cap al (y :: Z)) :
    ∃ m', empty_buf m p = .ok m' ∧ Raw m' p 0 cap al (0 :: Z) ∧ Within m m' p (24 + (y :: Z).length) := by
  obtain ⟨m1, e1, r1, w1⟩ := h.setSize (v := 0) (by simp [INT_MAX])
  obtain ⟨m2, e2, r2, w2⟩ := r1.store (X := []) 0
  refine ⟨m2, ?_, by simpa using r2, w1.trans (by simpa using w2)⟩
  simp only [List.length_nil, Int.natCast_zero, Int.add_zero] at e2
  simp only [Int.natCast_zero] at e1
  simp [empty_buf, e1, e2]

theorem view_of (h : Raw m p sz cap al rest) : strview_of_buf m p = .ok ⟨p + 24, sz⟩ := by
  have := h.pos
  simp only [strview_of_buf]
  rw [if_pos (by omega), h.getSize]
  rfl

theorem contains (h : Raw m p sz cap al rest) (v : View) :
    buf_contains_str m p v = .ok (decide (cstrOf p ≤ v.data ∧ v.data < cstrOf p + sz)) := by
  simp [buf_contains_str, h.getSize]

theorem congr (h : Raw m p sz cap al rest) {m' : Mem} (he : ∀ a, InRange p (24 + rest.length) a → m' a = m a) :
    Raw m' p sz cap al rest := by
  refine ⟨h.pos, h.aligned, h.top, h.szMax, h.capMax, h.app, h.fn, h.holds.congr ?_⟩
  intro i hi
  apply he
  simp only [List.length_append, hdrBytes_length] at hi
  simp only [InRange]; omega

end Raw

theorem leBytes_mod (k n : Nat) : leBytes k (n % 256 ^ k) = leBytes k n := by
  induction k generalizing n with
  | zero => rfl
  | succ k ih =>
    simp only [leBytes]
    have h1 : n % 256 ^ (k + 1) % 256 = n % 256 := by
      rw [Nat.pow_succ', Nat.mod_mul_right_mod]
    have h2 : n % 256 ^ (k + 1) / 256 = n / 256 % 256 ^ k := by
      rw [Nat.pow_succ', Nat.mod_mul_right_div_self]
    rw [h1, h2, ih]

/-- A well-formed buffer as a raw block. -/
theorem BufAt.raw {s : St} {p : Addr} {b : Buf} (h : BufAt s p b) :
    ∃ J : List Byte, b.data.length + J.length = b.cap ∧ Raw s.mem p b.data.length b.cap b.al (b.data ++ 0 :: J) := by
  have hlen := h.len
  have hcap := h.cap
  let J : List Byte := (List.range (b.cap - b.data.length)).map
    fun i => (s.mem (p + ((25 + b.data.length + i : Nat) : Int))).getD 0
  have hJ : J.length = b.cap - b.data.length := by simp [J]
  refine ⟨J, by omega, ⟨h.pos, h.aligned, ?_, ?_, h.cap, h.app, h.fn, ?_⟩⟩
  · have := h.top
    simp only [storage] at this
    simp only [List.length_append, List.length_cons, hJ]; omega
  · omega
  · have e : hdrBytes b.data.length b.cap b.al ++ (b.data ++ 0 :: J) =
        (hdrBytes b.data.length b.cap b.al ++ b.data ++ [0]) ++ J := by simp
    rw [e, Holds.append_iff]
    refine ⟨h.holds, ?_⟩
    intro i hi
    have hm := h.mapped (25 + b.data.length + i) (by simp only [storage]; omega)
    have hp := h.pos
    have ht := h.top
    simp only [storage] at ht
    simp only [List.length_append, hdrBytes_length, List.length_cons, List.length_nil]
    have e2 : p + ((24 + b.data.length + (0 + 1) : Nat) : Int) + (i : Int) =
      p + ((25 + b.data.length + i : Nat) : Int) := by omega
    rw [e2]
    simp only [rd]
    rw [if_neg (by omega), if_neg (by omega)]
    simp only [J, List.getElem_map, List.getElem_range]
    obtain ⟨y, hy⟩ := Option.isSome_iff_exists.1 hm
    rw [hy]; rfl

/-- A raw block whose size field matches its content is a well-formed buffer. -/
theorem BufAt.of_raw {s : St} {p : Addr} {cap : Nat} {al : Alloc} {l J : List Byte}
    (h : Raw s.mem p l.length cap al (l ++ 0 :: J)) (hc : l.length + J.length = cap)
    (hl : al.fn ≠ 0 → s.live p = some ⟨storage cap, al⟩) : BufAt s p ⟨l, cap, al⟩ := by
  have ht := h.top
  simp only [List.length_append, List.length_cons] at ht
  refine ⟨h.pos, h.aligned, ?_, by simp only; omega, h.capMax, h.app, h.fn, ?_, ?_, hl⟩
  · simp only [storage]; omega
  · have := h.holds
    have e : hdrBytes l.length cap al ++ (l ++ 0 :: J) = (hdrBytes l.length cap al ++ l ++ [0]) ++ J := by simp
    rw [e, Holds.append_iff] at this
    exact this.1
  · intro i hi
    have := h.writable i (by
      simp only [storage] at hi
      simp only [List.length_append, List.length_cons]; omega)
    exact this.2.2

/-- Storing any size and reading it back. -/
theorem Raw.setSize_any {m : Mem} {p : Addr} {sz cap : Nat} {al : Alloc} {rest : List Byte} (h : Raw m p sz cap al rest) {v : Int} (h1 : INT_MIN ≤ v) (h2 : v ≤ INT_MAX) :
    ∃ l : List Byte, l.length = 4 ∧ CStr.setSize m p v = .ok (put m p l) ∧ CStr.getSize (put m p l) p = .ok v := by
  have hw : Writable m p (leBytes 4 (ofInt32 v)).length := h.writable.mono (by rw [leBytes_length]; omega)
  have hr := readBytes_eq (holds_put hw)
  rw [leBytes_length] at hr
  refine ⟨leBytes 4 (ofInt32 v), leBytes_length _ _, ?_, ?_⟩
  · simp only [CStr.setSize, setField, h.checkPtr, Res.bind_ok]
    rw [show p + ((0 : Nat) : Int) = p by omega]
    exact writeBytes_eq hw
  · have hlt : ofInt32 v % 256 ^ 4 = ofInt32 v := by
      apply Nat.mod_eq_of_lt
      simp only [INT_MIN, INT_MAX] at h1 h2
      simp only [ofInt32]; omega
    simp only [CStr.getSize, CStr.getField, h.checkPtr, Res.bind_ok]
    rw [show p + ((0 : Nat) : Int) = p by omega, hr, Res.bind_ok, Res.bind_ok, leVal_leBytes, hlt, toInt32_ofInt32 h1 h2]

end CStr
