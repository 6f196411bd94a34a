import Verif.Lemmas.Mem
/-! Lemmas about stores. -/
namespace CStr

/-- The `n` bytes from `a` are mapped user memory. -/
def Writable (m : Mem) (a : Addr) (n : Nat) : Prop :=
  ∀ i : Nat, i < n → 0 < a + i ∧ a + i < litBase ∧ (m (a + i)).isSome

/-- Memory `m` with the bytes `l` at `a`. -/
def put (m : Mem) (a : Addr) (l : List Byte) : Mem :=
  fun x => if a ≤ x ∧ x < a + l.length then l[(x - a).toNat]? else m x

theorem Writable.mono {m : Mem} {a : Addr} {n k : Nat} (h : Writable m a n) (hk : k ≤ n) : Writable m a k :=
  fun i hi => h i (by omega)

theorem Writable.sub {m : Mem} {a : Addr} {n : Nat} (h : Writable m a n) (i k : Nat) (hk : i + k ≤ n) :
    Writable m (a + i) k := by
  intro j hj
  have := h (i + j) (by omega)
  have e : a + (i : Int) + j = a + ((i + j : Nat) : Int) := by omega
  rw [e]; exact this

theorem put_nil (m : Mem) (a : Addr) : put m a [] = m := by
  funext x
  simp only [put, List.length_nil]
  rw [if_neg (by omega)]

theorem put_cons (m : Mem) (a : Addr) (b : Byte) (l : List Byte) :
    put m a (b :: l) = put (fun x => if x = a then some b else m x) (a + 1) l := by
  funext x
  simp only [put, List.length_cons]
  by_cases h1 : a ≤ x ∧ x < a + ((l.length + 1 : Nat) : Int)
  · rw [if_pos h1]
    by_cases h2 : x = a
    · subst h2
      rw [if_neg (by omega), if_pos rfl]
      simp
    · rw [if_pos (by omega)]
      have : (x - a).toNat = (x - (a + 1)).toNat + 1 := by omega
      rw [this, List.getElem?_cons_succ]
  · rw [if_neg h1, if_neg (by omega), if_neg (by omega)]

theorem put_outside {m : Mem} {a : Addr} {l : List Byte} {x : Addr} (h : x < a ∨ a + l.length ≤ x) :
    put m a l x = m x := by
  simp only [put]; rw [if_neg (by omega)]

theorem put_append (m : Mem) (a : Addr) (l r : List Byte) :
    put (put m a l) (a + l.length) r = put m a (l ++ r) := by
  funext x
  simp only [put, List.length_append]
  by_cases h1 : a + (l.length : Int) ≤ x ∧ x < a + l.length + r.length
  · rw [if_pos h1, if_pos (by omega), List.getElem?_append_right (by omega)]
    congr 1; omega
  · rw [if_neg h1]
    by_cases h2 : a ≤ x ∧ x < a + l.length
    · rw [if_pos h2, if_pos (by omega), List.getElem?_append_left (by omega)]
    · rw [if_neg h2, if_neg (by omega)]

theorem put_isSome (m : Mem) (a : Addr) (l : List Byte) (x : Addr)
    (h : Writable m a l.length) : (put m a l x).isSome = (m x).isSome := by
  simp only [put]
  split
  · next hx =>
    have := (h (x - a).toNat (by omega)).2.2
    have e : a + ((x - a).toNat : Int) = x := by omega
    rw [e] at this
    rw [this, List.getElem?_eq_getElem (by omega)]; rfl
  · rfl

theorem writable_put {m : Mem} {a : Addr} {l : List Byte} (h : Writable m a l.length) {b : Addr} {n : Nat} :
    Writable (put m a l) b n ↔ Writable m b n := by
  constructor
  · intro hw i hi
    have := hw i hi
    rw [put_isSome m a l _ h] at this; exact this
  · intro hw i hi
    have := hw i hi
    rw [put_isSome m a l _ h]; exact this

theorem store_eq {m : Mem} {a : Addr} (b : Byte) (h : Writable m a 1) :
    store m a b = .ok (put m a [b]) := by
  have := h 0 (by omega)
  simp only [Int.natCast_zero, Int.add_zero] at this
  rw [store, if_pos this, put_cons, put_nil]

theorem writeBytes_eq {m : Mem} {a : Addr} {l : List Byte} (h : Writable m a l.length) :
    writeBytes m a l = .ok (put m a l) := by
  induction l generalizing m a with
  | nil => simp [writeBytes, put_nil]
  | cons b l ih =>
    have h1 : Writable m a 1 := h.mono (by simp)
    simp only [writeBytes, store_eq b h1, Res.bind_ok]
    have h2 : Writable (put m a [b]) (a + 1) l.length := by
      rw [writable_put (by simpa using h1)]
      have := h.sub 1 l.length (by simp; omega)
      simpa using this
    rw [ih h2]
    have := put_append m a [b] l
    simp only [List.length_cons, List.length_nil] at this
    simpa using this

theorem rd_put_outside {m : Mem} {a : Addr} {l : List Byte} {x : Addr} (h : x < a ∨ a + l.length ≤ x) :
    rd (put m a l) x = rd m x := by
  simp only [rd, put_outside h]

theorem holds_put {m : Mem} {a : Addr} {l : List Byte} (h : Writable m a l.length) : Holds (put m a l) a l := by
  intro i hi
  obtain ⟨h1, h2, -⟩ := h i hi
  simp only [rd]
  rw [if_neg (by omega), if_neg (by omega)]
  simp only [put]
  rw [if_pos (by omega)]
  have : (a + (i : Int) - a).toNat = i := by omega
  rw [this, List.getElem?_eq_getElem hi]

theorem holds_put_outside {m : Mem} {a b : Addr} {l r : List Byte} (h : Holds m b r)
    (hd : b + r.length ≤ a ∨ a + l.length ≤ b) : Holds (put m a l) b r := by
  intro i hi
  rw [rd_put_outside (by omega)]
  exact h i hi

theorem Holds.congr {m m' : Mem} {a : Addr} {l : List Byte} (h : Holds m a l)
    (he : ∀ i : Nat, i < l.length → m' (a + i) = m (a + i)) : Holds m' a l := by
  intro i hi
  have := h i hi
  simp only [rd] at this ⊢
  rw [he i hi]; exact this

theorem memmove_eq {m : Mem} {d s : Addr} {l : List Byte} (hs : Holds m s l) (hd : Writable m d l.length) :
    memmove m d s l.length = .ok (put m d l) := by
  simp [memmove, readBytes_eq hs, writeBytes_eq hd]

theorem memcpy_eq {m : Mem} {d s : Addr} {l : List Byte} (hs : Holds m s l) (hd : Writable m d l.length)
    (hdis : l = [] ∨ d + l.length ≤ s ∨ s + l.length ≤ d) :
    memcpy m d s l.length = .ok (put m d l) := by
  rw [memcpy, if_neg, memmove_eq hs hd]
  rcases hdis with rfl | h
  · simp
  · omega

end CStr
