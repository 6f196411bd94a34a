import Verif.Spec.Pack
import Verif.Lemmas.BufLife
import Verif.Lemmas.IntText
/-! Lemmas on packed integers. -/
namespace CStr

theorem repr_length (h : Host) (k n : Nat) : (repr h k n).length = k := by
  cases h <;> simp [repr, leBytes_length]

theorem repr_ofRepr (h : Host) (l : List Byte) : repr h l.length (ofRepr h l) = l := by
  cases h with
  | little => exact leBytes_leVal rfl
  | big =>
    have := leBytes_leVal (l := l.reverse) rfl
    rw [List.length_reverse] at this
    simp only [repr, ofRepr, this, List.reverse_reverse]

theorem repr_ofRepr' (h : Host) {k : Nat} {l : List Byte} (e : l.length = k) : repr h k (ofRepr h l) = l := by
  subst e; exact repr_ofRepr h l

theorem ofRepr_repr (h : Host) {k n : Nat} (hn : n < 256 ^ k) : ofRepr h (repr h k n) = n := by
  cases h with
  | little => simp only [ofRepr, repr, leVal_leBytes, Nat.mod_eq_of_lt hn]
  | big => simp only [ofRepr, repr, List.reverse_reverse, leVal_leBytes, Nat.mod_eq_of_lt hn]

theorem leVal_lt (l : List Byte) : leVal l < 256 ^ l.length := by
  induction l with
  | nil => simp [leVal]
  | cons b l ih =>
    have h := b.toNat_lt
    simp only [leVal, List.length_cons, Nat.pow_succ]
    omega

theorem ofRepr_lt (h : Host) {k : Nat} {l : List Byte} (e : l.length = k) : ofRepr h l < 256 ^ k := by
  subst e
  cases h with
  | little => exact leVal_lt l
  | big => have := leVal_lt l.reverse; rwa [List.length_reverse] at this

theorem repr_word (h : Host) {w i : Nat} {l : List Byte} (hl : w * i + w ≤ l.length) :
    repr h w (word h w i l) = (l.drop (w * i)).take w := by
  rw [word]
  exact repr_ofRepr' h (by rw [List.length_take, List.length_drop]; omega)

theorem halves_reverse {l : List Byte} {w : Nat} (h : l.length = w + w) :
    ((l.drop w).take w).reverse ++ (l.take w).reverse = l.reverse := by
  have e : (l.drop w).take w = l.drop w := List.take_of_length_le (by rw [List.length_drop]; omega)
  rw [e, ← List.reverse_append, List.take_append_drop]

theorem repr_swap16 (h : Host) (x : Nat) : repr h 2 (xendian_swap16 h x) = (repr h 2 x).reverse := by
  have hl := repr_length h 2 x
  rw [xendian_swap16, repr_ofRepr' h (by rw [List.length_append, repr_length, repr_length]), repr_word h (by omega), repr_word h (by omega)]
  match hx : repr h 2 x, hl with
  | [a, b], _ => rfl

theorem repr_swap32 (h : Host) (x : Nat) : repr h 4 (xendian_swap32 h x) = (repr h 4 x).reverse := by
  have hl := repr_length h 4 x
  rw [xendian_swap32, repr_ofRepr' h (by rw [List.length_append, repr_length, repr_length]), repr_swap16, repr_swap16, repr_word h (by omega),
    repr_word h (by omega)]
  exact halves_reverse (w := 2) hl

theorem repr_swap64 (h : Host) (x : Nat) : repr h 8 (xendian_swap64 h x) = (repr h 8 x).reverse := by
  have hl := repr_length h 8 x
  rw [xendian_swap64, repr_ofRepr' h (by rw [List.length_append, repr_length, repr_length]), repr_swap32, repr_swap32, repr_word h (by omega),
    repr_word h (by omega)]
  exact halves_reverse (w := 4) hl

theorem repr_SWAP (h : Host) (t : IntTy) (n : Nat) : repr h t.width (xendian_SWAP h t n) = (repr h t.width n).reverse := by
  have h1 : ∀ n, repr h 1 n = (repr h 1 n).reverse := by
    intro n
    match hx : repr h 1 n, repr_length h 1 n with
    | [a], _ => rfl
  cases t
  · exact h1 n
  · exact h1 n
  · exact repr_swap16 h n
  · exact repr_swap16 h n
  · exact repr_swap32 h n
  · exact repr_swap32 h n
  · exact repr_swap64 h n
  · exact repr_swap64 h n

theorem swap_lt (h : Host) (t : IntTy) {n : Nat} (hn : n < 256 ^ t.width) : xendian_SWAP h t n < 256 ^ t.width := by
  cases t
  · exact hn
  · exact hn
  all_goals
    simp only [xendian_SWAP, IntTy.width, xendian_swap16, xendian_swap32, xendian_swap64]
    exact ofRepr_lt h (by rw [List.length_append, repr_length, repr_length])

theorem conv_lt (h : Host) (o : Order) (t : IntTy) {n : Nat} (hn : n < 256 ^ t.width) : xendian_conv h o t n < 256 ^ t.width := by
  cases h <;> cases o <;> simp only [xendian_conv] <;> first | exact hn | exact swap_lt _ _ hn

theorem pattern_lt (t : IntTy) (x : Int) : t.pattern x < 256 ^ t.width := by
  cases t <;> simp only [IntTy.pattern, IntTy.width] <;> omega

theorem leBytes_digits (k n : Nat) : leBytes k n = (List.range k).map fun i => UInt8.ofNat (n / 256 ^ i % 256) := by
  induction k generalizing n with
  | zero => rfl
  | succ k ih =>
    rw [leBytes, ih, List.range_succ_eq_map, List.map_cons, List.map_map]
    simp only [Nat.pow_zero, Nat.div_one, List.cons.injEq, true_and]
    apply List.map_congr_left
    intro i _
    simp only [Function.comp, Nat.pow_succ, Nat.div_div_eq_div_mul]
    rw [Nat.mul_comm 256]

theorem pattern_bytes (t : IntTy) (x : Int) : leBytes t.width (t.pattern x) = (List.range t.width).map (digit x) := by
  rw [leBytes_digits]
  apply List.map_congr_left
  intro i hi
  rw [List.mem_range] at hi
  simp only [digit]
  congr 1
  obtain ⟨c, hc⟩ : ∃ c, t.width = i + 1 + c := ⟨t.width - (i + 1), by omega⟩
  have hp : (256 ^ t.width : Nat) = 256 ^ i * (256 * 256 ^ c) := by rw [hc, Nat.pow_add, Nat.pow_succ, Nat.mul_assoc]
  have hpos : 0 < 256 ^ t.width := Nat.pow_pos (by omega)
  have hposi : 0 < 256 ^ i := Nat.pow_pos (by omega)
  have hx := Int.emod_add_mul_ediv x (256 ^ t.width : Nat)
  have h0 := Int.emod_nonneg x (b := (256 ^ t.width : Nat)) (by omega)
  simp only [IntTy.pattern]
  generalize x / (256 ^ t.width : Nat) = q at hx
  generalize hr : x % (256 ^ t.width : Nat) = r at hx h0
  obtain ⟨n, rfl⟩ := Int.eq_ofNat_of_zero_le h0
  rw [Int.toNat_natCast]
  have hA : (256 : Int) ^ i = ((256 ^ i : Nat) : Int) := by rw [Int.natCast_pow]; rfl
  rw [hA]
  clear hA hr hi hc hpos
  rw [hp] at hx
  clear hp h0
  generalize 256 ^ i = A at hx hposi ⊢
  generalize 256 ^ c = C at hx
  have e2 : x / (A : Int) = (n / A : Nat) + 256 * ((C : Int) * q) := by
    rw [← hx, Int.natCast_mul, Int.natCast_mul, Int.mul_assoc, Int.add_mul_ediv_left _ _ (by omega), Int.mul_assoc]
    rfl
  rw [e2, Int.add_mul_emod_self_left]
  omega

theorem value_pattern (t : IntTy) {x : Int} (h : t.InRange x) : t.value (t.pattern x) = x := by
  cases t <;> simp only [IntTy.InRange, IntTy.value, IntTy.pattern, IntTy.width, IntTy.signed] at h ⊢ <;>
    (try simp only [Bool.false_eq_true, false_and, if_false, true_and]) <;> (try split) <;> omega

theorem wire_length (o : Order) (t : IntTy) (x : Int) : (wire o t x).length = t.width := by
  cases o <;> simp [wire]

theorem repr_conv (h : Host) (o : Order) (t : IntTy) (x : Int) :
    repr h t.width (xendian_conv h o t (t.pattern x)) = wire o t x := by
  cases h <;> cases o <;> simp only [xendian_conv, repr_SWAP, wire, ← pattern_bytes] <;> simp only [repr, List.reverse_reverse]

theorem conv_wire (h : Host) (o : Order) (t : IntTy) (x : Int) :
    xendian_conv h o t (ofRepr h (wire o t x)) = t.pattern x := by
  have hlen := wire_length o t x
  have hl := conv_lt h o t (ofRepr_lt h hlen)
  have e : repr h t.width (xendian_conv h o t (ofRepr h (wire o t x))) = repr h t.width (t.pattern x) := by
    have hr := repr_ofRepr' h hlen
    cases h <;> cases o <;> simp only [xendian_conv, repr_SWAP, hr] <;> simp only [wire, ← pattern_bytes, repr, List.reverse_reverse]
  rw [← ofRepr_repr h hl, e, ofRepr_repr h (pattern_lt t x)]

theorem width_pos (t : IntTy) : 0 < t.width ∧ t.width ≤ 8 := by cases t <;> decide

theorem Sane.put {s : St} (hs : s.Sane) {a : Addr} {l : List Byte} (hw : Writable s.mem a l.length) :
    St.Sane { s with mem := put s.mem a l } := by
  refine ⟨⟨?_, hs.wf.disjoint⟩, hs.noFail⟩
  intro q b hq
  obtain ⟨h1, h2, h3, h4⟩ := hs.wf.block q b hq
  exact ⟨h1, h2, h3, fun i hi => by simp only [put_isSome _ _ _ _ hw]; exact h4 i hi⟩

theorem BufAt.put {s : St} {p : Addr} {b : Buf} (h : BufAt s p b) {a : Addr} {l : List Byte} (hw : Writable s.mem a l.length)
    (hd : a + l.length ≤ p ∨ p + storage b.cap ≤ a) : BufAt { s with mem := put s.mem a l } p b := by
  refine ⟨h.pos, h.aligned, h.top, h.len, h.cap, h.app, h.fn, ?_, ?_, h.heap⟩
  · apply holds_put_outside h.holds
    have := h.len
    simp only [List.length_append, hdrBytes_length, List.length_cons, List.length_nil, storage] at hd ⊢
    omega
  · intro i hi
    simp only [put_isSome _ _ _ _ hw]
    exact h.mapped i hi

end CStr
