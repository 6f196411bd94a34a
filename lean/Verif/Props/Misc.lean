import Verif.Props.Line
import Verif.Props.SubTrim
import Verif.Props.Find
import Verif.Props.Compare
import Verif.Lemmas.Write
/-! Properties C19-C21: dequoting, copying out, and memory safety of all view functions. -/
namespace CStr

/-! ### C19 -/

theorem Layers.split {q : Byte} {mid l : List Byte} {k : Nat} (h : Layers q mid k l) :
    ∃ a b, l = a ++ mid ++ b ∧ a.length = k ∧ b.length = k := by
  induction h with
  | zero => exact ⟨[], [], by simp⟩
  | succ h ih =>
    obtain ⟨a, b, rfl, h1, h2⟩ := ih
    exact ⟨q :: a, b ++ [q], by simp, by simp [h1], by simp [h2]⟩

/-- The number of layers is determined if nothing can be peeled off any more. -/
theorem Layers.unique {q : Byte} {mid mid' l : List Byte} {k k' : Nat} (h : Layers q mid k l)
    (h' : Layers q mid' k' l) (hm : ¬ (1 < mid.length ∧ mid.head? = some q ∧ mid.getLast? = some q))
    (hm' : ¬ (1 < mid'.length ∧ mid'.head? = some q ∧ mid'.getLast? = some q)) : k = k' ∧ mid = mid' := by
  have peel : ∀ l : List Byte, 1 < (q :: (l ++ [q])).length ∧ (q :: (l ++ [q])).head? = some q ∧
      (q :: (l ++ [q])).getLast? = some q := by
    intro l
    refine ⟨by simp, by simp, ?_⟩
    rw [← List.cons_append, List.getLast?_append]; simp
  induction h generalizing k' with
  | zero =>
    cases h' with
    | zero => exact ⟨rfl, rfl⟩
    | succ h' => exact absurd (peel _) hm
  | succ h ih =>
    generalize hx : q :: (_ ++ [q]) = x at h'
    cases h' with
    | zero => subst hx; exact absurd (peel _) hm'
    | succ h' =>
      simp at hx
      subst hx
      obtain ⟨rfl, rfl⟩ := ih h'
      exact ⟨rfl, rfl⟩

theorem dequote_loop_spec {m : Mem} (q : Byte) (k : Nat) {v : View} {l : List Byte} (h : ViewOf m v l)
    (hk : l.length < k) :
    ∃ n mid, Layers q mid n l ∧ dequote_loop m q k v = .ok (v.part n mid.length) ∧
      ¬ (1 < mid.length ∧ mid.head? = some q ∧ mid.getLast? = some q) := by
  induction k generalizing v l with
  | zero => omega
  | succ k ih =>
    have hstop : ¬ (1 < l.length ∧ l.head? = some q ∧ l.getLast? = some q) →
        dequote_loop m q (k + 1) v = .ok v →
        ∃ n mid, Layers q mid n l ∧ dequote_loop m q (k + 1) v = .ok (v.part n mid.length) ∧
        ¬ (1 < mid.length ∧ mid.head? = some q ∧ mid.getLast? = some q) := by
      intro h1 h2
      refine ⟨0, l, .zero, ?_, h1⟩
      rw [h2]; simp [View.part, ← h.size]
    by_cases hs : v.size > 1
    · have hl : 1 < l.length := by have := h.size; omega
      obtain ⟨a, r, rfl⟩ : ∃ a r, l = a :: r := by
        cases l with
        | nil => simp at hl
        | cons a r => exact ⟨a, r, rfl⟩
      rcases List.eq_nil_or_concat r with rfl | ⟨mid, b, rfl⟩
      · simp at hl
      rw [List.concat_eq_append] at *
      have hla : load m v.data = .ok a := h.holds.load_head
      have hlb : load m (v.data + (v.size - 1)) = .ok b := by
        have := h.holds.load' (v.data + (v.size - 1)) (mid.length + 1) (by simp) (by rw [h.size]; simp)
        rw [this]; simp
      by_cases ha : a = q
      · by_cases hb : b = q
        · subst ha; subst hb
          have hsub : strview_sub v 1 (-1) = .ok (v.part 1 mid.length) := by
            rw [strview_sub_eq h.ne_zero h.size (by omega) h.max 1 (-1) (by decide) (by decide) (by decide) (by decide)]
            simp only [fromEnd, List.length_cons, List.length_append, List.length_nil]
            rw [if_pos (by omega)]
            simp only [View.part]
            congr 2
            omega
          have hv : ViewOf m (v.part 1 mid.length) mid := by
            have := h.part 1 mid.length (by simp; omega)
            simpa using this
          obtain ⟨n, mid', e1, e2, e3⟩ := ih hv (by simp only [List.length_cons, List.length_append] at hk; omega)
          refine ⟨n + 1, mid', ?_, ?_, e3⟩
          · exact .succ e1
          · simp only [dequote_loop, hs, if_true, hla, hlb, Res.bind_ok, hsub, e2]
            simp only [View.part]
            congr 2
            omega
        · refine hstop ?_ ?_
          · rw [← List.cons_append, List.getLast?_append]; simp [hb]
          simp [dequote_loop, hs, hla, hlb, ha, hb]
      · refine hstop (by simp [ha]) ?_
        simp [dequote_loop, hs, hla, ha]
    · refine hstop ?_ (by simp [dequote_loop, hs])
      have := h.size
      rintro ⟨h1, -⟩; omega

/-- C19. What `strview_dequote` does on every view: with `q` the first byte, it removes as many layers of `q` as there
are, and nothing else. -/
theorem C19_dequote_layers {m : Mem} {v : View} {q : Byte} {l : List Byte} (h : ViewOf m v (q :: l)) :
    ∃ n mid, Layers q mid n (q :: l) ∧ strview_dequote m v = .ok (v.part n mid.length) ∧
      ViewOf m (v.part n mid.length) mid ∧
      ¬ (1 < mid.length ∧ mid.head? = some q ∧ mid.getLast? = some q) := by
  have hpart : ∀ n mid, Layers q mid n (q :: l) → ViewOf m (v.part n mid.length) mid := by
    intro n mid hl
    obtain ⟨a, b, e, h1, h2⟩ := hl.split
    have hlen := congrArg List.length e
    simp only [List.length_append] at hlen
    have := h.part n mid.length (by omega)
    rw [e, List.append_assoc, List.drop_left' h1, List.take_left' rfl] at this
    exact this
  by_cases hs : v.size > 1
  · simp only [strview_dequote, hs, if_true, h.holds.load_head, Res.bind_ok]
    obtain ⟨n, mid, h1, h2, h3⟩ := dequote_loop_spec q (v.size.toNat + 1) h (by rw [h.sizeToNat]; omega)
    exact ⟨n, mid, h1, h2, hpart n mid h1, h3⟩
  · simp only [strview_dequote, hs, if_false]
    have hl : l = [] := by
      have := h.size
      simp only [List.length_cons] at this
      exact List.length_eq_zero_iff.1 (by omega)
    subst hl
    refine ⟨0, [q], .zero, ?_, ?_, by simp⟩
    · have := h.size
      simp [View.part]
      rw [show (1 : Int) = v.size by simpa using this.symm]
    · exact hpart 0 [q] .zero

theorem C19_dequote_empty {m : Mem} {v : View} (h : Denotes m v []) : strview_dequote m v = .ok v := by
  have : v.size = 0 := h.size
  simp [strview_dequote, this]

/-- C19 restricted to views that start with a quote character, or whose first and last byte differ: the quotes are
removed, an unquoted view is returned unchanged. Missing from the full property: unquoted views that happen to start
and end with the same other byte, for which the property is false (`C19_deviation_unquoted`). -/
theorem C19_dequote_partial {m : Mem} {v : View} {l : List Byte} (h : ViewOf m v l) :
    -- quoted: layers of one quote character are removed
    (∀ q n mid, (q = 34 ∨ q = 39) → 0 < n → Layers q mid n l →
        ¬ (1 < mid.length ∧ mid.head? = some q ∧ mid.getLast? = some q) →
        strview_dequote m v = .ok (v.part n mid.length)) ∧
    -- not quoted, first and last byte differ
    (l.head? ≠ l.getLast? → strview_dequote m v = .ok v) := by
  constructor
  · intro q n mid _ hn hl hmid
    cases n with
    | zero => omega
    | succ n =>
      have hl' := hl
      cases hl with
      | succ hl =>
        obtain ⟨n', mid', h1, h2, -, h4⟩ := C19_dequote_layers h
        obtain ⟨rfl, rfl⟩ := hl'.unique h1 hmid h4
        exact h2
  · intro hne
    cases l with
    | nil => simp at hne
    | cons a l =>
      obtain ⟨n, mid, h1, h2, h3, h4⟩ := C19_dequote_layers h
      cases h1 with
      | zero => rw [h2, View.part, ← h.size]; simp
      | succ h1 =>
        exfalso; apply hne
        rw [← List.cons_append, List.getLast?_append]; simp

/-- `""Fred""` gives `Fred`; `level` gives `eve`: a word that is not quoted is changed (C19 is false in general). -/
theorem C19_deviation_unquoted :
    strview_dequote (memAt 1000 [34, 34, 70, 34, 34]) ⟨1000, 5⟩ = .ok ⟨1002, 1⟩ ∧
    strview_dequote (memAt 1000 [108, 101, 118, 101, 108]) ⟨1000, 5⟩ = .ok ⟨1001, 3⟩ := by
  decide +kernel

example : ViewOf (memAt 1000 [34, 34, 70, 34, 34]) ⟨1000, 5⟩ [34, 34, 70, 34, 34] ∧
    Layers 34 [70] 2 [34, 34, 70, 34, 34] :=
  ⟨viewOf_memAt _ _ (by decide) (by decide) (by decide), .succ (l := [34, 70, 34]) (.succ (l := [70]) .zero)⟩

/-! ### C20 -/

/-- C20. `strview_to_cstr` writes the first `min size (dst_size-1)` bytes and a NUL, and nothing else. -/
theorem C20_to_cstr {m : Mem} {v : View} {l : List Byte} {dst : Addr} {n : Nat} (h : Denotes m v l)
    (hn : 0 < n) (hw : Writable m dst n) (hdis : v.data + l.length ≤ dst ∨ dst + n ≤ v.data) :
    ∃ m', strview_to_cstr m dst n v = .ok m' ∧ Holds m' dst (l.take (n - 1) ++ [0]) ∧
      (∀ x, x < dst ∨ dst + (min l.length (n - 1) + 1 : Nat) ≤ x → m' x = m x) := by
  have hd0 : dst ≠ 0 := by have := (hw 0 hn).1; omega
  have hn0 : n ≠ 0 := by omega
  have hsrc : (if v.size < 0 then 0 else v.size.toNat) = l.length := by
    rw [if_neg (by have := h.size; omega), h.sizeToNat]
  have hcs : (if n - 1 < l.length then n - 1 else l.length) = (l.take (n - 1)).length := by
    rw [List.length_take]; split <;> omega
  have hlen : (l.take (n - 1)).length + 1 ≤ n := by rw [List.length_take]; omega
  have w1 : Writable m dst (l.take (n - 1)).length := hw.mono (by omega)
  have w2 : Writable m (dst + (l.take (n - 1)).length) 1 := hw.sub _ 1 hlen
  have hdis' : (l.take (n - 1)) = [] ∨ dst + (l.take (n - 1)).length ≤ v.data ∨
      v.data + (l.take (n - 1)).length ≤ dst := by
    right
    have : (l.take (n - 1)).length ≤ l.length := by rw [List.length_take]; omega
    omega
  refine ⟨put m dst (l.take (n - 1) ++ [0]), ?_, ?_, ?_⟩
  · simp only [strview_to_cstr, ne_eq, hn0, hd0, not_false_eq_true, and_self, if_true, hsrc, hcs]
    rw [memcpy_eq (h.holds.take _) w1 hdis']
    simp only [Res.bind_ok]
    rw [store_eq 0 (by rw [writable_put w1]; exact w2), put_append]
  · exact holds_put (by rw [List.length_append]; exact hw.mono hlen)
  · intro x hx
    apply put_outside
    have e : (l.take (n - 1) ++ [(0 : Byte)]).length = min l.length (n - 1) + 1 := by
      simp only [List.length_append, List.length_take, List.length_cons, List.length_nil]; omega
    rw [e]; exact hx

/-- C20. Reading the destination back as a C string gives the copied bytes up to the first NUL. -/
theorem C20_to_cstr_read_back {m : Mem} {v : View} {l : List Byte} {dst : Addr} {n : Nat} (h : Denotes m v l)
    (hn : 0 < n) (hw : Writable m dst n) (hdis : v.data + l.length ≤ dst ∨ dst + n ≤ v.data) :
    ∃ m' w, strview_to_cstr m dst n v = .ok m' ∧ cstr m' dst = .ok w ∧
      ViewOf m' w ((l.take (n - 1)).takeWhile (· ≠ 0)) := by
  obtain ⟨m', h1, h2, -⟩ := C20_to_cstr h hn hw hdis
  have hpos : 0 < dst := by have := (hw 0 hn).1; omega
  have hmax := h.max
  have hsplit : ∃ r, l.take (n - 1) ++ [0] = (l.take (n - 1)).takeWhile (· ≠ 0) ++ [0] ++ r := by
    generalize l.take (n - 1) = t
    induction t with
    | nil => exact ⟨[], rfl⟩
    | cons b t ih =>
      by_cases hb : b = 0
      · subst hb; exact ⟨t ++ [0], by simp⟩
      · obtain ⟨r, hr⟩ := ih
        refine ⟨r, ?_⟩
        rw [List.takeWhile_cons]
        simp only [ne_eq, hb, not_false_eq_true, decide_true, if_true, List.cons_append, hr]
  obtain ⟨r, hr⟩ := hsplit
  have hc : CString m' dst ((l.take (n - 1)).takeWhile (· ≠ 0)) := by
    refine { pos := hpos, max := ?_, noNul := ?_, holds := ?_ }
    · have := (List.takeWhile_prefix (l := l.take (n - 1)) (fun b => decide (b ≠ 0))).length_le
      rw [List.length_take] at this
      omega
    · intro h0
      generalize l.take (n - 1) = t at h0
      induction t with
      | nil => simp at h0
      | cons b t ih =>
        rw [List.takeWhile_cons] at h0
        split at h0
        · next hb =>
          rcases List.mem_cons.1 h0 with h0 | h0
          · subst h0; simp at hb
          · exact ih h0
        · simp at h0
    · rw [hr] at h2
      exact (Holds.append_iff.1 h2).1
  exact ⟨m', _, h1, cstr_eq hc, hc.viewOf⟩

/-- C20. Nothing is written with size 0 or a NULL destination. -/
theorem C20_to_cstr_nothing (m : Mem) (v : View) (dst : Addr) (n : Nat) :
    strview_to_cstr m dst 0 v = .ok m ∧ strview_to_cstr m 0 n v = .ok m := by
  simp [strview_to_cstr]

/-- Copying `abcd` into 3 bytes stores `ab`, NUL. -/
example : Writable (memAt 1000 [97, 98, 99, 100, 7, 7, 7, 7]) 1004 3 ∧
    (∃ m', strview_to_cstr (memAt 1000 [97, 98, 99, 100, 7, 7, 7, 7]) 1004 3 ⟨1000, 4⟩ = .ok m' ∧
      readBytes m' 1000 8 = .ok [97, 98, 99, 100, 97, 98, 0, 7]) := by
  refine ⟨?_, _, rfl, by decide +kernel⟩
  intro i hi
  have : i = 0 ∨ i = 1 ∨ i = 2 := by omega
  rcases this with rfl | rfl | rfl <;> decide

/-! ### C21 -/

/-- Any view a client can hold: invalid, or a valid view of existing bytes. -/
def AnyView (m : Mem) (v : View) : Prop := v = .invalid ∨ ∃ l, ViewOf m v l

theorem AnyView.denotes {m : Mem} {v : View} (h : AnyView m v) : ∃ l, Denotes m v l := by
  rcases h with rfl | ⟨l, h⟩
  · exact ⟨[], Denotes.invalid m⟩
  · exact ⟨l, h.toDenotes⟩

/-- The call completes with a defined result: no access outside the arguments' bytes, no overflow, no endless loop. -/
def Defined {α : Type} (r : Res α) : Prop := ∃ a, r = .ok a

/-- C21 for the functions that take views. Nothing but the bytes of the views is assumed to exist in memory, and none
of these functions returns a new memory, so they write nothing. -/
theorem C21_view_functions_safe {m : Mem} {a b : View} (ha : AnyView m a) (hb : AnyView m b) :
    Defined (strview_is_match_strview m a b) ∧ Defined (strview_is_match_nocase_strview m a b) ∧
    Defined (strview_starts_with_strview m a b) ∧ Defined (strview_starts_with_nocase_strview m a b) ∧
    Defined (strview_compare m a b) ∧ Defined (strview_contains m a b) ∧ Defined (strview_contains_nocase m a b) ∧
    Defined (strview_find_first_strview m a b) ∧ Defined (strview_find_first_nocase_strview m a b) ∧
    Defined (strview_trim_start_strview m a b) ∧ Defined (strview_trim_end_strview m a b) ∧
    Defined (strview_trim_strview m a b) ∧ Defined (strview_dequote m a) ∧
    Defined (strview_pop_first_char m (some a)) ∧ Defined (strview_split_left (some a) b) ∧
    Defined (strview_split_right (some a) b) := by
  obtain ⟨la, da⟩ := ha.denotes
  obtain ⟨lb, db⟩ := hb.denotes
  refine ⟨⟨_, C01_is_match_iff_contents_equal da db⟩, ⟨_, C02_is_match_nocase da db⟩, ?_, ?_, ?_, ?_, ?_, ?_, ?_,
    ?_, ?_, ?_, ?_, ?_, ?_, ?_⟩
  · rcases hb with rfl | ⟨l, hb⟩
    · exact ⟨_, (C03_starts_with_invalid m a).1⟩
    · obtain ⟨r, h, -⟩ := C03_starts_with da hb; exact ⟨r, h⟩
  · rcases hb with rfl | ⟨l, hb⟩
    · exact ⟨_, (C03_starts_with_invalid m a).2⟩
    · obtain ⟨r, h, -⟩ := C03_starts_with_nocase da hb; exact ⟨r, h⟩
  · obtain ⟨c, h, -⟩ := C04_compare_lexicographic da db; exact ⟨c, h⟩
  · rcases ha with rfl | ⟨l, ha⟩
    · simp [Defined, strview_contains, (C07_find_first_invalid m b).2.1]
    rcases hb with rfl | ⟨l', hb⟩
    · simp [Defined, strview_contains, (C07_find_first_invalid m a).1]
    obtain ⟨r, h, -⟩ := C09_contains ha hb; exact ⟨r, h⟩
  · rcases ha with rfl | ⟨l, ha⟩
    · simp [Defined, strview_contains_nocase, (C07_find_first_invalid m b).2.2.2]
    rcases hb with rfl | ⟨l', hb⟩
    · simp [Defined, strview_contains_nocase, (C07_find_first_invalid m a).2.2.1]
    obtain ⟨r, h, -⟩ := C09_contains_nocase ha hb; exact ⟨r, h⟩
  · rcases ha with rfl | ⟨l, ha⟩
    · exact ⟨_, (C07_find_first_invalid m b).2.1⟩
    rcases hb with rfl | ⟨l', hb⟩
    · exact ⟨_, (C07_find_first_invalid m a).1⟩
    rcases C07_find_first ha hb with ⟨i, -, -, h⟩ | ⟨-, h⟩ <;> exact ⟨_, h⟩
  · rcases ha with rfl | ⟨l, ha⟩
    · exact ⟨_, (C07_find_first_invalid m b).2.2.2⟩
    rcases hb with rfl | ⟨l', hb⟩
    · exact ⟨_, (C07_find_first_invalid m a).2.2.1⟩
    rcases C07_find_first_nocase ha hb with ⟨i, -, -, h⟩ | ⟨-, h⟩ <;> exact ⟨_, h⟩
  · obtain ⟨_, _, -, -, -, h, -⟩ := C06_trim_start da db; exact ⟨_, h⟩
  · obtain ⟨_, _, -, -, -, h, -⟩ := C06_trim_end da db; exact ⟨_, h⟩
  · obtain ⟨_, _, _, -, -, -, -, -, h, -⟩ := C06_trim da db; exact ⟨_, h⟩
  · rcases ha with rfl | ⟨l, ha⟩
    · exact ⟨_, C19_dequote_empty (Denotes.invalid m)⟩
    cases l with
    | nil => exact ⟨_, C19_dequote_empty ha.toDenotes⟩
    | cons q l => obtain ⟨_, _, -, h, -⟩ := C19_dequote_layers ha; exact ⟨_, h⟩
  · rcases ha with rfl | ⟨l, ha⟩
    · exact ⟨_, (C16_pop_empty (Denotes.invalid m)).1⟩
    cases l with
    | nil => exact ⟨_, (C16_pop_empty ha.toDenotes).1⟩
    | cons q l => exact ⟨_, (C16_pop_cons ha).1⟩
  · rcases ha with rfl | ⟨l, ha⟩
    · exact ⟨_, (C15_split_invalid b b).2.2.1⟩
    rcases hb with rfl | ⟨l', hb⟩
    · exact ⟨_, (C15_split_invalid a a).1⟩
    by_cases hin : a.data ≤ b.data ∧ b.data ≤ a.data + a.size
    · obtain ⟨x, y, rfl, e⟩ := C15_located ha b.data hin.1 hin.2
      exact ⟨_, (C15_split_left ha e).1⟩
    · exact ⟨_, (C15_split_outside a b).1 (by omega)⟩
  · rcases ha with rfl | ⟨l, ha⟩
    · exact ⟨_, (C15_split_invalid b b).2.2.2.1⟩
    rcases hb with rfl | ⟨l', hb⟩
    · exact ⟨_, (C15_split_invalid a a).2.1⟩
    by_cases hin : a.data ≤ b.data + b.size ∧ b.data + b.size ≤ a.data + a.size
    · obtain ⟨x, y, rfl, e⟩ := C15_located ha (b.data + b.size) hin.1 hin.2
      exact ⟨_, (C15_split_right ha hb.ne_zero e).1⟩
    · exact ⟨_, (C15_split_outside a b).2 (by omega)⟩

/-- C21 for `strview_find_last`, partial: the haystack must not end in the first `needle.size` bytes of the address
space (see `C08_deviation_low_address`). -/
theorem C21_find_last_safe_partial {m : Mem} {a b : View} (ha : AnyView m a) (hb : AnyView m b)
    (hlow : b.size ≤ a.data + a.size) :
    Defined (strview_find_last_strview m a b) ∧ Defined (strview_find_last_nocase_strview m a b) := by
  rcases hb with rfl | ⟨l', hb⟩
  · obtain ⟨l, da⟩ := ha.denotes
    have := C08_find_last_invalid m a (by rw [da.size]; omega) (by rw [da.size]; exact da.max)
    exact ⟨⟨_, this.1⟩, ⟨_, this.2.2.1⟩⟩
  rcases ha with rfl | ⟨l, ha⟩
  · have := C08_find_last_invalid m b (by rw [hb.size]; omega) (by rw [hb.size]; exact hb.max)
    exact ⟨⟨_, this.2.1⟩, ⟨_, this.2.2.2⟩⟩
  rw [ha.size, hb.size] at hlow
  constructor
  · rcases C08_find_last_partial ha hb hlow with ⟨i, -, -, h⟩ | ⟨-, h⟩ <;> exact ⟨_, h⟩
  · rcases C08_find_last_nocase_partial ha hb hlow with ⟨i, -, -, h⟩ | ⟨-, h⟩ <;> exact ⟨_, h⟩

/-- C21 for the functions that take an index. -/
theorem C21_index_functions_safe {m : Mem} {a : View} (ha : AnyView m a) (i j : Int)
    (hi : INT_MIN ≤ i ∧ i ≤ INT_MAX) (hj : INT_MIN ≤ j ∧ j ≤ INT_MAX) :
    Defined (strview_sub a i j) ∧ Defined (strview_split_index (some a) i) := by
  rcases ha with rfl | ⟨l, ha⟩
  · exact ⟨⟨_, C05_sub_empty (Denotes.invalid m) i j⟩, ⟨_, (C14_split_index_invalid i hi.1 hi.2).1⟩⟩
  · constructor
    · by_cases hl : l = []
      · subst hl; exact ⟨_, C05_sub_empty ha.toDenotes i j⟩
      · exact ⟨_, strview_sub_eq ha.ne_zero ha.size (List.length_pos_iff.2 hl) ha.max i j hi.1 hj.1 hi.2 hj.2⟩
    · obtain ⟨x, y, -, -, -, ⟨-, -, h⟩ | ⟨-, -, h⟩⟩ := C14_split_index ha i hi.1 hi.2 <;> exact ⟨_, h⟩

/-- C21 for the functions that take a delimiter or character-set C string (possibly NULL), and `strview_split_line` with
every `eol` state it can produce. -/
theorem C21_delim_functions_safe {m : Mem} {a : View} (ha : AnyView m a) {p : Addr}
    (hp : p = 0 ∨ ∃ s, CString m p s) (excl : Bool) (eol : Option Byte)
    (he : ∀ e, eol = some e → e = 0 ∨ IsEol e) :
    Defined (strview_split_first_delim m (some a) p excl) ∧
    Defined (strview_split_last_delim m (some a) p excl) ∧
    Defined (strview_trim_cstr m a p) ∧ Defined (strview_is_match_cstr m a p) ∧
    Defined (strview_starts_with_cstr m a p) ∧ Defined (strview_find_first_cstr m a p) ∧
    Defined (strview_split_line m (some a) eol) := by
  have hv : ∃ w, cstr m p = .ok w ∧ AnyView m w := by
    rcases hp with rfl | ⟨s, hp⟩
    · exact ⟨_, cstr_null m, .inl rfl⟩
    · exact ⟨_, cstr_eq hp, .inr ⟨s, hp.viewOf⟩⟩
  obtain ⟨w, hw, hwv⟩ := hv
  obtain ⟨s1, -, s3, -, -, -, -, s8, -, -, -, s12, -⟩ := C21_view_functions_safe ha hwv
  refine ⟨?_, ?_, ?_, ?_, ?_, ?_, ?_⟩
  · rcases hp with rfl | ⟨s, hp⟩
    · exact ⟨_, (C10_split_first_null m 0 excl a).2⟩
    rcases ha with rfl | ⟨l, ha⟩
    · refine ⟨(.invalid, some .invalid), ?_⟩
      simp [strview_split_first_delim, split_first_nn, cstr_eq hp, split_first_delim, View.invalid]
    rcases C11_split_first_delim ha hp excl with ⟨_, _, _, _, -, -, h, -⟩ | ⟨-, h⟩ <;> exact ⟨_, h⟩
  · rcases hp with rfl | ⟨s, hp⟩
    · exact ⟨_, (C12_split_last_null m 0 excl a).2⟩
    rcases ha with rfl | ⟨l, ha⟩
    · refine ⟨(.invalid, some .invalid), ?_⟩
      simp [strview_split_last_delim, cstr_eq hp, split_last_delim, View.invalid]
    rcases C11_split_last_delim ha hp excl with ⟨_, _, _, _, -, -, h, -⟩ | ⟨-, h⟩ <;> exact ⟨_, h⟩
  · simpa [strview_trim_cstr, hw] using s12
  · simpa [strview_is_match_cstr, hw] using s1
  · simpa [strview_starts_with_cstr, hw] using s3
  · simpa [strview_find_first_cstr, hw] using s8
  · rcases ha with rfl | ⟨l, ha⟩
    · exact ⟨(.invalid, some .invalid, eol), by simp [strview_split_line, View.invalid]⟩
    cases eol with
    | none =>
      rcases C17_split_line ha with ⟨_, _, _, -, -, -, h⟩ | ⟨-, h⟩ <;> exact ⟨_, h⟩
    | some e =>
      rcases split_line_eol ha e (he e rfl) with ⟨_, _, _, _, _, -, -, -, -, -, h⟩ | ⟨-, _, -, -, h⟩ <;> exact ⟨_, h⟩

example : AnyView (memAt 1000 [97, 98]) ⟨1000, 2⟩ ∧ AnyView (memAt 1000 [97, 98]) .invalid :=
  ⟨.inr ⟨[97, 98], viewOf_memAt _ _ (by decide) (by decide) (by decide)⟩, .inl rfl⟩

end CStr
