import Verif.Lemmas.Mem
/-! Concrete memories used by the non-vacuity examples. -/
namespace CStr

theorem holds_memAt (a : Addr) (l : List Byte) (h0 : 0 < a) (h1 : a + l.length ≤ litBase) :
    Holds (memAt a l) a l := by
  intro i hi
  have e1 : ¬ (a + (i : Int) ≤ 0) := by omega
  have e2 : ¬ (litBase ≤ a + (i : Int)) := by omega
  have e3 : a ≤ a + (i : Int) := by omega
  have e4 : (a + (i : Int) - a).toNat = i := by omega
  simp only [rd, e1, e2, if_false, memAt, e3, if_true, e4]
  rw [List.getElem?_eq_getElem hi]

theorem viewOf_memAt (a : Addr) (l : List Byte) (h0 : 0 < a) (h1 : a + l.length ≤ litBase)
    (h2 : (l.length : Int) ≤ INT_MAX) : ViewOf (memAt a l) ⟨a, l.length⟩ l :=
  { size := rfl, max := h2, holds := holds_memAt a l h0 h1, pos := h0 }

theorem viewOf_memAt_part (a : Addr) (l : List Byte) (i n : Nat) (r : List Byte) (h0 : 0 < a)
    (h1 : a + l.length ≤ litBase) (h2 : (l.length : Int) ≤ INT_MAX) (hn : i + n ≤ l.length)
    (hr : r = (l.drop i).take n) : ViewOf (memAt a l) ⟨a + i, n⟩ r := by
  subst hr
  exact (viewOf_memAt a l h0 h1 h2).part i n hn

theorem cstring_memAt (a : Addr) (l : List Byte) (i : Nat) (r : List Byte) (h0 : 0 < a)
    (h1 : a + l.length ≤ litBase) (h2 : (l.length : Int) ≤ INT_MAX) (hr : r ++ [0] <+: l.drop i)
    (hi : i ≤ l.length) (hz : (0 : Byte) ∉ r) : CString (memAt a l) (a + i) r := by
  have hd := (holds_memAt a l h0 h1).drop i hi
  obtain ⟨t, ht⟩ := hr
  rw [← ht, Holds.append_iff] at hd
  have := congrArg List.length ht
  simp only [List.length_append, List.length_drop] at this
  refine { pos := by omega, max := by omega, noNul := hz, holds := hd.1 }

end CStr
