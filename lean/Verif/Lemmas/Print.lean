import Verif.Model.Print
import Verif.Lemmas.Mem
/-! Lemmas about printing views. -/
namespace CStr

theorem c_print_str_eq {m : Mem} {a : Addr} {l : List Byte} (h : Holds m a l) :
    c_print_str m l.length a = .ok (l.takeWhile (· ≠ 0)) := by
  induction l generalizing a with
  | nil => rfl
  | cons c l ih =>
    simp only [List.length_cons, c_print_str, h.load_head, Res.bind_ok]
    by_cases hc : c = 0
    · subst hc; simp
    · rw [if_neg hc, ih (Holds.cons_iff.1 h).2, List.takeWhile_cons_of_pos (by simpa using hc)]; rfl

theorem pri_str_eq {m : Mem} {v : View} {l : List Byte} (h : Denotes m v l) : pri_str m v = .ok (l.takeWhile (· ≠ 0)) := by
  rw [pri_str, if_neg (by have := h.size; omega), show v.size.toNat = l.length by rw [h.size]; simp]
  exact c_print_str_eq h.holds

end CStr
