import Verif.Spec.Settings
import Verif.Props.Combine
/-
  C78: reading `name = value` lines.
-/
namespace CStr

theorem dropWhile_all {p : Byte → Bool} {a b : List Byte} (h : ∀ x ∈ a, p x = true) : (a ++ b).dropWhile p = b.dropWhile p := by
  induction a with
  | nil => rfl
  | cons x a ih =>
    rw [List.cons_append, List.dropWhile_cons, if_pos (h x (by simp)), ih fun y hy => h y (by simp [hy])]

theorem dropWhile_head {p : Byte → Bool} {l : List Byte} (h : ∀ x, l.head? = some x → p x = false) : l.dropWhile p = l := by
  cases l with
  | nil => rfl
  | cons x l => rw [List.dropWhile_cons, if_neg (by simp [h x rfl])]

theorem trimmed_eq {cs pre t suf : List Byte} (hp : ∀ x ∈ pre, x ∈ cs) (hs : ∀ x ∈ suf, x ∈ cs) (h1 : ∀ x, t.head? = some x → x ∉ cs)
    (h2 : ∀ x, t.getLast? = some x → x ∉ cs) : trimmed cs (pre ++ t ++ suf) = t := by
  have hp' : ∀ x ∈ pre, decide (x ∈ cs) = true := fun x hx => by simpa using hp x hx
  have hs' : ∀ x ∈ suf.reverse, decide (x ∈ cs) = true := fun x hx => by simpa using hs x (by simpa using hx)
  simp only [trimmed, List.append_assoc]
  rw [dropWhile_all hp']
  cases t with
  | nil =>
    have := dropWhile_all (b := []) (p := fun x => decide (x ∈ cs)) (a := suf) fun x hx => by simpa using hs x hx
    simp only [List.append_nil, List.dropWhile_nil] at this
    simp [this]
  | cons x t =>
    have e1 : ((x :: t) ++ suf).dropWhile (fun x => decide (x ∈ cs)) = (x :: t) ++ suf :=
      dropWhile_head fun y hy => by
        simp only [List.cons_append, List.head?_cons, Option.some.injEq] at hy
        subst hy
        simpa using h1 x rfl
    rw [e1, List.reverse_append, dropWhile_all hs', dropWhile_head, List.reverse_reverse]
    intro y hy
    rw [List.head?_reverse] at hy
    simpa using h2 y hy

theorem readBytes_trimmed {m : Mem} {v c : View} {l cs : List Byte} (h : Denotes m v l) (hc : Denotes m c cs) :
    ∃ u, strview_trim_strview m v c = .ok u ∧ readBytes m u.data u.size.toNat = .ok (trimmed cs l) := by
  obtain ⟨pre, rest, suf, rfl, h1, h2, h3, h4, h5, h6⟩ := C06_trim h hc
  exact ⟨_, h5, by rw [trimmed_eq h1 h2 h3 h4]; exact h6.readBytes⟩

/-- C78. Reading lines `name = value` with `strview_split_line`, `strview_split_first_delim` and `strview_trim`: of every terminated line
that has the delimiter the name and the value come out, in the order of the lines. -/
theorem C78_settings {m : Mem} {eq : Addr} {d : Byte} (he : CString m eq [d]) {c : View} {cs : List Byte} (hc : Denotes m c cs)
    {t rem : List Byte} {ls : List (List Byte)} (hl : Lines t ls rem) :
    ∀ {v : View} (_ : ViewOf m v t) (k : Nat) (_ : ls.length < k), readSettings m eq c k v = .ok (ls.filterMap (settingOf d cs)) := by
  induction hl with
  | done t hn =>
    intro v hv k hk
    obtain ⟨k, rfl⟩ := Nat.exists_eq_succ_of_ne_zero (by omega : k ≠ 0)
    rcases C17_split_line hv with ⟨line, term, rest, h1, -⟩ | ⟨-, h2⟩
    · exact absurd hn (firstLine_not_noEol h1)
    · simp only [readSettings, h2, Res.bind_ok]; rfl
  | @line t l term r rem ls hf hr ih =>
    intro v hv k hk
    obtain ⟨k, rfl⟩ := Nat.exists_eq_succ_of_ne_zero (by omega : k ≠ 0)
    simp only [List.length_cons] at hk
    rcases C17_split_line hv with ⟨line, term', rest, h1, h2, h3, h4⟩ | ⟨hn, -⟩
    swap
    · exact absurd hn (firstLine_not_noEol hf)
    obtain ⟨rfl, rfl, rfl⟩ := hf.unique h1
    have hi := ih h3 k (by omega)
    rcases C10_split_first_delim h2 he with ⟨a, x, b, z, rfl, hx, ha, e, hy, hz, -, -⟩ | ⟨ha, e⟩
    · obtain rfl : x = d := by simpa using hx
      have ha' : ∀ y ∈ a, y ≠ x := fun y hy => by simpa using ha y hy
      obtain ⟨u1, q1, q2⟩ := readBytes_trimmed hy.toDenotes hc
      obtain ⟨u2, q3, q4⟩ := readBytes_trimmed hz.toDenotes hc
      have e1 : (a ++ x :: b).takeWhile (· ≠ x) = a := by
        rw [List.takeWhile_append_of_pos (by simpa using ha')]; simp
      have e2 : ((a ++ x :: b).dropWhile (· ≠ x)).drop 1 = b := by
        rw [dropWhile_all (by simpa using ha')]; simp
      have es : settingOf x cs (a ++ x :: b) = some (trimmed cs a, trimmed cs b) := by
        simp only [settingOf, e1, e2]; simp
      simp only [readSettings, h4, Res.bind_ok, is_valid_iff.2 h2.ne_zero, if_true, e, is_valid_iff.2 hz.ne_zero, q1, q2, q3, q4, hi,
        List.filterMap_cons, es]
    · have es : settingOf d cs l = none := by
        simp only [settingOf]
        rw [if_neg fun h => by simpa using ha d h]
      have e0 : strview_is_valid View.invalid = false := rfl
      simp only [readSettings, h4, Res.bind_ok, is_valid_iff.2 h2.ne_zero, if_true, e, e0, hi, List.filterMap_cons, es]
      rfl

/-- `a = b`, a line without `=`, and `c=d=` with an empty line before it. -/
def settingsText : List Byte := [97, 32, 61, 32, 98, 10, 120, 10, 10, 99, 61, 100, 61, 10, 101]

-- the names and values of the example, from memory; the conditions of the theorem hold
example : readSettings (memAt 8000 (settingsText ++ [61, 0, 32])) 8015 ⟨8017, 1⟩ 5 ⟨8000, 15⟩ = .ok [([97], [98]), ([99], [100, 61])] := by
  decide +kernel

example : CString (memAt 8000 (settingsText ++ [61, 0, 32])) 8015 [61] ∧ Denotes (memAt 8000 (settingsText ++ [61, 0, 32])) ⟨8017, 1⟩ [32] ∧
    ViewOf (memAt 8000 (settingsText ++ [61, 0, 32])) ⟨8000, 15⟩ settingsText ∧
    [[97, 32, 61, 32, 98], [120], [], [99, 61, 100, 61]].filterMap (settingOf 61 [32]) = [([97], [98]), ([99], [100, 61])] := by
  have h := holds_memAt 8000 (settingsText ++ [61, 0, 32]) (by decide) (by decide)
  exact ⟨⟨by decide, by decide, by decide, (h.drop 15 (by decide)).take 2⟩, ⟨rfl, by decide, h.drop 17 (by decide)⟩,
    ⟨⟨rfl, by decide, h.take 15⟩, by decide⟩, by decide +kernel⟩

end CStr
