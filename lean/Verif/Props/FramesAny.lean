import Verif.Props.Frames
import Verif.Lemmas.Accessory
/-
  C78: messages with their lengths in front, from any bytes.
-/
namespace CStr

theorem frames_unique {o : Order} {t : List Byte} {ls ls' : List (List Byte)} (h : Frames o t ls) (h' : Frames o t ls') : ls = ls' := by
  induction h generalizing ls' with
  | done hn =>
    cases h' with
    | done => rfl
    | frame len => exact absurd rfl (hn _ _ len)
  | @frame l rest ls len more ih =>
    generalize e : wire o .u32 (l.length : Int) ++ (l ++ rest) = t at h'
    cases h' with
    | done hn => exact absurd e.symm (hn _ _ len)
    | @frame l' rest' ls' len' more' =>
      obtain ⟨e1, e2⟩ := List.append_inj e (by rw [wire_length, wire_length])
      have hl := wire_inj (t := .u32) ⟨by omega, by omega⟩ ⟨by omega, by omega⟩ e1
      obtain ⟨rfl, rfl⟩ := List.append_inj e2 (by omega)
      rw [ih more']

/-- C78. A reader that checks the lengths takes any bytes apart without undefined behaviour, however they are damaged: exactly the messages
they begin with come out, and there is only one way to read them. -/
theorem C78_read_checked (h : Host) (o : Order) {dst : Addr} (k : Nat) :
    ∀ {t : List Byte} {m : Mem} {v : View} (_ : v = .invalid ∧ t = [] ∨ ViewOf m v t) (_ : Variable m dst 4)
      (_ : dst + 4 ≤ v.data ∨ v.data + v.size ≤ dst) (_ : t.length < k),
    ∃ ls, readChecked h o dst k v m = .ok ls ∧ Frames o t ls ∧ ∀ ls', Frames o t ls' → ls' = ls := by
  suffices hmain : ∀ {t : List Byte} {m : Mem} {v : View} (_ : v = .invalid ∧ t = [] ∨ ViewOf m v t) (_ : Variable m dst 4)
      (_ : dst + 4 ≤ v.data ∨ v.data + v.size ≤ dst) (_ : t.length < k), ∃ ls, readChecked h o dst k v m = .ok ls ∧ Frames o t ls by
    intro t m v h1 h2 h3 h4
    obtain ⟨ls, e, hf⟩ := hmain h1 h2 h3 h4
    exact ⟨ls, e, hf, fun ls' h' => frames_unique h' hf⟩
  induction k with
  | zero => intros; omega
  | succ k ih =>
    intro t m v hv hdst hd hk
    have hsz : v.size = (t.length : Int) := by
      rcases hv with ⟨rfl, rfl⟩ | hv
      · rfl
      · exact hv.size
    by_cases h4 : v.size < 4
    · refine ⟨[], by simp only [readChecked, if_pos h4], .done fun l rest _ e => ?_⟩
      have := congrArg List.length e
      simp only [List.length_append, wire_length, show IntTy.u32.width = 4 from rfl] at this
      omega
    rcases hv with ⟨rfl, rfl⟩ | hv
    · exact absurd (show (0 : Int) < 4 by decide) h4
    have hI : INT_MAX = 2147483647 := rfl
    have hmx := hv.max
    obtain ⟨x, hx, ex⟩ := exists_wire o .u32 (l := t.take 4) (by rw [List.length_take, show IntTy.u32.width = 4 from rfl]; omega)
    have et : t = wire o .u32 x ++ t.drop 4 := by rw [← ex, List.take_append_drop]
    have hdl : (t.drop 4).length = t.length - 4 := List.length_drop
    generalize t.drop 4 = r at et hdl
    rw [et] at hv
    obtain ⟨m', v', e, hh, hm', hn, hc⟩ := C54_unpack h o .u32 hx hv hdst (by show dst + 4 ≤ _ ∨ _ + ((4 + _ : Nat) : Int) ≤ _; omega)
    have hdst' := variable_after hdst hh
    have hx1 : 0 ≤ x ∧ x < 2 ^ 32 := hx
    have hv' : v' = .invalid ∧ r = [] ∨ v' = v.part 4 r.length ∧ ViewOf m' v' r := by
      by_cases hr : r = []
      · exact .inl ⟨hn hr, hr⟩
      · exact .inr (hc hr)
    have hs' : v'.size = (r.length : Int) := by
      rcases hv' with ⟨rfl, rfl⟩ | ⟨_, hv'⟩
      · rfl
      · exact hv'.size
    by_cases hlt : v'.size < x
    · refine ⟨[], by simp only [readChecked, if_neg h4, e, Res.bind_ok, if_pos hlt], .done fun l rest hl e' => ?_⟩
      rw [et] at e'
      obtain ⟨e1, e2⟩ := List.append_inj e' (by rw [wire_length, wire_length])
      have hl := wire_inj hx (t := .u32) ⟨by omega, by omega⟩ e1
      have := congrArg List.length e2
      simp only [List.length_append] at this
      omega
    · -- the message, and what follows it
      have key : ∃ msg src a b, strview_split_index (some v') x = .ok (msg, some src) ∧ r = a ++ b ∧ (a.length : Int) = x ∧
          readBytes m' msg.data msg.size.toNat = .ok a ∧ (src = .invalid ∧ b = [] ∨ ViewOf m' src b) ∧
          (dst + 4 ≤ src.data ∨ src.data + src.size ≤ dst) := by
        rcases hv' with ⟨rfl, rfl⟩ | ⟨q1, q2⟩
        · have hx0 : x = 0 := by simp only [hs'] at hlt; simp at hlt; omega
          subst hx0
          exact ⟨_, _, [], [], (C14_split_index_invalid 0 (by decide) (by decide)).1, rfl, rfl, rfl, .inl ⟨rfl, rfl⟩,
            .inr (by show (0 : Int) + 0 ≤ dst; have := hdst.1; omega)⟩
        · obtain ⟨a, b, ee, ha, hb, ⟨-, h2, h3⟩ | ⟨hneg, -⟩⟩ := C14_split_index q2 x (by have : INT_MIN = -2147483648 := rfl; omega) (by omega)
          · refine ⟨_, _, a, b, h3, ee, by omega, ha.toDenotes.readBytes, .inr hb, ?_⟩
            have := congrArg List.length ee
            simp only [List.length_append] at this
            rw [q1]; simp only [View.part]; omega
          · omega
      obtain ⟨msg, src, a, b, e1, rfl, hal, e2, hsrc, hds⟩ := key
      have hlr : (a ++ b).length = a.length + b.length := List.length_append
      obtain ⟨ls, e3, hf⟩ := ih hsrc hdst' hds (by omega)
      refine ⟨a :: ls, by simp only [readChecked, if_neg h4, e, Res.bind_ok, if_neg hlt, e1, e2, e3], ?_⟩
      rw [et, ← hal]
      exact .frame (by omega) hf

-- a message, then a length that is too great; three bytes that are no length
example : readChecked .little .BE 100 20 ⟨8000, 11⟩
    (fun a => if 100 ≤ a ∧ a < 104 then some 0 else memAt 8000 [0, 0, 0, 2, 97, 98, 255, 255, 255, 255, 7] a) = .ok [[97, 98]] ∧
    readChecked .little .BE 100 20 ⟨8000, 3⟩ (fun a => if 100 ≤ a ∧ a < 104 then some 0 else memAt 8000 [0, 0, 0] a) = .ok [] := by
  decide +kernel

example : Variable (fun a => if 100 ≤ a ∧ a < 104 then some 0 else memAt 8000 [0, 0, 0] a) 100 4 ∧
    ViewOf (fun a => if 100 ≤ a ∧ a < 104 then some 0 else memAt 8000 [0, 0, 0] a) ⟨8000, 3⟩ [0, 0, 0] := by
  refine ⟨⟨by decide, by decide, by decide +kernel⟩, ⟨rfl, by decide, ?_⟩, by decide⟩
  refine (holds_memAt 8000 [0, 0, 0] (by decide) (by decide)).congr fun i _ => ?_
  rw [if_neg (by omega)]

end CStr
