import Verif.Spec.Frames
import Verif.Props.Replace
import Verif.Props.Pack
/-
  C78: messages with their lengths in front.
-/
namespace CStr

theorem framesText_cons (o : Order) (l : List Byte) (ls : List (List Byte)) :
    framesText o (l :: ls) = wire o .u32 l.length ++ (l ++ framesText o ls) := by simp [framesText]

/-- C78. Packing the length of each message and appending the message: the buffer gets the messages with their lengths in front, in order,
the variable of the macro is all that changes besides, and a block the buffer has left is released. -/
theorem C78_write_frames {cfg : Cfg} (hcfg : cfg.Ok) (h : Host) (o : Order) {tmp : Addr} (vs : List View) (ls : List (List Byte)) :
    ∀ {s : St} (_ : s.Sane) {p : Addr} {b : Buf} (_ : BufAt s p b) (_ : Variable s.mem tmp 4) (_ : tmp + 4 ≤ p ∨ p + storage b.cap ≤ tmp)
      (_ : List.Forall₂ (MessageAt s p (storage b.cap) tmp) vs ls) (_ : b.HasRoom cfg (b.data.length + (framesText o ls).length)),
    (b.Dynamic ∧ writeFrames cfg h o tmp vs p s = .env .alloc) ∨
    ∃ p' s' cap, writeFrames cfg h o tmp vs p s = .ok (p', s') ∧ BufAt s' p' ⟨b.data ++ framesText o ls, cap, b.al⟩ ∧ s'.Sane ∧
      (∀ a, ¬ InRange p (storage b.cap) a → ¬ InRange p' (storage cap) a → ¬ InRange tmp 4 a → s'.mem a = s.mem a) ∧
      ∀ a, InRange p (storage b.cap) a → ¬ InRange p' (storage cap) a → s'.mem a = none := by
  induction ls generalizing vs with
  | nil =>
    intro s hs p b hb _ _ hP _
    cases hP
    exact .inr ⟨p, s, b.cap, rfl, by simpa [framesText] using hb, hs, fun _ _ _ _ => rfl, fun _ h1 h2 => absurd h1 h2⟩
  | cons l ls ih =>
    intro s hs p b hb htmp hd hP hroom
    cases hP with
    | @cons v _ vs _ hv hP =>
      have hw : (wire o .u32 (l.length : Int)).length = 4 := wire_length _ _ _
      have hvs : v.size = (l.length : Int) := hv.size
      rw [framesText_cons] at hroom
      simp only [List.length_append, hw] at hroom
      obtain ⟨s1, hs1, h1, h2, h3, e⟩ := pack_eq (cfg := cfg) hs hb htmp hd h o .u32 (Nat.le_refl _) (l.length : Int)
      have hv1 : Variable s1.mem tmp 4 := by
        rw [hs1]
        exact htmp.put (htmp.writable (by rw [hw]))
      have hmsg : ∀ {v l}, MessageAt s p (storage b.cap) tmp v l → MessageAt s1 p (storage b.cap) tmp v l := by
        intro v l hv
        refine ⟨⟨⟨hv.size, hv.max, ?_⟩, hv.apart⟩, hv.aside⟩
        rcases hv.aside with rfl | hd
        · intro i hi; simp at hi
        · rw [hs1]
          exact holds_put_outside hv.holds (by rw [hw]; omega)
      have hE : Elsewhere s1 p (storage b.cap) ⟨tmp, 4⟩ (wire o .u32 (l.length : Int)) :=
        ⟨h3.toDenotes, .inr (by rw [hw]; simpa using hd)⟩
      have ec : writeFrames cfg h o tmp (v :: vs) p s = (do
          match ← strbuf_append_strview cfg s1 (some p) ⟨tmp, 4⟩ with
          | (_, some buf, s) =>
            match ← strbuf_append_strview cfg s (some buf) v with
            | (_, some buf, s) => writeFrames cfg h o tmp vs buf s
            | _ => .env .other
          | _ => .env .other) := by
        simp only [writeFrames, hvs, e]; rfl
      rw [ec]
      rcases append_elsewhere hcfg h1 h2 hE hroom (by rw [hw]; omega) with ⟨d, e⟩ | ⟨u, p2, s2, cap2, e2, g1, g2, g3, g4⟩
      · exact .inl ⟨d, by rw [e]; rfl⟩
      rw [e2]
      simp only [Res.bind_ok]
      have hm2 : ∀ {v l}, MessageAt s1 p (storage b.cap) tmp v l → MessageAt s2 p2 (storage cap2) tmp v l := fun hv =>
        ⟨hv.toElsewhere.after g3 (storage_pos _) g1.top, hv.aside⟩
      have hst2 := g3.stays_out (storage_pos _) (by decide : 0 < 4) hv1.2.2 hd
      have hv2 : Variable s2.mem tmp 4 := ⟨hv1.1, hv1.2.1, fun j hj => by rw [hst2.2 j hj]; exact hv1.2.2 j hj⟩
      rcases append_elsewhere hcfg g2 g1 (hm2 (hmsg hv)).toElsewhere g4 (by simp only [List.length_append, hw]; omega) with
        ⟨d, e⟩ | ⟨u3, p3, s3, cap3, e3, k1, k2, k3, k4⟩
      · exact .inl ⟨d, by rw [e]; rfl⟩
      rw [e3]
      simp only [Res.bind_ok]
      have hst3 := k3.stays_out (storage_pos _) (by decide : 0 < 4) hv2.2.2 hst2.1
      have hv3 : Variable s3.mem tmp 4 := ⟨hv2.1, hv2.2.1, fun j hj => by rw [hst3.2 j hj]; exact hv2.2.2 j hj⟩
      have hP3 : List.Forall₂ (MessageAt s3 p3 (storage cap3) tmp) vs ls := hP.imp fun v l hv =>
        have hv := hm2 (hmsg hv)
        ⟨hv.toElsewhere.after k3 (storage_pos _) k1.top, hv.aside⟩
      have ho := g3.trans k3
      rcases ih vs k2 k1 hv3 hst3.1 hP3 (by convert k4 using 1; simp only [List.length_append, hw]; omega) with ⟨d, e⟩ | ⟨p', s', cap, i1, i2, i3, i4, i5⟩
      · exact .inl ⟨d, e⟩
      · refine .inr ⟨p', s', cap, i1, by rw [framesText_cons]; simpa using i2, i3, fun a a1 a2 a3 => ?_, fun a a1 a2 => ?_⟩
        · have hp : s1.mem a = s.mem a := by
            rw [hs1]; exact put_outside (by rw [hw]; simp only [InRange] at a3; omega)
          by_cases a4 : InRange p3 (storage cap3) a
          · rw [i5 a a4 a2, ← hp, ho.fresh a a4 a1]
          · rw [i4 a a4 a2 a3, ho.outside a a1 a4, hp]
        · by_cases a4 : InRange p3 (storage cap3) a
          · exact i5 a a4 a2
          · rw [i4 a a4 a2 (by simp only [InRange] at a1 ⊢; omega), ho.left a a1 a4]

theorem variable_after {h : Host} {m m' : Mem} {dst : Addr} {n : Nat} (hv : Variable m dst 4) (hh : Holds m' dst (repr h 4 n)) : Variable m' dst 4 := by
  refine ⟨hv.1, hv.2.1, fun j hj => ?_⟩
  have hr := hh j (by rw [repr_length]; exact hj)
  have := hv.1
  have := hv.2.1
  simp only [rd] at hr
  rw [if_neg (by omega), if_neg (by omega)] at hr
  rw [hr]; rfl

/-- C78. Unpacking the length and splitting off as many bytes gives the messages, in order, also empty ones. -/
theorem C78_read_frames (h : Host) (o : Order) {dst : Addr} (ls : List (List Byte)) :
    ∀ {m : Mem} {v : View} (_ : v = .invalid ∧ framesText o ls = [] ∨ ViewOf m v (framesText o ls)) (_ : Variable m dst 4)
      (_ : dst + 4 ≤ v.data ∨ v.data + v.size ≤ dst) (k : Nat) (_ : ls.length < k),
    readFrames h o dst k v m = .ok ls := by
  induction ls with
  | nil =>
    intro m v hv _ _ k hk
    obtain ⟨k, rfl⟩ := Nat.exists_eq_succ_of_ne_zero (by omega : k ≠ 0)
    have hz : v.size = 0 := by
      rcases hv with ⟨rfl, _⟩ | hv
      · rfl
      · exact hv.size
    simp only [readFrames, hz, if_true]
  | cons l ls ih =>
    intro m v hv hdst hd k hk
    obtain ⟨k, rfl⟩ := Nat.exists_eq_succ_of_ne_zero (by omega : k ≠ 0)
    simp only [List.length_cons] at hk
    have hw : (wire o .u32 (l.length : Int)).length = 4 := wire_length _ _ _
    rw [framesText_cons] at hv
    rcases hv with ⟨-, h0⟩ | hv
    · have := congrArg List.length h0
      simp only [List.length_append, hw, List.length_nil] at this
      omega
    have hsz := hv.size
    have hmx := hv.max
    simp only [List.length_append, hw] at hsz hmx
    have hI : INT_MAX = 2147483647 := rfl
    obtain ⟨m', v', e, hh, hm', hn, hc⟩ := C54_unpack h o .u32 (x := (l.length : Int)) ⟨by omega, by omega⟩ hv hdst
      (by simp only [List.length_append]; show dst + 4 ≤ _ ∨ _ + ((4 + _ : Nat) : Int) ≤ _; omega)
    have hdst' := variable_after hdst hh
    have hz : v.size ≠ 0 := by omega
    by_cases hr : l ++ framesText o ls = []
    · obtain ⟨rfl, hr2⟩ := List.append_eq_nil_iff.1 hr
      have := hn hr
      subst this
      have hs := (C14_split_index_invalid 0 (by decide) (by decide)).1
      have hi := ih (m := m') (.inl ⟨rfl, hr2⟩) hdst' (.inr (by show (0 : Int) + 0 ≤ dst; have := hdst.1; omega)) k (by omega)
      simp only [readFrames, if_neg hz, e, Res.bind_ok, List.length_nil, Int.natCast_zero, hs, hi]
      rfl
    · obtain ⟨q1, q2⟩ := hc hr
      obtain ⟨a, b, ee, ha, hb, ⟨-, h2, h3⟩ | ⟨hneg, -⟩⟩ := C14_split_index q2 (l.length : Int) (by have : INT_MIN = -2147483648 := rfl; omega) (by omega)
      swap
      · omega
      have hal : l.length = a.length := by simp only [List.length_append] at h2; omega
      obtain ⟨rfl, rfl⟩ := List.append_inj ee hal
      have hi := ih (.inr hb) hdst' (by
        have hw4 : IntTy.u32.width = 4 := rfl
        rw [q1]; simp only [View.part, hw4]; omega) k (by omega)
      simp only [readFrames, if_neg hz, e, Res.bind_ok, h3, ha.toDenotes.readBytes, hi]

/-- C78. Messages of any lengths, packed with their lengths into an empty buffer on one host and taken apart again on another (or the
same) host, come out as they went in. -/
theorem C78_frames_round_trip {cfg : Cfg} (hcfg : cfg.Ok) (h h' : Host) (o : Order) {tmp : Addr} {vs : List View} {ls : List (List Byte)}
    {s : St} (hs : s.Sane) {p : Addr} {cap : Nat} {al : Alloc} (hb : BufAt s p ⟨[], cap, al⟩) (htmp : Variable s.mem tmp 4)
    (hd : tmp + 4 ≤ p ∨ p + storage cap ≤ tmp) (hP : List.Forall₂ (MessageAt s p (storage cap) tmp) vs ls)
    (hroom : Buf.HasRoom ⟨[], cap, al⟩ cfg (framesText o ls).length) :
    (al.fn ≠ 0 ∧ writeFrames cfg h o tmp vs p s = .env .alloc) ∨
    ∃ p' s' u, writeFrames cfg h o tmp vs p s = .ok (p', s') ∧ strbuf_view s'.mem (some p') = .ok u ∧ ViewOf s'.mem u (framesText o ls) ∧
      ∀ (m : Mem) (v : View) (dst : Addr), ViewOf m v (framesText o ls) → Variable m dst 4 → dst + 4 ≤ v.data ∨ v.data + v.size ≤ dst →
        readFrames h' o dst (ls.length + 1) v m = .ok ls := by
  rcases C78_write_frames hcfg h o vs ls hs hb htmp hd hP (by simpa using hroom) with e | ⟨p', s', cap', h1, h2, -⟩
  · exact .inl e
  · simp only [List.nil_append] at h2
    exact .inr ⟨p', s', ⟨p' + 24, (framesText o ls).length⟩, h1, by simp only [strbuf_view, deref_some h2.pos, h2.view], h2.viewOf,
      fun m v dst hv hdst hd => C78_read_frames h' o ls (.inr hv) hdst hd _ (by omega)⟩

-- `ab`, an empty message and `c`, with a variable of the macro behind them, through a buffer that has to grow
example : replacedIn (writeFrames isoCfg .little .BE (exQ + 3) [⟨exQ, 2⟩, ⟨exQ, 0⟩, ⟨exQ + 2, 1⟩] exP (exSt exEmpty [97, 98, 99, 0, 0, 0, 0])) =
    .ok [0, 0, 0, 2, 97, 98, 0, 0, 0, 0, 0, 0, 0, 1, 99] ∧
    framesText .BE [[97, 98], [], [99]] = [0, 0, 0, 2, 97, 98, 0, 0, 0, 0, 0, 0, 0, 1, 99] := by decide +kernel

example : readFrames .big .BE 100 4 ⟨8000, 15⟩
    (fun a => if 100 ≤ a ∧ a < 104 then some 0 else memAt 8000 [0, 0, 0, 2, 97, 98, 0, 0, 0, 0, 0, 0, 0, 1, 99] a) =
    .ok [[97, 98], [], [99]] := by decide +kernel

-- the conditions of the theorem hold there
example : Variable (exSt exEmpty [97, 98, 99, 0, 0, 0, 0]).mem (exQ + 3) 4 ∧
    List.Forall₂ (MessageAt (exSt exEmpty [97, 98, 99, 0, 0, 0, 0]) exP (storage exEmpty.cap) (exQ + 3)) [⟨exQ + 0, 2⟩, ⟨exQ + 0, 0⟩, ⟨exQ + 2, 1⟩]
      [[97, 98], [], [99]] ∧ exEmpty.HasRoom isoCfg 15 := by
  refine ⟨⟨by decide, by decide, by decide +kernel⟩, .cons ?_ (.cons ?_ (.cons ?_ .nil)), .inr ⟨by decide, by decide⟩⟩
  · exact ⟨exSt_elsewhere exEmpty_valid (by decide) 0 2 (by decide), by decide⟩
  · exact ⟨exSt_elsewhere exEmpty_valid (by decide) 0 0 (by decide), .inl rfl⟩
  · exact ⟨exSt_elsewhere exEmpty_valid (by decide) 2 1 (by decide), by decide⟩

end CStr
