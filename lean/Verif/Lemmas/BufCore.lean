import Verif.Lemmas.BufAlloc
import Verif.Lemmas.Strview
/-! The inner functions of strbuf.c on well-formed buffers. -/
namespace CStr

theorem OnlyBlock.refl (s : St) (p : Addr) (n : Nat) : OnlyBlock s s p n p n :=
  { outside := fun _ _ _ => rfl, fresh := fun _ h h' => absurd h h', left := fun _ h h' => absurd h h',
    live := fun _ _ _ => rfl, liveNew := fun h => absurd rfl h, liveOld := fun h => absurd rfl h, picks := rfl }

/-- Writing inside the block afterwards. -/
theorem OnlyBlock.within {s s' : St} {p : Addr} {n : Nat} {p' : Addr} {n' : Nat} (h : OnlyBlock s s' p n p' n')
    {m' : Mem} (hw : Within s'.mem m' p' n') : OnlyBlock s { s' with mem := m' } p n p' n' :=
  { outside := fun a h1 h2 => (hw a h2).trans (h.outside a h1 h2)
    fresh := h.fresh
    left := fun a h1 h2 => (hw a h2).trans (h.left a h1 h2)
    live := h.live, liveNew := h.liveNew, liveOld := h.liveOld, picks := h.picks }

theorem St.Sane.withMem {s : St} (h : s.Sane) {m' : Mem} (hm : ∀ a, (s.mem a).isSome → (m' a).isSome) :
    St.Sane { s with mem := m' } :=
  ⟨⟨fun q b hq => by
      obtain ⟨h1, h2, h3, h4⟩ := h.wf.block q b hq
      exact ⟨h1, h2, h3, fun i hi => hm _ (h4 i hi)⟩, h.wf.disjoint⟩, h.noFail⟩

theorem St.Sane.within {s : St} (h : s.Sane) {m' : Mem} {p : Addr} {sz cap : Nat} {al : Alloc} {rest : List Byte}
    (hr : Raw m' p sz cap al rest) (hw : Within s.mem m' p (24 + rest.length)) : St.Sane { s with mem := m' } := by
  apply h.withMem
  intro a ha
  by_cases hi : InRange p (24 + rest.length) a
  · simp only [InRange] at hi
    have := (hr.writable (a - p).toNat (by omega)).2.2
    rwa [show p + ((a - p).toNat : Int) = a by omega] at this
  · rw [hw a hi]; exact ha

/-- Outcome of an inner function that may resize the buffer: like `Yields`, without the returned view. -/
def Out (s : St) (p : Addr) (b : Buf) (r : Res (Addr × St)) (data : List Byte) (cap : Nat) : Prop :=
  ((cap ≠ b.cap ∧ BadAnswer s p (storage b.cap) (storage cap)) ∧ r = .env .alloc) ∨
  ∃ p' s', r = .ok (p', s') ∧ Result s p b data cap p' s'

/-- Capacity change, exact form: when nothing needs to be done the state is the same. -/
structure ReszOk (s : St) (p : Addr) (b : Buf) (cap : Nat) (p' : Addr) (s' : St) : Prop where
  buf : BufAt s' p' ⟨b.data, cap, b.al⟩
  sane : s'.Sane
  only : OnlyBlock s s' p (storage b.cap) p' (storage cap)
  same : cap = b.cap → p' = p ∧ s' = s
  log : cap ≠ b.cap → s'.log = ⟨b.al, p, storage cap, p'⟩ :: s.log

def Resz (s : St) (p : Addr) (b : Buf) (r : Res (Addr × St)) (cap : Nat) : Prop :=
  ((cap ≠ b.cap ∧ BadAnswer s p (storage b.cap) (storage cap)) ∧ r = .env .alloc) ∨ ∃ p' s', r = .ok (p', s') ∧ ReszOk s p b cap p' s'

theorem ReszOk.refl {s : St} (hs : s.Sane) {p : Addr} {b : Buf} (hb : BufAt s p b) : ReszOk s p b b.cap p s :=
  ⟨hb, hs, .refl _ _ _, fun _ => ⟨rfl, rfl⟩, fun h => absurd rfl h⟩

theorem Resz.same {s : St} (hs : s.Sane) {p : Addr} {b : Buf} (hb : BufAt s p b) :
    Resz s p b (.ok (p, s)) b.cap := .inr ⟨p, s, rfl, .refl hs hb⟩

/-- Finishing an operation by writes inside the (possibly moved) block. -/
theorem ReszOk.result {s : St} {p : Addr} {b : Buf} {cap : Nat} {p' : Addr} {s' : St} (h : ReszOk s p b cap p' s')
    {m' : Mem} {data J : List Byte} (hr : Raw m' p' data.length cap b.al (data ++ 0 :: J))
    (hJ : data.length + J.length = cap) (hw : Within s'.mem m' p' (storage cap)) :
    Result s p b data cap p' { s' with mem := m' } := by
  have hst : 24 + (data ++ 0 :: J).length = storage cap := by
    simp only [List.length_append, List.length_cons, storage]; omega
  refine ⟨BufAt.of_raw hr hJ (fun hd => h.buf.heap hd), h.sane.within hr (hst ▸ hw),
    h.only.within hw, ?_, h.log⟩
  intro hc
  obtain ⟨e1, e2⟩ := h.same hc
  subst e1; subst e2
  exact ⟨rfl, rfl, rfl, rfl⟩

theorem ReszOk.out {s : St} {p : Addr} {b : Buf} {cap : Nat} {p' : Addr} {s' : St} (h : ReszOk s p b cap p' s')
    {m' : Mem} {data J : List Byte} (hr : Raw m' p' data.length cap b.al (data ++ 0 :: J))
    (hJ : data.length + J.length = cap) (hw : Within s'.mem m' p' (storage cap)) :
    Out s p b (.ok (p', { s' with mem := m' })) data cap := .inr ⟨p', _, rfl, h.result hr hJ hw⟩

/-- Finishing an operation by emptying the buffer. -/
theorem ReszOk.emptied {s : St} {p : Addr} {b : Buf} {cap : Nat} {p' : Addr} {s' : St} (h : ReszOk s p b cap p' s') :
    ∃ m', empty_buf s'.mem p' = .ok m' ∧ Result s p b [] cap p' { s' with mem := m' } := by
  obtain ⟨J, hJ, hr⟩ := h.buf.raw
  simp only at hJ hr
  have hcons : ∃ y Z, b.data ++ 0 :: J = y :: Z ∧ Z.length = cap := by
    cases hbd : b.data with
    | nil => exact ⟨0, J, rfl, by rw [hbd] at hJ; simpa using hJ⟩
    | cons y l =>
      refine ⟨y, l ++ 0 :: J, rfl, ?_⟩
      rw [hbd] at hJ
      simp only [List.length_cons] at hJ
      simp only [List.length_append, List.length_cons]; omega
  obtain ⟨y, Z, hyz, hZ⟩ := hcons
  rw [hyz] at hr
  obtain ⟨m', e1, r1, w1⟩ := hr.empty
  have hst : 24 + (y :: Z).length = storage cap := by
    simp only [List.length_cons, storage]; omega
  exact ⟨m', e1, h.result (data := []) r1 (by simpa using hZ) (hst ▸ w1)⟩

theorem storage_sizeT {c : Nat} (hc : (c : Int) ≤ INT_MAX) :
    (hdrLen + sizeT (c : Int) + 1) % 18446744073709551616 = storage c := by
  simp only [INT_MAX] at hc
  rw [sizeT_nat, storage, hdrLen, Nat.mod_eq_of_lt (by omega)]

theorem change_cap {s : St} (hs : s.Sane) {p : Addr} {b : Buf} (hb : BufAt s p b) (hd : b.Dynamic) {c : Nat}
    (hc1 : b.data.length ≤ c) (hc2 : (c : Int) ≤ INT_MAX) :
    Resz s p b (change_buf_capacity s p c) c := by
  obtain ⟨J, hJ, hr⟩ := hb.raw
  have hd' : b.al.fn ≠ 0 := hd
  have e0 : change_buf_capacity s p c = (if (c : Int) ≠ (b.cap : Int) then do
      let (buf, s) ← allocCall s b.al p (storage c)
      let m ← setCap s.mem buf c
      .ok (buf, { s with mem := m }) else .ok (p, s)) := by
    simp only [change_buf_capacity, hr.is_dynamic, Res.bind_ok, decide_eq_true hd', if_true, hr.getSize, hr.getCap,
      hr.getAlloc]
    rw [if_neg (show ¬ (c : Int) < (b.data.length : Int) by omega), storage_sizeT hc2]
  rw [e0]
  by_cases hc : c = b.cap
  · subst hc
    rw [if_neg (by simp)]
    exact Resz.same hs hb
  · rw [if_pos (by omega)]
    rcases allocCall_resize hs hd' (hb.heap hd) (n' := storage c) (by simp [storage]) with ⟨hbad, he⟩ | ⟨p', s', he, hz⟩
    · rw [he]; exact .inl ⟨⟨hc, hbad⟩, rfl⟩
    · rw [he]
      simp only [Res.bind_ok]
      have hlen := hb.len
      -- the raw block at the new place
      let K : List Byte := (List.range (c - b.data.length)).map
        fun i => (s'.mem (p' + ((25 + b.data.length + i : Nat) : Int))).getD 0
      have hK : K.length = c - b.data.length := by simp [K]
      have hr' : Raw s'.mem p' b.data.length b.cap b.al (b.data ++ 0 :: K) := by
        have htop := hz.top
        simp only [storage] at htop
        refine ⟨hz.pos, hz.aligned, ?_, hr.szMax, hr.capMax, hr.app, hr.fn, ?_⟩
        · simp only [List.length_append, List.length_cons, hK]; omega
        · have e : hdrBytes b.data.length b.cap b.al ++ (b.data ++ 0 :: K) =
            (hdrBytes b.data.length b.cap b.al ++ b.data ++ [0]) ++ K := by simp
          rw [e, Holds.append_iff]
          constructor
          · intro i hi
            have hi' := hi
            simp only [List.length_append, hdrBytes_length, List.length_cons, List.length_nil] at hi'
            have := hb.holds i hi
            rw [← this]
            have htop2 := hb.top
            have hp := hb.pos
            have hp' := hz.pos
            simp only [storage] at htop2
            simp only [rd]
            rw [if_neg (by omega), if_neg (by omega), if_neg (by omega), if_neg (by omega)]
            exact hz.copied i (by simp only [storage]; omega) (by simp only [storage]; omega)
          · intro i hi
            rw [hK] at hi
            have hm := hz.mapped (25 + b.data.length + i) (by simp only [storage]; omega)
            have hp' := hz.pos
            simp only [List.length_append, hdrBytes_length, List.length_cons, List.length_nil]
            have e2 : p' + ((24 + b.data.length + (0 + 1) : Nat) : Int) + (i : Int) =
              p' + ((25 + b.data.length + i : Nat) : Int) := by omega
            rw [e2]
            simp only [rd]
            rw [if_neg (by omega), if_neg (by omega)]
            simp only [K, List.getElem_map, List.getElem_range]
            obtain ⟨y, hy⟩ := Option.isSome_iff_exists.1 hm
            rw [hy]; rfl
      obtain ⟨m', e1, r1, w1⟩ := hr'.setCap (v := c) hc2
      rw [e1]
      simp only [Res.bind_ok]
      have hst : 24 + (b.data ++ 0 :: K).length = storage c := by
        simp only [List.length_append, List.length_cons, hK, storage]; omega
      right
      refine ⟨p', _, rfl, ?_, hz.sane.within r1 w1, hz.only.within (hst ▸ w1), fun h => absurd h hc, ?_⟩
      · exact BufAt.of_raw r1 (by omega) (fun _ => hz.liveAt)
      · intro _; exact hz.log

theorem ensure_cap {cfg : Cfg} (hcfg : cfg.Ok) {s : St} (hs : s.Sane) {p : Addr} {b : Buf} (hb : BufAt s p b)
    {n : Nat} (hn : (n : Int) ≤ INT_MAX) (hh : cfg.Handles b n) :
    Resz s p b (ensure_capacity cfg s p n) (b.capFor cfg n) := by
  obtain ⟨J, hJ, hr⟩ := hb.raw
  have hstep : 0 < cfg.growStep.toNat := by have := hcfg.pos; omega
  simp only [ensure_capacity, hr.is_dynamic, hr.getCap, Res.bind_ok]
  by_cases hd : b.Dynamic
  · have hd' : b.al.fn ≠ 0 := hd
    have e : b.capFor cfg n = grownCap cfg.growStep.toNat b.cap n := by rw [Buf.capFor, if_pos ⟨hd, hn⟩]
    rw [e, decide_eq_true hd']
    by_cases hc : n ≤ b.cap
    · rw [if_neg (by omega), grownCap, if_pos hc]
      exact Resz.same hs hb
    · rw [if_pos ⟨rfl, by omega⟩, grownCap_eq, if_neg hc]
      have hh' : cfg.wrapv = true ∨ (n : Int) + cfg.growStep ≤ INT_MAX := by
        rcases hh with h | h | h | h
        · exact .inl h
        · exact absurd h hc
        · exact .inr h
        · exact absurd hd h.1
      rw [round_up_eq hcfg hn hh']
      simp only [Res.bind_ok]
      have h1 := le_roundUp hstep hn
      have h2 := hb.len
      exact change_cap hs hb hd (by omega) (roundUp_le _ _)
  · have hd' : ¬ b.al.fn ≠ 0 := hd
    have e : b.capFor cfg n = b.cap := by rw [Buf.capFor, if_neg (fun h => hd h.1)]
    rw [e, decide_eq_false hd', if_neg (by simp)]
    exact Resz.same hs hb

theorem capFor_fits {cfg : Cfg} (hcfg : cfg.Ok) {b : Buf} {n : Nat} (hn : (n : Int) ≤ INT_MAX) :
    n ≤ b.capFor cfg n ↔ b.Fits n := by
  have hstep : 0 < cfg.growStep.toNat := by have := hcfg.pos; omega
  simp only [Buf.capFor, Buf.Fits]
  split
  · next h => exact ⟨fun _ => .inr h, fun _ => le_grownCap hstep hn⟩
  · next h => exact ⟨.inl, fun h' => h'.resolve_right h⟩

theorem capFor_max (cfg : Cfg) {b : Buf} (n : Nat) (hb : (b.cap : Int) ≤ INT_MAX) : (b.capFor cfg n : Int) ≤ INT_MAX := by
  simp only [Buf.capFor]
  split
  · exact grownCap_max hb
  · exact hb

theorem cap_le_capFor {cfg : Cfg} (hcfg : cfg.Ok) {b : Buf} (n : Nat) : b.cap ≤ b.capFor cfg n := by
  have hstep : 0 < cfg.growStep.toNat := by have := hcfg.pos; omega
  simp only [Buf.capFor]
  split
  · next h => exact cap_le_grownCap hstep h.2
  · omega

theorem Raw.of_eq {m : Mem} {p : Addr} {sz sz' cap : Nat} {al : Alloc} {rest rest' : List Byte}
    (h : Raw m p sz cap al rest) (e1 : sz = sz') (e2 : rest = rest') : Raw m p sz' cap al rest' := by
  subst e1; subst e2; exact h

/-- Inserting an empty view. -/
theorem insert_place_nil (cfg : Cfg) {m : Mem} {p : Addr} {cap : Nat} {al : Alloc} {A B J : List Byte} {y : Byte}
    (h : Raw m p (A ++ B).length cap al (A ++ B ++ y :: J)) (v : View) (hv : v.size = 0) (f : Bool) :
    ∃ m', insert_place cfg m p A.length v f = .ok m' ∧
      Raw m' p (A ++ B).length cap al (A ++ B ++ 0 :: J) ∧ Within m m' p (24 + (A ++ B ++ y :: J).length) := by
  have hmax := h.szMax
  obtain ⟨m1, e1, r1, w1⟩ := h.setSize (v := (A ++ B).length) hmax
  obtain ⟨m2, e2, r2, w2⟩ := r1.store 0
  refine ⟨m2, ?_, r2, w1.trans w2⟩
  simp only [insert_place, insert_gap, h.getSize, Res.bind_ok]
  rw [if_neg (by simp [hv])]
  simp only [Res.bind_ok, hv]
  rw [addInt_ok cfg (by simp only [INT_MIN]; omega) (by omega)]
  simp only [Res.bind_ok, Int.add_zero, e1, View.invalid, copy_part, hv]
  simp only [ne_eq, not_true, if_false, Res.bind_ok, r1.getSize, e2]

/-- Inserting a view of memory outside the buffer. -/
theorem insert_place_ext (cfg : Cfg) {m : Mem} {p : Addr} {cap : Nat} {al : Alloc} {A B J1 J2 S : List Byte} {y : Byte}
    (h : Raw m p (A ++ B).length cap al (A ++ B ++ (J1 ++ y :: J2))) (v : View) (hv : v.size = S.length)
    (hS : Holds m v.data S) (hl : J1.length = S.length) (hmax : ((A ++ B).length + S.length : Int) ≤ INT_MAX)
    (hd : S = [] ∨ v.data + S.length ≤ p ∨ p + ((24 + (A ++ B ++ (J1 ++ y :: J2)).length : Nat) : Int) ≤ v.data) :
    ∃ m', insert_place cfg m p A.length v false = .ok m' ∧
      Raw m' p (A ++ S ++ B).length cap al (A ++ S ++ B ++ 0 :: J2) ∧
      Within m m' p (24 + (A ++ B ++ (J1 ++ y :: J2)).length) := by
  by_cases hS0 : S = []
  · subst hS0
    have hJ1 : J1 = [] := List.length_eq_zero_iff.1 (by simpa using hl)
    subst hJ1
    simp only [List.append_nil, List.nil_append] at h ⊢
    exact insert_place_nil cfg h v (by simpa using hv) false
  have hSl : 0 < S.length := List.length_pos_iff.2 hS0
  -- the gap
  let Z := (B ++ J1).take S.length
  let W := (B ++ J1).drop S.length
  have hZW : B ++ J1 = Z ++ W := (List.take_append_drop _ _).symm
  have hZ : Z.length = S.length := by simp [Z]; omega
  have hW : W.length = B.length := by simp [W]; omega
  have htot : (A ++ B ++ (J1 ++ y :: J2)).length = (A ++ Z ++ W ++ y :: J2).length := by
    simp only [List.length_append, List.length_cons, hZ, hW, hl]; omega
  rw [htot] at hd ⊢
  have h0 : Raw m p (A ++ B).length cap al (A ++ Z ++ W ++ y :: J2) := by
    apply h.of_eq rfl
    simp only [List.append_assoc]
    rw [← List.append_assoc B J1, hZW]
    simp
  have hB : Holds m (cstrOf p + A.length) B := by
    have := h.body
    rw [List.append_assoc, Holds.append_iff, Holds.append_iff] at this
    exact this.2.1
  obtain ⟨m1, e1, r1, w1⟩ := h0.memmove hB hW.symm
  obtain ⟨m2, e2, r2, w2⟩ := r1.setSize (v := (A ++ S ++ B).length) (by
    simp only [List.length_append] at hmax ⊢; omega)
  have r2' : Raw m2 p (A ++ S ++ B).length cap al (A ++ Z ++ (B ++ y :: J2)) := r2.of_eq rfl (by simp)
  have htot2 : 24 + (A ++ Z ++ B ++ y :: J2).length = 24 + (A ++ Z ++ W ++ y :: J2).length := by
    simp only [List.length_append, List.length_cons, hW]
  rw [htot2] at w2
  have hS2 : Holds m2 v.data S := (w1.trans w2).holds hS hd
  obtain ⟨m3, e3, r3, w3⟩ := r2'.memcpy hS2 hZ.symm (by
    rcases hd with h | h | h
    · exact .inl h
    · right; right; simp only [cstrOf, hdrLen]; omega
    · right; left
      simp only [List.length_append, List.length_cons] at h
      simp only [cstrOf, hdrLen]; omega)
  have r3' : Raw m3 p (A ++ S ++ B).length cap al (A ++ S ++ B ++ y :: J2) := r3.of_eq rfl (by simp)
  obtain ⟨m4, e4, r4, w4⟩ := r3'.store 0
  refine ⟨m4, ?_, r4, ?_⟩
  · simp only [insert_place, insert_gap, h.getSize, Res.bind_ok]
    rw [if_pos (by omega)]
    have q1 : cstrOf p + ((A.length : Int) + v.size) = cstrOf p + ((A ++ Z).length : Int) := by
      simp only [List.length_append, hZ, hv]; omega
    have q2 : sizeT (((A ++ B).length : Int) - A.length) = B.length := by
      rw [show ((A ++ B).length : Int) - A.length = (B.length : Int) by simp only [List.length_append]; omega, sizeT_nat]
    rw [q1, q2, e1]
    simp only [Res.bind_ok, Bool.false_eq_true, if_false]
    rw [addInt_ok cfg (by simp only [INT_MIN]; omega) (by omega)]
    have q3 : ((A ++ B).length : Int) + v.size = ((A ++ S ++ B).length : Int) := by
      simp only [List.length_append, hv]; omega
    rw [q3]
    simp only [Res.bind_ok, e2, View.invalid, copy_part]
    simp only [ne_eq, not_true, if_false, Res.bind_ok, Int.add_zero]
    rw [if_pos (by omega), hv, sizeT_nat, e3]
    simp only [Res.bind_ok, r3.getSize, e4]
  · apply (w1.trans w2).trans
    have t3 : 24 + (A ++ Z ++ (B ++ y :: J2)).length = 24 + (A ++ Z ++ W ++ y :: J2).length := by
      simp only [List.length_append, List.length_cons, hW]; omega
    have t4 : 24 + (A ++ S ++ B ++ y :: J2).length = 24 + (A ++ Z ++ W ++ y :: J2).length := by
      simp only [List.length_append, List.length_cons, hW, hZ]
    rw [t3] at w3
    rw [t4] at w4
    exact w3.trans w4

/-- The two copies of `insert_strview_into_buf` when the source was inside the buffer: `S1` is the part of the source left
of the insertion point, `S2` the part that has been shifted. -/
theorem insert_copies {m : Mem} {p : Addr} {sz cap : Nat} {al : Alloc} {A Z B R S1 S2 : List Byte}
    (h : Raw m p sz cap al (A ++ Z ++ (B ++ R))) (hZ : Z.length = S1.length + S2.length) (L T : View)
    (hL : L.size = S1.length) (hT : T.size = S2.length) (hS1 : Holds m L.data S1) (hS2 : Holds m T.data S2)
    (hd1 : S1 = [] ∨ (cstrOf p ≤ L.data ∧ L.data + S1.length ≤ cstrOf p + A.length))
    (hd2 : S2 = [] ∨ (cstrOf p + A.length + Z.length ≤ T.data ∧ T.data + S2.length ≤ cstrOf p + A.length + Z.length + B.length)) :
    ∃ m1 m2, (if L.size ≠ 0 then memcpy m (cstrOf p + A.length) L.data (sizeT L.size) else .ok m) = .ok m1 ∧
      (if T.size ≠ 0 then memcpy m1 (cstrOf p + A.length + L.size) T.data (sizeT T.size) else .ok m1) = .ok m2 ∧
      Raw m2 p sz cap al (A ++ (S1 ++ S2) ++ (B ++ R)) ∧ Within m m2 p (24 + (A ++ Z ++ (B ++ R)).length) := by
  let Z1 := Z.take S1.length
  let Z2 := Z.drop S1.length
  have hZe : Z = Z1 ++ Z2 := (List.take_append_drop _ _).symm
  have hZ1 : Z1.length = S1.length := by simp [Z1]; omega
  have hZ2 : Z2.length = S2.length := by simp [Z2]; omega
  have h0 : Raw m p sz cap al (A ++ Z1 ++ (Z2 ++ (B ++ R))) := h.of_eq rfl (by rw [hZe]; simp)
  have htot : (A ++ Z ++ (B ++ R)).length = (A ++ Z1 ++ (Z2 ++ (B ++ R))).length := by
    simp only [List.length_append, hZ, hZ1, hZ2]; omega
  -- first copy
  have c1 : ∃ m1, (if L.size ≠ 0 then memcpy m (cstrOf p + A.length) L.data (sizeT L.size) else .ok m) = .ok m1 ∧
      Raw m1 p sz cap al (A ++ S1 ++ (Z2 ++ (B ++ R))) ∧ Within m m1 p (24 + (A ++ Z ++ (B ++ R)).length) ∧
      Holds m1 T.data S2 := by
    by_cases h1 : S1 = []
    · subst h1
      have : Z1 = [] := List.length_eq_zero_iff.1 (by simpa using hZ1)
      refine ⟨m, by rw [if_neg (by simp [hL])], ?_, Within.refl _ _ _, hS2⟩
      apply h0.of_eq rfl
      rw [this]
    · have hd1' := hd1.resolve_left h1
      have hpos : 0 < S1.length := List.length_pos_iff.2 h1
      obtain ⟨w0, r0, wi⟩ := h0.write (Y' := S1) hZ1.symm
      refine ⟨put m (cstrOf p + A.length) S1, ?_, r0, htot ▸ wi, ?_⟩
      · rw [if_pos (by omega), hL, sizeT_nat]
        exact memcpy_eq hS1 w0 (by omega)
      · rcases hd2 with rfl | hd2
        · exact Holds.nil _ _
        · apply holds_put_outside hS2
          right; omega
  obtain ⟨m1, e1, r1, w1, hS2'⟩ := c1
  have r1' : Raw m1 p sz cap al ((A ++ S1) ++ Z2 ++ (B ++ R)) := r1.of_eq rfl (by simp)
  have htot2 : (A ++ S1 ++ Z2 ++ (B ++ R)).length = (A ++ Z ++ (B ++ R)).length := by
    simp only [List.length_append, hZ, hZ2]; omega
  have epos : cstrOf p + (A.length : Int) + L.size = cstrOf p + ((A ++ S1).length : Int) := by
    simp only [List.length_append, hL]; omega
  rw [epos]
  by_cases h2 : S2 = []
  · subst h2
    have : Z2 = [] := List.length_eq_zero_iff.1 (by simpa using hZ2)
    refine ⟨m1, m1, e1, by rw [if_neg (by simp [hT])], ?_, w1⟩
    apply r1.of_eq rfl
    rw [this]; simp
  · have hd2' := hd2.resolve_left h2
    have hpos : 0 < S2.length := List.length_pos_iff.2 h2
    obtain ⟨w0, r0, wi⟩ := r1'.write (Y' := S2) hZ2.symm
    refine ⟨m1, put m1 (cstrOf p + ((A ++ S1).length : Int)) S2, e1, ?_, ?_, w1.trans (htot2 ▸ wi)⟩
    · rw [if_pos (by omega), hT, sizeT_nat]
      apply memcpy_eq hS2' w0
      right; left
      simp only [List.length_append]; omega
    · apply r0.of_eq rfl; simp

/-- Inserting a part of the buffer's own content (`S` is the content from offset `o`). -/
theorem insert_place_int (cfg : Cfg) {m : Mem} {p : Addr} {cap : Nat} {al : Alloc} {A B J1 J2 S : List Byte} {y : Byte}
    (h : Raw m p (A ++ B).length cap al (A ++ B ++ (J1 ++ y :: J2))) {o : Nat}
    (hS : S = ((A ++ B).drop o).take S.length) (ho : o + S.length ≤ (A ++ B).length)
    (hl : J1.length = S.length) (hmax : ((A ++ B).length + S.length : Int) ≤ INT_MAX) :
    ∃ m', insert_place cfg m p A.length ⟨cstrOf p + o, S.length⟩ true = .ok m' ∧
      Raw m' p (A ++ S ++ B).length cap al (A ++ S ++ B ++ 0 :: J2) ∧
      Within m m' p (24 + (A ++ B ++ (J1 ++ y :: J2)).length) := by
  by_cases hS0 : S = []
  · subst hS0
    have hJ1 : J1 = [] := List.length_eq_zero_iff.1 (by simpa using hl)
    subst hJ1
    simp only [List.append_nil, List.nil_append] at h ⊢
    exact insert_place_nil cfg h _ (by simp) true
  have hSl : 0 < S.length := List.length_pos_iff.2 hS0
  let Z := (B ++ J1).take S.length
  let W := (B ++ J1).drop S.length
  have hZW : B ++ J1 = Z ++ W := (List.take_append_drop _ _).symm
  have hZ : Z.length = S.length := by simp [Z]; omega
  have hW : W.length = B.length := by simp [W]; omega
  have htot : (A ++ B ++ (J1 ++ y :: J2)).length = (A ++ Z ++ W ++ y :: J2).length := by
    simp only [List.length_append, List.length_cons, hZ, hW, hl]; omega
  rw [htot]
  have h0 : Raw m p (A ++ B).length cap al (A ++ Z ++ W ++ y :: J2) := by
    apply h.of_eq rfl
    simp only [List.append_assoc]
    rw [← List.append_assoc B J1, hZW]
    simp
  have hB : Holds m (cstrOf p + A.length) B := by
    have := h.body
    rw [List.append_assoc, Holds.append_iff, Holds.append_iff] at this
    exact this.2.1
  obtain ⟨m1, e1, r1, w1⟩ := h0.memmove hB hW.symm
  obtain ⟨m2, e2, r2, w2⟩ := r1.setSize (v := (A ++ S ++ B).length) (by
    simp only [List.length_append] at hmax ⊢; omega)
  have r2' : Raw m2 p (A ++ S ++ B).length cap al (A ++ Z ++ (B ++ y :: J2)) := r2.of_eq rfl (by simp)
  have htot2 : 24 + (A ++ Z ++ B ++ y :: J2).length = 24 + (A ++ Z ++ W ++ y :: J2).length := by
    simp only [List.length_append, List.length_cons, hW]
  rw [htot2] at w2
  -- where the two parts of the source are now
  have hbody := r2'.body
  have hA : Holds m2 (cstrOf p) A := by
    rw [List.append_assoc, Holds.append_iff] at hbody; exact hbody.1
  have hB2 : Holds m2 (cstrOf p + A.length + Z.length) B := by
    rw [Holds.append_iff] at hbody
    have := (Holds.append_iff.1 hbody.2).1
    simp only [List.length_append] at this
    rwa [show cstrOf p + ((A.length + Z.length : Nat) : Int) = cstrOf p + A.length + Z.length by omega] at this
  have hlenAB : (A ++ B).length = A.length + B.length := List.length_append
  -- the views used for the copies
  have hparts : ∃ S1 S2 : List Byte, ∃ L T : View, S = S1 ++ S2 ∧
      (if cstrOf p + (A.length : Int) > cstrOf p + (o : Int) then
        split_index ⟨cstrOf p + (o : Int), (S.length : Int)⟩ (cstrOf p + A.length - (cstrOf p + o))
        else .ok (View.invalid, (⟨cstrOf p + (o : Int), (S.length : Int)⟩ : View))) = .ok (L, T) ∧
      L.size = S1.length ∧ T.size = S2.length ∧ Holds m2 L.data S1 ∧ Holds m2 (T.data + S.length) S2 ∧
      (S1 = [] ∨ (cstrOf p ≤ L.data ∧ L.data + S1.length ≤ cstrOf p + A.length)) ∧
      (S2 = [] ∨ (cstrOf p + A.length + Z.length ≤ T.data + S.length ∧
        T.data + S.length + S2.length ≤ cstrOf p + A.length + Z.length + B.length)) := by
    by_cases hoA : o < A.length
    · -- the source starts left of the insertion point
      let c := min (A.length - o) S.length
      have hc : c ≤ S.length := Nat.min_le_right _ _
      have hc' : c ≤ A.length - o := Nat.min_le_left _ _
      have hS1 : S.take c = (A.drop o).take c := by
        rw [hS, List.take_take, List.drop_append_of_le_length (by omega), Nat.min_eq_left hc,
          List.take_append_of_le_length (by simp only [List.length_drop]; omega)]
      have hS2 : S.drop c = B.take (S.length - c) := by
        rw [hS, List.drop_take, List.drop_drop]
        have hlen : (List.take S.length (List.drop o (A ++ B))).length = S.length := by rw [← hS]
        rw [hlen]
        by_cases hcc : S.length ≤ A.length - o
        · have : c = S.length := by omega
          rw [this]; simp
        · have : c = A.length - o := by omega
          rw [this, show o + (A.length - o) = A.length by omega, List.drop_left]
      refine ⟨S.take c, S.drop c, ⟨cstrOf p + o, (c : Nat)⟩, ⟨cstrOf p + o + (c : Nat), (S.length - c : Nat)⟩,
        (List.take_append_drop _ _).symm, ?_, ?_, ?_, ?_, ?_, ?_, ?_⟩
      · rw [if_pos (by omega), show cstrOf p + (A.length : Int) - (cstrOf p + o) = ((A.length - o : Nat) : Int) by omega,
          split_index_nonneg (n := S.length) rfl]
        simp only [View.part, Int.natCast_zero, Int.add_zero]
        rfl
      · simp only [List.length_take]; omega
      · simp only [List.length_drop]
      · rw [hS1]; exact (hA.drop o (by omega)).take c
      · by_cases hcc : c = S.length
        · rw [hcc]; simp only [List.drop_length]; exact Holds.nil _ _
        · have hce : c = A.length - o := by omega
          have := hB2.take (S.length - c)
          rw [hS2]
          have e : cstrOf p + (o : Int) + (c : Nat) + (S.length : Int) = cstrOf p + A.length + Z.length := by omega
          simp only [e]; exact this
      · right
        simp only [List.length_take]; omega
      · by_cases hcc : c = S.length
        · left; rw [hcc]; simp
        · right
          simp only [List.length_drop]; omega
    · refine ⟨[], S, .invalid, ⟨cstrOf p + o, S.length⟩, rfl, ?_, rfl, rfl, Holds.nil _ _, ?_, .inl rfl, ?_⟩
      · rw [if_neg (by omega)]
      · have e : S = (B.drop (o - A.length)).take S.length := by
          rw [List.drop_append] at hS
          rw [List.drop_eq_nil_of_le (by omega), List.nil_append] at hS
          exact hS
        have := (hB2.drop (o - A.length) (by omega)).take S.length
        rw [← e] at this
        simp only
        rwa [show cstrOf p + (A.length : Int) + Z.length + ((o - A.length : Nat) : Int) = cstrOf p + o + S.length by omega] at this
      · right; simp only; omega
  obtain ⟨S1, S2, L, T, hSS, hsplit, hL, hT, g1, g2, d1, d2⟩ := hparts
  obtain ⟨m3, m4, e3, e4, r4, w4⟩ := insert_copies r2' (S1 := S1) (S2 := S2) (by rw [hZ, hSS]; simp) L
    ⟨T.data + S.length, T.size⟩ hL hT g1 g2 d1 d2
  have r4' : Raw m4 p (A ++ S ++ B).length cap al (A ++ S ++ B ++ y :: J2) := r4.of_eq rfl (by rw [hSS]; simp)
  obtain ⟨m5, e5, r5, w5⟩ := r4'.store 0
  refine ⟨m5, ?_, r5, ?_⟩
  · simp only [insert_place, insert_gap, h.getSize, Res.bind_ok]
    rw [if_pos (by omega)]
    have q1 : cstrOf p + ((A.length : Int) + (S.length : Int)) = cstrOf p + ((A ++ Z).length : Int) := by
      simp only [List.length_append, hZ]; omega
    have q2 : sizeT (((A ++ B).length : Int) - A.length) = B.length := by
      rw [show ((A ++ B).length : Int) - A.length = (B.length : Int) by simp only [List.length_append]; omega, sizeT_nat]
    rw [q1, q2, e1]
    have hsp : ∀ d, insert_split ⟨cstrOf p + o, S.length⟩ (cstrOf p + A.length) d =
        .ok (L, ⟨T.data + (d - (cstrOf p + A.length)), T.size⟩) := by
      intro d
      simp only [insert_split]
      by_cases hgt : cstrOf p + (A.length : Int) > cstrOf p + (o : Int)
      · rw [if_pos hgt] at hsplit ⊢
        rw [hsplit]; rfl
      · rw [if_neg hgt] at hsplit ⊢
        cases hsplit; rfl
    simp only [Res.bind_ok, if_true, hsp]
    rw [addInt_ok cfg (by simp only [INT_MIN]; omega) (by omega)]
    have q3 : ((A ++ B).length : Int) + (S.length : Int) = ((A ++ S ++ B).length : Int) := by
      simp only [List.length_append]; omega
    have q4 : T.data + (cstrOf p + ((A ++ Z).length : Int) - (cstrOf p + (A.length : Int))) = T.data + S.length := by
      simp only [List.length_append, hZ]; omega
    rw [q3, q4]
    simp only [Res.bind_ok, e2, copy_part]
    rw [e3]
    simp only [Res.bind_ok]
    simp only at e4
    rw [e4]
    simp only [Res.bind_ok, r4.getSize, e5]
  · apply (w1.trans w2).trans
    have t3 : 24 + (A ++ Z ++ (B ++ y :: J2)).length = 24 + (A ++ Z ++ W ++ y :: J2).length := by
      simp only [List.length_append, List.length_cons, hW]; omega
    have t4 : 24 + (A ++ S ++ B ++ y :: J2).length = 24 + (A ++ Z ++ W ++ y :: J2).length := by
      simp only [List.length_append, List.length_cons, hW, hZ]
    rw [t3] at w4
    rw [t4] at w5
    exact w4.trans w5

theorem insert_index_eq (cfg : Cfg) {size : Nat} (hs : (size : Int) ≤ INT_MAX) {i : Int} (h1 : INT_MIN ≤ i) :
    insert_index cfg size i = .ok (insertPos size i : Nat) := by
  simp only [INT_MAX, INT_MIN] at hs h1
  simp only [insert_index, insertPos]
  by_cases hneg : i < 0
  · rw [if_neg (show ¬ i > (size : Int) by omega)]
    rw [if_pos hneg, if_pos hneg, addInt_ok cfg (by simp only [INT_MIN]; omega) (by simp only [INT_MAX]; omega)]
    simp only [Res.bind_ok]
    congr 1
    split <;> omega
  · rw [if_neg hneg]
    by_cases hgt : i > (size : Int)
    · rw [if_pos hgt, if_neg (by omega)]
      simp only [Res.bind_ok]
      rw [if_neg (by omega)]; congr 1; omega
    · rw [if_neg hgt, if_neg (by omega)]
      simp only [Res.bind_ok]
      rw [if_neg (by omega)]; congr 1; omega

theorem insertPos_le (size : Nat) (i : Int) : insertPos size i ≤ size := by
  simp only [insertPos]; split <;> omega

/-- Two intervals without a common address are disjoint. -/
theorem interval_disjoint {a p : Addr} {k n : Nat} (hk : 0 < k) (hn : 0 < n)
    (h : ∀ x, InRange a k x → ¬ InRange p n x) : a + k ≤ p ∨ p + n ≤ a := by
  by_cases h1 : a ≤ p
  · have := h p
    simp only [InRange] at this; omega
  · have := h a
    simp only [InRange] at this; omega

/-- A held list outside the old block is outside the new block, and is still held. -/
theorem OnlyBlock.keeps' {s s' : St} {p : Addr} {n : Nat} {p' : Addr} {n' : Nat} (h : OnlyBlock s s' p n p' n')
    (hn' : 0 < n') (htop : p' + n' ≤ litBase)
    {a : Addr} {l : List Byte} (hl : Holds s.mem a l) (hd : ∀ x, InRange a l.length x → ¬ InRange p n x) :
    Holds s'.mem a l ∧ (l = [] ∨ a + l.length ≤ p' ∨ p' + n' ≤ a) := by
  by_cases he : l = []
  · subst he; exact ⟨Holds.nil _ _, .inl rfl⟩
  · have hpos : 0 < l.length := List.length_pos_iff.2 he
    have hx : ∀ x, InRange a l.length x → ¬ InRange p' n' x := by
      intro x hx hx'
      have h0 := h.fresh x hx' (hd x hx)
      have h1 := hl (x - a).toNat (by simp only [InRange] at hx; omega)
      have e : a + ((x - a).toNat : Int) = x := by simp only [InRange] at hx; omega
      rw [e] at h1
      simp only [InRange] at hx hx'
      simp only [rd] at h1
      rw [if_neg (by intro hh; rw [if_pos hh] at h1; cases h1), if_neg (by omega), h0] at h1
      cases h1
    refine ⟨?_, .inr (interval_disjoint hpos hn' hx)⟩
    apply hl.congr
    intro i hi
    have hr : InRange a l.length (a + i) := by simp only [InRange]; omega
    exact h.outside _ (hd _ hr) (hx _ hr)

theorem OnlyBlock.keeps {s s' : St} {p : Addr} {n : Nat} {p' : Addr} {n' : Nat} (h : OnlyBlock s s' p n p' n')
    (hn' : 0 < n') (htop : p' + n' ≤ litBase)
    {a : Addr} {l : List Byte} (hl : Holds s.mem a l) (hd : l = [] ∨ a + l.length ≤ p ∨ p + n ≤ a) :
    Holds s'.mem a l ∧ (l = [] ∨ a + l.length ≤ p' ∨ p' + n' ≤ a) := by
  apply h.keeps' hn' htop hl
  intro x hx
  rcases hd with rfl | hd
  · simp only [InRange, List.length_nil] at hx; omega
  · simp only [InRange] at hx ⊢; omega

theorem Source.sizeMax {s : St} {p : Addr} {b : Buf} {v : View} {l : List Byte} (h : Source s p b v l) :
    (l.length : Int) ≤ INT_MAX := h.max

/-- `insert_strview_into_buf` on a well-formed buffer with a legitimate source. -/
theorem insert_out {cfg : Cfg} (hcfg : cfg.Ok) {s : St} (hs : s.Sane) {p : Addr} {b : Buf} (hb : BufAt s p b)
    {v : View} {S : List Byte} (hv : Source s p b v S) {i : Int} (hi : INT_MIN ≤ i)
    (hh : cfg.Handles b (b.data.length + S.length)) :
    Out s p b (insert_strview_into_buf cfg s p i v)
      (if b.Fits (b.data.length + S.length) then
        b.data.take (insertPos b.data.length i) ++ S ++ b.data.drop (insertPos b.data.length i) else [])
      (b.capFor cfg (b.data.length + S.length)) := by
  obtain ⟨J, hJ, hr⟩ := hb.raw
  have hszm := hr.szMax
  have hcapm := hb.cap
  have hSm := hv.sizeMax
  have hk := insertPos_le b.data.length i
  -- abbreviations
  generalize hkk : insertPos b.data.length i = k at hk ⊢
  let n := b.data.length + S.length
  have hn : (b.data.length : Int) + S.length = (n : Nat) := by simp only [n]; omega
  show Out s p b _ (if b.Fits n then _ else []) (b.capFor cfg n)
  replace hh : cfg.Handles b n := hh
  by_cases hov : (n : Int) ≤ INT_MAX
  · -- no overflow
    have hf : add_will_overflow_int cfg b.data.length S.length = .ok false := by
      rw [add_ovf cfg hszm hSm (by right; omega), decide_eq_false (by omega)]
    have hadd : addInt cfg b.data.length S.length = .ok (n : Nat) := by
      rw [addInt_ok cfg (by simp only [INT_MIN]; omega) (by omega), hn]
    rcases ensure_cap hcfg hs hb hov hh with ⟨hne, he⟩ | ⟨p', s', he, hz⟩
    · left
      refine ⟨hne, ?_⟩
      simp only [insert_strview_into_buf, hr.contains, hr.getSize, Res.bind_ok, insert_index_eq cfg hszm hi, hv.size, hf,
        hadd, Bool.not_false, if_true, he, Res.bind_env]
    · obtain ⟨J', hJ', hr'⟩ := hz.buf.raw
      simp only at hJ' hr'
      generalize hstr : (if (decide (cstrOf p ≤ v.data ∧ v.data < cstrOf p + (b.data.length : Int))) ∧ p' ≠ p then
        (⟨cstrOf p' + (v.data - cstrOf p), v.size⟩ : View) else v) = str
      have heq : insert_strview_into_buf cfg s p i v =
          (if (b.capFor cfg n : Int) < (n : Nat) then do
            let m ← empty_buf s'.mem p'
            .ok (p', { s' with mem := m })
          else do
            let m ← insert_place cfg s'.mem p' k str (decide (cstrOf p ≤ v.data ∧ v.data < cstrOf p + (b.data.length : Int)))
            .ok (p', { s' with mem := m })) := by
        simp only [insert_strview_into_buf, hr.contains, hr.getSize, Res.bind_ok, insert_index_eq cfg hszm hi, hv.size, hf,
          hadd, Bool.not_false, if_true, he, hr'.getCap, hkk]
        rw [← hstr, hv.size]
      rw [heq]
      by_cases hfit : n ≤ b.capFor cfg n
      · rw [if_neg (by omega), if_pos ((capFor_fits hcfg hov).1 hfit)]
        -- split the spare bytes
        have hJlen : S.length ≤ J'.length := by omega
        have hzs : ∃ (J1 : List Byte) (y : Byte) (J2 : List Byte), 0 :: J' = J1 ++ y :: J2 ∧ J1.length = S.length := by
          have hlt : S.length < (0 :: J').length := by simp only [List.length_cons]; omega
          refine ⟨(0 :: J').take S.length, (0 :: J')[S.length], (0 :: J').drop (S.length + 1), ?_, ?_⟩
          · rw [← List.drop_eq_getElem_cons hlt, List.take_append_drop]
          · rw [List.length_take]; omega
        obtain ⟨J1, y, J2, hsp, hJ1⟩ := hzs
        have hAB : b.data.take k ++ b.data.drop k = b.data := List.take_append_drop _ _
        have hA : (b.data.take k).length = k := by rw [List.length_take]; omega
        have hr2 : Raw s'.mem p' (b.data.take k ++ b.data.drop k).length (b.capFor cfg n) b.al
            (b.data.take k ++ b.data.drop k ++ (J1 ++ y :: J2)) := by
          rw [hAB, ← hsp]; exact hr'
        have hlenc : J'.length + 1 = J1.length + (J2.length + 1) := by
          have := congrArg List.length hsp
          simpa using this
        have hst : 24 + (b.data.take k ++ b.data.drop k ++ (J1 ++ y :: J2)).length = storage (b.capFor cfg n) := by
          rw [hAB]
          simp only [List.length_append, List.length_cons, storage]; omega
        have hmaxAB : ((b.data.take k ++ b.data.drop k).length + S.length : Int) ≤ INT_MAX := by
          rw [hAB]; omega
        have hplace : ∃ m', insert_place cfg s'.mem p' k str
            (decide (cstrOf p ≤ v.data ∧ v.data < cstrOf p + (b.data.length : Int))) = .ok m' ∧
            Raw m' p' (b.data.take k ++ S ++ b.data.drop k).length (b.capFor cfg n) b.al
              (b.data.take k ++ S ++ b.data.drop k ++ 0 :: J2) ∧
            Within s'.mem m' p' (24 + (b.data.take k ++ b.data.drop k ++ (J1 ++ y :: J2)).length) := by
          have hstrsize : str.size = S.length := by
            rw [← hstr]; split <;> simp [hv.size]
          by_cases hS0 : S = []
          · subst hS0
            have hJ1' : J1 = [] := List.length_eq_zero_iff.1 (by simpa using hJ1)
            subst hJ1'
            simp only [List.append_nil, List.nil_append] at hr2 ⊢
            have := insert_place_nil cfg hr2 str (by simpa using hstrsize)
              (decide (cstrOf p ≤ v.data ∧ v.data < cstrOf p + (b.data.length : Int)))
            rwa [hA] at this
          · have hpos : 0 < S.length := List.length_pos_iff.2 hS0
            by_cases hin : cstrOf p ≤ v.data ∧ v.data < cstrOf p + (b.data.length : Int)
            · -- inside
              rw [decide_eq_true hin]
              have hpl : p + 24 ≤ v.data ∧ v.data + S.length ≤ p + 24 + b.data.length := by
                have := hv.place.resolve_left hS0
                simp only [cstrOf, hdrLen] at hin
                have := hb.len
                simp only [storage] at *
                omega
              obtain ⟨o, ho⟩ : ∃ o : Nat, v.data = cstrOf p + o :=
                ⟨(v.data - cstrOf p).toNat, by omega⟩
              have hstr2 : str = ⟨cstrOf p' + o, S.length⟩ := by
                rw [← hstr, ho, hv.size]
                split
                · congr 1; omega
                · next hc =>
                  have : p' = p := by
                    by_cases hpp : p' = p
                    · exact hpp
                    · exfalso; apply hc
                      refine ⟨?_, hpp⟩
                      rw [← ho]; exact decide_eq_true hin
                  cases v
                  simp only at ho
                  have hvs := hv.size
                  simp only at hvs
                  rw [this, ho, hvs]
              have hoS : o + S.length ≤ b.data.length := by
                simp only [cstrOf, hdrLen] at ho; omega
              have hSeq : S = (b.data.drop o).take S.length := by
                have h1 := hr.body
                rw [Holds.append_iff] at h1
                have h2 := (h1.1.drop o (by omega)).take S.length
                rw [← ho] at h2
                exact hv.holds.unique h2 (by rw [List.length_take, List.length_drop]; omega)
              rw [hstr2]
              have := insert_place_int cfg hr2 (S := S) (o := o) (by rw [hAB]; exact hSeq) (by rw [hAB]; exact hoS) hJ1 hmaxAB
              rwa [hA] at this
            · rw [decide_eq_false hin]
              have hstr2 : str = v := by
                rw [← hstr, if_neg (by rw [decide_eq_false hin]; simp)]
              rw [hstr2]
              have hpl : S = [] ∨ v.data + S.length ≤ p ∨ p + storage b.cap ≤ v.data := by
                have := hv.place
                simp only [cstrOf, hdrLen] at hin
                rcases this with h | h | h | h
                · exact .inl h
                · exact .inr (.inl h)
                · exact .inr (.inr h)
                · omega
              have hkeep := hz.only.keeps (by simp [storage]) hz.buf.top hv.holds hpl
              have := insert_place_ext cfg hr2 v hv.size hkeep.1 hJ1 hmaxAB (by rw [hst]; exact hkeep.2)
              rwa [hA] at this
        obtain ⟨m', e1, r1, w1⟩ := hplace
        rw [e1]
        simp only [Res.bind_ok]
        rw [hst] at w1
        apply hz.out r1 _ w1
        simp only [List.length_append, List.length_take, List.length_drop]; omega
      · rw [if_pos (by omega), if_neg (fun h => hfit ((capFor_fits hcfg hov).2 h))]
        obtain ⟨m', e1, r1⟩ := hz.emptied
        rw [e1]
        exact .inr ⟨p', _, rfl, r1⟩
  · -- overflow of the size
    have hw : cfg.wrapv = true := by
      have := hcfg.pos
      rcases hh with h | h | h | h
      · exact h
      · omega
      · omega
      · omega
    have hf : add_will_overflow_int cfg b.data.length S.length = .ok true := by
      rw [add_ovf cfg hszm hSm (.inl hw), decide_eq_true (by omega)]
    have hnf : ¬ b.Fits n := by
      simp only [Buf.Fits]; omega
    have hcf : b.capFor cfg n = b.cap := by
      rw [Buf.capFor, if_neg (fun h => hov h.2)]
    rw [if_neg hnf, hcf]
    obtain ⟨m', e1, r1⟩ := (ReszOk.refl hs hb).emptied
    have heq : insert_strview_into_buf cfg s p i v = .ok (p, { s with mem := m' }) := by
      simp only [insert_strview_into_buf, hr.contains, hr.getSize, Res.bind_ok, insert_index_eq cfg hszm hi, hv.size, hf,
        Bool.not_true, Bool.false_eq_true, if_false, e1]
    rw [heq]
    exact .inr ⟨p, _, rfl, r1⟩

end CStr
