import Verif.Lemmas.BufText
/-! Creation, destruction and conversion of buffers. -/
namespace CStr

theorem leBytes_leVal {k : Nat} {l : List Byte} (h : l.length = k) : leBytes k (leVal l) = l := by
  induction l generalizing k with
  | nil => subst h; rfl
  | cons b l ih =>
    simp only [List.length_cons] at h
    subst h
    simp only [leVal, leBytes]
    have hb := b.toNat_lt
    have e1 : (b.toNat + 256 * leVal l) % 256 = b.toNat := by omega
    have e2 : (b.toNat + 256 * leVal l) / 256 = leVal l := by omega
    rw [e1, e2, ih rfl]
    simp

theorem Writable.contents {m : Mem} {p : Addr} {n : Nat} (h : Writable m p n) :
    ∃ L : List Byte, L.length = n ∧ Holds m p L := by
  refine ⟨(List.range n).map fun i : Nat => (m (p + (i : Int))).getD 0, by simp, ?_⟩
  intro i hi
  simp only [List.length_map, List.length_range] at hi
  obtain ⟨h1, h2, h3⟩ := h i hi
  simp only [List.getElem_map, List.getElem_range, rd]
  rw [if_neg (by omega), if_neg (by omega)]
  obtain ⟨y, hy⟩ := Option.isSome_iff_exists.1 h3
  rw [hy]; rfl

theorem store_within {m m' : Mem} {a : Addr} {b : Byte} (h : store m a b = .ok m') {p : Addr} {n : Nat} (h1 : p ≤ a)
    (h2 : a + 1 ≤ p + n) : Within m m' p n := by
  simp only [store] at h
  split at h
  · cases h
    intro x hx
    simp only [InRange] at hx
    show (if x = a then _ else _) = _
    rw [if_neg (by omega)]
  · cases h

theorem writeBytes_within {l : List Byte} {m m' : Mem} {a : Addr} (h : writeBytes m a l = .ok m') {p : Addr} {n : Nat} (h1 : p ≤ a)
    (h2 : a + l.length ≤ p + n) : Within m m' p n := by
  induction l generalizing m a with
  | nil => cases h; exact Within.refl _ _ _
  | cons b l ih =>
    simp only [writeBytes] at h
    simp only [List.length_cons] at h2
    cases hs : store m a b with
    | ok m1 =>
      rw [hs, Res.bind_ok] at h
      exact (store_within hs h1 (by omega)).trans (ih h (by omega) (by omega))
    | ub w => rw [hs] at h; cases h
    | fuel => rw [hs] at h; cases h
    | env _ => rw [hs] at h; cases h

/-- A block of memory with known contents, aligned like a buffer. -/
structure Block (m : Mem) (p : Addr) (L : List Byte) : Prop where
  pos : 0 < p
  aligned : p % 8 = 0
  top : p + L.length ≤ litBase
  holds : Holds m p L

theorem Block.setField {m : Mem} {p : Addr} {A B C : List Byte} (h : Block m p (A ++ B ++ C)) {off k v : Nat}
    (ho : A.length = off) (hk : B.length = k) :
    ∃ m', setField m p off k v = .ok m' ∧ Block m' p (A ++ leBytes k v ++ C) ∧
      Within m m' p (A ++ B ++ C).length := by
  have hm := h.holds.put_mid (Y' := leBytes k v) (by rw [leBytes_length, hk]) h.pos h.top
  refine ⟨put m (p + A.length) (leBytes k v), ?_, ⟨h.pos, h.aligned, ?_, hm⟩, ?_⟩
  · have h1 := h.pos
    have h2 := h.aligned
    simp only [CStr.setField, checkPtr]
    rw [if_neg (by omega), Res.bind_ok, ho]
    rw [← ho]
    apply writeBytes_eq
    have := (h.holds.writable h.pos h.top).sub A.length k (by simp only [List.length_append]; omega)
    rwa [leBytes_length]
  · have := h.top
    simp only [List.length_append, leBytes_length] at this ⊢
    omega
  · apply within_put (by omega)
    simp only [List.length_append, leBytes_length]; omega

theorem split24 {L : List Byte} {n : Nat} (h : L.length = 24 + n) :
    ∃ a b c d r, L = a ++ b ++ c ++ d ++ r ∧ a.length = 4 ∧ b.length = 4 ∧ c.length = 8 ∧ d.length = 8 ∧ r.length = n := by
  refine ⟨L.take 4, (L.drop 4).take 4, (L.drop 8).take 8, (L.drop 16).take 8, L.drop 24, ?_, ?_, ?_, ?_, ?_, ?_⟩
  · have e3 : L.drop 16 = (L.drop 16).take 8 ++ L.drop 24 := by
      have := List.take_append_drop 8 (L.drop 16)
      rw [List.drop_drop] at this; exact this.symm
    have e2 : L.drop 8 = (L.drop 8).take 8 ++ L.drop 16 := by
      have := List.take_append_drop 8 (L.drop 8)
      rw [List.drop_drop] at this; exact this.symm
    have e1 : L.drop 4 = (L.drop 4).take 4 ++ L.drop 8 := by
      have := List.take_append_drop 4 (L.drop 4)
      rw [List.drop_drop] at this; exact this.symm
    have e0 : L = L.take 4 ++ L.drop 4 := (List.take_append_drop 4 L).symm
    rw [List.append_assoc, ← e3, List.append_assoc, ← e2, List.append_assoc, ← e1, ← e0]
  all_goals
    simp only [List.length_take, List.length_drop]
    omega

/-- `empty_buf` on a block whose other header members are set. -/
theorem Block.empty {m : Mem} {p : Addr} {sz rest : List Byte} {cap : Nat} {al : Alloc} {y : Byte}
    (h : Block m p (sz ++ (leBytes 4 cap ++ leBytes 8 al.app ++ leBytes 8 al.fn ++ y :: rest))) (hsz : sz.length = 4)
    (hcap : (cap : Int) ≤ INT_MAX) (happ : al.app < 2 ^ 64) (hfn : al.fn < 2 ^ 64) :
    ∃ m', empty_buf m p = .ok m' ∧ Raw m' p 0 cap al (0 :: rest) ∧ Within m m' p (25 + rest.length) := by
  have h' : Block m p ([] ++ sz ++ (leBytes 4 cap ++ leBytes 8 al.app ++ leBytes 8 al.fn ++ y :: rest)) := by simpa using h
  obtain ⟨m1, e1, b1, w1⟩ := h'.setField (v := 0) (off := 0) rfl hsz
  have hr : Raw m1 p 0 cap al ([] ++ y :: rest) := by
    refine ⟨b1.pos, b1.aligned, ?_, by simp only [INT_MAX]; omega, hcap, happ, hfn, ?_⟩
    · have := b1.top
      simp only [List.length_append, List.length_cons, leBytes_length, List.length_nil] at this ⊢
      omega
    · have := b1.holds
      simpa [hdrBytes] using this
  obtain ⟨m2, e2, r2, w2⟩ := hr.store 0
  refine ⟨m2, ?_, by simpa using r2, ?_⟩
  · have e3 : setSize m p 0 = .ok m1 := by
      rw [setSize, show ofInt32 0 = 0 from rfl]; exact e1
    simp only [List.length_nil, Int.natCast_zero, Int.add_zero] at e2
    rw [empty_buf, e3, Res.bind_ok, e2]
  · have ew1 : ([] ++ sz ++ (leBytes 4 cap ++ leBytes 8 al.app ++ leBytes 8 al.fn ++ y :: rest)).length = 25 + rest.length := by
      simp only [List.length_append, List.length_cons, leBytes_length, List.length_nil]; omega
    have ew2 : 24 + ([] ++ y :: rest).length = 25 + rest.length := by
      simp only [List.length_append, List.length_cons, List.length_nil]; omega
    rw [ew1] at w1
    rw [ew2] at w2
    exact w1.trans w2

theorem create_ok {s : St} (hs : s.Sane) {al : Alloc} (hal : al.Ok) {cap : Nat} (hcap : (cap : Int) ≤ INT_MAX) :
    (BadAnswer s 0 0 (storage cap) ∧ create_buf s cap al = .env .alloc) ∨
      ∃ p s', create_buf s cap al = .ok (p, s') ∧ Created s s' p ⟨[], cap, al⟩ := by
  rw [create_buf, storage_sizeT hcap]
  rcases allocCall_new hs hal.some (n := storage cap) (by simp only [storage]; omega) with ⟨hbad, he⟩ | ⟨p, s1, e1, nb⟩
  · exact .inl ⟨hbad, by rw [he, Res.bind_env]⟩
  · right
    have hw : Writable s1.mem p (storage cap) := by
      intro i hi
      have h1 := nb.pos; have h2 := nb.top
      exact ⟨by omega, by omega, nb.mapped i hi⟩
    obtain ⟨L, hL, hh⟩ := hw.contents
    obtain ⟨a, b, c, d, r, rfl, ha, hb, hc, hd, hr⟩ := split24 (n := cap + 1) (by rw [hL, storage]; omega)
    obtain ⟨y, rest, rfl⟩ : ∃ y rest, r = y :: rest := by
      cases r with
      | nil => simp at hr
      | cons y rest => exact ⟨y, rest, rfl⟩
    simp only [List.length_cons, Nat.add_right_cancel_iff] at hr
    have b0 : Block s1.mem p (a ++ b ++ (c ++ d ++ y :: rest)) :=
      ⟨nb.pos, nb.aligned, by have := nb.top; rw [← hL] at this; simpa using this, by simpa using hh⟩
    obtain ⟨m1, e2, b1, w1⟩ := b0.setField (v := cap) (off := 4) ha hb
    have b1' : Block m1 p ((a ++ leBytes 4 cap) ++ c ++ (d ++ y :: rest)) := by simpa using b1
    obtain ⟨m2, e3, b2, w2⟩ := b1'.setField (v := al.app) (off := 8)
      (by rw [List.length_append, ha, leBytes_length]) hc
    have b2' : Block m2 p ((a ++ leBytes 4 cap ++ leBytes 8 al.app) ++ d ++ (y :: rest)) := by simpa using b2
    obtain ⟨m3, e4, b3, w3⟩ := b2'.setField (v := al.fn) (off := 16)
      (by simp only [List.length_append, ha, leBytes_length]) hd
    have b3' : Block m3 p (a ++ (leBytes 4 cap ++ leBytes 8 al.app ++ leBytes 8 al.fn ++ y :: rest)) := by simpa using b3
    obtain ⟨m4, e5, r4, w4⟩ := b3'.empty ha hcap hal.app hal.fn
    have e2' : setCap s1.mem p cap = .ok m1 := by rw [setCap, ofInt32_nat hcap]; exact e2
    have e34 : setAlloc m1 p al = .ok m3 := by rw [setAlloc, e3, Res.bind_ok, e4]
    rw [e1, Res.bind_ok]
    simp only
    rw [e2', Res.bind_ok, e34, Res.bind_ok, e5, Res.bind_ok]
    have hst : 25 + rest.length = storage cap := by rw [hr, storage]; omega
    have hw : Within s1.mem m4 p (storage cap) := by
      have e1 : (a ++ b ++ (c ++ d ++ y :: rest)).length = storage cap := by
        simp only [List.length_append, List.length_cons, storage]; omega
      have e2 : (a ++ leBytes 4 cap ++ c ++ (d ++ y :: rest)).length = storage cap := by
        simp only [List.length_append, List.length_cons, storage, leBytes_length]; omega
      have e3 : (a ++ leBytes 4 cap ++ leBytes 8 al.app ++ d ++ y :: rest).length = storage cap := by
        simp only [List.length_append, List.length_cons, storage, leBytes_length]; omega
      rw [e1] at w1
      rw [e2] at w2
      rw [e3] at w3
      rw [hst] at w4
      exact ((w1.trans w2).trans w3).trans w4
    refine ⟨p, _, rfl, BufAt.of_raw (l := []) r4 (by simpa using hr) ?_, ?_, ⟨?_, nb.fresh, ?_, nb.liveNone, nb.picks⟩, nb.log⟩
    · intro _
      show s1.live p = _
      rw [nb.live]; exact if_pos rfl
    · apply nb.sane.within r4
      have : 24 + (0 :: rest).length = storage cap := by
        simp only [List.length_cons]; omega
      rw [this]; exact hw
    · intro a ha
      exact (hw a ha).trans (nb.outside a ha)
    · intro q hq
      show s1.live q = _
      rw [nb.live]; exact if_neg hq

theorem OnlyNew.toBlock {s s' : St} {p : Addr} {n : Nat} (h : OnlyNew s s' p n) : OnlyBlock s s' p 0 p n :=
  ⟨fun a _ h2 => h.outside a h2, fun a h1 _ => h.fresh a h1, fun a h1 _ => by simp only [InRange] at h1; omega,
    fun q hq _ => h.live q hq, fun hne => absurd rfl hne, fun hne => absurd rfl hne, h.picks⟩

/-- A buffer that is not affected by the creation of a block. -/
theorem OnlyNew.bufAt {s s' : St} {q : Addr} {n : Nat} (h : OnlyNew s s' q n) {p : Addr} {b : Buf} (hb : BufAt s p b) :
    BufAt s' p b := by
  have hm : ∀ a, InRange p (storage b.cap) a → (s.mem a).isSome := by
    intro a ha
    simp only [InRange] at ha
    have := hb.mapped (a - p).toNat (by omega)
    rwa [show p + ((a - p).toNat : Int) = a by omega] at this
  apply hb.frame
  · intro a ha
    apply h.outside
    intro hq
    have h1 := hm a ha
    rw [h.fresh a hq] at h1
    cases h1
  · intro hd
    apply h.live
    intro e
    have h1 := hb.heap hd
    rw [e, h.liveNew] at h1
    cases h1

theorem capFor_same {cfg : Cfg} {b : Buf} {n : Nat} (h : n ≤ b.cap) : b.capFor cfg n = b.cap := by
  simp only [Buf.capFor, grownCap]
  rw [if_pos h]; split <;> rfl

/-- A source elsewhere is a legitimate source for a new buffer. -/
theorem Created.source {s s' : St} {q : Addr} {b : Buf} (h : Created s s' q b) {v : View} {S : List Byte}
    (hv : Denotes s.mem v S) : Source s' q b v S := by
  have hk := h.only.toBlock.keeps' (by simp only [storage]; omega) h.buf.top hv.holds (fun x _ h2 => by
    simp only [InRange] at h2; omega)
  refine ⟨⟨hv.size, hv.max, hk.1⟩, ?_⟩
  rcases hk.2 with h | h | h
  · exact .inl h
  · exact .inr (.inl h)
  · exact .inr (.inr (.inl h))

theorem Created.result {s s' : St} {q : Addr} {b : Buf} (h : Created s s' q b) {data : List Byte} {s2 : St}
    (hr : Result s' q b data b.cap q s2) : Created s s2 q ⟨data, b.cap, b.al⟩ := by
  obtain ⟨_, h2, h3, _⟩ := hr.same rfl
  refine ⟨hr.buf, hr.sane, ⟨?_, h.only.fresh, ?_, h.only.liveNew, hr.only.picks.trans h.only.picks⟩, ?_⟩
  · intro a ha
    rw [hr.only.outside a ha ha, h.only.outside a ha]
  · intro q' hq
    rw [h2]; exact h.only.live q' hq
  · rw [h3]; exact h.log

theorem create_init_ok {cfg : Cfg} (hcfg : cfg.Ok) {dflt : Alloc} {s : St} (hs : s.Sane) {o : Option Alloc}
    (hal : (pickAlloc dflt o).Ok) {v : View} {S : List Byte} (hv : Denotes s.mem v S) :
    (BadAnswer s 0 0 (storage S.length) ∧ strbuf_create_init cfg dflt s v o = .env .alloc) ∨
      ∃ p s', strbuf_create_init cfg dflt s v o = .ok (p, s') ∧ Created s s' p ⟨S, S.length, pickAlloc dflt o⟩ := by
  simp only [strbuf_create_init]
  rw [if_pos hal.some, hv.size]
  rcases create_ok hs hal hv.max with ⟨hbad, he⟩ | ⟨p, s1, e1, c1⟩
  · exact .inl ⟨hbad, by rw [he, Res.bind_env]⟩
  · rw [e1, Res.bind_ok]
    simp only
    have hi : INT_MIN ≤ (0 : Int) := by simp only [INT_MIN]; omega
    have h := insert_out hcfg c1.sane c1.buf (c1.source hv) hi (.inr (.inl (by simp)))
    simp only [List.length_nil, Nat.zero_add, List.take_nil, List.drop_nil, List.append_nil, List.nil_append] at h
    rw [if_pos (.inl (Nat.le_refl _)), capFor_same (Nat.le_refl _)] at h
    rcases h with ⟨hne, _⟩ | ⟨p', s', e2, r2⟩
    · exact absurd rfl hne.1
    · obtain rfl : p' = p := (r2.same rfl).1
      exact .inr ⟨p', s', e2, c1.result r2⟩

theorem destroy_ok {s : St} (hs : s.Sane) {p : Addr} {b : Buf} (hb : BufAt s p b) (hd : b.Dynamic) :
    ∃ s', destroy_buf s p = .ok s' ∧ OnlyFreed s s' p (storage b.cap) ∧ s'.Sane ∧
      s'.log = ⟨b.al, p, 0, 0⟩ :: s.log := by
  obtain ⟨s', e, r⟩ := allocCall_free hs hd (hb.heap hd)
  refine ⟨s', ?_, ⟨r.outside, r.gone, ?_, ?_, r.picks⟩, r.sane, r.log⟩
  · rw [destroy_buf, hb.is_dynamic, Res.bind_ok, decide_eq_true (show b.al.fn ≠ 0 from hd), if_pos rfl,
      hb.getAlloc, Res.bind_ok, e, Res.bind_ok]
  · intro q hq
    rw [r.live]; exact if_neg hq
  · rw [r.live]; exact if_pos rfl

/-- A buffer that is not affected by the release of another heap block. -/
theorem OnlyFreed.bufAt {s s' : St} (hs : s.Sane) {q : Addr} {n : Nat} {al : Alloc} (h : OnlyFreed s s' q n)
    {p : Addr} {b : Buf} (hb : BufAt s p b) (hdisj : p + storage b.cap ≤ q ∨ q + n ≤ p)
    (hq : s.live q = some ⟨n, al⟩) : BufAt s' p b := by
  obtain ⟨_, hn, _, _⟩ := hs.wf.block q _ hq
  simp only at hn
  apply hb.frame
  · intro a ha
    apply h.outside
    simp only [InRange] at ha ⊢; omega
  · intro _
    apply h.live
    have : 0 < storage b.cap := by simp only [storage]; omega
    omega

/-! to_cstr -/

theorem to_cstr_fixed {cfg : Cfg} {s : St} {p : Addr} {b : Buf} (hb : BufAt s p b) (hd : ¬ b.Dynamic) :
    strbuf_to_cstr cfg s (some p) = .ok (p + 24, some 0, s) := by
  obtain ⟨J, hJ, hr⟩ := hb.raw
  obtain ⟨m', e, r, w⟩ := hr.store 0
  have hm : m' = s.mem := by
    funext a
    by_cases hi : InRange p (24 + (b.data ++ 0 :: J).length) a
    · have h1 := hr.holds (a - p).toNat (by
        simp only [InRange] at hi
        simp only [List.length_append, hdrBytes_length, List.length_cons] at hi ⊢; omega)
      have h2 := r.holds (a - p).toNat (by
        simp only [InRange] at hi
        simp only [List.length_append, hdrBytes_length, List.length_cons] at hi ⊢; omega)
      have e : p + ((a - p).toNat : Int) = a := by simp only [InRange] at hi; omega
      rw [e] at h1 h2
      have ht := hr.top
      have hp := hr.pos
      simp only [InRange] at hi
      simp only [rd] at h1 h2
      rw [if_neg (by omega), if_neg (by omega)] at h1 h2
      rw [h1, h2]
    · exact w a hi
  subst hm
  rw [strbuf_to_cstr, deref_some hb.pos]
  simp only
  rw [hb.getSize, Res.bind_ok, hb.is_dynamic, Res.bind_ok, decide_eq_false (show ¬ b.al.fn ≠ 0 from hd),
    if_neg Bool.false_ne_true, e, Res.bind_ok]
  rfl

theorem to_cstr_dynamic {cfg : Cfg} {s : St} (hs : s.Sane) {p : Addr} {b : Buf} (hb : BufAt s p b) (hd : b.Dynamic)
    (hh : (b.data.length : Int) < INT_MAX) :
    (BadAnswer s p (storage b.cap) (b.data.length + 1) ∧ strbuf_to_cstr cfg s (some p) = .env .alloc) ∨
      ∃ q s', strbuf_to_cstr cfg s (some p) = .ok (q, some 0, s') ∧ Holds s'.mem q (b.data ++ [0]) ∧ 0 < q ∧
        s'.live q = some ⟨b.data.length + 1, b.al⟩ ∧ s'.Sane ∧
        OnlyBlock s s' p (storage b.cap) q (b.data.length + 1) ∧
        s'.log = ⟨b.al, p, b.data.length + 1, q⟩ :: s.log := by
  obtain ⟨J, hJ, hr⟩ := hb.raw
  have hlen := hb.len
  have hsrc := (Holds.append_iff.1 hr.body).1
  have hwp : Writable s.mem p b.data.length := hr.writable.mono (by simp only [List.length_append]; omega)
  have hmv := memmove_eq hsrc hwp
  obtain ⟨m1, hm1⟩ : ∃ m1, m1 = put s.mem p b.data := ⟨_, rfl⟩
  rw [← hm1] at hmv
  have hw1 : Within s.mem m1 p (storage b.cap) := by
    rw [hm1]; exact within_put (by omega) (by simp only [storage]; omega)
  have hs1 : St.Sane { s with mem := m1 } := by
    apply hs.withMem
    intro a ha
    rw [hm1, put_isSome _ _ _ _ hwp]; exact ha
  have hh1 : Holds m1 p b.data := by rw [hm1]; exact holds_put hwp
  have hadd : addInt cfg b.data.length 1 = .ok ((b.data.length + 1 : Nat) : Int) :=
    addInt_nat cfg (by omega) (by omega)
  rw [strbuf_to_cstr, deref_some hb.pos]
  simp only
  rw [hb.getSize, Res.bind_ok, hb.is_dynamic, Res.bind_ok, decide_eq_true (show b.al.fn ≠ 0 from hd), if_pos rfl,
    hb.getAlloc, Res.bind_ok, sizeT_nat, hmv, Res.bind_ok, hadd, Res.bind_ok, sizeT_nat]
  rcases allocCall_resize hs1 hd (hb.heap hd) (n' := b.data.length + 1) (by omega) with ⟨hbad, he⟩ | ⟨q, s2, e2, r2⟩
  · have hu : unmap m1 p (storage b.cap) = unmap s.mem p (storage b.cap) := by
      funext x
      by_cases hx : InRange p (storage b.cap) x
      · rw [unmap_in hx, unmap_in hx]
      · rw [unmap_eq hx, unmap_eq hx, hw1 x hx]
    rw [BadAnswer] at hbad
    simp only at hbad
    rw [hu] at hbad
    exact .inl ⟨hbad, by rw [he, Res.bind_env]⟩
  · right
    rw [e2, Res.bind_ok]
    simp only
    have hwq : Writable s2.mem q (b.data.length + 1) := by
      intro i hi
      have h1 := r2.pos; have h2 := r2.top
      exact ⟨by omega, by omega, r2.mapped i hi⟩
    have hh2 : Holds s2.mem q b.data := by
      intro i hi
      have h1 := hh1 i hi
      have h2 := r2.copied i (by simp only [storage]; omega) (by omega)
      have h3 := r2.pos; have h4 := r2.top
      have h5 := hb.pos; have h6 := hb.top
      simp only [storage] at h6
      simp only [rd] at h1 ⊢
      rw [if_neg (by omega), if_neg (by omega)] at h1 ⊢
      rw [h2]; exact h1
    have hw1 : Writable s2.mem (q + b.data.length) 1 := hwq.sub b.data.length 1 (by omega)
    rw [store_eq 0 hw1, Res.bind_ok]
    refine ⟨q, _, rfl, ?_, r2.pos, r2.liveAt, ?_, ?_, r2.log⟩
    · rw [Holds.append_iff]
      exact ⟨holds_put_outside hh2 (by simp only [List.length_cons, List.length_nil]; omega), holds_put (by simpa using hw1)⟩
    · apply r2.sane.withMem
      intro a ha
      show (put s2.mem (q + b.data.length) [0] a).isSome = true
      rw [put_isSome _ _ _ _ (by simpa using hw1)]; exact ha
    · have h1 : OnlyBlock s { s with mem := m1 } p (storage b.cap) p (storage b.cap) := (OnlyBlock.refl s p _).within (by assumption)
      apply (h1.trans r2.only).within
      exact within_put (by omega) (by simp only [List.length_cons, List.length_nil]; omega)

/-! create_fixed -/

theorem create_fixed_ok {s : St} {p : Addr} {n : Nat} (hp : 0 < p) (ha : p % 8 = 0) (hn : 24 < n)
    (hw : Writable s.mem p n) :
    ∃ m', strbuf_create_fixed s.mem p n = .ok (p, m') ∧
      BufAt { s with mem := m' } p ⟨[], min (n - 25) 2147483647, ⟨0, 0⟩⟩ ∧
      Within s.mem m' p 25 := by
  obtain ⟨cap, hcap⟩ : ∃ cap, cap = min (n - 25) 2147483647 := ⟨_, rfl⟩
  have hcm : (cap : Int) ≤ INT_MAX := by simp only [INT_MAX]; omega
  have hk : 25 + cap ≤ n := by omega
  have htop : p + n ≤ litBase := by
    have := (hw (n - 1) (by omega)).2.1
    omega
  obtain ⟨L, hL, hh⟩ := (hw.mono hk).contents
  obtain ⟨a, b, c, d, r, rfl, ha', hb, hc, hd, hr⟩ := split24 (n := cap + 1) (by rw [hL]; omega)
  obtain ⟨y, rest, rfl⟩ : ∃ y rest, r = y :: rest := by
    cases r with
    | nil => simp at hr
    | cons y rest => exact ⟨y, rest, rfl⟩
  simp only [List.length_cons, Nat.add_right_cancel_iff] at hr
  have b0 : Block s.mem p ((a ++ b) ++ c ++ (d ++ y :: rest)) :=
    ⟨hp, ha, by
      simp only [List.length_append, List.length_cons] at hL ⊢; omega, by simpa using hh⟩
  obtain ⟨m1, e1, b1, w1⟩ := b0.setField (v := 0) (off := 8) (by simp only [List.length_append, ha', hb]) hc
  have b1' : Block m1 p ((a ++ b ++ leBytes 8 0) ++ d ++ (y :: rest)) := by simpa using b1
  obtain ⟨m2, e2, b2, w2⟩ := b1'.setField (v := 0) (off := 16)
    (by simp only [List.length_append, ha', hb, leBytes_length]) hd
  have b2' : Block m2 p (a ++ b ++ (leBytes 8 0 ++ leBytes 8 0 ++ y :: rest)) := by simpa using b2
  obtain ⟨m3, e3, b3, w3⟩ := b2'.setField (v := cap) (off := 4) ha' hb
  have b3' : Block m3 p ([] ++ a ++ (leBytes 4 cap ++ leBytes 8 0 ++ leBytes 8 0 ++ y :: rest)) := by simpa using b3
  obtain ⟨m4, e4, b4, w4⟩ := b3'.setField (v := 0) (off := 0) rfl ha'
  have b4' : Block m4 p (leBytes 4 0 ++ (leBytes 4 cap ++ leBytes 8 (⟨0, 0⟩ : Alloc).app ++ leBytes 8 (⟨0, 0⟩ : Alloc).fn ++ y :: rest)) := by
    simpa using b4
  obtain ⟨m5, e5, r5, w5⟩ := b4'.empty (leBytes_length _ _) hcm (by simp only; omega) (by simp only; omega)
  -- only the header and the first content byte are written
  have hfin : BufAt { s with mem := m5 } p ⟨[], cap, ⟨0, 0⟩⟩ :=
    BufAt.of_raw (l := []) r5 (by simpa using hr) (fun h => absurd rfl h)
  refine ⟨m5, ?_, hcap ▸ hfin, ?_⟩
  · have h3 : setCap m2 p (if ((n - hdrLen - 1 : Nat) : Int) ≤ INT_MAX then ((n - hdrLen - 1 : Nat) : Int) else INT_MAX) = .ok m3 := by
      have : (if ((n - hdrLen - 1 : Nat) : Int) ≤ INT_MAX then ((n - hdrLen - 1 : Nat) : Int) else INT_MAX) = (cap : Int) := by
        split
        · next h => simp only [INT_MAX, hdrLen] at h ⊢; omega
        · next h => simp only [INT_MAX, hdrLen] at h ⊢; omega
      rw [this, setCap, ofInt32_nat hcm, e3]
    have h4 : setSize m3 p 0 = .ok m4 := by rw [setSize, show ofInt32 0 = 0 from rfl, e4]
    rw [strbuf_create_fixed, if_pos ⟨by simp only [hdrLen]; omega, by omega⟩]
    simp only
    rw [if_pos ha, e1, Res.bind_ok, e2, Res.bind_ok, h3, Res.bind_ok, h4, Res.bind_ok, e5, Res.bind_ok]
  · -- each write is inside the first 25 bytes
    have hset : ∀ {m m' : Mem} {off k v : Nat}, setField m p off k v = .ok m' → off + k ≤ 25 → Within m m' p 25 := by
      intro m m' off k v h hok
      simp only [setField] at h
      cases hcp : checkPtr p with
      | ok u =>
        rw [hcp, Res.bind_ok] at h
        exact writeBytes_within h (by omega) (by rw [leBytes_length]; omega)
      | ub w => rw [hcp] at h; cases h
      | fuel => rw [hcp] at h; cases h
      | env _ => rw [hcp] at h; cases h
    have h5 : Within m4 m5 p 25 := by
      rw [empty_buf] at e5
      cases hz : setSize m4 p 0 with
      | ok mz =>
        rw [hz, Res.bind_ok] at e5
        have w1 : Within m4 mz p 25 := hset (by rw [setSize] at hz; exact hz) (by omega)
        exact w1.trans (store_within e5 (by simp only [cstrOf, hdrLen]; omega) (by simp only [cstrOf, hdrLen]; omega))
      | ub w => rw [hz] at e5; cases e5
      | fuel => rw [hz] at e5; cases e5
      | env _ => rw [hz] at e5; cases e5
    exact ((((hset e1 (by omega)).trans (hset e2 (by omega))).trans (hset e3 (by omega))).trans (hset e4 (by omega))).trans h5

end CStr
