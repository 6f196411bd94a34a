import Verif.Lemmas.CryptMem
import Verif.Lemmas.BufLife
import Verif.Lemmas.BufCore
/-! Lemmas about `strbuf_crypt` on a buffer. -/
namespace CStr

/-- The memory after the encryption or decryption function has written the context `kb` and the bytes `out`, and the size has been set. -/
theorem crypt_write {m : Mem} {p : Addr} {sz cap : Nat} {al : Alloc} {W : List Byte} (h : Raw m p sz cap al W) (hW : W.length = cap + 1)
    {out : List Byte} (ho : out.length ≤ cap) {ctx : Addr} {kb : List Byte} (hc : ctx + kb.length ≤ p ∨ p + storage cap ≤ ctx) {n : Nat} (hn : n ≤ cap) :
    ∃ m2, setSize (put (put m ctx kb) (cstrOf p) out) p n = .ok m2 ∧ Raw m2 p n cap al (out ++ W.drop out.length) ∧
      ∀ a, ¬ InRange p (storage cap) a → m2 a = put m ctx kb a := by
  have h1 : Raw (put m ctx kb) p sz cap al W := by
    apply h.congr
    intro a ha
    apply put_outside
    simp only [InRange, storage] at ha hc; omega
  have h1' : Raw (put m ctx kb) p sz cap al ([] ++ W.take out.length ++ W.drop out.length) := by
    rw [List.nil_append, List.take_append_drop]; exact h1
  obtain ⟨-, h2, h3⟩ := h1'.write (Y' := out) (by rw [List.length_take]; omega)
  have hcap := h.capMax
  obtain ⟨m2, e2, h4, h5⟩ := h2.setSize (v := n) (by omega)
  have hl : ([] ++ out ++ W.drop out.length).length = cap + 1 := by
    rw [List.nil_append, List.length_append, List.length_drop]; omega
  have hl' : ([] ++ W.take out.length ++ W.drop out.length).length = cap + 1 := by
    rw [List.nil_append, List.take_append_drop, hW]
  have h0 : cstrOf p + (([] : List Byte).length : Int) = cstrOf p := by simp
  rw [h0] at e2 h3 h5
  rw [hl] at h5
  rw [hl'] at h3
  refine ⟨m2, e2, by simpa using h4, fun a ha => ?_⟩
  have es : storage cap = 24 + (cap + 1) := by simp only [storage]; omega
  rw [es] at ha
  exact (h5 a ha).trans (h3 a ha)

/-- The most significant byte of the function pointer, which is the byte before the content. -/
def topByte (al : Alloc) : Byte := UInt8.ofNat (al.fn / 2 ^ 56)

theorem Raw.before {m : Mem} {p : Addr} {sz cap : Nat} {al : Alloc} {W : List Byte} (h : Raw m p sz cap al W) : Holds m (cstrOf p - 1) [topByte al] := by
  have hf := h.fn
  have e : hdrBytes sz cap al = (hdrBytes sz cap al).take 23 ++ [topByte al] := by
    simp only [hdrBytes, leBytes, List.cons_append, List.nil_append, List.take, topByte]
    repeat rw [Nat.div_div_eq_div_mul]
    rw [Nat.mod_eq_of_lt (a := al.fn / (256 * 256 * 256 * 256 * 256 * 256 * 256)) (by omega)]
  have hh := (Holds.append_iff.1 h.holds).1
  rw [e] at hh
  have := (Holds.append_iff.1 hh).2
  rw [List.length_take, hdrBytes_length] at this
  have e2 : cstrOf p - 1 = p + ((min 23 24 : Nat) : Int) := by simp only [cstrOf, hdrLen]; omega
  rw [e2]; exact this

/-- Splitting off the terminator. -/
theorem split_term {l : List Byte} {n : Nat} (h : n < l.length) : ∃ y, l = l.take n ++ y :: l.drop (n + 1) :=
  ⟨l[n], by rw [← List.drop_eq_getElem_cons h, List.take_append_drop]⟩

/-- What `strbuf_crypt` relies on: the function it is given, applied to memory where key, init vector and content are as stated and the parts are apart, returns `n`, writes
`kb` to the context and `out` to the content. `pre` is the byte before the content. -/
def Performs (F : EncDec) (key ivec : Addr) (k iv : List Byte) (pre : Byte) (data : List Byte) (N n : Nat) (kb out : List Byte) : Prop :=
  ∀ m buf ctx, Holds m key k → Holds m ivec iv → Writable m ctx 240 → Holds m buf data → Writable m buf N → CryptApart key ivec ctx buf N →
    Holds m (buf - 1) [pre] → F m buf data.length key ivec ctx = .ok ((n : Int), put (put m ctx kb) buf out)

/-- The content after `strbuf_crypt`. -/
theorem crypt_data {data out J : List Byte} {n : Nat} (hn : n ≤ out.length + (data.length - out.length)) :
    (out ++ (data ++ 0 :: J).drop out.length).take n = (out ++ data.drop out.length).take n := by
  by_cases h : out.length ≤ data.length
  · rw [List.drop_append_of_le_length h, ← List.append_assoc, List.take_append_of_le_length]
    rw [List.length_append, List.length_drop]; omega
  · rw [List.drop_eq_nil_of_le (as := data) (by omega), List.append_nil, List.take_append_of_le_length (by omega)]

theorem crypt_fixed {cfg : Cfg} {F : EncDec} {s : St} (hs : s.Sane) {p : Addr} {b : Buf} (hb : BufAt s p b) (hd : ¬ b.Dynamic)
    {key ivec stack : Addr} {k iv : List Byte} (hkey : Holds s.mem key k) (hiv : Holds s.mem ivec iv) (hst : Writable s.mem stack 240)
    (hcap : 16 * (b.data.length / 16 + 1) ≤ b.cap) (ha : CryptApart key ivec stack (p + 1) (storage b.cap - 1))
    {kb out : List Byte} {n : Nat} (hkb : kb.length = 240) (ho : out.length ≤ b.cap) (hn : n ≤ out.length + (b.data.length - out.length))
    (hF : Performs F key ivec k iv (topByte b.al) b.data (16 * (b.data.length / 16 + 1)) n kb out) :
    ∃ m1 s', (∀ a, ¬ InRange stack 240 a → m1 a = s.mem a) ∧ (∀ a, (m1 a).isSome = (s.mem a).isSome) ∧ strbuf_crypt cfg F s (some p) key ivec stack = .ok (.invalid, some p, s') ∧
      Changed { s with mem := m1 } p b ((out ++ b.data.drop out.length).take n) b.cap p s' := by
  obtain ⟨J, hJ, hr⟩ := hb.raw
  have hd' : ¬ b.al.fn ≠ 0 := hd
  have hlen := hb.len
  have hmax := hb.cap
  have hW : (b.data ++ 0 :: J).length = b.cap + 1 := by rw [List.length_append, List.length_cons]; omega
  have hwr := hr.writable
  rw [hW] at hwr
  have hwb : Writable s.mem (cstrOf p) b.cap := hwr.sub 24 b.cap (by omega)
  have hcb := ha.ctxBuf
  have hib := ha.ivBuf
  have hstg : ((storage b.cap : Nat) : Int) = 24 + b.cap + 1 := by simp only [storage]; omega
  have hF' := hF s.mem (cstrOf p) stack hkey hiv hst (Holds.append_iff.1 hr.body).1 (hwb.mono hcap)
    ⟨ha.ctxKey, ha.ctxIv, by simp only [cstrOf, hdrLen]; omega, by simp only [cstrOf, hdrLen]; omega⟩ hr.before
  have hnc : n ≤ b.cap := by omega
  obtain ⟨m2, e2, r2, w2⟩ := crypt_write hr hW ho (ctx := stack) (kb := kb) (by rw [hkb]; omega) hnc
  have hl2 : (out ++ (b.data ++ 0 :: J).drop out.length).length = b.cap + 1 := by rw [List.length_append, List.length_drop, hW]; omega
  obtain ⟨y, hy⟩ := split_term (l := out ++ (b.data ++ 0 :: J).drop out.length) (n := n) (by omega)
  rw [hy] at r2
  obtain ⟨m3, e3, r3, w3⟩ := r2.store 0
  have htl : ((out ++ (b.data ++ 0 :: J).drop out.length).take n).length = n := by rw [List.length_take]; omega
  have hwl : ((out ++ (b.data ++ 0 :: J).drop out.length).take n ++ y :: (out ++ (b.data ++ 0 :: J).drop out.length).drop (n + 1)).length = b.cap + 1 := by
    rw [← hy]; exact hl2
  rw [htl] at e3
  rw [hwl] at w3
  have hmem : ∀ a, ¬ InRange p (storage b.cap) a → m3 a = put s.mem stack kb a := by
    intro a hna
    have : ¬ InRange p (24 + (b.cap + 1)) a := by simp only [InRange, storage] at hna ⊢; omega
    exact (w3 a this).trans (w2 a hna)
  have hsome : ∀ a, (s.mem a).isSome → (m3 a).isSome := by
    intro a hsa
    by_cases hin : InRange p (storage b.cap) a
    · simp only [InRange, storage] at hin
      have := r3.writable (a - p).toNat (by
        have : (24 + ((out ++ (b.data ++ 0 :: J).drop out.length).take n ++ 0 :: (out ++ (b.data ++ 0 :: J).drop out.length).drop (n + 1)).length) = 24 + (b.cap + 1) := by
          rw [← hwl]; simp
        rw [this]; omega)
      rw [show p + ((a - p).toNat : Int) = a by omega] at this
      exact this.2.2
    · rw [hmem a hin, put_isSome _ _ _ _ (by rw [hkb]; exact hst)]; exact hsa
  have hs' : St.Sane { s with mem := m3 } := hs.withMem hsome
  refine ⟨put s.mem stack kb, { s with mem := m3 }, fun a hna => put_outside (by simp only [InRange] at hna; omega),
    fun a => put_isSome _ _ _ _ (by rw [hkb]; exact hst), ?_, ?_, hs', ?_, fun _ => ⟨rfl, rfl, rfl, rfl, rfl⟩⟩
  · rw [strbuf_crypt, deref_some hb.pos]
    simp only
    rw [hr.is_dynamic, decide_eq_false hd', Res.bind_ok, if_neg (by simp), hr.getCap, Res.bind_ok, hr.getSize, Res.bind_ok, cypher_size_eq cfg (by omega), Res.bind_ok,
      if_pos (by omega), hF', Res.bind_ok]
    simp only
    rw [e2, Res.bind_ok, r2.getSize, Res.bind_ok, e3, Res.bind_ok]
  · rw [← crypt_data (J := J) hn]
    refine BufAt.of_raw (r3.of_eq htl.symm rfl) ?_ (fun h => absurd h hd')
    have := hwl
    rw [List.length_append, List.length_cons] at this
    omega
  · exact ⟨fun a h1 _ => hmem a h1, fun a h1 h2 => absurd h1 h2, fun a h1 h2 => absurd h1 h2, fun _ _ _ => rfl, fun h => absurd rfl h, fun h => absurd rfl h, rfl⟩

set_option maxHeartbeats 1000000 in
theorem crypt_dynamic {cfg : Cfg} {F : EncDec} {s : St} (hs : s.Sane) {p : Addr} {b : Buf} (hb : BufAt s p b) (hd : b.Dynamic)
    {key ivec stack : Addr} {k iv : List Byte} (hkey : Holds s.mem key k) (hiv : Holds s.mem ivec iv) (hk : k.length = 32) (hivl : iv.length = 16)
    (hkout : key + 32 ≤ p ∨ p + storage b.cap ≤ key) (hivout : ivec + 16 ≤ p ∨ p + storage b.cap ≤ ivec)
    (hkt : key + 32 ≤ litBase) (hit : ivec + 16 ≤ litBase)
    (hN : ((16 * (b.data.length / 16 + 1) : Nat) : Int) ≤ INT_MAX)
    {kb out : List Byte} {n : Nat} (hkb : kb.length = 240) (ho : out.length ≤ 16 * (b.data.length / 16 + 1)) (hn : n ≤ out.length + (b.data.length - out.length))
    (hF : Performs F key ivec k iv (topByte b.al) b.data (16 * (b.data.length / 16 + 1)) n kb out) :
    strbuf_crypt cfg F s (some p) key ivec stack = .env .alloc ∨
    ∃ p' s' c, strbuf_crypt cfg F s (some p) key ivec stack = .ok (.invalid, some p', s') ∧
      Changed s p b ((out ++ b.data.drop out.length).take n) (max b.cap (16 * (b.data.length / 16 + 1))) p' s' ∧
      s'.log = ⟨b.al, c, 0, 0⟩ :: ⟨b.al, 0, 240, c⟩ ::
        (if 16 * (b.data.length / 16 + 1) ≤ b.cap then s.log else ⟨b.al, p, storage (16 * (b.data.length / 16 + 1)), p'⟩ :: s.log) := by
  generalize hNe : 16 * (b.data.length / 16 + 1) = N at *
  have hd' : b.al.fn ≠ 0 := hd
  have hlen := hb.len
  have hmax := hb.cap
  have e0 : strbuf_crypt cfg F s (some p) key ivec stack = (strbuf_grow s (some p) (N : Int) >>= fun x =>
      match x.2.1 with
      | none => .ub .badHeader
      | some buf => do
        let al ← getAlloc x.2.2.mem buf
        let (ctx, s) ← allocCall x.2.2 al 0 240
        let size ← getSize s.mem buf
        let (size, m) ← F s.mem (cstrOf buf) size key ivec ctx
        let m ← setSize m buf size
        let al ← getAlloc m buf
        let (_, s) ← allocCall { s with mem := m } al ctx 0
        let size ← getSize s.mem buf
        let m ← store s.mem (cstrOf buf + size) 0
        .ok (.invalid, some buf, { s with mem := m })) := by
    rw [strbuf_crypt, deref_some hb.pos]
    simp only
    rw [hb.is_dynamic, decide_eq_true hd', Res.bind_ok, if_pos rfl, hb.getSize, Res.bind_ok, cypher_size_eq cfg (by omega), hNe, Res.bind_ok]
    rfl
  have hg := grow_yields hs hb hd (n := (N : Int)) hN
  rw [Int.toNat_natCast] at hg
  generalize hcapE : max b.cap N = cap at *
  rcases hg with ⟨-, e⟩ | ⟨p1, s1, e1, hres⟩
  · left; rw [e0, e]; rfl
  rw [e1, Res.bind_ok] at e0
  simp only at e0
  obtain ⟨hb1, hs1, hon1, hsame1, hlog1⟩ := hres
  have hcmax := hb1.cap
  simp only at hcmax
  have hpos : 0 < storage cap := by simp only [storage]; omega
  obtain ⟨hkey1, hko1⟩ := hon1.keeps hpos hb1.top hkey (.inr (by rw [hk]; exact hkout))
  obtain ⟨hiv1, hio1⟩ := hon1.keeps hpos hb1.top hiv (.inr (by rw [hivl]; exact hivout))
  have hko1 : key + 32 ≤ p1 ∨ p1 + storage cap ≤ key := by
    rcases hko1 with h | h
    · rw [h] at hk; simp at hk
    · rw [hk] at h; exact h
  have hio1 : ivec + 16 ≤ p1 ∨ p1 + storage cap ≤ ivec := by
    rcases hio1 with h | h
    · rw [h] at hivl; simp at hivl
    · rw [hivl] at h; exact h
  rw [hb1.getAlloc, Res.bind_ok] at e0
  simp only at e0
  rcases allocCall_new hs1 (al := b.al) hd' (n := 240) (by decide) with ⟨-, e⟩ | ⟨c, s2, e2, hnew⟩
  · left; rw [e0, e]; rfl
  rw [e2, Res.bind_ok] at e0
  simp only at e0
  have hon2 : OnlyNew s1 s2 c 240 := ⟨hnew.outside, hnew.fresh, fun q hq => by rw [hnew.live]; simp [hq], hnew.liveNone, hnew.picks⟩
  have hb2 : BufAt s2 p1 ⟨b.data, cap, b.al⟩ := hon2.bufAt hb1
  obtain ⟨J, hJ, hr⟩ := hb2.raw
  simp only at hJ hr
  -- the new block is apart from everything that is mapped
  have happ : ∀ {a : Addr} {j : Nat}, 0 < j → (∀ i : Nat, i < j → (s1.mem (a + i)).isSome) → c + 240 ≤ a ∨ a + j ≤ c := by
    intro a j hj hm
    have := interval_disjoint (a := c) (p := a) (k := 240) (n := j) (by decide) hj (by
      intro x hx1 hx2
      have hf := hnew.fresh x hx1
      simp only [InRange] at hx2
      have hm' := hm (x - a).toNat (by omega)
      rw [show a + ((x - a).toNat : Int) = x by omega, hf] at hm'
      cases hm')
    omega
  have hcb : c + 240 ≤ p1 ∨ p1 + ((storage cap : Nat) : Int) ≤ c := happ hpos hb1.mapped
  have hsome : ∀ {a : Addr} {l : List Byte}, Holds s1.mem a l → a + l.length ≤ litBase → ∀ i : Nat, i < l.length → (s1.mem (a + i)).isSome := by
    intro a l hl htop i hi
    have := hl i hi
    simp only [rd] at this
    split at this
    · cases this
    · rw [if_neg (by omega)] at this; rw [this]; rfl
  have hck : c + 240 ≤ key ∨ key + 32 ≤ c := by
    have := happ (a := key) (j := k.length) (by omega) (hsome hkey1 (by rw [hk]; exact hkt))
    rw [hk] at this; exact this
  have hci : c + 240 ≤ ivec ∨ ivec + 16 ≤ c := by
    have := happ (a := ivec) (j := iv.length) (by omega) (hsome hiv1 (by rw [hivl]; exact hit))
    rw [hivl] at this; exact this
  have hkey2 : Holds s2.mem key k := hkey1.congr (fun i hi => hnew.outside _ (by simp only [InRange]; omega))
  have hiv2 : Holds s2.mem ivec iv := hiv1.congr (fun i hi => hnew.outside _ (by simp only [InRange]; omega))
  have hwc : Writable s2.mem c 240 := fun i hi => ⟨by have := hnew.pos; omega, by have := hnew.top; omega, hnew.mapped i hi⟩
  have hW : (b.data ++ 0 :: J).length = cap + 1 := by rw [List.length_append, List.length_cons]; omega
  have hwr := hr.writable
  rw [hW] at hwr
  have hwb : Writable s2.mem (cstrOf p1) cap := hwr.sub 24 cap (by omega)
  have hstg : ((storage cap : Nat) : Int) = 24 + cap + 1 := by simp only [storage]; omega
  have hF' := hF s2.mem (cstrOf p1) c hkey2 hiv2 hwc (Holds.append_iff.1 hr.body).1 (hwb.mono (by omega))
    ⟨hck, hci, by simp only [cstrOf, hdrLen]; omega, by simp only [cstrOf, hdrLen]; omega⟩ hr.before
  have hnc : n ≤ cap := by omega
  obtain ⟨m3, e3, r3, w3⟩ := crypt_write hr hW (out := out) (by omega) (ctx := c) (kb := kb) (by rw [hkb]; omega) hnc
  have hl2 : (out ++ (b.data ++ 0 :: J).drop out.length).length = cap + 1 := by rw [List.length_append, List.length_drop, hW]; omega
  rw [hr.getSize, Res.bind_ok, hF', Res.bind_ok] at e0
  simp only at e0
  rw [e3, Res.bind_ok, r3.getAlloc, Res.bind_ok] at e0
  have hput : ∀ x, (put s2.mem c kb x).isSome = (s2.mem x).isSome := fun x => put_isSome _ _ _ _ (by rw [hkb]; exact hwc)
  have hs3 : St.Sane { s2 with mem := m3 } := by
    apply hnew.sane.withMem
    intro a hsa
    by_cases hin : InRange p1 (storage cap) a
    · simp only [InRange, storage] at hin
      have := r3.writable (a - p1).toNat (by rw [hl2]; omega)
      rw [show p1 + ((a - p1).toNat : Int) = a by omega] at this
      exact this.2.2
    · rw [w3 a hin, hput]; exact hsa
  have hlive : St.live { s2 with mem := m3 } c = some ⟨240, b.al⟩ := by
    show s2.live c = _
    rw [hnew.live]; simp
  obtain ⟨s4, e4, hrel⟩ := allocCall_free hs3 hd' hlive
  rw [e4, Res.bind_ok] at e0
  simp only at e0
  have r4 : Raw s4.mem p1 n cap b.al (out ++ (b.data ++ 0 :: J).drop out.length) := by
    apply r3.congr
    intro a ha
    rw [hl2] at ha
    exact hrel.outside a (by simp only [InRange] at ha ⊢; omega)
  obtain ⟨y, hy⟩ := split_term (l := out ++ (b.data ++ 0 :: J).drop out.length) (n := n) (by omega)
  rw [hy] at r4
  obtain ⟨m5, e5, r5, w5⟩ := r4.store 0
  have htl : ((out ++ (b.data ++ 0 :: J).drop out.length).take n).length = n := by rw [List.length_take]; omega
  have hwl : ((out ++ (b.data ++ 0 :: J).drop out.length).take n ++ y :: (out ++ (b.data ++ 0 :: J).drop out.length).drop (n + 1)).length = cap + 1 := by
    rw [← hy]; exact hl2
  rw [htl] at e5
  rw [hwl] at w5
  rw [r4.getSize, Res.bind_ok, e5, Res.bind_ok] at e0
  have hmem : ∀ a, ¬ InRange p1 (storage cap) a → m5 a = s1.mem a := by
    intro a hna
    have h1 : ¬ InRange p1 (24 + (cap + 1)) a := by simp only [InRange, storage] at hna ⊢; omega
    rw [w5 a h1]
    by_cases hin : InRange c 240 a
    · rw [hrel.gone a hin, hnew.fresh a hin]
    · rw [hrel.outside a hin]
      show m3 a = _
      rw [w3 a hna, put_outside (by simp only [InRange] at hin; omega), hnew.outside a hin]
  have hlive5 : ∀ q, s4.live q = s1.live q := by
    intro q
    rw [hrel.live]
    show (if q = c then none else s2.live q) = _
    by_cases hq : q = c
    · rw [if_pos hq, hq, hnew.liveNone]
    · rw [if_neg hq, hnew.live]; simp [hq]
  have hs5 : St.Sane { s4 with mem := m5 } := by
    have hh := hrel.sane.withMem (m' := m5) (by
      intro a hsa
      by_cases hin : InRange p1 (storage cap) a
      · simp only [InRange, storage] at hin
        have := r5.writable (a - p1).toNat (by
          have : (24 + ((out ++ (b.data ++ 0 :: J).drop out.length).take n ++ 0 :: (out ++ (b.data ++ 0 :: J).drop out.length).drop (n + 1)).length) = 24 + (cap + 1) := by
            rw [← hwl]; simp
          rw [this]; omega)
        rw [show p1 + ((a - p1).toNat : Int) = a by omega] at this
        exact this.2.2
      · have h1 : ¬ InRange p1 (24 + (cap + 1)) a := by simp only [InRange, storage] at hin ⊢; omega
        rw [w5 a h1]; exact hsa)
    exact hh
  refine .inr ⟨p1, { s4 with mem := m5 }, c, e0, ⟨?_, hs5, ?_, fun h => absurd hd h⟩, ?_⟩
  · rw [← crypt_data (J := J) hn]
    refine BufAt.of_raw (r5.of_eq htl.symm rfl) ?_ (fun _ => ?_)
    · have := hwl
      rw [List.length_append, List.length_cons] at this
      omega
    · exact (hlive5 p1).trans (hb1.heap hd)
  · have : OnlyBlock s1 { s4 with mem := m5 } p1 (storage cap) p1 (storage cap) :=
      ⟨fun a h1 _ => hmem a h1, fun a h1 h2 => absurd h1 h2, fun a h1 h2 => absurd h1 h2, fun q _ _ => hlive5 q, fun h => absurd rfl h, fun h => absurd rfl h,
        (hrel.picks.trans hnew.picks : s4.picks = s1.picks)⟩
    exact hon1.trans this
  · show s4.log = _
    rw [hrel.log]
    show _ :: s2.log = _
    rw [hnew.log]
    by_cases hle : N ≤ b.cap
    · rw [if_pos hle, (hsame1 (by omega)).2.2.1]
    · rw [if_neg hle, hlog1 (by omega)]
      have : cap = N := by omega
      rw [this]

end CStr
