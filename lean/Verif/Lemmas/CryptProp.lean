import Verif.Spec.Crypt
import Verif.Lemmas.Crypt
import Verif.Props.Aes
import Verif.Lemmas.BufExamples
/-! Lemmas that connect `strbuf_crypt` with the specification. -/
namespace CStr

/-- The context and the two directions of the cipher for a key. -/
theorem cipher_for (h : Host) {k : List Byte} (hk : k.length = 32) :
    ∃ (K : Ctx) (E D : AesBlock → AesBlock), List.length K = 60 ∧ aes256_init h k = .ok K ∧ (∀ b, aes256_enc b K = .ok (E b)) ∧ (∀ b, aes256_dec b K = .ok (D b)) ∧
      (∀ x, D (E x) = x) ∧ (∀ x, E (D x) = x) ∧ (h = .little → ∀ b, Fips.Encrypts 8 k b.bytes (E b).bytes) := by
  obtain ⟨K, h1, h2, -, -⟩ := aes_init_ok h k 8 (by omega) hk
  obtain ⟨kk, hkeys⟩ := Ctx.keys_of_length (ctx := K) (n := 14 + 1) (by omega)
  refine ⟨K, encAll kk 14, decAll kk 14, by omega, h1, fun b => encrypt_core_eq hkeys b (by omega), fun b => decrypt_core_eq hkeys b (by omega),
    fun x => dec_enc_all kk 14 (by omega) x, fun x => enc_dec_all kk 14 (by omega) x, ?_⟩
  rintro rfl b
  obtain ⟨K', c, e1, e2, e3⟩ := C57_encrypt (nk := 8) (.inr (.inr rfl)) k hk b
  rw [h1] at e1
  cases e1
  rw [encrypt_core_eq hkeys b (by omega)] at e2
  cases e2
  exact e3

theorem cbc_spec {R : List Byte → List Byte → Prop} {E : AesBlock → AesBlock} (h : ∀ b, R b.bytes (E b).bytes) (iv : AesBlock) (bs : List AesBlock) :
    CbcEncrypts R iv.bytes (flat bs) (flat (cbcEnc E iv bs)) := by
  induction bs generalizing iv with
  | nil => exact .nil _
  | cons b t ih =>
    rw [cbcEnc, flat_cons, flat_cons]
    refine .cons (iv := iv.bytes) (p := b.bytes) rfl ?_ (ih _)
    exact h (b.xor iv)

/-- Cipher block chaining with a block cipher that is a function is a function of the plain text. -/
theorem CbcEncrypts.unique {R : List Byte → List Byte → Prop} (hR : ∀ {x y z}, R x y → R x z → y = z) {iv p c : List Byte} (h : CbcEncrypts R iv p c)
    {c' : List Byte} (h' : CbcEncrypts R iv p c') : c = c' := by
  induction h generalizing c' with
  | nil => 
    generalize hp : ([] : List Byte) = p at h'
    cases h' with
    | nil => rfl
    | cons hl => have := congrArg List.length hp; simp [hl] at this; omega
  | @cons iv p c ps cs hl hE _ ih =>
    generalize hp : p ++ ps = q at h'
    cases h' with
    | nil => have := congrArg List.length hp; simp [hl] at this
    | cons hl' hE' h'' =>
      obtain ⟨rfl, rfl⟩ := List.append_inj hp (hl.trans hl'.symm)
      rw [hR hE hE'] at *
      rw [ih h'']

theorem padded_eq (l : List Byte) : padded l = pkcs7 l := rfl

theorem paddedLen_eq (l : List Byte) : (pkcs7 l).length = paddedLen l.length := by rw [← padded_eq, padded_length]; rfl

/-- The outcome of `strbuf_crypt` with a function that performs as stated. -/
theorem crypt_out {cfg : Cfg} {F : EncDec} {s : St} (hs : s.Sane) {p : Addr} {b : Buf} (hb : BufAt s p b) {key ivec stack : Addr} {k iv : List Byte}
    (ha : CryptArgs s p b key ivec stack k iv) (hroom : b.Room (paddedLen b.data.length)) {kb out : List Byte} {n : Nat} (hkb : kb.length = 240)
    (ho : out.length ≤ paddedLen b.data.length) (hn : n ≤ out.length + (b.data.length - out.length))
    (hF : Performs F key ivec k iv (topByte b.al) b.data (paddedLen b.data.length) n kb out) :
    (b.Dynamic ∧ strbuf_crypt cfg F s (some p) key ivec stack = .env .alloc) ∨
    ∃ p' s', Crypted s p b stack (strbuf_crypt cfg F s (some p) key ivec stack) (paddedLen b.data.length) ((out ++ b.data.drop out.length).take n) p' s' := by
  have hcap := hb.cap
  by_cases hd : b.Dynamic
  · have hN : ((16 * (b.data.length / 16 + 1) : Nat) : Int) ≤ INT_MAX := by
      rcases hroom with h | ⟨-, h⟩ <;> simp only [paddedLen] at h <;> omega
    rcases crypt_dynamic (cfg := cfg) (stack := stack) hs hb hd ha.keyAt ha.ivAt ha.keyLen ha.ivLen ha.keyOut ha.ivOut ha.keyTop ha.ivTop hN hkb ho hn hF with e | ⟨p', s', c, e, hc, hlog⟩
    · exact .inl ⟨hd, e⟩
    · refine .inr ⟨p', s', e, ?_⟩
      rw [if_pos hd]
      exact ⟨hc, c, hlog⟩
  · have hN : 16 * (b.data.length / 16 + 1) ≤ b.cap := by
      rcases hroom with h | ⟨h, -⟩
      · exact h
      · exact absurd h hd
    obtain ⟨⟨v1, v2, v3⟩, h1, h2, h3⟩ := ha.local_ hd
    have hio := ha.ivOut
    obtain ⟨m1, s', hm, hm', e, hc⟩ := crypt_fixed (cfg := cfg) hs hb hd ha.keyAt ha.ivAt (fun i hi => ⟨by omega, by omega, v3 i hi⟩) hN ⟨h2, h3, by simp only [storage] at h1 ⊢; omega, by simp only [storage] at hio ⊢; omega⟩ hkb
      (Nat.le_trans ho hN) hn hF
    refine .inr ⟨p, s', e, ?_⟩
    rw [if_neg hd]
    exact ⟨m1, hm, hm', hc⟩

theorem enc_performs (cfg : Cfg) {h : Host} {k iv data : List Byte} {K : Ctx} {E : AesBlock → AesBlock} {ivb : AesBlock} {bs : List AesBlock} {key ivec : Addr} {pre : Byte}
    (hK : List.length K = 60) (hk : k.length = 32) (hinit : aes256_init h k = .ok K) (hE : ∀ b, aes256_enc b K = .ok (E b)) (hiv : ivb.bytes = iv)
    (hbs : flat bs = pkcs7 data) (hmax : (paddedLen data.length : Int) ≤ INT_MAX) :
    Performs (enc256cbc cfg h) key ivec k iv pre data (paddedLen data.length) (paddedLen data.length) K.bytes (flat (cbcEnc E ivb bs)) := by
  intro m buf ctx h1 h2 h3 h4 h5 h6 _
  rw [← hiv] at h2
  exact enc256cbc_eq cfg hK hk hinit hE h1 h2 h3 h4 h5 h6 hmax hbs

theorem room_max {s : St} {p : Addr} {b : Buf} (hb : BufAt s p b) {n : Nat} (h : b.Room n) : (n : Int) ≤ INT_MAX := by
  have := hb.cap
  rcases h with h | ⟨-, h⟩ <;> omega

theorem dec_performs (cfg : Cfg) {h : Host} {k iv r : List Byte} {K : Ctx} {D : AesBlock → AesBlock} {ivb : AesBlock} {cs : List AesBlock} {key ivec : Addr} {pre : Byte}
    (hK : List.length K = 60) (hk : k.length = 32) (hinit : aes256_init h k = .ok K) (hD : ∀ b, aes256_dec b K = .ok (D b)) (hiv : ivb.bytes = iv)
    (hcs : cs ≠ []) (hr : r.length < 16) (hmax : (paddedLen (flat cs ++ r).length : Int) ≤ INT_MAX) {X : List Byte} {x : Byte}
    (hx : flat (cbcDec D ivb cs) = X ++ [x]) (hpad : x.toNat ≤ (flat cs ++ r).length) :
    Performs (dec256cbc cfg h) key ivec k iv pre (flat cs ++ r) (paddedLen (flat cs ++ r).length) ((flat cs ++ r).length - x.toNat) K.bytes (flat (cbcDec D ivb cs)) := by
  intro m buf ctx h1 h2 h3 h4 h5 h6 _
  rw [← hiv] at h2
  have hl : (flat cs ++ r).length = 16 * cs.length + r.length := by rw [List.length_append, flat_length]
  have hpl : paddedLen (flat cs ++ r).length = 16 * (cs.length + 1) := by rw [paddedLen, hl]; omega
  rw [hpl] at h5 h6 hmax
  have h7 := h6.ctxBuf
  have h8 := h6.ivBuf
  have := dec256cbc_eq cfg hK hk hinit hD h1 h2 h3 hcs (Holds.append_iff.1 h4).1 (h5.mono (by omega)) ⟨h6.ctxKey, h6.ctxIv, by omega, by omega⟩ hr (by omega) hx
  rw [this]
  refine congrArg Res.ok (Prod.ext ?_ rfl)
  simp only
  omega

theorem flat_inj {bs cs : List AesBlock} (h : flat bs = flat cs) : bs = cs := by
  induction bs generalizing cs with
  | nil =>
    cases cs with
    | nil => rfl
    | cons c t => have := congrArg List.length h; simp [flat_length] at this
  | cons b t ih =>
    cases cs with
    | nil => have := congrArg List.length h; simp [flat_length] at this
    | cons c u =>
      rw [flat_cons, flat_cons] at h
      obtain ⟨h1, h2⟩ := List.append_inj h rfl
      have h3 := congrArg blockOf h1
      rw [blockOf_bytes, blockOf_bytes] at h3
      rw [ih h2, Res.ok.inj h3]

theorem padded_last (l : List Byte) : ∃ X, pkcs7 l = X ++ [UInt8.ofNat (16 - l.length % 16)] := by
  refine ⟨l ++ List.replicate (15 - l.length % 16) (UInt8.ofNat (16 - l.length % 16)), ?_⟩
  have : 16 - l.length % 16 = (15 - l.length % 16) + 1 := by omega
  simp only [pkcs7]
  conv => lhs; rw [this]
  rw [List.replicate_succ', ← List.append_assoc, ← this]

theorem padByte (l : List Byte) : (UInt8.ofNat (16 - l.length % 16)).toNat = 16 - l.length % 16 := by
  rw [UInt8.toNat_ofNat']
  apply Nat.mod_eq_of_lt; omega

/-- Decrypting what was encrypted in memory. -/
theorem decrypt_blocks {cfg : Cfg} {h : Host} {s : St} (hs : s.Sane) {p : Addr} {b : Buf} (hb : BufAt s p b) {key ivec stack : Addr} {k iv data : List Byte}
    (ha : CryptArgs s p b key ivec stack k iv) (hroom : b.Room (paddedLen b.data.length)) {K : Ctx} {E D : AesBlock → AesBlock} {ivb : AesBlock} {bs : List AesBlock}
    (hK : List.length K = 60) (hinit : aes256_init h k = .ok K) (hD : ∀ b, aes256_dec b K = .ok (D b)) (hDE : ∀ x, D (E x) = x) (hiv : ivb.bytes = iv)
    (hbs : flat bs = pkcs7 data) (hdata : b.data = flat (cbcEnc E ivb bs)) :
    (b.Dynamic ∧ strbuf_decrypt cfg h s (some p) key ivec stack = .env .alloc) ∨
    ∃ p' s', Crypted s p b stack (strbuf_decrypt cfg h s (some p) key ivec stack) (paddedLen b.data.length) data p' s' := by
  have hbl : bs.length = data.length / 16 + 1 := by
    have := flat_length bs
    rw [hbs, paddedLen_eq, paddedLen] at this; omega
  obtain ⟨X, hX⟩ := padded_last data
  have hpb := padByte data
  have hcs : cbcEnc E ivb bs ≠ [] := by
    intro h
    have := cbcEnc_length E ivb bs
    rw [h] at this; simp at this; omega
  have hdl : b.data.length = 16 * (data.length / 16 + 1) := by rw [hdata, flat_length, cbcEnc_length, hbl]
  have hmax := room_max hb hroom
  have hF := dec_performs cfg (r := []) (key := key) (ivec := ivec) (pre := topByte b.al) (ivb := ivb) (X := X) (x := UInt8.ofNat (16 - data.length % 16)) hK ha.keyLen hinit hD hiv hcs (by simp)
    (by rw [List.append_nil, ← hdata]; exact hmax) (by rw [cbcDec_cbcEnc hDE, hbs, hX]) (by rw [List.append_nil, ← hdata, hpb]; omega)
  rw [List.append_nil, ← hdata, hpb, cbcDec_cbcEnc hDE, hbs] at hF
  have hpl : (pkcs7 data).length = b.data.length := by rw [paddedLen_eq, hdl]; rfl
  rcases crypt_out (cfg := cfg) hs hb ha hroom (by rw [Ctx.bytes_length, hK]) (by rw [hpl, paddedLen]; omega) (by omega) hF with h | ⟨p', s', h⟩
  · exact .inl h
  · refine .inr ⟨p', s', ?_⟩
    rw [List.take_append_of_le_length (by omega)] at h
    have : (pkcs7 data).take (b.data.length - (16 - data.length % 16)) = data := by
      have e : b.data.length - (16 - data.length % 16) = data.length := by omega
      rw [e]; exact List.take_left
    rw [this] at h
    exact h

/-- The arguments are still there, and still apart from the buffer, after encryption or decryption. -/
theorem CryptArgs.after {s : St} {p : Addr} {b : Buf} {key ivec stack : Addr} {k iv : List Byte} (ha : CryptArgs s p b key ivec stack k iv)
    {r : BufRes} {need : Nat} {data : List Byte} {p' : Addr} {s' : St} (h : Crypted s p b stack r need data p' s') :
    ∃ cap, BufAt s' p' ⟨data, cap, b.al⟩ ∧ s'.Sane ∧ CryptArgs s' p' ⟨data, cap, b.al⟩ key ivec stack k iv ∧ cap = if b.Dynamic then max b.cap need else b.cap := by
  obtain ⟨-, h⟩ := h
  have aux : ∀ {a : Addr} {l : List Byte} {j : Nat} {cap : Nat} {s0 : St}, BufAt s' p' ⟨data, cap, b.al⟩ → OnlyBlock s0 s' p (storage b.cap) p' (storage cap) → Holds s0.mem a l → l.length = j → 0 < j →
      (a + j ≤ p ∨ p + storage b.cap ≤ a) → Holds s'.mem a l ∧ (a + j ≤ p' ∨ p' + storage cap ≤ a) := by
    intro a l j cap s0 hb ho hl hj hj0 hout
    have hpos : 0 < storage cap := by simp only [storage]; omega
    obtain ⟨h1, h2⟩ := ho.keeps hpos hb.top hl (.inr (by rw [hj]; exact hout))
    refine ⟨h1, ?_⟩
    rcases h2 with h2 | h2
    · rw [h2] at hj; simp at hj; omega
    · rw [hj] at h2; exact h2
  split at h
  · next hd =>
    obtain ⟨hc, -⟩ := h
    obtain ⟨k1, k2⟩ := aux hc.buf hc.only ha.keyAt ha.keyLen (by omega) ha.keyOut
    obtain ⟨i1, i2⟩ := aux hc.buf hc.only ha.ivAt ha.ivLen (by omega) ha.ivOut
    exact ⟨_, hc.buf, hc.sane, ⟨k1, ha.keyLen, ha.keyTop, k2, i1, ha.ivLen, ha.ivTop, i2, fun hn => absurd hd hn⟩, (if_pos hd).symm⟩
  · next hd =>
    obtain ⟨m1, hm, hm', hc⟩ := h
    obtain ⟨⟨v1, v2, v3⟩, d1, d2, d3⟩ := ha.local_ hd
    have hk1 : Holds m1 key k := ha.keyAt.congr (fun i hi => hm _ (by have := ha.keyLen; simp only [InRange]; omega))
    have hi1 : Holds m1 ivec iv := ha.ivAt.congr (fun i hi => hm _ (by have := ha.ivLen; simp only [InRange]; omega))
    obtain ⟨k1, k2⟩ := aux hc.buf hc.only hk1 ha.keyLen (by omega) ha.keyOut
    obtain ⟨i1, i2⟩ := aux hc.buf hc.only hi1 ha.ivLen (by omega) ha.ivOut
    obtain ⟨rfl, -⟩ := hc.fixed hd
    refine ⟨_, hc.buf, hc.sane, ⟨k1, ha.keyLen, ha.keyTop, k2, i1, ha.ivLen, ha.ivTop, i2, fun _ => ⟨⟨v1, v2, ?_⟩, d1, d2, d3⟩⟩, (if_neg hd).symm⟩
    intro i hi
    have h1 := v3 i hi
    rw [← hm'] at h1
    by_cases hin : InRange p' (storage b.cap) (stack + i)
    · simp only [InRange] at hin; omega
    · rw [hc.only.outside _ hin hin]; exact h1

theorem cbcEnc_cbcDec {E D : AesBlock → AesBlock} (h : ∀ x, E (D x) = x) (iv : AesBlock) (cs : List AesBlock) : cbcEnc E iv (cbcDec D iv cs) = cs := by
  induction cs generalizing iv with
  | nil => rfl
  | cons c t ih => rw [cbcDec, cbcEnc, AesBlock.xor_self_cancel, h, ih]

theorem CbcEncrypts.whole {R : List Byte → List Byte → Prop} {iv p c : List Byte} (h : CbcEncrypts R iv p c) : ∃ n, p.length = 16 * n := by
  induction h with
  | nil => exact ⟨0, rfl⟩
  | cons hl _ _ ih =>
    obtain ⟨n, hn⟩ := ih
    exact ⟨n + 1, by rw [List.length_append, hl, hn]; omega⟩

/-- A text and its encryption as blocks. -/
theorem cbc_blocks {R : List Byte → List Byte → Prop} {E : AesBlock → AesBlock} (h : ∀ b, R b.bytes (E b).bytes) (hR : ∀ {x y z}, R x y → R x z → y = z) (iv : AesBlock)
    {p c : List Byte} (hc : CbcEncrypts R iv.bytes p c) : ∃ bs, flat bs = p ∧ c = flat (cbcEnc E iv bs) := by
  obtain ⟨n, hn⟩ := hc.whole
  obtain ⟨bs, -, rfl⟩ := exists_flat hn
  exact ⟨bs, rfl, CbcEncrypts.unique (R := R) (fun a b => hR a b) hc (cbc_spec h iv bs)⟩

theorem dec256cbc_short (cfg : Cfg) {h : Host} {m : Mem} {key ivec ctx buf : Addr} {k l : List Byte} {K : Ctx} {iv : AesBlock}
    (hK : List.length K = 60) (hk : k.length = 32) (hinit : aes256_init h k = .ok K)
    (hkey : Holds m key k) (hiv : Holds m ivec iv.bytes) (hctx : Writable m ctx 240) (hl : l.length < 16)
    (hck : ctx + 240 ≤ key ∨ key + 32 ≤ ctx) (hci : ctx + 240 ≤ ivec ∨ ivec + 16 ≤ ctx) (hcb : ctx + 240 ≤ buf - 1 ∨ buf ≤ ctx) (hpre : Holds m (buf - 1) [0]) :
    dec256cbc cfg h m buf l.length key ivec ctx = .ok ((l.length : Int), put (put m ctx K.bytes) buf []) := by
  have hKl : K.bytes.length = 240 := by rw [Ctx.bytes_length, hK]
  have hiv2 : Holds (put m ctx K.bytes) ivec iv.bytes := holds_put_outside hiv (by rw [hKl, AesBlock.bytes_length]; omega)
  have hri := readBytes_eq hiv2
  rw [AesBlock.bytes_length] at hri
  have hp2 : Holds (put m ctx K.bytes) (buf - 1) [0] := holds_put_outside hpre (by rw [hKl]; simp only [List.length_cons, List.length_nil]; omega)
  rw [dec256cbc, tdiv16, Nat.div_eq_of_lt hl, init_at_eq hK hk hinit hkey hctx hck, Res.bind_ok, hri, Res.bind_ok, if_neg (by decide)]
  show (load (put m ctx K.bytes) (buf - 1) >>= _) = _
  rw [hp2.load_head, Res.bind_ok]
  have : (l.length : Int) + -(((0 : Byte).toNat : Nat) : Int) = l.length := by
    show (l.length : Int) + 0 = _
    omega
  rw [addInt_ok cfg (by rw [this]; simp only [INT_MIN]; omega) (by rw [this]; simp only [INT_MAX]; omega), this, Res.bind_ok, put_nil]

theorem crypt_view {cfg : Cfg} {s : St} {bp : Option Addr} {key ivec stack : Addr} {v : View} {bp' : Option Addr} {s' : St} (F : EncDec)
    (he : strbuf_crypt cfg F s bp key ivec stack = .ok (v, bp', s')) : v = .invalid := by
  have hbind : ∀ {α β : Type} {x : Res α} {f : α → Res β} {y : β}, (x >>= f) = .ok y → ∃ a, x = .ok a ∧ f a = .ok y := by
    intro α β x f y h
    cases x with
    | ok a => exact ⟨a, rfl, h⟩
    | ub w => cases h
    | fuel => cases h
    | env w => cases h
  rw [strbuf_crypt] at he
  split at he
  · obtain ⟨dyn, -, he⟩ := hbind he
    split at he
    · obtain ⟨_, -, he⟩ := hbind he
      obtain ⟨_, -, he⟩ := hbind he
      obtain ⟨⟨_, o, _⟩, -, he⟩ := hbind he
      cases o with
      | none => cases he
      | some b =>
        simp only at he
        obtain ⟨_, -, he⟩ := hbind he
        obtain ⟨_, -, he⟩ := hbind he
        obtain ⟨_, -, he⟩ := hbind he
        obtain ⟨_, -, he⟩ := hbind he
        obtain ⟨_, -, he⟩ := hbind he
        obtain ⟨_, -, he⟩ := hbind he
        obtain ⟨_, -, he⟩ := hbind he
        obtain ⟨_, -, he⟩ := hbind he
        obtain ⟨_, -, he⟩ := hbind he
        cases he; rfl
    · obtain ⟨_, -, he⟩ := hbind he
      obtain ⟨_, -, he⟩ := hbind he
      obtain ⟨_, -, he⟩ := hbind he
      split at he
      · obtain ⟨_, -, he⟩ := hbind he
        obtain ⟨_, -, he⟩ := hbind he
        obtain ⟨_, -, he⟩ := hbind he
        obtain ⟨_, -, he⟩ := hbind he
        cases he; rfl
      · cases he; rfl
  · cases he; rfl

theorem decrypt_negative {cfg : Cfg} {h : Host} {s : St} {p : Addr} {b : Buf} (hb : BufAt s p b) (hd : ¬ b.Dynamic) {key ivec stack : Addr} {k iv : List Byte}
    (ha : CryptArgs s p b key ivec stack k iv) (hcap : paddedLen b.data.length ≤ b.cap) {K : Ctx} {D : AesBlock → AesBlock} {ivb : AesBlock} {cs : List AesBlock}
    (hK : List.length K = 60) (hinit : aes256_init h k = .ok K) (hD : ∀ b, aes256_dec b K = .ok (D b)) (hiv : ivb.bytes = iv) (hcs : cs ≠ [])
    (hdata : b.data = flat cs) {X : List Byte} {x : Byte} (hX : flat (cbcDec D ivb cs) = X ++ [x]) (hx : b.data.length < x.toNat)
    (hfree : s.mem (p + 24 + b.data.length - x.toNat) = none) :
    strbuf_decrypt cfg h s (some p) key ivec stack = .ub .badWrite := by
  obtain ⟨J, hJ, hr⟩ := hb.raw
  have hd' : ¬ b.al.fn ≠ 0 := hd
  have hlen := hb.len
  have hmax := hb.cap
  have hx8 := x.toNat_lt
  obtain ⟨⟨v1, v2, v3⟩, d1, d2, d3⟩ := ha.local_ hd
  have hKl : K.bytes.length = 240 := by rw [Ctx.bytes_length, hK]
  have hst : Writable s.mem stack 240 := fun i hi => ⟨by omega, by omega, v3 i hi⟩
  have hW : (b.data ++ 0 :: J).length = b.cap + 1 := by rw [List.length_append, List.length_cons]; omega
  have hwr := hr.writable
  rw [hW] at hwr
  have hwb : Writable s.mem (cstrOf p) b.cap := hwr.sub 24 b.cap (by omega)
  have hstg : ((storage b.cap : Nat) : Int) = 24 + b.cap + 1 := by simp only [storage]; omega
  have hio := ha.ivOut
  have hfl : b.data.length = 16 * cs.length := by rw [hdata, flat_length]
  have hiv2 : Holds s.mem ivec ivb.bytes := by rw [hiv]; exact ha.ivAt
  have hbd : Holds s.mem (cstrOf p) (flat cs) := by rw [← hdata]; exact (Holds.append_iff.1 hr.body).1
  have hdec := dec256cbc_eq cfg (r := []) (buf := cstrOf p) hK ha.keyLen hinit hD ha.keyAt hiv2 hst hcs hbd (hwb.mono (by omega))
    ⟨d2, d3, by simp only [cstrOf, hdrLen]; omega, by simp only [cstrOf, hdrLen]; omega⟩ (by simp) (by simp only [List.length_nil]; omega) hX
  rw [List.append_nil, ← hdata] at hdec
  simp only [List.length_nil, Nat.add_zero, ← hfl] at hdec
  -- the memory after the function
  have h1 : Raw (put s.mem stack K.bytes) p b.data.length b.cap b.al (b.data ++ 0 :: J) := by
    apply hr.congr
    intro a hin
    apply put_outside
    rw [hW] at hin
    simp only [InRange] at hin; omega
  have h1' : Raw (put s.mem stack K.bytes) p b.data.length b.cap b.al ([] ++ b.data ++ 0 :: J) := h1
  have hol : (flat (cbcDec D ivb cs)).length = b.data.length := by rw [flat_length, cbcDec_length, hfl]
  obtain ⟨-, h2, -⟩ := h1'.write (Y' := flat (cbcDec D ivb cs)) hol
  have h0 : cstrOf p + (([] : List Byte).length : Int) = cstrOf p := by simp
  rw [h0] at h2
  obtain ⟨l4, hl4, e1, e2⟩ := h2.setSize_any (v := (b.data.length : Nat) - (x.toNat : Int)) (by simp only [INT_MIN]; omega) (by omega)
  have hpl : ((16 * (b.data.length / 16 + 1) : Nat) : Int) ≤ b.cap := by simp only [paddedLen] at hcap; omega
  rw [strbuf_decrypt, strbuf_crypt, deref_some hb.pos]
  simp only
  rw [hr.is_dynamic, decide_eq_false hd', Res.bind_ok, if_neg (by simp), hr.getCap, Res.bind_ok, hr.getSize, Res.bind_ok, cypher_size_eq cfg (by omega), Res.bind_ok,
    if_pos (by omega), hdec, Res.bind_ok]
  simp only
  rw [e1, Res.bind_ok, e2, Res.bind_ok, store, if_neg]
  · rfl
  · rintro ⟨-, -, hsome⟩
    have hea : cstrOf p + ((b.data.length : Nat) - (x.toNat : Int)) = p + 24 + b.data.length - x.toNat := by simp only [cstrOf, hdrLen]; omega
    rw [hea] at hsome
    have hlow : p + 24 + b.data.length - x.toNat < p := by
      by_cases hh : p + 24 + b.data.length - x.toNat < p
      · exact hh
      · have := hb.mapped (24 + b.data.length - x.toNat) (by simp only [storage]; omega)
        rw [show p + ((24 + b.data.length - x.toNat : Nat) : Int) = p + 24 + b.data.length - x.toNat by omega, hfree] at this
        cases this
    rw [put_outside (by omega), put_outside (by simp only [cstrOf, hdrLen]; omega), put_outside, hfree] at hsome
    · cases hsome
    · rw [hKl]
      by_cases hh : stack ≤ p + 24 + b.data.length - x.toNat ∧ p + 24 + b.data.length - x.toNat < stack + 240
      · have := v3 (p + 24 + b.data.length - x.toNat - stack).toNat (by omega)
        rw [show stack + ((p + 24 + b.data.length - x.toNat - stack).toNat : Int) = p + 24 + b.data.length - x.toNat by omega, hfree] at this
        cases this
      · omega

/-- Key, init vector and local variable in the example states. -/
theorem exArgs {b : Buf} (hb : b.Valid) {k iv : List Byte} (hk : k.length = 32) (hiv : iv.length = 16) :
    CryptArgs (exSt b (k ++ iv ++ List.replicate 240 0)) exP b exQ (exQ + 32) (exQ + 48) k iv := by
  have hc := hb.cap
  simp only [INT_MAX] at hc
  have hl : (k ++ iv ++ List.replicate 240 (0 : Byte)).length = 288 := by
    rw [List.length_append, List.length_append, List.length_replicate, hk, hiv]
  have hh := (exSt_other (b := b) (l := k ++ iv ++ List.replicate 240 0) (by rw [hl]; decide)).holds
  simp only at hh
  obtain ⟨h1, h2⟩ := Holds.append_iff.1 (Holds.append_iff.1 hh).1
  rw [hk] at h2
  refine ⟨h1, hk, by decide, ?_, h2, hiv, by decide, ?_, fun _ => ⟨⟨by decide, by decide, ?_⟩, ?_, ?_, ?_⟩⟩
  · right; simp only [exP, exQ, storage]; omega
  · right; simp only [exP, exQ, storage]; omega
  · intro i hi
    simp only [exSt]
    rw [if_neg (by omega), show exQ + 48 + (i : Int) = exQ + ((48 + i : Nat) : Int) by omega]
    exact memAt_isSome (by rw [hl]; omega)
  · right; simp only [exP, exQ, storage]; omega
  · right; decide
  · right; decide

end CStr
