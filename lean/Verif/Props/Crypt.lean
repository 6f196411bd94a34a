import Verif.Lemmas.CryptProp
import Verif.Props.BufInsert
/-! Property C56: encryption and decryption of buffers. -/
namespace CStr

/-- C56. On a little-endian host `strbuf_encrypt` replaces the content, whatever it is, by its encryption with AES-256 in cipher block chaining mode with the given key and init vector, after padding it to a multiple of 16 bytes. -/
theorem C56_encrypt {cfg : Cfg} {s : St} (hs : s.Sane) {p : Addr} {b : Buf} (hb : BufAt s p b) {key ivec stack : Addr} {k iv : List Byte}
    (ha : CryptArgs s p b key ivec stack k iv) (hroom : b.Room (paddedLen b.data.length)) :
    (b.Dynamic ∧ strbuf_encrypt cfg .little s (some p) key ivec stack = .env .alloc) ∨
    ∃ out p' s', Aes256Cbc k iv (pkcs7 b.data) out ∧
      Crypted s p b stack (strbuf_encrypt cfg .little s (some p) key ivec stack) (paddedLen b.data.length) out p' s' := by
  obtain ⟨K, E, D, hK, hinit, hE, -, -, -, hfips⟩ := cipher_for .little ha.keyLen
  obtain ⟨ivb, hiv⟩ := exists_block ha.ivLen
  obtain ⟨bs, hbl, hbs⟩ := exists_flat (n := b.data.length / 16 + 1) (paddedLen_eq b.data)
  have hol : (flat (cbcEnc E ivb bs)).length = paddedLen b.data.length := by rw [flat_length, cbcEnc_length, hbl]; rfl
  have hF := enc_performs cfg (key := key) (ivec := ivec) (pre := topByte b.al) hK ha.keyLen hinit hE hiv hbs (room_max hb hroom)
  rcases crypt_out (cfg := cfg) hs hb ha hroom (by rw [Ctx.bytes_length, hK]) (by omega) (by omega) hF with h | ⟨p', s', h⟩
  · exact .inl h
  · refine .inr ⟨_, p', s', ?_, h⟩
    rw [List.take_append_of_le_length (by omega), List.take_of_length_le (by omega), ← hbs, ← hiv]
    exact cbc_spec (hfips rfl) _ _

/-- A dynamic buffer that has to grow, and one of fixed capacity. -/
def exC : Buf := ⟨[104, 101, 108, 108, 111], 8, ⟨7, 4660⟩⟩
def exCF : Buf := ⟨[104, 101, 108, 108, 111], 40, ⟨0, 0⟩⟩

theorem exC_valid : exC.Valid := ⟨by decide, by decide, by decide, by decide⟩
theorem exCF_valid : exCF.Valid := ⟨by decide, by decide, by decide, by decide⟩

example := C56_encrypt (cfg := isoCfg) (exSt_sane exC_valid _) (exSt_buf exC_valid _) (exArgs exC_valid (k := fipsKey 32) (iv := fipsPlain.bytes) rfl rfl)
  (.inr ⟨by decide, by decide⟩)
example := C56_encrypt (cfg := isoCfg) (exSt_sane exCF_valid _) (exSt_buf exCF_valid _) (exArgs exCF_valid (k := fipsKey 32) (iv := fipsPlain.bytes) rfl rfl)
  (.inl (by decide))

/-- C56. The encryption is determined by key, init vector and content. -/
theorem C56_cbc_unique {k iv plain c c' : List Byte} (h : Aes256Cbc k iv plain c) (h' : Aes256Cbc k iv plain c') : c = c' :=
  CbcEncrypts.unique (R := Fips.Encrypts 8 k) (fun h h' => C57_encrypts_unique (.inr (.inr rfl)) h h') h h'

/-- C56. On a little-endian host, if the content is the encryption of some padded text with AES-256 in cipher block chaining mode, `strbuf_decrypt` with the same key and init vector replaces it by that text. -/
theorem C56_decrypt {cfg : Cfg} {s : St} (hs : s.Sane) {p : Addr} {b : Buf} (hb : BufAt s p b) {key ivec stack : Addr} {k iv : List Byte}
    (ha : CryptArgs s p b key ivec stack k iv) (hroom : b.Room (paddedLen b.data.length)) {plain : List Byte} (hc : Aes256Cbc k iv (pkcs7 plain) b.data) :
    (b.Dynamic ∧ strbuf_decrypt cfg .little s (some p) key ivec stack = .env .alloc) ∨
    ∃ p' s', Crypted s p b stack (strbuf_decrypt cfg .little s (some p) key ivec stack) (paddedLen b.data.length) plain p' s' := by
  obtain ⟨K, E, D, hK, hinit, -, hD, hDE, -, hfips⟩ := cipher_for .little ha.keyLen
  obtain ⟨ivb, hiv⟩ := exists_block ha.ivLen
  obtain ⟨bs, hbl, hbs⟩ := exists_flat (n := plain.length / 16 + 1) (paddedLen_eq plain)
  refine decrypt_blocks hs hb ha hroom hK hinit hD hDE hiv hbs ?_
  apply C56_cbc_unique hc
  rw [← hbs, ← hiv]
  exact cbc_spec (hfips rfl) _ _

/-- Every text has an encryption. -/
theorem exists_cbc (k iv plain : List Byte) (hk : k.length = 32) (hiv : iv.length = 16) {n : Nat} (hl : plain.length = 16 * n) :
    ∃ c, c.length = 16 * n ∧ Aes256Cbc k iv plain c := by
  obtain ⟨K, E, D, -, -, -, -, -, -, hfips⟩ := cipher_for .little hk
  obtain ⟨ivb, rfl⟩ := exists_block hiv
  obtain ⟨bs, hb, rfl⟩ := exists_flat hl
  exact ⟨_, by rw [flat_length, cbcEnc_length, hb], cbc_spec (hfips rfl) ivb bs⟩

/-- The encryption of "hello" in a buffer of fixed capacity 32 is decrypted. -/
example : ∃ c : List Byte, ∃ p' s', Crypted (exSt ⟨c, 32, ⟨0, 0⟩⟩ (fipsKey 32 ++ fipsPlain.bytes ++ List.replicate 240 0)) exP ⟨c, 32, ⟨0, 0⟩⟩ (exQ + 48)
    (strbuf_decrypt isoCfg .little (exSt ⟨c, 32, ⟨0, 0⟩⟩ (fipsKey 32 ++ fipsPlain.bytes ++ List.replicate 240 0)) (some exP) exQ (exQ + 32) (exQ + 48)) 32
    [104, 101, 108, 108, 111] p' s' := by
  obtain ⟨c, hl, hc⟩ := exists_cbc (fipsKey 32) fipsPlain.bytes (pkcs7 [104, 101, 108, 108, 111]) rfl rfl (n := 1) rfl
  have hv : Buf.Valid ⟨c, 32, ⟨0, 0⟩⟩ := ⟨by simp only; omega, (by decide : ((32 : Nat) : Int) ≤ INT_MAX), (by decide : 0 < 2 ^ 64), (by decide : 0 < 2 ^ 64)⟩
  have hpl : paddedLen c.length = 32 := by rw [hl]; rfl
  rcases C56_decrypt (cfg := isoCfg) (exSt_sane hv _) (exSt_buf hv _) (exArgs hv (k := fipsKey 32) (iv := fipsPlain.bytes) rfl rfl) (.inl (by simp only; omega)) hc with
    ⟨hd, -⟩ | ⟨p', s', h⟩
  · exact absurd rfl hd
  · simp only [hpl] at h
    exact ⟨c, p', s', h⟩

/-- C56. On every host: encryption followed by decryption with the same key and init vector restores the content, whatever it is, provided there is room for the padded text plus one block. -/
theorem C56_round_trip {cfg : Cfg} (h : Host) {s : St} (hs : s.Sane) {p : Addr} {b : Buf} (hb : BufAt s p b) {key ivec stack : Addr} {k iv : List Byte}
    (ha : CryptArgs s p b key ivec stack k iv) (hroom : b.Room (paddedLen b.data.length + 16)) :
    (b.Dynamic ∧ strbuf_encrypt cfg h s (some p) key ivec stack = .env .alloc) ∨
    ∃ c cap p1 s1, Crypted s p b stack (strbuf_encrypt cfg h s (some p) key ivec stack) (paddedLen b.data.length) c p1 s1 ∧ BufAt s1 p1 ⟨c, cap, b.al⟩ ∧
      ((b.Dynamic ∧ strbuf_decrypt cfg h s1 (some p1) key ivec stack = .env .alloc) ∨
      ∃ p2 s2, Crypted s1 p1 ⟨c, cap, b.al⟩ stack (strbuf_decrypt cfg h s1 (some p1) key ivec stack) (paddedLen b.data.length + 16) b.data p2 s2) := by
  obtain ⟨K, E, D, hK, hinit, hE, hD, hDE, -, -⟩ := cipher_for h ha.keyLen
  obtain ⟨ivb, hiv⟩ := exists_block ha.ivLen
  obtain ⟨bs, hbl, hbs⟩ := exists_flat (n := b.data.length / 16 + 1) (paddedLen_eq b.data)
  have hol : (flat (cbcEnc E ivb bs)).length = paddedLen b.data.length := by rw [flat_length, cbcEnc_length, hbl]; rfl
  have hroom1 : b.Room (paddedLen b.data.length) := by
    rcases hroom with h | ⟨h, h'⟩
    · exact .inl (by omega)
    · exact .inr ⟨h, by omega⟩
  have hF := enc_performs cfg (key := key) (ivec := ivec) (pre := topByte b.al) hK ha.keyLen hinit hE hiv hbs (room_max hb hroom1)
  rcases crypt_out (cfg := cfg) hs hb ha hroom1 (by rw [Ctx.bytes_length, hK]) (by omega) (by omega) hF with he | ⟨p1, s1, hc⟩
  · exact .inl he
  · rw [List.take_append_of_le_length (by omega), List.take_of_length_le (by omega)] at hc
    obtain ⟨cap, hb1, hs1, ha1, hcap⟩ := ha.after hc
    refine .inr ⟨_, cap, p1, s1, hc, hb1, ?_⟩
    have hpl : paddedLen (flat (cbcEnc E ivb bs)).length = paddedLen b.data.length + 16 := by rw [hol]; simp only [paddedLen]; omega
    have hroom2 : Buf.Room ⟨flat (cbcEnc E ivb bs), cap, b.al⟩ (paddedLen (flat (cbcEnc E ivb bs)).length) := by
      rw [hpl]
      rcases hroom with h | ⟨h, h'⟩
      · left; simp only; rw [hcap]; split <;> omega
      · exact .inr ⟨h, h'⟩
    have := decrypt_blocks (cfg := cfg) (h := h) (data := b.data) hs1 hb1 ha1 hroom2 hK hinit hD hDE hiv hbs rfl
    simp only [hpl] at this
    exact this

example (h : Host) := C56_round_trip (cfg := isoCfg) h (exSt_sane exC_valid _) (exSt_buf exC_valid _) (exArgs exC_valid (k := fipsKey 32) (iv := fipsPlain.bytes) rfl rfl)
  (.inr ⟨by decide, by decide⟩)
example (h : Host) := C56_round_trip (cfg := isoCfg) h (exSt_sane exCF_valid _) (exSt_buf exCF_valid _) (exArgs exCF_valid (k := fipsKey 32) (iv := fipsPlain.bytes) rfl rfl)
  (.inl (by decide))

/-- C56. Every sequence of whole blocks is the encryption of some sequence of the same length. -/
theorem C56_cbc_onto {k iv : List Byte} (hk : k.length = 32) (hiv : iv.length = 16) {n : Nat} {c : List Byte} (hc : c.length = 16 * n) :
    ∃ plain, plain.length = c.length ∧ Aes256Cbc k iv plain c := by
  obtain ⟨K, E, D, -, -, -, -, -, hED, hfips⟩ := cipher_for .little hk
  obtain ⟨ivb, rfl⟩ := exists_block hiv
  obtain ⟨cs, -, rfl⟩ := exists_flat hc
  refine ⟨flat (cbcDec D ivb cs), by rw [flat_length, flat_length, cbcDec_length], ?_⟩
  have := cbc_spec (hfips rfl) ivb (cbcDec D ivb cs)
  rwa [cbcEnc_cbcDec hED] at this

/-- C56. What decryption makes of any content of at least one block, also if it was encrypted with another key, or damaged, or is not a whole number of blocks: the whole blocks are decrypted, and then as many bytes are
removed from the end as the last byte of the last block says. There is no check of the padding, and no error. -/
theorem C56_decrypt_any {cfg : Cfg} {s : St} (hs : s.Sane) {p : Addr} {b : Buf} (hb : BufAt s p b) {key ivec stack : Addr} {k iv : List Byte}
    (ha : CryptArgs s p b key ivec stack k iv) (hroom : b.Room (paddedLen b.data.length)) {c r : List Byte} (hdata : b.data = c ++ r) (hr : r.length < 16)
    {plain : List Byte} {x : Byte} (hc : Aes256Cbc k iv (plain ++ [x]) c) (hx : x.toNat ≤ b.data.length) :
    (b.Dynamic ∧ strbuf_decrypt cfg .little s (some p) key ivec stack = .env .alloc) ∨
    ∃ p' s', Crypted s p b stack (strbuf_decrypt cfg .little s (some p) key ivec stack) (paddedLen b.data.length)
      ((plain ++ [x] ++ r).take (b.data.length - x.toNat)) p' s' := by
  obtain ⟨K, E, D, hK, hinit, -, hD, hDE, -, hfips⟩ := cipher_for .little ha.keyLen
  obtain ⟨ivb, hiv⟩ := exists_block ha.ivLen
  obtain ⟨bs, hbs, rfl⟩ := cbc_blocks (R := Fips.Encrypts 8 k) (hfips rfl) (fun h h' => C57_encrypts_unique (.inr (.inr rfl)) h h') ivb (by rw [hiv]; exact hc)
  have hne : cbcEnc E ivb bs ≠ [] := by
    intro h
    have h1 := cbcEnc_length E ivb bs
    rw [h] at h1
    have h2 := flat_length bs
    rw [hbs, ← h1] at h2
    simp at h2
  have hmax := room_max hb hroom
  have hF := dec_performs cfg (r := r) (key := key) (ivec := ivec) (pre := topByte b.al) (ivb := ivb) (X := plain) (x := x) hK ha.keyLen hinit hD hiv hne hr
    (by rw [← hdata]; exact hmax) (by rw [cbcDec_cbcEnc hDE, hbs]) (by rw [← hdata]; exact hx)
  rw [← hdata, cbcDec_cbcEnc hDE, hbs] at hF
  have hl : (plain ++ [x]).length = (flat (cbcEnc E ivb bs)).length := by rw [← hbs, flat_length, flat_length, cbcEnc_length]
  have hdl : b.data.length = (plain ++ [x]).length + r.length := by rw [hdata, List.length_append, hl]
  rcases crypt_out (cfg := cfg) hs hb ha hroom (by rw [Ctx.bytes_length, hK]) (by simp only [paddedLen]; omega) (by omega) hF with h | ⟨p', s', h⟩
  · exact .inl h
  · refine .inr ⟨p', s', ?_⟩
    have e : b.data.drop (plain ++ [x]).length = r := by rw [hdata, hl, List.drop_left]
    rw [e] at h
    exact h

/-- A whole number of blocks that is not the encryption of a padded text: every key gives some plain text. -/
example (c : List Byte) (hl : c.length = 16) : ∃ (plain : List Byte) (x : Byte), Aes256Cbc (fipsKey 32) fipsPlain.bytes (plain ++ [x]) c := by
  obtain ⟨q, h1, h2⟩ := C56_cbc_onto (k := fipsKey 32) (iv := fipsPlain.bytes) rfl rfl (n := 1) hl
  obtain ⟨X, x, rfl⟩ : ∃ X x, q = X ++ [x] := ⟨q.dropLast, q.getLast (by intro h; rw [h] at h1; simp at h1; omega), (List.dropLast_concat_getLast _).symm⟩
  exact ⟨X, x, h2⟩

/-- Three bytes are removed although the padding is wrong. -/
example : ∃ c : List Byte, ∃ p' s', Crypted (exSt ⟨c, 32, ⟨0, 0⟩⟩ (fipsKey 32 ++ fipsPlain.bytes ++ List.replicate 240 0)) exP ⟨c, 32, ⟨0, 0⟩⟩ (exQ + 48)
    (strbuf_decrypt isoCfg .little (exSt ⟨c, 32, ⟨0, 0⟩⟩ (fipsKey 32 ++ fipsPlain.bytes ++ List.replicate 240 0)) (some exP) exQ (exQ + 32) (exQ + 48)) 32
    (List.replicate 13 65) p' s' := by
  obtain ⟨c, hl, hc⟩ := exists_cbc (fipsKey 32) fipsPlain.bytes (List.replicate 15 65 ++ [3]) rfl rfl (n := 1) rfl
  have hv : Buf.Valid ⟨c, 32, ⟨0, 0⟩⟩ := ⟨by simp only; omega, (by decide : ((32 : Nat) : Int) ≤ INT_MAX), (by decide : 0 < 2 ^ 64), (by decide : 0 < 2 ^ 64)⟩
  have hpl : paddedLen c.length = 32 := by rw [hl]; rfl
  rcases C56_decrypt_any (cfg := isoCfg) (exSt_sane hv _) (exSt_buf hv _) (exArgs hv (k := fipsKey 32) (iv := fipsPlain.bytes) rfl rfl) (.inl (by simp only; omega))
    (c := c) (r := []) (by simp) (by decide) hc (by simp only [hl]; decide) with
    ⟨hd, -⟩ | ⟨p', s', h⟩
  · exact absurd rfl hd
  · simp only [hl] at h
    exact ⟨c, p', s', h⟩

/-- C56. Content of less than one block is left as it is by decryption, if the most significant byte of the allocator's function pointer is 0 (as it is for a buffer of fixed capacity). -/
theorem C56_decrypt_short {cfg : Cfg} (h : Host) {s : St} (hs : s.Sane) {p : Addr} {b : Buf} (hb : BufAt s p b) {key ivec stack : Addr} {k iv : List Byte}
    (ha : CryptArgs s p b key ivec stack k iv) (hroom : b.Room 16) (hlen : b.data.length < 16) (hfn : b.al.fn < 2 ^ 56) :
    (b.Dynamic ∧ strbuf_decrypt cfg h s (some p) key ivec stack = .env .alloc) ∨
    ∃ p' s', Crypted s p b stack (strbuf_decrypt cfg h s (some p) key ivec stack) 16 b.data p' s' := by
  obtain ⟨K, E, D, hK, hinit, -, hD, -, -, -⟩ := cipher_for h ha.keyLen
  obtain ⟨ivb, hiv⟩ := exists_block ha.ivLen
  have hpl : paddedLen b.data.length = 16 := by simp only [paddedLen]; omega
  have htb : topByte b.al = 0 := by
    rw [topByte, Nat.div_eq_of_lt hfn]; rfl
  have hF : Performs (dec256cbc cfg h) key ivec k iv (topByte b.al) b.data (paddedLen b.data.length) b.data.length K.bytes [] := by
    intro m buf ctx h1 h2 h3 h4 h5 h6 h7
    rw [← hiv] at h2
    rw [htb] at h7
    exact dec256cbc_short cfg hK ha.keyLen hinit h1 h2 h3 hlen h6.ctxKey h6.ctxIv (by have := h6.ctxBuf; rw [hpl] at this; omega) h7
  rcases crypt_out (cfg := cfg) hs hb ha (by rw [hpl]; exact hroom) (by rw [Ctx.bytes_length, hK]) (by simp) (by simp) hF with h | ⟨p', s', h⟩
  · exact .inl h
  · refine .inr ⟨p', s', ?_⟩
    rw [hpl] at h
    rw [List.nil_append, List.length_nil, List.drop_zero, List.take_length] at h
    exact h

example (h : Host) := C56_decrypt_short (cfg := isoCfg) h (exSt_sane exC_valid _) (exSt_buf exC_valid _) (exArgs exC_valid (k := fipsKey 32) (iv := fipsPlain.bytes) rfl rfl)
  (.inr ⟨by decide, by decide⟩) (by decide) (by decide)

/-- C56. A buffer of fixed capacity that has no room for one more (partial) block is left as it is, by encryption and by decryption, and nothing reports this. -/
theorem C56_no_room {cfg : Cfg} (h : Host) {s : St} {p : Addr} {b : Buf} (hb : BufAt s p b) (hd : ¬ b.Dynamic) (hcap : b.cap < paddedLen b.data.length)
    (hmax : (paddedLen b.data.length : Int) ≤ INT_MAX) (key ivec stack : Addr) :
    strbuf_encrypt cfg h s (some p) key ivec stack = .ok (.invalid, some p, s) ∧ strbuf_decrypt cfg h s (some p) key ivec stack = .ok (.invalid, some p, s) := by
  have aux : ∀ F, strbuf_crypt cfg F s (some p) key ivec stack = .ok (.invalid, some p, s) := by
    intro F
    have hd' : ¬ b.al.fn ≠ 0 := hd
    simp only [paddedLen] at hmax hcap
    rw [strbuf_crypt, deref_some hb.pos]
    simp only
    rw [hb.is_dynamic, decide_eq_false hd', Res.bind_ok, if_neg (by simp), hb.getCap, Res.bind_ok, hb.getSize, Res.bind_ok, cypher_size_eq cfg hmax, Res.bind_ok,
      if_neg (by omega)]
  exact ⟨aux _, aux _⟩

/-- C56. Deviation: with fewer than 16 bytes left to the largest `int` the room for the padding cannot be counted. Where signed overflow is
undefined, encryption and decryption are undefined for every such buffer. Where it wraps, a buffer of fixed capacity passes for one with
room, and if its encryption ends at all, it ends with a negative size in the buffer. -/
theorem C56_huge_deviation {cfg : Cfg} (h : Host) {s : St} {p : Addr} {b : Buf} (hb : BufAt s p b) (hbig : 2147483632 ≤ b.data.length) (key ivec stack : Addr) :
    (cfg.wrapv = false → strbuf_encrypt cfg h s (some p) key ivec stack = .ub .signedOverflow ∧
      strbuf_decrypt cfg h s (some p) key ivec stack = .ub .signedOverflow) ∧
    (cfg.wrapv = true → ¬ b.Dynamic → ∀ v bp s', strbuf_encrypt cfg h s (some p) key ivec stack = .ok (v, bp, s') →
      bp = some p ∧ getSize s'.mem p = .ok INT_MIN ∧ ∀ b', ¬ BufAt s' p b') := by
  have hmax : (b.data.length : Int) ≤ INT_MAX := by
    obtain ⟨_, _, hr⟩ := hb.raw
    exact hr.szMax
  have hmul := huge_blocks hbig hmax
  constructor
  · intro hw
    have hcs : cypher_size cfg b.data.length = .ub .signedOverflow := by
      rw [cypher_size, tdiv16]
      exact mulInt_iso hw (by rw [hmul]; decide)
    have aux : ∀ F, strbuf_crypt cfg F s (some p) key ivec stack = .ub .signedOverflow := by
      intro F
      rw [strbuf_crypt, deref_some hb.pos]
      simp only
      rw [hb.is_dynamic, Res.bind_ok]
      split
      · rw [hb.getSize, Res.bind_ok, hcs]; rfl
      · rw [hb.getCap, Res.bind_ok, hb.getSize, Res.bind_ok, hcs]; rfl
    exact ⟨aux _, aux _⟩
  · intro hw hd v bp s' e
    have hd' : ¬ b.al.fn ≠ 0 := hd
    have hmw : mulInt cfg (((b.data.length / 16 : Nat) : Int) + 1) 16 = .ok INT_MIN := by
      rw [mulInt_wrap hw, hmul]; rfl
    rw [strbuf_encrypt, strbuf_crypt, deref_some hb.pos] at e
    simp only at e
    rw [hb.is_dynamic, decide_eq_false hd', Res.bind_ok, if_neg (by simp), hb.getCap, Res.bind_ok, hb.getSize, Res.bind_ok, cypher_size, tdiv16, hmw,
      Res.bind_ok, if_pos (by simp only [INT_MIN]; omega)] at e
    have hsz : Res.Sat (fun r : Int × Mem => r.1 = INT_MIN) (enc256cbc cfg h s.mem (cstrOf p) b.data.length key ivec stack) := by
      rw [enc256cbc, tdiv16, hmw]
      refine Res.Sat.bind fun a ea => ?_
      cases ea
      refine Res.Sat.bind fun _ _ => Res.Sat.bind fun _ _ => Res.Sat.bind fun _ _ => Res.Sat.bind fun _ _ => ?_
      split
      · exact ⟨fun _ e => by cases e⟩
      · exact Res.Sat.bind fun _ _ => Res.Sat.ok rfl
    have hall : Res.Sat (fun r : View × Option Addr × St => r.2.1 = some p ∧ getSize r.2.2.mem p = .ok INT_MIN) (enc256cbc cfg h s.mem (cstrOf p) b.data.length key ivec stack >>= fun r => do
        let m ← setSize r.2 p r.1
        let size ← getSize m p
        let m ← store m (cstrOf p + size) 0
        (.ok (.invalid, some p, { s with mem := m }) : BufRes)) := by
      refine Res.Sat.bind' hsz fun r hr => Res.Sat.bind fun m em => ?_
      rw [hr] at em
      obtain ⟨h0, h8, hh⟩ := getSize_setSize (by decide) (by decide) em
      rw [getSize_holds (by decide) (by decide) h0 h8 hh, Res.bind_ok]
      refine Res.Sat.bind fun m' em' => Res.Sat.ok ⟨rfl, ?_⟩
      refine getSize_holds (by decide) (by decide) h0 h8 ?_
      rw [store] at em'
      split at em'
      · cases em'
        intro i hi
        rw [← hh i hi]
        rw [leBytes_length] at hi
        have hne : ¬ (p + (i : Int) = cstrOf p + INT_MIN) := by
          have e1 : cstrOf p + INT_MIN = p + 24 - 2147483648 := by simp only [cstrOf, hdrLen, INT_MIN]; omega
          rw [e1]; omega
        simp only [rd, if_neg hne]
      · cases em'
    obtain ⟨h1, h2⟩ := hall.out _ e
    refine ⟨h1, h2, fun b' hb' => ?_⟩
    have := hb'.getSize
    rw [h2] at this
    simp only [Res.ok.injEq, INT_MIN] at this
    omega

-- a full buffer of 2147483640 bytes
example (h : Host) : ∃ (s : St) (p : Addr) (b : Buf), BufAt s p b ∧ strbuf_encrypt isoCfg h s (some p) 8 8 8 = .ub .signedOverflow := by
  obtain ⟨l, hl⟩ : ∃ l : List Byte, l.length = 2147483640 := ⟨List.replicate 2147483640 97, List.length_replicate⟩
  have hv : Buf.Valid ⟨l, 2147483640, ⟨0, 0⟩⟩ :=
    ⟨Nat.le_of_eq hl, (by decide : ((2147483640 : Nat) : Int) ≤ INT_MAX), (by decide : 0 < 2 ^ 64), (by decide : 0 < 2 ^ 64)⟩
  exact ⟨_, _, _, exSt_buf hv [], ((C56_huge_deviation h (exSt_buf hv []) (by show 2147483632 ≤ l.length; omega) 8 8 8).1 rfl).1⟩

/-- A buffer of fixed capacity 16 that is full of a valid encryption is not decrypted. -/
theorem C56_full_buffer_deviation : ∃ (s : St) (p : Addr) (b : Buf) (key ivec stack : Addr) (k iv plain : List Byte),
    s.Sane ∧ BufAt s p b ∧ CryptArgs s p b key ivec stack k iv ∧ Aes256Cbc k iv (pkcs7 plain) b.data ∧ b.data ≠ plain ∧
    strbuf_decrypt isoCfg .little s (some p) key ivec stack = .ok (.invalid, some p, s) := by
  obtain ⟨c, hl, hc⟩ := exists_cbc (fipsKey 32) fipsPlain.bytes (pkcs7 [104, 101, 108, 108, 111]) rfl rfl (n := 1) rfl
  have hv : Buf.Valid ⟨c, 16, ⟨0, 0⟩⟩ := ⟨by simp only; omega, (by decide : ((16 : Nat) : Int) ≤ INT_MAX), (by decide : 0 < 2 ^ 64), (by decide : 0 < 2 ^ 64)⟩
  have hpl : paddedLen c.length = 32 := by rw [hl]; rfl
  refine ⟨_, exP, ⟨c, 16, ⟨0, 0⟩⟩, _, _, _, _, _, _, exSt_sane hv _, exSt_buf hv _, exArgs hv (k := fipsKey 32) (iv := fipsPlain.bytes) rfl rfl, hc, ?_, ?_⟩
  · intro h
    have := congrArg List.length h
    simp only [hl] at this
    exact absurd this (by decide)
  · exact (C56_no_room .little (exSt_buf hv _) (fun h => h rfl) (by simp only [hpl]; decide) (by simp only [hpl]; decide) _ _ _).2

/-- C56. A NULL handle, or a handle to a NULL buffer, is ignored. -/
theorem C56_null {cfg : Cfg} (h : Host) (s : St) {bp : Option Addr} (hbp : deref bp = none) (key ivec stack : Addr) :
    strbuf_encrypt cfg h s bp key ivec stack = .ok (.invalid, bp, s) ∧ strbuf_decrypt cfg h s bp key ivec stack = .ok (.invalid, bp, s) := by
  constructor <;> simp only [strbuf_encrypt, strbuf_decrypt, strbuf_crypt, hbp]

example (h : Host) (s : St) := C56_null (cfg := isoCfg) h s (bp := some 0) rfl exQ exQ exQ

/-- C56, deviation: the header says that both functions return a view of the buffer. Whenever they return, the view is the invalid one. -/
theorem C56_view_deviation {cfg : Cfg} (h : Host) {s : St} {bp : Option Addr} {key ivec stack : Addr} {v : View} {bp' : Option Addr} {s' : St}
    (he : strbuf_encrypt cfg h s bp key ivec stack = .ok (v, bp', s') ∨ strbuf_decrypt cfg h s bp key ivec stack = .ok (v, bp', s')) : v = .invalid := by
  have aux : ∀ F, strbuf_crypt cfg F s bp key ivec stack = .ok (v, bp', s') → v = .invalid := fun F h => crypt_view F h
  rcases he with he | he
  · exact aux _ he
  · exact aux _ he

/-- C56, deviation: decryption does not check the padding. If the last byte of the decrypted text is greater than its length (wrong key, damaged data), the size becomes negative and a byte before the content is overwritten; if there
is no memory there, the behaviour is undefined. -/
theorem C56_bad_padding_deviation {cfg : Cfg} {s : St} {p : Addr} {b : Buf} (hb : BufAt s p b) (hd : ¬ b.Dynamic) {key ivec stack : Addr} {k iv : List Byte}
    (ha : CryptArgs s p b key ivec stack k iv) (hroom : b.Room (paddedLen b.data.length)) {plain : List Byte} {x : Byte} (hc : Aes256Cbc k iv (plain ++ [x]) b.data)
    (hx : b.data.length < x.toNat) (hfree : s.mem (p + 24 + b.data.length - x.toNat) = none) :
    strbuf_decrypt cfg .little s (some p) key ivec stack = .ub .badWrite := by
  obtain ⟨K, E, D, hK, hinit, -, hD, hDE, -, hfips⟩ := cipher_for .little ha.keyLen
  obtain ⟨ivb, hiv⟩ := exists_block ha.ivLen
  obtain ⟨bs, hbs, hcE⟩ := cbc_blocks (R := Fips.Encrypts 8 k) (hfips rfl) (fun h h' => C57_encrypts_unique (.inr (.inr rfl)) h h') ivb (by rw [hiv]; exact hc)
  have hne : cbcEnc E ivb bs ≠ [] := by
    intro h
    have h1 := cbcEnc_length E ivb bs
    rw [h] at h1
    have h2 := flat_length bs
    rw [hbs, ← h1] at h2
    simp at h2
  have hcap : paddedLen b.data.length ≤ b.cap := by
    rcases hroom with h | ⟨h, -⟩
    · exact h
    · exact absurd h hd
  exact decrypt_negative hb hd ha hcap hK hinit hD hiv hne hcE (by rw [cbcDec_cbcEnc hDE, hbs]) hx hfree

/-- One block whose decryption ends with the byte 255, at an address where nothing precedes the buffer. -/
example : ∃ (s : St) (b : Buf), s.Sane ∧ BufAt s exP b ∧ strbuf_decrypt isoCfg .little s (some exP) exQ (exQ + 32) (exQ + 48) = .ub .badWrite := by
  obtain ⟨c, hl, hc⟩ := exists_cbc (fipsKey 32) fipsPlain.bytes (List.replicate 15 65 ++ [255]) rfl rfl (n := 1) rfl
  have hv : Buf.Valid ⟨c, 32, ⟨0, 0⟩⟩ := ⟨by simp only; omega, (by decide : ((32 : Nat) : Int) ≤ INT_MAX), (by decide : 0 < 2 ^ 64), (by decide : 0 < 2 ^ 64)⟩
  have hpl : paddedLen c.length = 32 := by rw [hl]; rfl
  refine ⟨_, ⟨c, 32, ⟨0, 0⟩⟩, exSt_sane hv _, exSt_buf hv _, C56_bad_padding_deviation (exSt_buf hv _) (fun h => h rfl)
    (exArgs hv (k := fipsKey 32) (iv := fipsPlain.bytes) rfl rfl) (.inl (by simp only; omega)) hc (by simp only [hl]; decide) ?_⟩
  simp only [hl]
  rfl

end CStr
