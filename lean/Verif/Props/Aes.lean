import Verif.Lemmas.Aes
/-
  C57: the block cipher in accessories/strbuf_crypt/aes is AES (FIPS 197) on little-endian hosts, decryption undoes encryption on every host,
  and on big-endian hosts the key schedule differs from FIPS 197.

  `Fips.Encrypts Nk k p c` (Spec/Aes.lean) is the independent definition of the cipher. A block is compared with it by its
  bytes in memory order, `AesBlock.bytes`.
-/
namespace CStr

/-- C57: `gf256mul` with the reducer 0x1b is the multiplication of GF(2^8), for all pairs of bytes. -/
theorem C57_field (a b : Byte) : gf256mul a b 0x1b = Fips.mul a b := gf256mul_eq a b

example : gf256mul 0x57 0x83 0x1b = 0xc1 := by decide +kernel

/-- C57: the table `aes_sbox` is the S-box of FIPS 197, which is unique, and `aes_invsbox` is its inverse. -/
theorem C57_sbox (S : Byte → Byte) : (Fips.IsSbox S ↔ S = aes_sbox) ∧ (Fips.IsSbox S → ∀ x, aes_invsbox (S x) = x ∧ S (aes_invsbox x) = x) := by
  refine ⟨⟨Fips.isSbox_unique, fun h => h ▸ Fips.isSbox_aes⟩, fun h x => ?_⟩
  rw [Fips.isSbox_unique h]
  exact ⟨invsbox_sbox x, sbox_invsbox x⟩

/-- C57: on a little-endian host, `aes_init` followed by `aes_encrypt_core` with `Nk + 6` rounds completes for every key of 128, 192 or 256 bits
and every block, and the result is the encryption of the block that FIPS 197 defines. -/
theorem C57_encrypt {nk : Nat} (hnk : Fips.IsKeyLength nk) (key : List Byte) (hk : key.length = 4 * nk) (s : AesBlock) :
    ∃ ctx c, aes_init .little key (32 * nk) = .ok ctx ∧ aes_encrypt_core s ctx (nk + 6) = .ok c ∧ Fips.Encrypts nk key s.bytes c.bytes := by
  obtain ⟨ctx, h1, h2, h3, h4⟩ := aes_init_ok .little key nk (by rcases hnk with h | h | h <;> omega) hk
  obtain ⟨k, hkeys⟩ := Ctx.keys_of_length (ctx := ctx) (n := nk + 6 + 1) (by omega)
  obtain ⟨w, hw⟩ := exists_words ctx
  obtain ⟨kw, hkw⟩ := exists_key hk
  refine ⟨ctx, _, h1, encrypt_core_eq hkeys s (by omega), aes_sbox, kw, w, toState s, Fips.isSbox_aes, hkw, ?_, isState_bytes s, ?_⟩
  · refine context_expansion hnk h2 (fun i x hi hx => ?_) h4 hw
    rw [h3 i hi] at hx
    exact isKey_word hkw i hi x hx
  · have := toState_encAll (w := w) (k := k) (nk + 5) s (fun i hi => roundKey_eq hw hkeys i (by omega))
    rw [Fips.rounds, ← this]
    exact isState_bytes _

/-- C57: FIPS 197 determines the encryption: `Encrypts` relates a key and a block to at most one result. -/
theorem C57_encrypts_unique {nk : Nat} (hnk : Fips.IsKeyLength nk) {key p c : List Byte} (h : Fips.Encrypts nk key p c) {c' : List Byte}
    (h' : Fips.Encrypts nk key p c') : c = c' := by
  have key_unique : ∀ {k₁ k₂ : Nat → Fips.Word}, Fips.IsKey nk key k₁ → Fips.IsKey nk key k₂ → ∀ i, i < nk → k₁ i = k₂ i := by
    intro k₁ k₂ h₁ h₂ i hi
    funext j
    have := h₁.2 i hi j
    rw [h₂.2 i hi j] at this
    exact (Option.some.inj this).symm
  obtain ⟨S, k₁, w, s, hS, hk, hw, hs, hc⟩ := h
  obtain ⟨S', k₂, w', s', hS', hk', hw', hs', hc'⟩ := h'
  cases Fips.isSbox_unique hS
  cases Fips.isSbox_unique hS'
  cases isState_unique hs hs'
  have pos : 0 < nk := by rcases hnk with h | h | h <;> omega
  have e : ∀ i, i < 4 * (Fips.rounds nk + 1) → w i = w' i := by
    intro i
    induction i using Nat.strongRecOn with
    | ind i ih =>
      intro hi
      by_cases hik : i < nk
      · rw [hw.1 i hik, hw'.1 i hik, key_unique hk hk' i hik]
      · rw [hw.2 i (by omega) hi, hw'.2 i (by omega) hi, ih (i - 1) (by omega) (by omega), ih (i - nk) (by omega) (by omega)]
  have er : ∀ i, i < Fips.rounds nk + 1 → Fips.roundKey w i = Fips.roundKey w' i := by
    intro i hi
    funext j
    exact e _ (by omega)
  have ec : Fips.cipher aes_sbox (Fips.rounds nk) w s = Fips.cipher aes_sbox (Fips.rounds nk) w' s := by
    have fold : ∀ n, n < Fips.rounds nk + 1 → ∀ s : Fips.State, (List.range n).foldl
        (fun s i => Fips.addRoundKey (Fips.mixColumns (Fips.shiftRows (Fips.subBytes aes_sbox s))) (Fips.roundKey w (i + 1))) s =
        (List.range n).foldl
        (fun s i => Fips.addRoundKey (Fips.mixColumns (Fips.shiftRows (Fips.subBytes aes_sbox s))) (Fips.roundKey w' (i + 1))) s := by
      intro n
      induction n with
      | zero => intros; rfl
      | succ n ih =>
        intro hn s
        rw [List.range_succ, List.foldl_append, List.foldl_append, ih (by omega)]
        simp only [List.foldl_cons, List.foldl_nil, er (n + 1) hn]
    unfold Fips.cipher
    rw [er _ (by omega), er _ (by omega)]
    simp only
    rw [fold _ (by omega)]
  rw [ec] at hc
  apply List.ext_getElem?
  intro i
  by_cases hi : i < 16
  · have a := hc.2 ⟨i % 4, by omega⟩ ⟨i / 4, by omega⟩
    have b := hc'.2 ⟨i % 4, by omega⟩ ⟨i / 4, by omega⟩
    have : i % 4 + 4 * (i / 4) = i := by omega
    simp only [this] at a b
    rw [a, b]
  · have l1 := hc.1
    have l2 := hc'.1
    rw [List.getElem?_eq_none (by omega), List.getElem?_eq_none (by omega)]

/-- C57: on every host, with one context made from any key of a legal length, decryption undoes encryption and encryption undoes decryption; no
call is undefined. -/
theorem C57_inverse (h : Host) {nk : Nat} (hnk : Fips.IsKeyLength nk) (key : List Byte) (hk : key.length = 4 * nk) :
    ∃ ctx, aes_init h key (32 * nk) = .ok ctx ∧
      (∀ s, ∃ c, aes_encrypt_core s ctx (nk + 6) = .ok c ∧ aes_decrypt_core c ctx (nk + 6) = .ok s) ∧
      (∀ c, ∃ s, aes_decrypt_core c ctx (nk + 6) = .ok s ∧ aes_encrypt_core s ctx (nk + 6) = .ok c) := by
  obtain ⟨ctx, h1, h2, -, -⟩ := aes_init_ok h key nk (by rcases hnk with h | h | h <;> omega) hk
  obtain ⟨k, hkeys⟩ := Ctx.keys_of_length (ctx := ctx) (n := nk + 6 + 1) (by omega)
  refine ⟨ctx, h1, fun s => ⟨encAll k (nk + 6) s, encrypt_core_eq hkeys _ (by omega), ?_⟩,
    fun c => ⟨decAll k (nk + 6) c, decrypt_core_eq hkeys _ (by omega), ?_⟩⟩
  · rw [decrypt_core_eq hkeys _ (by omega), dec_enc_all k _ (by omega)]
  · rw [encrypt_core_eq hkeys _ (by omega), enc_dec_all k _ (by omega)]

/-- C57: on a little-endian host, decryption of a block that FIPS 197 says is the encryption of `p` gives back `p`. -/
theorem C57_decrypt {nk : Nat} (hnk : Fips.IsKeyLength nk) (key : List Byte) (hk : key.length = 4 * nk) (p c : AesBlock)
    (h : Fips.Encrypts nk key p.bytes c.bytes) :
    ∃ ctx, aes_init .little key (32 * nk) = .ok ctx ∧ aes_decrypt_core c ctx (nk + 6) = .ok p := by
  obtain ⟨ctx, c', h1, h2, h3⟩ := C57_encrypt hnk key hk p
  obtain ⟨ctx', h1', h4, -⟩ := C57_inverse .little hnk key hk
  rw [h1] at h1'
  cases h1'
  obtain ⟨c'', h5, h6⟩ := h4 p
  rw [h2] at h5
  cases h5
  have e := C57_encrypts_unique hnk h h3
  have : c = c' := by
    obtain ⟨⟨⟩, ⟨⟩, ⟨⟩, ⟨⟩⟩ := c
    obtain ⟨⟨⟩, ⟨⟩, ⟨⟩, ⟨⟩⟩ := c'
    simp only [AesBlock.bytes, AesWord.bytes, List.cons_append, List.nil_append, List.cons.injEq, and_true] at e
    obtain ⟨rfl, rfl, rfl, rfl, rfl, rfl, rfl, rfl, rfl, rfl, rfl, rfl, rfl, rfl, rfl, rfl⟩ := e
    rfl
  subst this
  exact ⟨ctx, h1, h6⟩

/-- C57: the contexts made by the functions for the three key lengths are usable with the rounds FIPS 197 prescribes: 10, 12 and 14. Only the bytes of the key are read. -/
theorem C57_key_lengths (key more : List Byte) (s : AesBlock) :
    (key.length = 16 → ∃ ctx c, aes128_init .little (key ++ more) = .ok ctx ∧ aes_encrypt_core s ctx 10 = .ok c ∧ aes_decrypt_core c ctx 10 = .ok s ∧ Fips.Encrypts 4 key s.bytes c.bytes) ∧
    (key.length = 24 → ∃ ctx c, aes192_init .little (key ++ more) = .ok ctx ∧ aes_encrypt_core s ctx 12 = .ok c ∧ aes_decrypt_core c ctx 12 = .ok s ∧ Fips.Encrypts 6 key s.bytes c.bytes) ∧
    (key.length = 32 → ∃ ctx c, aes256_init .little (key ++ more) = .ok ctx ∧ aes256_enc s ctx = .ok c ∧ aes256_dec c ctx = .ok s ∧ Fips.Encrypts 8 key s.bytes c.bytes) := by
  have main : ∀ nk, Fips.IsKeyLength nk → key.length = 4 * nk →
      ∃ ctx c, aes_init .little (key ++ more) (32 * nk) = .ok ctx ∧ aes_encrypt_core s ctx (nk + 6) = .ok c ∧ aes_decrypt_core c ctx (nk + 6) = .ok s ∧ Fips.Encrypts nk key s.bytes c.bytes := by
    intro nk hnk hk
    obtain ⟨ctx, c, h1, h2, h3⟩ := C57_encrypt hnk key hk s
    obtain ⟨ctx', h1', h4, -⟩ := C57_inverse .little hnk key hk
    rw [h1] at h1'
    cases h1'
    obtain ⟨c', h5, h6⟩ := h4 s
    rw [h2] at h5
    cases h5
    refine ⟨ctx, c, ?_, h2, h6, h3⟩
    rw [← h1]
    have e : 32 * nk / 8 = key.length := by omega
    simp only [aes_init, e, List.length_append, Nat.lt_irrefl, if_false, List.take_length, List.take_left', if_neg (by omega : ¬ key.length + more.length < key.length)]
  exact ⟨fun h => main 4 (.inl rfl) h, fun h => main 6 (.inr (.inl rfl)) h, fun h => main 8 (.inr (.inr rfl)) h⟩

/-! ### The examples of FIPS 197, appendix C -/

/-- The plaintext of appendix C. -/
def fipsPlain : AesBlock :=
  ⟨⟨0x00, 0x11, 0x22, 0x33⟩, ⟨0x44, 0x55, 0x66, 0x77⟩, ⟨0x88, 0x99, 0xaa, 0xbb⟩, ⟨0xcc, 0xdd, 0xee, 0xff⟩⟩
/-- The keys of appendix C: the bytes 0, 1, 2, ... -/
def fipsKey (n : Nat) : List Byte := (List.range n).map UInt8.ofNat
/-- The result of C.3. -/
def fipsCipher256 : AesBlock :=
  ⟨⟨0x8e, 0xa2, 0xb7, 0xca⟩, ⟨0x51, 0x67, 0x45, 0xbf⟩, ⟨0xea, 0xfc, 0x49, 0x90⟩, ⟨0x4b, 0x49, 0x60, 0x89⟩⟩
/-- The result of C.1. -/
def fipsCipher128 : AesBlock :=
  ⟨⟨0x69, 0xc4, 0xe0, 0xd8⟩, ⟨0x6a, 0x7b, 0x04, 0x30⟩, ⟨0xd8, 0xcd, 0xb7, 0x80⟩, ⟨0x70, 0xb4, 0xc5, 0x5a⟩⟩

theorem fips_c3 : (aes256_init .little (fipsKey 32) >>= aes256_enc fipsPlain) = .ok fipsCipher256 := by decide +kernel
theorem fips_c1 : (aes128_init .little (fipsKey 16) >>= fun c => aes_encrypt_core fipsPlain c 10) = .ok fipsCipher128 := by decide +kernel

/-- The result of C.2. -/
def fipsCipher192 : AesBlock :=
  ⟨⟨0xdd, 0xa9, 0x7c, 0xa4⟩, ⟨0x86, 0x4c, 0xdf, 0xe0⟩, ⟨0x6e, 0xaf, 0x70, 0xa0⟩, ⟨0xec, 0x0d, 0x71, 0x91⟩⟩
theorem fips_c2 : (aes192_init .little (fipsKey 24) >>= fun c => aes_encrypt_core fipsPlain c 12) = .ok fipsCipher192 := by decide +kernel

/-- The specification reproduces example C.3 of FIPS 197. -/
example : Fips.Encrypts 8 (fipsKey 32) fipsPlain.bytes fipsCipher256.bytes := by
  obtain ⟨ctx, c, h1, h2, h3⟩ := C57_encrypt (nk := 8) (.inr (.inr rfl)) (fipsKey 32) rfl fipsPlain
  have := fips_c3
  rw [aes256_init, h1, Res.bind_ok, aes256_enc, h2] at this
  cases this
  exact h3

/-- The specification reproduces example C.1 of FIPS 197. -/
example : Fips.Encrypts 4 (fipsKey 16) fipsPlain.bytes fipsCipher128.bytes := by
  obtain ⟨ctx, c, h1, h2, h3⟩ := C57_encrypt (nk := 4) (.inl rfl) (fipsKey 16) rfl fipsPlain
  have := fips_c1
  rw [aes128_init, h1, Res.bind_ok, h2] at this
  cases this
  exact h3

theorem fips_c3_big : (aes256_init .big (fipsKey 32) >>= aes256_enc fipsPlain) ≠ .ok fipsCipher256 := by decide +kernel

/-- C57, deviation: on a big-endian host the key schedule rotates a word in the wrong direction, so the result is not AES: for the key and
block of example C.3 the cipher completes with a block that FIPS 197 does not give. -/
theorem C57_big_endian_deviation : ∃ key : List Byte, key.length = 32 ∧ ∃ s ctx c,
    aes256_init .big key = .ok ctx ∧ aes_encrypt_core s ctx 14 = .ok c ∧ ¬ Fips.Encrypts 8 key s.bytes c.bytes := by
  refine ⟨fipsKey 32, rfl, fipsPlain, ?_⟩
  obtain ⟨ctx, h1, h2, -⟩ := C57_inverse .big (nk := 8) (.inr (.inr rfl)) (fipsKey 32) rfl
  obtain ⟨c, h3, -⟩ := h2 fipsPlain
  refine ⟨ctx, c, h1, h3, fun hc => ?_⟩
  obtain ⟨ctx', c', h1', h2', h3'⟩ := C57_encrypt (nk := 8) (.inr (.inr rfl)) (fipsKey 32) rfl fipsPlain
  have e3 := fips_c3
  rw [aes256_init, h1', Res.bind_ok, aes256_enc, h2'] at e3
  cases e3
  have e := C57_encrypts_unique (.inr (.inr rfl)) hc h3'
  apply fips_c3_big
  rw [aes256_init, h1, Res.bind_ok, aes256_enc, h3]
  refine congrArg Res.ok ?_
  obtain ⟨⟨⟩, ⟨⟩, ⟨⟩, ⟨⟩⟩ := c
  simp only [AesBlock.bytes, AesWord.bytes, fipsCipher256, List.cons_append, List.nil_append, List.cons.injEq, and_true] at e
  obtain ⟨rfl, rfl, rfl, rfl, rfl, rfl, rfl, rfl, rfl, rfl, rfl, rfl, rfl, rfl, rfl, rfl⟩ := e
  rfl

end CStr
