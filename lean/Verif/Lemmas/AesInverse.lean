import Verif.Lemmas.AesField
/-
  Helper lemmas for Props/Aes.lean: the rounds, the key schedule and their inverses.
-/
namespace CStr

set_option maxRecDepth 10000 in
theorem invsbox_sbox (x : Byte) : aes_invsbox (aes_sbox x) = x := byte_all (P := fun x => aes_invsbox (aes_sbox x) = x) (by decide +kernel) x
set_option maxRecDepth 10000 in
theorem sbox_invsbox (x : Byte) : aes_sbox (aes_invsbox x) = x := byte_all (P := fun x => aes_sbox (aes_invsbox x) = x) (by decide +kernel) x

theorem Fips.mul_three (x : Byte) : Fips.mul 3 x = Fips.mul 2 x ^^^ x := by
  rw [show (3 : Byte) = 2 ^^^ 1 from rfl, Fips.add_mul, Fips.one_mul]

/-! ### Columns -/

/-- A map between columns that respects sums. -/
def AdditiveW (f : AesWord → AesWord) : Prop := ∀ x y, f (x.xor y) = (f x).xor (f y)

theorem mixcol_xor : AdditiveW aes_mixcol := by
  rintro ⟨a, b, c, d⟩ ⟨a', b', c', d'⟩
  simp only [aes_mixcol, gf256mul_eq, Fips.mul_add, AesWord.xor, AesWord.mk.injEq]
  refine ⟨?_, ?_, ?_, ?_⟩ <;> xor_ac

theorem invmixcol_xor : AdditiveW aes_invmixcol := by
  rintro ⟨a, b, c, d⟩ ⟨a', b', c', d'⟩
  simp only [aes_invmixcol, gf256mul_eq, Fips.mul_add, AesWord.xor, AesWord.mk.injEq]
  refine ⟨?_, ?_, ?_, ?_⟩ <;> xor_ac

/-- The columns with one bit set. -/
def basisW : List AesWord := basis.flatMap fun b => [⟨b, 0, 0, 0⟩, ⟨0, b, 0, 0⟩, ⟨0, 0, b, 0⟩, ⟨0, 0, 0, b⟩]

/-- A map of columns that respects sums and fixes the columns with one bit is the identity. -/
theorem AdditiveW.id {f} (hf : AdditiveW f) (h : ∀ x ∈ basisW, f x = x) (x : AesWord) : f x = x := by
  have hz : f ⟨0, 0, 0, 0⟩ = ⟨0, 0, 0, 0⟩ := by
    have := hf ⟨0, 0, 0, 0⟩ ⟨0, 0, 0, 0⟩
    rw [show (AesWord.mk 0 0 0 0).xor ⟨0, 0, 0, 0⟩ = ⟨0, 0, 0, 0⟩ from rfl] at this
    rw [this, AesWord.xor]
    simp only [UInt8.xor_self]
  have key : ∀ (e : Byte → AesWord), (∀ a b, e (a ^^^ b) = (e a).xor (e b)) → (e 0 = ⟨0, 0, 0, 0⟩) → (∀ b ∈ basis, e b ∈ basisW) →
      ∀ b, f (e b) = e b := by
    intro e he h0 hb b
    have one : ∀ y c : Byte, (y = 0 ∨ y = c) → c ∈ basis → f (e y) = e y := by
      rintro y c (rfl | rfl) hc
      · rw [h0, hz]
      · exact h _ (hb _ hc)
    obtain ⟨h0, h1, h2, h3, h4, h5, h6, h7⟩ := and_bit b
    rw [byte_bits b]
    simp only [he, hf _ _]
    rw [one _ _ h0 (by decide), one _ _ h1 (by decide), one _ _ h2 (by decide), one _ _ h3 (by decide), one _ _ h4 (by decide),
      one _ _ h5 (by decide), one _ _ h6 (by decide), one _ _ h7 (by decide)]
  obtain ⟨a, b, c, d⟩ := x
  have e : AesWord.mk a b c d = ((AesWord.mk a 0 0 0).xor ⟨0, b, 0, 0⟩).xor ((AesWord.mk 0 0 c 0).xor ⟨0, 0, 0, d⟩) := by
    simp only [AesWord.xor, UInt8.zero_xor, UInt8.xor_zero]
  rw [e, hf, hf, hf,
    key (fun a => ⟨a, 0, 0, 0⟩) (fun a b => by simp only [AesWord.xor, UInt8.xor_zero]) rfl (by decide) a,
    key (fun a => ⟨0, a, 0, 0⟩) (fun a b => by simp only [AesWord.xor, UInt8.xor_zero]) rfl (by decide) b,
    key (fun a => ⟨0, 0, a, 0⟩) (fun a b => by simp only [AesWord.xor, UInt8.xor_zero]) rfl (by decide) c,
    key (fun a => ⟨0, 0, 0, a⟩) (fun a b => by simp only [AesWord.xor, UInt8.xor_zero]) rfl (by decide) d]

theorem invmixcol_mixcol (x : AesWord) : aes_invmixcol (aes_mixcol x) = x :=
  AdditiveW.id (f := fun x => aes_invmixcol (aes_mixcol x)) (fun x y => by simp only; rw [mixcol_xor, invmixcol_xor]) (by decide +kernel) x

theorem mixcol_invmixcol (x : AesWord) : aes_mixcol (aes_invmixcol x) = x :=
  AdditiveW.id (f := fun x => aes_mixcol (aes_invmixcol x)) (fun x y => by simp only; rw [invmixcol_xor, mixcol_xor]) (by decide +kernel) x

theorem AesWord.xor_self_cancel (x k : AesWord) : (x.xor k).xor k = x := by
  obtain ⟨a, b, c, d⟩ := x
  simp only [AesWord.xor, AesWord.mk.injEq]
  refine ⟨?_, ?_, ?_, ?_⟩ <;> xor_ac

theorem AesBlock.xor_self_cancel (x k : AesBlock) : (x.xor k).xor k = x := by
  simp only [AesBlock.xor, AesWord.xor_self_cancel]

/-- The three calls of `aes_shiftcol`. -/
def shiftRows (s : AesBlock) : AesBlock := aes_shiftcol (aes_shiftcol (aes_shiftcol s 1 1) 2 2) 3 3
/-- The three calls of `aes_invshiftcol`. -/
def invShiftRows (s : AesBlock) : AesBlock := aes_invshiftcol (aes_invshiftcol (aes_invshiftcol s 1 1) 2 2) 3 3

theorem invShift_shift (s : AesBlock) : invShiftRows (shiftRows s) = s := rfl
theorem shift_invShift (s : AesBlock) : shiftRows (invShiftRows s) = s := rfl

theorem AesBlock.map_id {f g : Byte → Byte} (h : ∀ x, f (g x) = x) (s : AesBlock) : (s.map g).map f = s := by
  simp only [AesBlock.map, AesWord.map, h]

/-- mixColumns of aes_enc.c. -/
def mix (s : AesBlock) : AesBlock := ⟨aes_mixcol s.c0, aes_mixcol s.c1, aes_mixcol s.c2, aes_mixcol s.c3⟩
/-- The inverse mixColumns of aes_dec.c. -/
def invMix (s : AesBlock) : AesBlock := ⟨aes_invmixcol s.c0, aes_invmixcol s.c1, aes_invmixcol s.c2, aes_invmixcol s.c3⟩

theorem invMix_mix (s : AesBlock) : invMix (mix s) = s := by simp only [mix, invMix, invmixcol_mixcol]
theorem mix_invMix (s : AesBlock) : mix (invMix s) = s := by simp only [mix, invMix, mixcol_invmixcol]

theorem enc_round_eq (s k : AesBlock) : aes_enc_round s k = (mix (shiftRows (s.map aes_sbox))).xor k := rfl
theorem enc_last_eq (s k : AesBlock) : aes_enc_lastround s k = (shiftRows (s.map aes_sbox)).xor k := rfl
theorem dec_round_eq (s k : AesBlock) : aes_dec_round s k = (invShiftRows (invMix (s.xor k))).map aes_invsbox := rfl
theorem dec_first_eq (s k : AesBlock) : aes_dec_firstround s k = (invShiftRows (s.xor k)).map aes_invsbox := rfl

theorem dec_enc_round (s k : AesBlock) : aes_dec_round (aes_enc_round s k) k = s := by
  rw [enc_round_eq, dec_round_eq, AesBlock.xor_self_cancel, invMix_mix, invShift_shift, AesBlock.map_id invsbox_sbox]
theorem enc_dec_round (s k : AesBlock) : aes_enc_round (aes_dec_round s k) k = s := by
  rw [enc_round_eq, dec_round_eq, AesBlock.map_id sbox_invsbox, shift_invShift, mix_invMix, AesBlock.xor_self_cancel]
theorem dec_enc_last (s k : AesBlock) : aes_dec_firstround (aes_enc_lastround s k) k = s := by
  rw [enc_last_eq, dec_first_eq, AesBlock.xor_self_cancel, invShift_shift, AesBlock.map_id invsbox_sbox]
theorem enc_dec_last (s k : AesBlock) : aes_enc_lastround (aes_dec_firstround s k) k = s := by
  rw [enc_last_eq, dec_first_eq, AesBlock.map_id sbox_invsbox, shift_invShift, AesBlock.xor_self_cancel]

/-! ### The whole block -/

theorem Ctx.word_ok {ctx : Ctx} {i : Nat} (h : i < ctx.length) : ctx.word i = .ok ctx[i] := by
  simp [Ctx.word, h]

/-- The round key `i` of a context that is long enough. -/
def Ctx.rk (ctx : Ctx) (i : Nat) (h : 4 * i + 3 < ctx.length) : AesBlock :=
  ⟨ctx[4 * i], ctx[4 * i + 1], ctx[4 * i + 2], ctx[4 * i + 3]⟩

theorem Ctx.key_ok {ctx : Ctx} {i : Nat} (h : 4 * i + 3 < ctx.length) : ctx.key i = .ok (ctx.rk i h) := by
  unfold Ctx.key
  rw [Ctx.word_ok (by omega : 4 * i < ctx.length), Ctx.word_ok (by omega : 4 * i + 1 < ctx.length),
    Ctx.word_ok (by omega : 4 * i + 2 < ctx.length), Ctx.word_ok h]
  rfl

/-- The rounds of encryption as a fold, with a key function. -/
def encFold (k : Nat → AesBlock) : Nat → Nat → AesBlock → AesBlock
  | n + 2, i, s => encFold k (n + 1) (i + 1) (aes_enc_round s (k i))
  | _, i, s => aes_enc_lastround s (k i)

/-- The rounds of decryption after the first, with a key function. -/
def decFold (k : Nat → AesBlock) : Nat → Nat → AesBlock → AesBlock
  | n + 2, i, s => decFold k (n + 1) (i - 1) (aes_dec_round s (k (i - 1)))
  | _, _, s => s.xor (k 0)

/-- `k` gives the first `n` round keys of `ctx`. -/
def Ctx.Keys (ctx : Ctx) (k : Nat → AesBlock) (n : Nat) : Prop := ∀ i, i < n → ctx.key i = .ok (k i)

theorem Ctx.keys_of_length {ctx : Ctx} {n : Nat} (h : ctx.length = 4 * n) : ∃ k, ctx.Keys k n :=
  ⟨fun i => if hi : 4 * i + 3 < ctx.length then ctx.rk i hi else ⟨⟨0,0,0,0⟩,⟨0,0,0,0⟩,⟨0,0,0,0⟩,⟨0,0,0,0⟩⟩, fun i hi => by
    have : 4 * i + 3 < ctx.length := by omega
    simp only [Ctx.key_ok this, dif_pos this]⟩

theorem enc_rounds_eq {ctx : Ctx} {k N} (hk : ctx.Keys k N) (n i : Nat) (s : AesBlock) (hn : i + n ≤ N) (hn0 : 0 < n) :
    aes_enc_rounds ctx n i s = .ok (encFold k n i s) := by
  induction n generalizing i s with
  | zero => omega
  | succ n ih =>
    cases n with
    | zero => rw [aes_enc_rounds, hk i (by omega)]; rfl; simp
    | succ n =>
      rw [aes_enc_rounds, hk i (by omega), Res.bind_ok, ih (i + 1) _ (by omega) (by omega)]; rfl

theorem dec_rounds_eq {ctx : Ctx} {k N} (hk : ctx.Keys k N) (n i : Nat) (s : AesBlock) (hn : i ≤ N) (hn0 : 0 < n) (hi : n ≤ i) :
    aes_dec_rounds ctx n i s = .ok (decFold k n i s) := by
  induction n generalizing i s with
  | zero => omega
  | succ n ih =>
    cases n with
    | zero => rw [aes_dec_rounds, hk 0 (by omega)]; rfl; simp
    | succ n =>
      rw [aes_dec_rounds, hk (i - 1) (by omega), Res.bind_ok, ih (i - 1) _ (by omega) (by omega) (by omega)]; rfl

/-- All of decryption, with a key function. -/
def decAll (k : Nat → AesBlock) (rounds : Nat) (s : AesBlock) : AesBlock := decFold k rounds rounds (aes_dec_firstround s (k rounds))
/-- All of encryption, with a key function. -/
def encAll (k : Nat → AesBlock) (rounds : Nat) (s : AesBlock) : AesBlock := encFold k rounds 1 (s.xor (k 0))

theorem encrypt_core_eq {ctx : Ctx} {k r} (hk : ctx.Keys k (r + 1)) (s : AesBlock) (hr : 0 < r) :
    aes_encrypt_core s ctx r = .ok (encAll k r s) := by
  rw [aes_encrypt_core, hk 0 (by omega), Res.bind_ok, enc_rounds_eq hk _ _ _ (by omega) hr]; rfl

theorem decrypt_core_eq {ctx : Ctx} {k r} (hk : ctx.Keys k (r + 1)) (s : AesBlock) (hr : 0 < r) :
    aes_decrypt_core s ctx r = .ok (decAll k r s) := by
  rw [aes_decrypt_core, hk r (by omega), Res.bind_ok, dec_rounds_eq hk _ _ _ (by omega) hr (by omega)]; rfl

/-- `m` rounds of encryption from round `i` on. -/
def encMid (k : Nat → AesBlock) : Nat → Nat → AesBlock → AesBlock
  | 0, _, s => s
  | m + 1, i, s => encMid k m (i + 1) (aes_enc_round s (k i))

theorem encFold_mid (k : Nat → AesBlock) (n i : Nat) (s : AesBlock) :
    encFold k (n + 1) i s = aes_enc_lastround (encMid k n i s) (k (i + n)) := by
  induction n generalizing i s with
  | zero => rfl
  | succ n ih => rw [encFold, ih, encMid, show i + 1 + n = i + (n + 1) by omega]

theorem encMid_snoc (k : Nat → AesBlock) (n i : Nat) (s : AesBlock) :
    encMid k (n + 1) i s = aes_enc_round (encMid k n i s) (k (i + n)) := by
  induction n generalizing i s with
  | zero => rfl
  | succ n ih => rw [encMid, ih, encMid, show i + 1 + n = i + (n + 1) by omega]

theorem decFold_mid (k : Nat → AesBlock) (n : Nat) (s : AesBlock) : decFold k (n + 1) (n + 1) (encMid k n 1 s) = s.xor (k 0) := by
  induction n generalizing s with
  | zero => rfl
  | succ n ih =>
    rw [decFold, encMid_snoc, show 1 + n = n + 1 + 1 - 1 by omega, dec_enc_round]
    exact ih s

theorem dec_enc_all (k : Nat → AesBlock) (r : Nat) (hr : 0 < r) (s : AesBlock) : decAll k r (encAll k r s) = s := by
  obtain ⟨n, rfl⟩ : ∃ n, r = n + 1 := ⟨r - 1, by omega⟩
  rw [decAll, encAll, encFold_mid, show 1 + n = n + 1 by omega, dec_enc_last, decFold_mid, AesBlock.xor_self_cancel]

theorem encMid_decFold (k : Nat → AesBlock) (n : Nat) (s : AesBlock) : encMid k n 1 ((decFold k (n + 1) (n + 1) s).xor (k 0)) = s := by
  induction n generalizing s with
  | zero => simp only [decFold, encMid, AesBlock.xor_self_cancel]
  | succ n ih =>
    rw [encMid_snoc, decFold]
    simp only [Nat.add_sub_cancel]
    rw [ih, show 1 + n = n + 1 by omega, enc_dec_round]

theorem enc_dec_all (k : Nat → AesBlock) (r : Nat) (hr : 0 < r) (s : AesBlock) : encAll k r (decAll k r s) = s := by
  obtain ⟨n, rfl⟩ : ∃ n, r = n + 1 := ⟨r - 1, by omega⟩
  rw [decAll, encAll, encFold_mid, encMid_decFold, show 1 + n = n + 1 by omega, enc_dec_last]

end CStr
