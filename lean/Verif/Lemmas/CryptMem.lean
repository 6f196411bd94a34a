import Verif.Model.Crypt
import Verif.Lemmas.Aes
import Verif.Lemmas.BufAlloc
/-! Lemmas about the cipher block chaining loops in memory. -/
namespace CStr

theorem put_put {m : Mem} {a : Addr} {l r : List Byte} (h : l.length ≤ r.length) : put (put m a l) a r = put m a r := by
  funext x
  by_cases h1 : a ≤ x ∧ x < a + r.length
  · simp only [put]; rw [if_pos h1, if_pos h1]
  · rw [put_outside (m := put m a l) (by omega), put_outside (m := m) (l := r) (by omega), put_outside (by omega)]

theorem put_put_append {m : Mem} {a : Addr} {l x y : List Byte} (h : x.length ≤ y.length) :
    put (put (put m a l) (a + l.length) x) (a + l.length) y = put m a (l ++ y) := by
  rw [put_put h, put_append]

theorem put_comm {m : Mem} {a b : Addr} {l r : List Byte} (h : a + l.length ≤ b ∨ b + r.length ≤ a) :
    put (put m a l) b r = put (put m b r) a l := by
  funext x
  by_cases h1 : a ≤ x ∧ x < a + l.length
  · rw [put_outside (m := put m a l) (by omega)]
    simp only [put]; rw [if_pos h1, if_pos h1]
  · rw [put_outside (m := put m b r) (by omega)]
    simp only [put]
    by_cases h2 : b ≤ x ∧ x < b + r.length
    · rw [if_pos h2, if_pos h2]
    · rw [if_neg h2, if_neg h2, if_neg h1]

theorem mulInt_ok (cfg : Cfg) {a b : Int} (h1 : INT_MIN ≤ a * b) (h2 : a * b ≤ INT_MAX) : mulInt cfg a b = .ok (a * b) := by
  rw [mulInt, if_pos ⟨h1, h2⟩]

theorem memxor_eq {m : Mem} {d s : Addr} {x y : List Byte} (hx : Holds m d x) (hy : Holds m s y) (hl : x.length = y.length)
    (hw : Writable m d x.length) (hd : d + x.length ≤ s ∨ s + x.length ≤ d) :
    memxor m d s x.length = .ok (put m d (List.zipWith (· ^^^ ·) x y)) := by
  induction x generalizing m d s y with
  | nil => rw [List.zipWith_nil_left, put_nil]; rfl
  | cons a x ih =>
    cases y with
    | nil => simp at hl
    | cons b y =>
      have h1 : Writable m d 1 := hw.mono (by simp)
      rw [List.length_cons, memxor, hx.load_head, Res.bind_ok, hy.load_head, Res.bind_ok, store_eq _ h1, Res.bind_ok]
      simp only [List.length_cons] at hd hl hw
      have hx' := (Holds.cons_iff.1 hx).2
      have hy' := (Holds.cons_iff.1 hy).2
      rw [ih (y := y) (holds_put_outside hx' (.inr (by simp only [List.length_cons, List.length_nil]; omega)))
        (holds_put_outside hy' (by simp only [List.length_cons, List.length_nil]; omega)) (by omega) ?_ (by omega), List.zipWith_cons_cons]
      · have := put_append m d [a ^^^ b] (List.zipWith (· ^^^ ·) x y)
        simp only [List.length_cons, List.length_nil] at this
        rw [show (d + ((0 + 1 : Nat) : Int)) = d + 1 from rfl] at this
        rw [this]; rfl
      · rw [writable_put h1]
        have := hw.sub 1 x.length (by omega)
        simpa using this

@[simp] theorem AesBlock.bytes_length (s : AesBlock) : s.bytes.length = 16 := rfl

theorem AesBlock.bytes_xor (x y : AesBlock) : (x.xor y).bytes = List.zipWith (· ^^^ ·) x.bytes y.bytes := rfl

theorem blockOf_bytes (s : AesBlock) : blockOf s.bytes = .ok s := rfl

theorem wordsOf_bytes (ctx : Ctx) : wordsOf ctx.bytes = ctx := by
  induction ctx with
  | nil => rfl
  | cons w t ih =>
    show wordsOf (w.b0 :: w.b1 :: w.b2 :: w.b3 :: Ctx.bytes t) = _
    rw [wordsOf, ih]

theorem Ctx.bytes_length (ctx : Ctx) : ctx.bytes.length = 4 * List.length ctx := by
  induction ctx with
  | nil => rfl
  | cons w t ih =>
    show (Ctx.bytes t).length + 4 = _
    rw [ih, List.length_cons]; omega

theorem exists_block {l : List Byte} (h : l.length = 16) : ∃ s : AesBlock, s.bytes = l := by
  match l, h with
  | [a0, a1, a2, a3, b0, b1, b2, b3, c0, c1, c2, c3, d0, d1, d2, d3], _ => exact ⟨⟨⟨a0, a1, a2, a3⟩, ⟨b0, b1, b2, b3⟩, ⟨c0, c1, c2, c3⟩, ⟨d0, d1, d2, d3⟩⟩, rfl⟩

/-- The bytes of a sequence of blocks. -/
def flat (bs : List AesBlock) : List Byte := bs.flatMap AesBlock.bytes

theorem flat_cons (b : AesBlock) (t : List AesBlock) : flat (b :: t) = b.bytes ++ flat t := rfl

theorem flat_length (bs : List AesBlock) : (flat bs).length = 16 * bs.length := by
  induction bs with
  | nil => rfl
  | cons b t ih => rw [flat_cons, List.length_append, ih, List.length_cons, AesBlock.bytes_length]; omega

theorem exists_flat {n : Nat} {l : List Byte} (h : l.length = 16 * n) : ∃ bs : List AesBlock, bs.length = n ∧ flat bs = l := by
  induction n generalizing l with
  | zero => exact ⟨[], rfl, (List.eq_nil_of_length_eq_zero h).symm⟩
  | succ n ih =>
    obtain ⟨b, hb⟩ := exists_block (l := l.take 16) (by rw [List.length_take]; omega)
    obtain ⟨bs, h1, h2⟩ := ih (l := l.drop 16) (by rw [List.length_drop]; omega)
    exact ⟨b :: bs, by rw [List.length_cons, h1], by rw [flat_cons, hb, h2, List.take_append_drop]⟩

/-- Cipher block chaining, encryption. -/
def cbcEnc (E : AesBlock → AesBlock) : AesBlock → List AesBlock → List AesBlock
  | _, [] => []
  | iv, b :: t => E (b.xor iv) :: cbcEnc E (E (b.xor iv)) t

/-- Cipher block chaining, decryption. -/
def cbcDec (D : AesBlock → AesBlock) : AesBlock → List AesBlock → List AesBlock
  | _, [] => []
  | iv, c :: t => (D c).xor iv :: cbcDec D c t

theorem cbcEnc_length (E : AesBlock → AesBlock) (iv : AesBlock) (bs : List AesBlock) : (cbcEnc E iv bs).length = bs.length := by
  induction bs generalizing iv with
  | nil => rfl
  | cons b t ih => rw [cbcEnc, List.length_cons, ih, List.length_cons]

theorem cbcDec_length (D : AesBlock → AesBlock) (iv : AesBlock) (bs : List AesBlock) : (cbcDec D iv bs).length = bs.length := by
  induction bs generalizing iv with
  | nil => rfl
  | cons b t ih => rw [cbcDec, List.length_cons, ih, List.length_cons]

theorem cbcDec_cbcEnc {E D : AesBlock → AesBlock} (h : ∀ x, D (E x) = x) (iv : AesBlock) (bs : List AesBlock) : cbcDec D iv (cbcEnc E iv bs) = bs := by
  induction bs generalizing iv with
  | nil => rfl
  | cons b t ih => rw [cbcEnc, cbcDec, ih, h, AesBlock.xor_self_cancel]

section
variable {ctx : Addr} {K : Ctx} {E D : AesBlock → AesBlock}

theorem enc_at_eq (hK : List.length K = 60) (hE : ∀ b, aes256_enc b K = .ok (E b)) {m : Mem} {buf : Addr} {b : AesBlock} (hc : Holds m ctx K.bytes)
    (hb : Holds m buf b.bytes) (hw : Writable m buf 16) : aes256_enc_at m buf ctx = .ok (put m buf (E b).bytes) := by
  have h1 := readBytes_eq hc
  have h2 := readBytes_eq hb
  rw [Ctx.bytes_length, hK] at h1
  rw [AesBlock.bytes_length] at h2
  rw [aes256_enc_at, h1, Res.bind_ok, h2, Res.bind_ok, blockOf_bytes, Res.bind_ok, wordsOf_bytes, hE, Res.bind_ok]
  exact writeBytes_eq hw

theorem dec_at_eq (hK : List.length K = 60) (hD : ∀ b, aes256_dec b K = .ok (D b)) {m : Mem} {buf : Addr} {b : AesBlock} (hc : Holds m ctx K.bytes)
    (hb : Holds m buf b.bytes) (hw : Writable m buf 16) : aes256_dec_at m buf ctx = .ok (put m buf (D b).bytes) := by
  have h1 := readBytes_eq hc
  have h2 := readBytes_eq hb
  rw [Ctx.bytes_length, hK] at h1
  rw [AesBlock.bytes_length] at h2
  rw [aes256_dec_at, h1, Res.bind_ok, h2, Res.bind_ok, blockOf_bytes, Res.bind_ok, wordsOf_bytes, hD, Res.bind_ok]
  exact writeBytes_eq hw

theorem cbc_enc_loop_eq (hK : List.length K = 60) (hE : ∀ b, aes256_enc b K = .ok (E b)) {m : Mem} {buf : Addr} {b iv : AesBlock} {t : List AesBlock}
    (hc : Holds m ctx K.bytes) (hb : Holds m buf ((b.xor iv).bytes ++ flat t)) (hw : Writable m buf (16 * (t.length + 1)))
    (hd : ctx + 240 ≤ buf ∨ buf + ((16 * (t.length + 1) : Nat) : Int) ≤ ctx) :
    cbc_enc_loop ctx (t.length + 1) m buf = .ok (put m buf (flat (cbcEnc E iv (b :: t)))) := by
  induction t generalizing m buf b iv with
  | nil =>
    obtain ⟨h1, -⟩ := Holds.append_iff.1 hb
    rw [cbc_enc_loop, enc_at_eq hK hE hc h1 (hw.mono (by simp)), Res.bind_ok, if_neg (by simp), Res.bind_ok]
    rfl
  | cons b' t ih =>
    obtain ⟨h1, h2⟩ := Holds.append_iff.1 hb
    rw [flat_cons] at h2
    obtain ⟨h3, h4⟩ := Holds.append_iff.1 h2
    simp only [AesBlock.bytes_length, List.length_cons] at h3 h4 hw hd
    have hKl : K.bytes.length = 240 := by rw [Ctx.bytes_length, hK]
    have hw1 : Writable m buf 16 := hw.mono (by omega)
    have hw2 : Writable m (buf + 16) 16 := hw.sub 16 16 (by omega)
    rw [List.length_cons, cbc_enc_loop, enc_at_eq hK hE hc h1 hw1, Res.bind_ok, if_pos (by omega)]
    have hw1' : Writable m buf (E (b.xor iv)).bytes.length := hw1
    have hx := memxor_eq (m := put m buf (E (b.xor iv)).bytes) (d := buf + 16) (s := buf) (x := b'.bytes) (y := (E (b.xor iv)).bytes)
      (holds_put_outside h3 (.inr (by simp only [AesBlock.bytes_length]; omega))) (holds_put hw1') rfl ((writable_put hw1').2 hw2)
      (.inr (by simp only [AesBlock.bytes_length]; omega))
    rw [AesBlock.bytes_length] at hx
    rw [hx, Res.bind_ok, ← AesBlock.bytes_xor]
    simp only
    have hw2' : Writable (put m buf (E (b.xor iv)).bytes) (buf + 16) (b'.xor (E (b.xor iv))).bytes.length := (writable_put hw1').2 hw2
    rw [ih (b := b') (iv := E (b.xor iv))]
    · conv => rhs; rw [cbcEnc, flat_cons]
      refine congrArg Res.ok (put_put_append (m := m) (a := buf) (l := (E (b.xor iv)).bytes) ?_)
      rw [flat_length, cbcEnc_length, List.length_cons, AesBlock.bytes_length]; omega
    · exact holds_put_outside (holds_put_outside hc (by simp only [hKl, AesBlock.bytes_length]; omega)) (by simp only [hKl, AesBlock.bytes_length]; omega)
    · refine Holds.append_iff.2 ⟨holds_put hw2', ?_⟩
      exact holds_put_outside (holds_put_outside h4 (.inr (by simp only [AesBlock.bytes_length]; omega))) (.inr (by simp only [AesBlock.bytes_length]; omega))
    · rw [writable_put hw2', writable_put hw1']
      exact hw.sub 16 _ (by omega)
    · omega

theorem cbc_dec_loop_eq (hK : List.length K = 60) (hD : ∀ b, aes256_dec b K = .ok (D b)) {m : Mem} {buf : Addr} {iv : AesBlock} {t : List AesBlock}
    (hc : Holds m ctx K.bytes) (hb : Holds m buf (flat t)) (hw : Writable m buf (16 * t.length))
    (hd : ctx + 240 ≤ buf ∨ buf + ((16 * t.length : Nat) : Int) ≤ ctx) :
    cbc_dec_loop ctx t.length m buf iv.bytes = .ok (put m buf (flat (cbcDec D iv t)), buf + ((16 * t.length : Nat) : Int)) := by
  induction t generalizing m buf iv with
  | nil =>
    show Res.ok (m, buf) = _
    rw [show flat (cbcDec D iv []) = [] from rfl, put_nil]
    simp
  | cons b t ih =>
    rw [flat_cons] at hb
    obtain ⟨h1, h2⟩ := Holds.append_iff.1 hb
    simp only [AesBlock.bytes_length, List.length_cons] at h1 h2 hw hd
    have hKl : K.bytes.length = 240 := by rw [Ctx.bytes_length, hK]
    have hw1 : Writable m buf 16 := hw.mono (by omega)
    have hr := readBytes_eq h1
    have hw1' : Writable m buf (D b).bytes.length := hw1
    have hr2 := readBytes_eq (holds_put hw1')
    rw [AesBlock.bytes_length] at hr hr2
    rw [List.length_cons, cbc_dec_loop, hr, Res.bind_ok, dec_at_eq hK hD hc h1 hw1, Res.bind_ok, hr2, Res.bind_ok, ← AesBlock.bytes_xor,
      writeBytes_eq ((writable_put hw1').2 hw1), Res.bind_ok, put_put (by simp only [AesBlock.bytes_length]; omega)]
    have hw2 : Writable m buf ((D b).xor iv).bytes.length := hw1
    rw [ih (iv := b)]
    · have := put_append m buf ((D b).xor iv).bytes (flat (cbcDec D b t))
      rw [AesBlock.bytes_length] at this
      rw [cbcDec, flat_cons]
      refine congrArg Res.ok (Prod.ext this ?_)
      show buf + 16 + ((16 * t.length : Nat) : Int) = _
      omega
    · exact holds_put_outside hc (by simp only [hKl, AesBlock.bytes_length]; omega)
    · exact holds_put_outside h2 (.inr (by simp only [AesBlock.bytes_length]; omega))
    · rw [writable_put hw2]
      exact hw.sub 16 _ (by omega)
    · omega

end

theorem init_at_eq {h : Host} {m : Mem} {key ctx : Addr} {k : List Byte} {K : Ctx} (hK : List.length K = 60) (hk : k.length = 32) (hinit : aes256_init h k = .ok K)
    (hh : Holds m key k) (hw : Writable m ctx 240) (hd : ctx + 240 ≤ key ∨ key + 32 ≤ ctx) :
    aes256_init_at h m key ctx = .ok (put m ctx K.bytes) := by
  have hKl : K.bytes.length = 240 := by rw [Ctx.bytes_length, hK]
  have hw1 : Writable m ctx k.length := hw.mono (by omega)
  have h1 := memcpy_eq hh hw1 (.inr (by omega))
  have h2 := readBytes_eq (holds_put hw1)
  rw [hk] at h1 h2
  rw [aes256_init_at, h1, Res.bind_ok, h2, Res.bind_ok, hinit, Res.bind_ok, writeBytes_eq (by rw [writable_put hw1, hKl]; exact hw), put_put (by omega)]

/-- The padding `enc256cbc` adds to `l`. -/
def padded (l : List Byte) : List Byte :=
  l ++ List.replicate (16 - l.length % 16) (UInt8.ofNat (16 - l.length % 16))

theorem padded_length (l : List Byte) : (padded l).length = 16 * (l.length / 16 + 1) := by
  rw [padded, List.length_append, List.length_replicate]; omega

theorem tdiv16 (n : Nat) : (n : Int).tdiv 16 = ((n / 16 : Nat) : Int) := by
  rw [Int.tdiv_eq_ediv_of_nonneg (by omega)]; rfl

theorem cypher_size_eq (cfg : Cfg) {n : Nat} (h : ((16 * (n / 16 + 1) : Nat) : Int) ≤ INT_MAX) : cypher_size cfg n = .ok ((16 * (n / 16 + 1) : Nat) : Int) := by
  rw [cypher_size, tdiv16]
  have e : (((n / 16 : Nat) : Int) + 1) * 16 = ((16 * (n / 16 + 1) : Nat) : Int) := by omega
  rw [mulInt_ok cfg (by simp only [INT_MIN]; omega) (by omega), e]

theorem mulInt_wrap {cfg : Cfg} (hw : cfg.wrapv = true) (a b : Int) : mulInt cfg a b = .ok (toInt32 (ofInt32 (a * b))) := by
  rw [mulInt]
  split
  · next h => rw [toInt32_ofInt32 h.1 h.2]
  · rfl

theorem mulInt_iso {cfg : Cfg} (hw : cfg.wrapv = false) {a b : Int} (h : INT_MAX < a * b) : mulInt cfg a b = .ub .signedOverflow := by
  rw [mulInt, if_neg (by omega), hw]; rfl

theorem huge_blocks {n : Nat} (h : 2147483632 ≤ n) (hn : (n : Int) ≤ INT_MAX) : (((n / 16 : Nat) : Int) + 1) * 16 = 2147483648 := by
  simp only [INT_MAX] at hn; omega

theorem writeBytes_ok {m m' : Mem} {a : Addr} {l : List Byte} (e : writeBytes m a l = .ok m') : Holds m' a l := by
  have hw : Writable m a l.length ∧ m' = put m a l := by
    induction l generalizing m a with
    | nil =>
      simp only [writeBytes, Res.ok.injEq] at e
      exact ⟨fun i hi => absurd hi (by simp), by rw [put_nil, e]⟩
    | cons b l ih =>
      have hs : Writable m a 1 := by
        by_cases hc : 0 < a ∧ a < litBase ∧ (m a).isSome
        · intro i hi
          have : i = 0 := by omega
          subst this
          simpa using hc
        · rw [writeBytes, store, if_neg hc] at e; cases e
      rw [writeBytes, store_eq b hs, Res.bind_ok] at e
      obtain ⟨h1, h2⟩ := ih e
      rw [writable_put (by simpa using hs)] at h1
      refine ⟨fun i hi => ?_, ?_⟩
      · cases i with
        | zero => exact hs 0 (by omega)
        | succ i =>
          have := h1 i (by simp only [List.length_cons] at hi; omega)
          rwa [show a + 1 + (i : Int) = a + ((i + 1 : Nat) : Int) by omega] at this
      · rw [h2]
        have := put_append m a [b] l
        simp only [List.length_cons, List.length_nil] at this
        simpa using this
  rw [hw.2]; exact holds_put hw.1

theorem getSize_setSize {m m' : Mem} {p : Addr} {v : Int} (h1 : INT_MIN ≤ v) (h2 : v ≤ INT_MAX) (e : setSize m p v = .ok m') :
    p ≠ 0 ∧ p % 8 = 0 ∧ Holds m' p (leBytes 4 (ofInt32 v)) := by
  rw [setSize, setField, checkPtr] at e
  split at e
  · cases e
  · rename_i hp
    rw [Res.bind_ok] at e
    have := writeBytes_ok e
    exact ⟨by omega, by omega, by simpa using this⟩

theorem getSize_holds {m : Mem} {p : Addr} {v : Int} (h1 : INT_MIN ≤ v) (h2 : v ≤ INT_MAX) (hp : p ≠ 0) (hp8 : p % 8 = 0)
    (h : Holds m p (leBytes 4 (ofInt32 v))) : getSize m p = .ok v := by
  rw [getSize, getField, checkPtr, if_neg (by omega), Res.bind_ok]
  have hr := readBytes_eq h
  rw [leBytes_length] at hr
  rw [show p + ((0 : Nat) : Int) = p by omega, hr, Res.bind_ok, Res.bind_ok, leVal_leBytes]
  have : ofInt32 v % 256 ^ 4 = ofInt32 v := by
    apply Nat.mod_eq_of_lt
    simp only [ofInt32]; omega
  rw [this, toInt32_ofInt32 h1 h2]

/-- Where the parts of memory that `enc256cbc` and `dec256cbc` use are: the context overlaps neither the key, nor the init vector, nor the `n` bytes of the buffer; the
init vector does not overlap the buffer. -/
structure CryptApart (key ivec ctx buf : Addr) (n : Nat) : Prop where
  ctxKey : ctx + 240 ≤ key ∨ key + 32 ≤ ctx
  ctxIv : ctx + 240 ≤ ivec ∨ ivec + 16 ≤ ctx
  ctxBuf : ctx + 240 ≤ buf - 1 ∨ buf + n ≤ ctx
  ivBuf : ivec + 16 ≤ buf ∨ buf + n ≤ ivec

theorem enc256cbc_eq (cfg : Cfg) {h : Host} {m : Mem} {key ivec ctx buf : Addr} {k l : List Byte} {K : Ctx} {E : AesBlock → AesBlock} {iv : AesBlock}
    (hK : List.length K = 60) (hk : k.length = 32) (hinit : aes256_init h k = .ok K) (hE : ∀ b, aes256_enc b K = .ok (E b))
    (hkey : Holds m key k) (hiv : Holds m ivec iv.bytes) (hctx : Writable m ctx 240) (hb : Holds m buf l)
    (hw : Writable m buf (16 * (l.length / 16 + 1))) (hd : CryptApart key ivec ctx buf (16 * (l.length / 16 + 1)))
    (hmax : ((16 * (l.length / 16 + 1) : Nat) : Int) ≤ INT_MAX) {bs : List AesBlock} (hbs : flat bs = padded l) :
    enc256cbc cfg h m buf l.length key ivec ctx =
      .ok (((16 * (l.length / 16 + 1) : Nat) : Int), put (put m ctx K.bytes) buf (flat (cbcEnc E iv bs))) := by
  have hKl : K.bytes.length = 240 := by rw [Ctx.bytes_length, hK]
  have e : (((l.length / 16 : Nat) : Int) + 1) * 16 = ((16 * (l.length / 16 + 1) : Nat) : Int) := by omega
  have epad : ((16 * (l.length / 16 + 1) : Nat) : Int) + -(l.length : Int) = ((16 - l.length % 16 : Nat) : Int) := by omega
  have hbl : bs.length = l.length / 16 + 1 := by
    have := flat_length bs
    rw [hbs, padded_length] at this; omega
  rw [enc256cbc, tdiv16]
  rw [mulInt_ok cfg (by simp only [INT_MIN]; omega) (by omega), e, Res.bind_ok, addInt_ok cfg (by simp only [INT_MIN]; omega) (by omega), epad, Res.bind_ok,
    init_at_eq hK hk hinit hkey hctx hd.ctxKey, Res.bind_ok, sizeT_nat]
  have eo : UInt8.ofNat (ofInt32 ((16 - l.length % 16 : Nat) : Int)) = UInt8.ofNat (16 - l.length % 16) := by
    congr 1
    simp only [ofInt32]; omega
  rw [eo]
  have hctx' : Writable m ctx K.bytes.length := by rw [hKl]; exact hctx
  have hw1 : Writable (put m ctx K.bytes) buf (16 * (l.length / 16 + 1)) := (writable_put hctx').2 hw
  have hw2 : Writable (put m ctx K.bytes) (buf + l.length) (List.replicate (16 - l.length % 16) (UInt8.ofNat (16 - l.length % 16))).length :=
    hw1.sub _ _ (by rw [List.length_replicate]; omega)
  have hb1 : Holds (put m ctx K.bytes) buf l := holds_put_outside hb (by have := hd.ctxBuf; rw [hKl]; omega)
  rw [writeBytes_eq hw2, Res.bind_ok]
  have hlp : (List.replicate (16 - l.length % 16) (UInt8.ofNat (16 - l.length % 16))).length = 16 - l.length % 16 := List.length_replicate
  generalize hm2 : put (put m ctx K.bytes) (buf + (l.length : Int)) (List.replicate (16 - l.length % 16) (UInt8.ofNat (16 - l.length % 16))) = m2
  have hb2 : Holds m2 buf (flat bs) := by
    rw [hbs, padded]
    refine Holds.append_iff.2 ⟨?_, ?_⟩
    · rw [← hm2]; exact holds_put_outside hb1 (.inl (by omega))
    · rw [← hm2]; exact holds_put hw2
  have hw3 : Writable m2 buf (16 * (l.length / 16 + 1)) := by rw [← hm2]; exact (writable_put hw2).2 hw1
  have hiv2 : Holds m2 ivec iv.bytes := by
    rw [← hm2]
    refine holds_put_outside (holds_put_outside hiv (by have := hd.ctxIv; rw [hKl, AesBlock.bytes_length]; omega)) ?_
    have := hd.ivBuf
    rw [hlp, AesBlock.bytes_length]; omega
  have hc2 : Holds m2 ctx K.bytes := by
    rw [← hm2]
    refine holds_put_outside (holds_put hctx') ?_
    have := hd.ctxBuf
    rw [hlp, hKl]; omega
  obtain ⟨b, t, rfl⟩ : ∃ b t, bs = b :: t := by
    cases bs with
    | nil => simp at hbl
    | cons b t => exact ⟨b, t, rfl⟩
  rw [flat_cons] at hb2
  obtain ⟨hb3, hb4⟩ := Holds.append_iff.1 hb2
  have hx := memxor_eq hb3 hiv2 rfl (hw3.mono (by simp only [AesBlock.bytes_length]; omega)) (by have := hd.ivBuf; rw [AesBlock.bytes_length]; omega)
  rw [AesBlock.bytes_length] at hx
  rw [hx, Res.bind_ok, ← AesBlock.bytes_xor, if_neg (by omega)]
  have hw4 : Writable m2 buf (b.xor iv).bytes.length := hw3.mono (by simp only [AesBlock.bytes_length]; omega)
  rw [List.length_cons] at hbl
  have et : (((l.length / 16 : Nat) : Int) + 1).toNat = t.length + 1 := by omega
  rw [et, cbc_enc_loop_eq hK hE (iv := iv) (b := b)]
  · rw [Res.bind_ok]
    refine congrArg Res.ok (Prod.ext rfl ?_)
    simp only
    have hfl : (flat (cbcEnc E iv (b :: t))).length = 16 * (l.length / 16 + 1) := by rw [flat_length, cbcEnc_length, List.length_cons]; omega
    rw [put_put (by rw [hfl, AesBlock.bytes_length]; omega), ← hm2]
    funext x
    by_cases hin : buf ≤ x ∧ x < buf + ((16 * (l.length / 16 + 1) : Nat) : Int)
    · simp only [put]
      rw [if_pos (by omega), if_pos (by omega)]
    · rw [put_outside (by omega), put_outside (by omega), put_outside (a := buf) (by omega)]
  · exact holds_put_outside hc2 (by have := hd.ctxBuf; rw [hKl, AesBlock.bytes_length]; omega)
  · refine Holds.append_iff.2 ⟨holds_put hw4, ?_⟩
    exact holds_put_outside hb4 (.inr (by simp only [AesBlock.bytes_length]; omega))
  · rw [writable_put hw4]
    exact hw3.mono (by omega)
  · have := hd.ctxBuf; omega

theorem dec256cbc_eq (cfg : Cfg) {h : Host} {m : Mem} {key ivec ctx buf : Addr} {k r : List Byte} {K : Ctx} {D : AesBlock → AesBlock} {iv : AesBlock}
    (hK : List.length K = 60) (hk : k.length = 32) (hinit : aes256_init h k = .ok K) (hD : ∀ b, aes256_dec b K = .ok (D b))
    (hkey : Holds m key k) (hiv : Holds m ivec iv.bytes) (hctx : Writable m ctx 240) {cs : List AesBlock} (hcs : cs ≠ []) (hb : Holds m buf (flat cs))
    (hw : Writable m buf (16 * cs.length)) (hd : CryptApart key ivec ctx buf (16 * cs.length)) (hr : r.length < 16)
    (hmax : ((16 * cs.length + r.length : Nat) : Int) ≤ INT_MAX) {X : List Byte} {x : Byte} (hx : flat (cbcDec D iv cs) = X ++ [x]) :
    dec256cbc cfg h m buf ((flat cs ++ r).length : Nat) key ivec ctx =
      .ok ((16 * cs.length + r.length : Nat) - (x.toNat : Int), put (put m ctx K.bytes) buf (flat (cbcDec D iv cs))) := by
  have hKl : K.bytes.length = 240 := by rw [Ctx.bytes_length, hK]
  have hl : (flat cs ++ r).length = 16 * cs.length + r.length := by rw [List.length_append, flat_length]
  have hpos : 0 < cs.length := List.length_pos_iff.2 hcs
  have hctx' : Writable m ctx K.bytes.length := by rw [hKl]; exact hctx
  have hiv2 : Holds (put m ctx K.bytes) ivec iv.bytes := holds_put_outside hiv (by have := hd.ctxIv; rw [hKl, AesBlock.bytes_length]; omega)
  have hb2 : Holds (put m ctx K.bytes) buf (flat cs) := holds_put_outside hb (by have := hd.ctxBuf; rw [hKl, flat_length]; omega)
  have hri := readBytes_eq hiv2
  rw [AesBlock.bytes_length] at hri
  have hbc : (((16 * cs.length + r.length) / 16 : Nat) : Int).toNat = cs.length := by omega
  have hw2 : Writable (put m ctx K.bytes) buf (16 * cs.length) := (writable_put hctx').2 hw
  rw [dec256cbc, hl, tdiv16]
  rw [init_at_eq hK hk hinit hkey hctx hd.ctxKey, Res.bind_ok, hri, Res.bind_ok, if_neg (by omega), hbc,
    cbc_dec_loop_eq hK hD (holds_put hctx') hb2 hw2 (by have := hd.ctxBuf; omega), Res.bind_ok]
  simp only
  have hXl : (X ++ [x]).length = 16 * cs.length := by rw [← hx, flat_length, cbcDec_length]
  have hw3 : Writable (put m ctx K.bytes) buf (flat (cbcDec D iv cs)).length := by rw [flat_length, cbcDec_length]; exact hw2
  have hh := holds_put hw3
  rw [hx] at hh
  simp only [List.length_append, List.length_cons, List.length_nil] at hXl
  have hld := hh.load' (buf + ((16 * cs.length : Nat) : Int) - 1) X.length (by simp) (by omega)
  rw [List.getElem_concat_length rfl] at hld
  have hx8 := x.toNat_lt
  rw [hx, hld, Res.bind_ok, addInt_ok cfg (by simp only [INT_MIN]; omega) (by omega), Res.bind_ok, Int.sub_eq_add_neg]

end CStr
