import Verif.Model.Pack
/-
  Model of the block cipher in /repo/accessories/strbuf_crypt/aes: gf256mul.c, aes_sbox.c, aes_invsbox.c, aes_enc.c, aes_dec.c,
  aes_keyschedule.c, aes256_enc.c, aes256_dec.c.

  The 16 byte objects `aes_cipher_state_t` and `aes_roundkey_t` are values of `AesBlock`: byte `4*i+j` of the object is byte `j` of column `i`.
  The functions of this file work on such values; Model/Crypt.lean reads them from memory and writes them back. Nothing in the C
  code keeps a pointer to the object it works on, so passing values loses nothing except the intermediate contents of
  the 16 bytes during one call.
-/
namespace CStr

/-- Four consecutive bytes. -/
structure AesWord where
  b0 : Byte
  b1 : Byte
  b2 : Byte
  b3 : Byte
  deriving DecidableEq, Repr

/-- `aes_cipher_state_t` and `aes_roundkey_t` (aes_types.h lines 32-34, 52-54). -/
structure AesBlock where
  c0 : AesWord
  c1 : AesWord
  c2 : AesWord
  c3 : AesWord
  deriving DecidableEq, Repr

/-- Element `i & 3` of a four byte array (the subscripts `(shift+k)&3` of aes_enc.c line 41). -/
def AesWord.at (w : AesWord) (i : Nat) : Byte :=
  match i % 4 with
  | 0 => w.b0
  | 1 => w.b1
  | 2 => w.b2
  | _ => w.b3

/-- `x ^= y` on four bytes: memxor.c lines 5-11 with n = 4. -/
def AesWord.xor (x y : AesWord) : AesWord := ⟨x.b0 ^^^ y.b0, x.b1 ^^^ y.b1, x.b2 ^^^ y.b2, x.b3 ^^^ y.b3⟩

/-- The bytes of a word in memory order. -/
def AesWord.bytes (x : AesWord) : List Byte := [x.b0, x.b1, x.b2, x.b3]

/-- The bytes of a block in memory order. -/
def AesBlock.bytes (x : AesBlock) : List Byte := x.c0.bytes ++ x.c1.bytes ++ x.c2.bytes ++ x.c3.bytes

/-- Applying a table to each of four bytes. -/
def AesWord.map (f : Byte → Byte) (x : AesWord) : AesWord := ⟨f x.b0, f x.b1, f x.b2, f x.b3⟩

/-- `s[i] ^= k[i]` for the 16 bytes (aes_enc.c lines 85-87, 103-105, 110-112, aes_dec.c lines 53-55, 107-109, 127-129). -/
def AesBlock.xor (x y : AesBlock) : AesBlock := ⟨x.c0.xor y.c0, x.c1.xor y.c1, x.c2.xor y.c2, x.c3.xor y.c3⟩

/-- `s[i] = f[s[i]]` for the 16 bytes (aes_enc.c lines 56-58, 95-97, aes_dec.c lines 97-99, 115-117). -/
def AesBlock.map (f : Byte → Byte) (x : AesBlock) : AesBlock := ⟨x.c0.map f, x.c1.map f, x.c2.map f, x.c3.map f⟩

/-- The bytes `data[0]`, `data[4]`, `data[8]`, `data[12]` for `data = s + j` (aes_enc.c lines 37-40). -/
def AesBlock.row (x : AesBlock) (j : Nat) : AesWord := ⟨x.c0.at j, x.c1.at j, x.c2.at j, x.c3.at j⟩

/-- `x.at j := b`. -/
def AesWord.set (x : AesWord) (j : Nat) (b : Byte) : AesWord :=
  match j % 4 with
  | 0 => { x with b0 := b }
  | 1 => { x with b1 := b }
  | 2 => { x with b2 := b }
  | _ => { x with b3 := b }

/-- Storing into `data[0]`, `data[4]`, `data[8]`, `data[12]` for `data = s + j` (aes_enc.c lines 41-44). -/
def AesBlock.setRow (x : AesBlock) (j : Nat) (r : AesWord) : AesBlock :=
  ⟨x.c0.set j r.b0, x.c1.set j r.b1, x.c2.set j r.b2, x.c3.set j r.b3⟩

set_option maxRecDepth 4096 in
/-- aes_sbox.c lines 21-38: `aes_sbox`. -/
def aes_sbox_tab : Vector Byte 256 :=
  #v[
   0x63, 0x7c, 0x77, 0x7b, 0xf2, 0x6b, 0x6f, 0xc5, 0x30, 0x01, 0x67, 0x2b, 0xfe, 0xd7, 0xab, 0x76,
   0xca, 0x82, 0xc9, 0x7d, 0xfa, 0x59, 0x47, 0xf0, 0xad, 0xd4, 0xa2, 0xaf, 0x9c, 0xa4, 0x72, 0xc0,
   0xb7, 0xfd, 0x93, 0x26, 0x36, 0x3f, 0xf7, 0xcc, 0x34, 0xa5, 0xe5, 0xf1, 0x71, 0xd8, 0x31, 0x15,
   0x04, 0xc7, 0x23, 0xc3, 0x18, 0x96, 0x05, 0x9a, 0x07, 0x12, 0x80, 0xe2, 0xeb, 0x27, 0xb2, 0x75,
   0x09, 0x83, 0x2c, 0x1a, 0x1b, 0x6e, 0x5a, 0xa0, 0x52, 0x3b, 0xd6, 0xb3, 0x29, 0xe3, 0x2f, 0x84,
   0x53, 0xd1, 0x00, 0xed, 0x20, 0xfc, 0xb1, 0x5b, 0x6a, 0xcb, 0xbe, 0x39, 0x4a, 0x4c, 0x58, 0xcf,
   0xd0, 0xef, 0xaa, 0xfb, 0x43, 0x4d, 0x33, 0x85, 0x45, 0xf9, 0x02, 0x7f, 0x50, 0x3c, 0x9f, 0xa8,
   0x51, 0xa3, 0x40, 0x8f, 0x92, 0x9d, 0x38, 0xf5, 0xbc, 0xb6, 0xda, 0x21, 0x10, 0xff, 0xf3, 0xd2,
   0xcd, 0x0c, 0x13, 0xec, 0x5f, 0x97, 0x44, 0x17, 0xc4, 0xa7, 0x7e, 0x3d, 0x64, 0x5d, 0x19, 0x73,
   0x60, 0x81, 0x4f, 0xdc, 0x22, 0x2a, 0x90, 0x88, 0x46, 0xee, 0xb8, 0x14, 0xde, 0x5e, 0x0b, 0xdb,
   0xe0, 0x32, 0x3a, 0x0a, 0x49, 0x06, 0x24, 0x5c, 0xc2, 0xd3, 0xac, 0x62, 0x91, 0x95, 0xe4, 0x79,
   0xe7, 0xc8, 0x37, 0x6d, 0x8d, 0xd5, 0x4e, 0xa9, 0x6c, 0x56, 0xf4, 0xea, 0x65, 0x7a, 0xae, 0x08,
   0xba, 0x78, 0x25, 0x2e, 0x1c, 0xa6, 0xb4, 0xc6, 0xe8, 0xdd, 0x74, 0x1f, 0x4b, 0xbd, 0x8b, 0x8a,
   0x70, 0x3e, 0xb5, 0x66, 0x48, 0x03, 0xf6, 0x0e, 0x61, 0x35, 0x57, 0xb9, 0x86, 0xc1, 0x1d, 0x9e,
   0xe1, 0xf8, 0x98, 0x11, 0x69, 0xd9, 0x8e, 0x94, 0x9b, 0x1e, 0x87, 0xe9, 0xce, 0x55, 0x28, 0xdf,
   0x8c, 0xa1, 0x89, 0x0d, 0xbf, 0xe6, 0x42, 0x68, 0x41, 0x99, 0x2d, 0x0f, 0xb0, 0x54, 0xbb, 0x16]

set_option maxRecDepth 4096 in
/-- aes_invsbox.c lines 5-22: `aes_invsbox`. -/
def aes_invsbox_tab : Vector Byte 256 :=
  #v[
   0x52, 0x09, 0x6a, 0xd5, 0x30, 0x36, 0xa5, 0x38, 0xbf, 0x40, 0xa3, 0x9e, 0x81, 0xf3, 0xd7, 0xfb,
   0x7c, 0xe3, 0x39, 0x82, 0x9b, 0x2f, 0xff, 0x87, 0x34, 0x8e, 0x43, 0x44, 0xc4, 0xde, 0xe9, 0xcb,
   0x54, 0x7b, 0x94, 0x32, 0xa6, 0xc2, 0x23, 0x3d, 0xee, 0x4c, 0x95, 0x0b, 0x42, 0xfa, 0xc3, 0x4e,
   0x08, 0x2e, 0xa1, 0x66, 0x28, 0xd9, 0x24, 0xb2, 0x76, 0x5b, 0xa2, 0x49, 0x6d, 0x8b, 0xd1, 0x25,
   0x72, 0xf8, 0xf6, 0x64, 0x86, 0x68, 0x98, 0x16, 0xd4, 0xa4, 0x5c, 0xcc, 0x5d, 0x65, 0xb6, 0x92,
   0x6c, 0x70, 0x48, 0x50, 0xfd, 0xed, 0xb9, 0xda, 0x5e, 0x15, 0x46, 0x57, 0xa7, 0x8d, 0x9d, 0x84,
   0x90, 0xd8, 0xab, 0x00, 0x8c, 0xbc, 0xd3, 0x0a, 0xf7, 0xe4, 0x58, 0x05, 0xb8, 0xb3, 0x45, 0x06,
   0xd0, 0x2c, 0x1e, 0x8f, 0xca, 0x3f, 0x0f, 0x02, 0xc1, 0xaf, 0xbd, 0x03, 0x01, 0x13, 0x8a, 0x6b,
   0x3a, 0x91, 0x11, 0x41, 0x4f, 0x67, 0xdc, 0xea, 0x97, 0xf2, 0xcf, 0xce, 0xf0, 0xb4, 0xe6, 0x73,
   0x96, 0xac, 0x74, 0x22, 0xe7, 0xad, 0x35, 0x85, 0xe2, 0xf9, 0x37, 0xe8, 0x1c, 0x75, 0xdf, 0x6e,
   0x47, 0xf1, 0x1a, 0x71, 0x1d, 0x29, 0xc5, 0x89, 0x6f, 0xb7, 0x62, 0x0e, 0xaa, 0x18, 0xbe, 0x1b,
   0xfc, 0x56, 0x3e, 0x4b, 0xc6, 0xd2, 0x79, 0x20, 0x9a, 0xdb, 0xc0, 0xfe, 0x78, 0xcd, 0x5a, 0xf4,
   0x1f, 0xdd, 0xa8, 0x33, 0x88, 0x07, 0xc7, 0x31, 0xb1, 0x12, 0x10, 0x59, 0x27, 0x80, 0xec, 0x5f,
   0x60, 0x51, 0x7f, 0xa9, 0x19, 0xb5, 0x4a, 0x0d, 0x2d, 0xe5, 0x7a, 0x9f, 0x93, 0xc9, 0x9c, 0xef,
   0xa0, 0xe0, 0x3b, 0x4d, 0xae, 0x2a, 0xf5, 0xb0, 0xc8, 0xeb, 0xbb, 0x3c, 0x83, 0x53, 0x99, 0x61,
   0x17, 0x2b, 0x04, 0x7e, 0xba, 0x77, 0xd6, 0x26, 0xe1, 0x69, 0x14, 0x63, 0x55, 0x21, 0x0c, 0x7d]

/-- `aes_sbox[x]` for a `uint8_t` subscript. -/
def aes_sbox (x : Byte) : Byte := aes_sbox_tab[x.toNat]'x.toNat_lt

/-- `aes_invsbox[x]` for a `uint8_t` subscript. -/
def aes_invsbox (x : Byte) : Byte := aes_invsbox_tab[x.toNat]'x.toNat_lt

/-- gf256mul.c lines 29-34: `b <<= 1` with reduction. -/
def gf256dbl (b reducer : Byte) : Byte := if b &&& 0x80 ≠ 0 then (b <<< 1) ^^^ reducer else b <<< 1

/-- gf256mul.c lines 24-39: the loop and the final step. `n` bounds the number of iterations: `a` has eight bits and loses one in each, so
seven are enough (`gf256mul_loop_enough` in Lemmas/Aes.lean shows that a larger bound changes nothing). -/
def gf256mul_loop (reducer : Byte) : Nat → Byte → Byte → Byte → Byte
  | 0, a, b, r => if a &&& 1 ≠ 0 then r ^^^ b else r
  | n + 1, a, b, r =>
    if a &&& 0xFE ≠ 0 then
      gf256mul_loop reducer n (a >>> 1) (gf256dbl b reducer) (if a &&& 1 ≠ 0 then r ^^^ b else r)
    else if a &&& 1 ≠ 0 then r ^^^ b else r

/-- gf256mul.c lines 22-40: `gf256mul`. -/
def gf256mul (a b reducer : Byte) : Byte := gf256mul_loop reducer 7 a b 0

/-- aes_enc.c lines 35-45: `aes_shiftcol(s + j, shift)`. -/
def aes_shiftcol (s : AesBlock) (j shift : Nat) : AesBlock :=
  let tmp := s.row j
  s.setRow j ⟨tmp.at (shift + 0), tmp.at (shift + 1), tmp.at (shift + 2), tmp.at (shift + 3)⟩

/-- aes_dec.c lines 36-46: `aes_invshiftcol(s + j, shift)`. -/
def aes_invshiftcol (s : AesBlock) (j shift : Nat) : AesBlock :=
  let tmp := s.row j
  s.setRow j ⟨tmp.at (4 - shift + 0), tmp.at (4 - shift + 1), tmp.at (4 - shift + 2), tmp.at (4 - shift + 3)⟩

/-- aes_enc.c lines 65-81: one column of mixColumns; `GF256MUL_2` is line 48. -/
def aes_mixcol (x : AesWord) : AesWord :=
  let t := x.b0 ^^^ x.b1 ^^^ x.b2 ^^^ x.b3
  ⟨gf256mul 2 (x.b0 ^^^ x.b1) 0x1b ^^^ x.b0 ^^^ t,
   gf256mul 2 (x.b1 ^^^ x.b2) 0x1b ^^^ x.b1 ^^^ t,
   gf256mul 2 (x.b2 ^^^ x.b3) 0x1b ^^^ x.b2 ^^^ t,
   gf256mul 2 (x.b3 ^^^ x.b0) 0x1b ^^^ x.b3 ^^^ t⟩

/-- aes_dec.c lines 58-67: one column of the inverse mixColumns. -/
def aes_invmixcol (x : AesWord) : AesWord :=
  let t := x.b3 ^^^ x.b2
  let u := x.b1 ^^^ x.b0
  let v := t ^^^ u
  let v := gf256mul 0x09 v 0x1b
  let w := v ^^^ gf256mul 0x04 (x.b2 ^^^ x.b0) 0x1b
  let v := v ^^^ gf256mul 0x04 (x.b3 ^^^ x.b1) 0x1b
  ⟨x.b0 ^^^ w ^^^ gf256mul 0x02 u 0x1b,
   x.b1 ^^^ v ^^^ gf256mul 0x02 (x.b2 ^^^ x.b1) 0x1b,
   x.b2 ^^^ w ^^^ gf256mul 0x02 t 0x1b,
   x.b3 ^^^ v ^^^ gf256mul 0x02 (x.b0 ^^^ x.b3) 0x1b⟩

/-- aes_enc.c lines 51-88: `aes_enc_round`. -/
def aes_enc_round (s k : AesBlock) : AesBlock :=
  let tmp := s.map aes_sbox
  let tmp := aes_shiftcol tmp 1 1
  let tmp := aes_shiftcol tmp 2 2
  let tmp := aes_shiftcol tmp 3 3
  let s : AesBlock := ⟨aes_mixcol tmp.c0, aes_mixcol tmp.c1, aes_mixcol tmp.c2, aes_mixcol tmp.c3⟩
  s.xor k

/-- aes_enc.c lines 91-106: `aes_enc_lastround`. -/
def aes_enc_lastround (s k : AesBlock) : AesBlock :=
  let s := s.map aes_sbox
  let s := aes_shiftcol s 1 1
  let s := aes_shiftcol s 2 2
  let s := aes_shiftcol s 3 3
  s.xor k

/-- aes_dec.c lines 47-100: `aes_dec_round`. -/
def aes_dec_round (s k : AesBlock) : AesBlock :=
  let tmp := s.xor k
  let s : AesBlock := ⟨aes_invmixcol tmp.c0, aes_invmixcol tmp.c1, aes_invmixcol tmp.c2, aes_invmixcol tmp.c3⟩
  let s := aes_invshiftcol s 1 1
  let s := aes_invshiftcol s 2 2
  let s := aes_invshiftcol s 3 3
  s.map aes_invsbox

/-- aes_dec.c lines 103-118: `aes_dec_firstround`. -/
def aes_dec_firstround (s k : AesBlock) : AesBlock :=
  let s := s.xor k
  let s := aes_invshiftcol s 1 1
  let s := aes_invshiftcol s 2 2
  let s := aes_invshiftcol s 3 3
  s.map aes_invsbox

/-- `aes_genctx_t` (aes_types.h lines 48-50) as far as it has been written: its initialised four byte words from the start. -/
abbrev Ctx := List AesWord

/-- Reading the word at `ctx->key[0].ks + 4*i`; an uninitialised word is not readable. The C code forms this address by running over the
end of the inner array `key[0].ks` into the following elements of `key`; the model takes the context as one array of bytes, as every compiler does. -/
def Ctx.word (ctx : Ctx) (i : Nat) : Res AesWord :=
  match ctx[i]? with
  | some w => .ok w
  | none => .ub .badRead

/-- `ks->key[i]`. -/
def Ctx.key (ctx : Ctx) (i : Nat) : Res AesBlock := do
  let a ← ctx.word (4 * i)
  let b ← ctx.word (4 * i + 1)
  let c ← ctx.word (4 * i + 2)
  let d ← ctx.word (4 * i + 3)
  return ⟨a, b, c, d⟩

/-- aes_enc.c lines 114-118: the loop over the rounds, `n` being `rounds`, and the last round. -/
def aes_enc_rounds (ks : Ctx) : Nat → Nat → AesBlock → Res AesBlock
  | n + 2, i, s => do
    let k ← ks.key i
    aes_enc_rounds ks (n + 1) (i + 1) (aes_enc_round s k)
  | _, i, s => do
    let k ← ks.key i
    return aes_enc_lastround s k

/-- aes_enc.c lines 108-119: `aes_encrypt_core`. -/
def aes_encrypt_core (s : AesBlock) (ks : Ctx) (rounds : Nat) : Res AesBlock := do
  let k ← ks.key 0
  aes_enc_rounds ks rounds 1 (s.xor k)

/-- aes_dec.c lines 123-129: the loop over the rounds, `n` being `rounds`, and the final key addition; `i` is the index after `--i`. -/
def aes_dec_rounds (ks : Ctx) : Nat → Nat → AesBlock → Res AesBlock
  | n + 2, i, s => do
    let k ← ks.key (i - 1)
    aes_dec_rounds ks (n + 1) (i - 1) (aes_dec_round s k)
  | _, _, s => do
    let k ← ks.key 0
    return s.xor k

/-- aes_dec.c lines 120-130: `aes_decrypt_core`. -/
def aes_decrypt_core (s : AesBlock) (ks : Ctx) (rounds : Nat) : Res AesBlock := do
  let k ← ks.key rounds
  aes_dec_rounds ks rounds rounds (aes_dec_firstround s k)

/-- aes256_enc.c lines 31-33. -/
def aes256_enc (s : AesBlock) (ctx : Ctx) : Res AesBlock := aes_encrypt_core s ctx 14

/-- aes256_dec.c lines 31-33. -/
def aes256_dec (s : AesBlock) (ctx : Ctx) : Res AesBlock := aes_decrypt_core s ctx 14

/-- aes_keyschedule.c lines 47-50: `rc_tab`. -/
def rc_tab : List Byte := [0x01, 0x02, 0x04, 0x08, 0x10, 0x20, 0x40, 0x80, 0x1b, 0x36]

/-- `rc_tab[rc]`. -/
def rc_at (rc : Nat) : Res Byte :=
  match rc_tab[rc]? with
  | some b => .ok b
  | none => .ub .badRead

/-- aes_keyschedule.c line 76: `tmp.v32 = (tmp.v32 >> 8) | (tmp.v32 << 24)` through the union of lines 55-58, whose bytes `v8` are the object
representation of `v32` on the host. -/
def aes_rot (h : Host) (w : AesWord) : AesWord :=
  let v32 := ofRepr h [w.b0, w.b1, w.b2, w.b3]
  match repr h 4 (v32 / 2 ^ 8 ||| v32 * 2 ^ 24 % 2 ^ 32) with
  | [b0, b1, b2, b3] => ⟨b0, b1, b2, b3⟩
  | _ => w

/-- aes_keyschedule.c lines 63-90: the loop; the first argument counts the iterations left, `hi - i`. -/
def aes_init_loop (h : Host) (nk : Nat) : Nat → Nat → Nat → Nat → Ctx → Res Ctx
  | 0, _, _, _, ctx => return ctx
  | n + 1, i, next_nk, rc, ctx => do
    let tmp ← ctx.word (i - 1)
    let old ← ctx.word (i - nk)
    if i ≠ next_nk then
      let tmp := if nk = 8 ∧ i % 8 = 4 then tmp.map aes_sbox else tmp
      aes_init_loop h nk n (i + 1) next_nk rc (ctx ++ [old.xor tmp])
    else
      let tmp := (aes_rot h tmp).map aes_sbox
      let c ← rc_at rc
      let tmp := { tmp with b0 := tmp.b0 ^^^ c }
      aes_init_loop h nk n (i + 1) (next_nk + nk) (rc + 1) (ctx ++ [old.xor tmp])

/-- The words that the bytes `l` make up when they are copied to the start of the context (aes_keyschedule.c line 61). -/
def wordsOf : List Byte → List AesWord
  | b0 :: b1 :: b2 :: b3 :: l => ⟨b0, b1, b2, b3⟩ :: wordsOf l
  | _ => []

/-- aes_keyschedule.c lines 52-91: `aes_init`. `key` are the bytes readable at the key's address. The `uint8_t` variables
`hi`, `i`, `next_nk` and `rc` stay below 256 for the three key sizes, so the model uses natural numbers. -/
def aes_init (h : Host) (key : List Byte) (keysize_b : Nat) : Res Ctx :=
  let nk := keysize_b / 2 ^ 5
  let hi := 4 * (nk + 6 + 1)
  if key.length < keysize_b / 8 then .ub .badRead
  else aes_init_loop h nk (hi - nk) nk nk 0 (wordsOf (key.take (keysize_b / 8)))

/-- aes_keyschedule.c lines 93-95: `aes128_init`. -/
def aes128_init (h : Host) (key : List Byte) : Res Ctx := aes_init h key 128

/-- aes_keyschedule.c lines 97-99: `aes192_init`. -/
def aes192_init (h : Host) (key : List Byte) : Res Ctx := aes_init h key 192

/-- aes_keyschedule.c lines 101-103: `aes256_init`. -/
def aes256_init (h : Host) (key : List Byte) : Res Ctx := aes_init h key 256

end CStr
