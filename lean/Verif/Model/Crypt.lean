import Verif.Model.Aes
/-
  Model of /repo/accessories/strbuf_crypt/strbuf_crypt.c and of aes/memxor.c: encryption and decryption of the content of a buffer in memory.

  The block cipher itself is in Model/Aes.lean. It is applied to memory here by reading the whole AES context and the 16 bytes of the block, and writing the 16 bytes
  back; this is what the C code does as long as the context and the block do not overlap, which they never do: one is a
  new heap block or a local variable, the other is in the buffer.
-/
namespace CStr

/-- `a * b` for `int`. -/
def mulInt (cfg : Cfg) (a b : Int) : Res Int :=
  if INT_MIN ≤ a * b ∧ a * b ≤ INT_MAX then .ok (a * b)
  else if cfg.wrapv then .ok (toInt32 (ofInt32 (a * b)))
  else .ub .signedOverflow

/-- memxor.c lines 5-11: `memxor(dest, src, n)`. -/
def memxor (m : Mem) (dest src : Addr) : Nat → Res Mem
  | 0 => .ok m
  | n + 1 => do
    let x ← load m dest
    let y ← load m src
    let m ← store m dest (x ^^^ y)
    memxor m (dest + 1) (src + 1) n

/-- The block made of 16 bytes. -/
def blockOf (l : List Byte) : Res AesBlock :=
  match wordsOf l with
  | [c0, c1, c2, c3] => .ok ⟨c0, c1, c2, c3⟩
  | _ => .ub .badRead

/-- The bytes of a context, `sizeof(aes256_ctx_t)` = 240 for a 256 bit key (aes_types.h lines 44-46). -/
def Ctx.bytes (ctx : Ctx) : List Byte := ctx.flatMap AesWord.bytes

/-- aes_keyschedule.c lines 101-103 in memory: `aes256_init(key, ctx)`. The first statement is the `memcpy` of line 61. -/
def aes256_init_at (h : Host) (m : Mem) (key ctx : Addr) : Res Mem := do
  let m ← memcpy m ctx key 32
  let k ← readBytes m ctx 32
  let c ← aes256_init h k
  writeBytes m ctx c.bytes

/-- aes256_enc.c lines 31-33 in memory: `aes256_enc(buffer, ctx)`. -/
def aes256_enc_at (m : Mem) (buffer ctx : Addr) : Res Mem := do
  let c ← readBytes m ctx 240
  let l ← readBytes m buffer 16
  let s ← blockOf l
  let s ← aes256_enc s (wordsOf c)
  writeBytes m buffer s.bytes

/-- aes256_dec.c lines 31-33 in memory: `aes256_dec(buffer, ctx)`. -/
def aes256_dec_at (m : Mem) (buffer ctx : Addr) : Res Mem := do
  let c ← readBytes m ctx 240
  let l ← readBytes m buffer 16
  let s ← blockOf l
  let s ← aes256_dec s (wordsOf c)
  writeBytes m buffer s.bytes

/-- strbuf_crypt.c lines 144-148: `cypher_size`. -/
def cypher_size (cfg : Cfg) (content_size : Int) : Res Int := do
  let block_count := content_size.tdiv 16 + 1
  mulInt cfg block_count 16

/-- strbuf_crypt.c lines 104-110: the loop of `enc256cbc`; the first argument is `block_count`. -/
def cbc_enc_loop (ctx : Addr) : Nat → Mem → Addr → Res Mem
  | 0, m, _ => .ok m
  | n + 1, m, buf => do
    let m ← aes256_enc_at m buf ctx
    let m ← if n ≠ 0 then memxor m (buf + 16) buf 16 else .ok m
    cbc_enc_loop ctx n m (buf + 16)

/-- strbuf_crypt.c lines 94-112: `enc256cbc`. Returns the new length and the memory. A negative `block_count` (impossible for the size of a buffer) would make the loop
run through memory until it faults. -/
def enc256cbc (cfg : Cfg) (h : Host) (m : Mem) (buf : Addr) (len : Int) (key ivec ctx : Addr) : Res (Int × Mem) := do
  let block_count := len.tdiv 16 + 1
  let out_len ← mulInt cfg block_count 16
  let pad_len ← addInt cfg out_len (-len)
  let m ← aes256_init_at h m key ctx
  let m ← writeBytes m (buf + len) (List.replicate (sizeT pad_len) (UInt8.ofNat (ofInt32 pad_len)))
  let m ← memxor m buf ivec 16
  if block_count < 0 then .ub .badWrite
  else do
    let m ← cbc_enc_loop ctx block_count.toNat m buf
    .ok (out_len, m)

/-- strbuf_crypt.c lines 129-136: the loop of `dec256cbc`; the first argument is `block_count`. The local arrays `*this_xor` and `*next_xor` are values here. -/
def cbc_dec_loop (ctx : Addr) : Nat → Mem → Addr → List Byte → Res (Mem × Addr)
  | 0, m, buf, _ => .ok (m, buf)
  | n + 1, m, buf, this_xor => do
    let next_xor ← readBytes m buf 16
    let m ← aes256_dec_at m buf ctx
    let l ← readBytes m buf 16
    let m ← writeBytes m buf (List.zipWith (· ^^^ ·) l this_xor)
    cbc_dec_loop ctx n m (buf + 16) next_xor

/-- strbuf_crypt.c lines 117-142: `dec256cbc`. Returns the new length and the memory. For a negative `block_count` see `enc256cbc`. -/
def dec256cbc (cfg : Cfg) (h : Host) (m : Mem) (buf : Addr) (len : Int) (key ivec ctx : Addr) : Res (Int × Mem) := do
  let block_count := len.tdiv 16
  let m ← aes256_init_at h m key ctx
  let this_xor ← readBytes m ivec 16
  if block_count < 0 then .ub .badWrite
  else do
    let (m, buf) ← cbc_dec_loop ctx block_count.toNat m buf this_xor
    let pad_len ← load m (buf - 1)
    let out_len ← addInt cfg len (-(pad_len.toNat : Int))
    .ok (out_len, m)

/-- `encdec_fptr_t` (strbuf_crypt.c line 27): memory, buffer, length, key, init vector, context. -/
abbrev EncDec := Mem → Addr → Int → Addr → Addr → Addr → Res (Int × Mem)

/-- strbuf_crypt.c lines 57-83 with lines 85-89: `strbuf_crypt`. `stack` is the address of the 240 byte local variable `ctx` of `encdec_with_ctx_on_stack`. -/
def strbuf_crypt (cfg : Cfg) (fptr : EncDec) (s : St) (buf_ptr : Option Addr) (key ivec stack : Addr) : BufRes :=
  match deref buf_ptr with
  | some buf => do
    let dyn ← buf_is_dynamic s.mem buf
    if dyn then
      let size ← getSize s.mem buf
      let need ← cypher_size cfg size
      let (_, bp, s) ← strbuf_grow s (some buf) need
      match bp with
      | none => .ub .badHeader
      | some buf => do
        let al ← getAlloc s.mem buf
        let (ctx, s) ← allocCall s al 0 240
        let size ← getSize s.mem buf
        let (size, m) ← fptr s.mem (cstrOf buf) size key ivec ctx
        let m ← setSize m buf size
        let al ← getAlloc m buf
        let (_, s) ← allocCall { s with mem := m } al ctx 0
        let size ← getSize s.mem buf
        let m ← store s.mem (cstrOf buf + size) 0
        .ok (.invalid, some buf, { s with mem := m })
    else
      let cap ← getCap s.mem buf
      let size ← getSize s.mem buf
      let need ← cypher_size cfg size
      if cap ≥ need then
        let (size, m) ← fptr s.mem (cstrOf buf) size key ivec stack
        let m ← setSize m buf size
        let size ← getSize m buf
        let m ← store m (cstrOf buf + size) 0
        .ok (.invalid, some buf, { s with mem := m })
      else .ok (.invalid, some buf, s)
  | none => .ok (.invalid, buf_ptr, s)

/-- strbuf_crypt.c lines 43-46: `strbuf_encrypt`. -/
def strbuf_encrypt (cfg : Cfg) (h : Host) (s : St) (buf_ptr : Option Addr) (key ivec stack : Addr) : BufRes :=
  strbuf_crypt cfg (enc256cbc cfg h) s buf_ptr key ivec stack

/-- strbuf_crypt.c lines 48-51: `strbuf_decrypt`. -/
def strbuf_decrypt (cfg : Cfg) (h : Host) (s : St) (buf_ptr : Option Addr) (key ivec stack : Addr) : BufRes :=
  strbuf_crypt cfg (dec256cbc cfg h) s buf_ptr key ivec stack

end CStr
