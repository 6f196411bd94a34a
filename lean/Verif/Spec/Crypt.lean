import Verif.Spec.Buf
import Verif.Spec.Aes
import Verif.Spec.Pack
/-
  What `strbuf_encrypt` and `strbuf_decrypt` are meant to do: the cipher block chaining mode of NIST SP 800-38A, section 6.2, with the padding of RFC 5652, section 6.3, on
  the content of the buffer.
-/
namespace CStr

/-- Padding to a multiple of 16 bytes: between 1 and 16 bytes, each of which is their number (RFC 5652, section 6.3, with k = 16). -/
def pkcs7 (l : List Byte) : List Byte :=
  let n := 16 - l.length % 16
  l ++ List.replicate n (UInt8.ofNat n)

/-- The exclusive or of two byte sequences. -/
def xorBytes (x y : List Byte) : List Byte := List.zipWith (· ^^^ ·) x y

/-- Cipher block chaining: `c₁ = E(p₁ ⊕ iv)`, `cⱼ = E(pⱼ ⊕ cⱼ₋₁)`, for the block cipher `E` as a relation between 16 byte sequences. -/
inductive CbcEncrypts (E : List Byte → List Byte → Prop) : (iv plain cipher : List Byte) → Prop
  | nil (iv : List Byte) : CbcEncrypts E iv [] []
  | cons {iv p c ps cs : List Byte} (hp : p.length = 16) (hE : E (xorBytes p iv) c) (h : CbcEncrypts E c ps cs) : CbcEncrypts E iv (p ++ ps) (c ++ cs)

/-- AES-256 in cipher block chaining mode. -/
def Aes256Cbc (key iv plain cipher : List Byte) : Prop := CbcEncrypts (Fips.Encrypts 8 key) iv plain cipher

/-- The length of the encryption of `n` bytes. -/
def paddedLen (n : Nat) : Nat := 16 * (n / 16 + 1)

/-- The arguments of a call: 32 bytes of key at `key` and 16 bytes of init vector at `ivec`, both outside of the buffer; for a buffer of fixed capacity, the called
function's local variable of 240 bytes at `stack`, apart from the buffer and from both. -/
structure CryptArgs (s : St) (p : Addr) (b : Buf) (key ivec stack : Addr) (k iv : List Byte) : Prop where
  keyAt : Holds s.mem key k
  keyLen : k.length = 32
  keyTop : key + 32 ≤ litBase
  keyOut : key + 32 ≤ p ∨ p + storage b.cap ≤ key
  ivAt : Holds s.mem ivec iv
  ivLen : iv.length = 16
  ivTop : ivec + 16 ≤ litBase
  ivOut : ivec + 16 ≤ p ∨ p + storage b.cap ≤ ivec
  local_ : ¬ b.Dynamic → Variable s.mem stack 240 ∧ (stack + 240 ≤ p ∨ p + storage b.cap ≤ stack) ∧
    (stack + 240 ≤ key ∨ key + 32 ≤ stack) ∧ (stack + 240 ≤ ivec ∨ ivec + 16 ≤ stack)

/-- There is room for `n` bytes: the capacity suffices, or the buffer can grow. -/
def Buf.Room (b : Buf) (n : Nat) : Prop := n ≤ b.cap ∨ (b.Dynamic ∧ (n : Int) ≤ INT_MAX)

/-- The outcome of encryption or decryption of the buffer `b` at `p`: the content has become `data`, the capacity is at least `need`, the buffer may have moved if it is dynamic, and nothing else
has changed except the local variable at `stack`. A dynamic buffer's allocator has been called to make room if there was not enough, then for a block of 240 bytes, then to free that block. The only other possibility is that
the allocator's answer is illegal (`env`). The returned view is the invalid view. -/
def Crypted (s : St) (p : Addr) (b : Buf) (stack : Addr) (r : BufRes) (need : Nat) (data : List Byte) (p' : Addr) (s' : St) : Prop :=
  r = .ok (.invalid, some p', s') ∧
  if b.Dynamic then
    Changed s p b data (max b.cap need) p' s' ∧
    ∃ c, s'.log = ⟨b.al, c, 0, 0⟩ :: ⟨b.al, 0, 240, c⟩ :: (if need ≤ b.cap then s.log else ⟨b.al, p, storage need, p'⟩ :: s.log)
  else
    ∃ m1, (∀ a, ¬ InRange stack 240 a → m1 a = s.mem a) ∧ (∀ a, (m1 a).isSome = (s.mem a).isSome) ∧ Changed { s with mem := m1 } p b data b.cap p' s'

end CStr
