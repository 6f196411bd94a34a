import Verif.Spec.Observe
import Verif.Spec.Crypt
import Verif.Model.Io
import Verif.Model.Crypt
/-
  Programs with an input and an output. Besides commands and questions (Spec/Observe.lean) a program may read from a descriptor into a buffer and write a buffer or a view to a descriptor. In each
  such call the operating system decides how much it transfers, or that the call fails (Model/Io.lean). The bytes still to come and the bytes written so far are the world.
  It may also use the other accessories: pack an integer into a buffer, unpack one from a view, encrypt and decrypt a buffer (Model/Pack.lean, Model/Crypt.lean, on a little-endian host).
  `IAct.Step` says what happens in terms of byte strings, `IAct.exec` does it with the modelled functions.
-/
namespace CStr

/-- What is outside the program: the bytes still to come from the input descriptor, the bytes written to the output descriptor. -/
structure World where
  inp : List Byte
  out : List Byte

/-- An action of a program with input and output. -/
inductive IAct where
  /-- a command or a question -/
  | act (x : Act)
  /-- `strbuf_append_read(&h, input)` -/
  | read (h : Nat)
  /-- `strbuf_write(output, &h)` -/
  | write (h : Nat)
  /-- `strview_write(output, &v[i])` -/
  | writeView (i : Nat)
  /-- `STRBUF_PACK_LE(&h, x)` or `STRBUF_PACK_BE(&h, x)`; the macro's variable is in the memory area `k` -/
  | pack (h k : Nat) (o : Order) (t : IntTy) (x : Int)
  /-- `STRVIEW_UNPACK_LE(&x, &v[i])` or `STRVIEW_UNPACK_BE(&x, &v[i])`; `x` is in the memory area `k` -/
  | unpack (i k : Nat) (o : Order) (t : IntTy)
  /-- `strbuf_encrypt(&h, key->cstr, iv->cstr)`; the local variable of the called function is in the memory area `k` -/
  | encrypt (h key iv k : Nat)
  /-- `strbuf_decrypt(&h, key->cstr, iv->cstr)` -/
  | decrypt (h key iv k : Nat)

/-- A view of the buffer in `h`, after the content of the buffer was changed where it is to `n` bytes, is of use if it is inside these. -/
def AView.within (h n : Nat) : AView → AView
  | .part (.buf k) i m => if k = h ∧ n < i + m then .stale else .part (.buf k) i m
  | a => a

/-- The content of the buffer `b` in `h` is now `l`, in the same place. -/
def Mixed.content (A : Mixed) (h : Nat) (b : Buf) (l : List Byte) : Mixed :=
  { A with σ := A.σ.set h (some (.buf { b with data := l })), views := A.views.map (AView.within h l.length) }

/-- The buffer in `h` is now `b'`, perhaps in another place: the views of it are of no use any more. -/
def AView.lost (h : Nat) : AView → AView
  | .part (.buf k) i m => if k = h then .stale else .part (.buf k) i m
  | a => a

def Mixed.moved (A : Mixed) (h : Nat) (b' : Buf) : Mixed :=
  { A with σ := A.σ.set h (some (.buf b')), views := A.views.map (AView.lost h) }

/-- What decryption makes of `data`, with a key of 32 and an init vector of 16 bytes: the whole blocks are decrypted, and as many bytes are removed from the end as the last byte of the last block says. -/
def Deciphers (key iv data out : List Byte) : Prop :=
  key.length = 32 ∧ iv.length = 16 ∧ ∃ c r plain x, data = c ++ r ∧ r.length < 16 ∧ Aes256Cbc key iv (plain ++ [x]) c ∧ x.toNat ≤ data.length ∧ out = (plain ++ [x] ++ r).take (data.length - x.toNat)

/-- The memory area `k` has `n` bytes. -/
def AState.Area (σ : AState) (k n : Nat) : Prop := ∃ m, σ k = some (.mem m) ∧ n ≤ m

/-- The first `n` bytes of the buffer in `h` are a key (an init vector). -/
def AState.Key (σ : AState) (h n : Nat) : Prop := ∃ b, σ h = some (.buf b) ∧ n ≤ b.data.length

/-- Encryption and decryption: there is a buffer, and room for one more block; the key and the init vector are in other buffers; for a buffer of fixed capacity there is
memory for the local variable. -/
def AState.Crypt (σ : AState) (h key iv k : Nat) (b : Buf) : Prop :=
  σ h = some (.buf b) ∧ b.Room (paddedLen b.data.length) ∧ key ≠ h ∧ iv ≠ h ∧ σ.Key key 32 ∧ σ.Key iv 16 ∧ (¬ b.Dynamic → σ.Area k 240)

/-- The buffer after encryption or decryption. -/
def Mixed.crypted (A : Mixed) (h : Nat) (b : Buf) (out : List Byte) : Mixed :=
  if b.Dynamic then A.moved h ⟨out, max b.cap (paddedLen b.data.length), b.al⟩ else A.content h b out

def IAct.Legal (cfg : Cfg) (dflt : Alloc) (K : Nat → List Byte) (A : Mixed) : IAct → Prop
  | act x => x.Legal cfg dflt K A
  | read h | write h => A.σ.Handle h
  | writeView i => A.Fresh i
  | pack h k _ t _ => A.σ.Area k t.width ∧ ∃ b, A.σ h = some (.buf b) ∧ cfg.Handles b (b.data.length + t.width)
  | unpack i k _ t => A.σ.Area k t.width ∧ A.Fresh i ∧ t.width ≤ (A.text K i).length
  | encrypt h key iv k => ∃ b, A.σ.Crypt h key iv k b
  | decrypt h key iv k => ∃ b, A.σ.Crypt h key iv k b ∧ ∃ out, Deciphers ((A.σ.data key).take 32) ((A.σ.data iv).take 16) b.data out

/-- What an action does when the operating system's decision is `d`: from `A` and `w` to `A'` and `w'`, with the answer `a`. -/
def IAct.Step (cfg : Cfg) (dflt : Alloc) (K : Nat → List Byte) (d : Option Nat) (A : Mixed) (w : World) (x : IAct) (a : Answer) (A' : Mixed) (w' : World) : Prop :=
  match x with
  | act x => x.Step cfg dflt K A a A' ∧ w' = w
  | read h =>
    (A.σ h = none ∧ a = .int 0 ∧ A' = A ∧ w' = w) ∨
    ∃ b, A.σ h = some (.buf b) ∧
      ((d = none ∧ a = .int (-1) ∧ A' = A ∧ w' = w) ∨
      ∃ j l rest, d = some j ∧ w.inp = l ++ rest ∧ l.length = min j (min (b.cap - b.data.length) w.inp.length) ∧
        a = .int l.length ∧ A' = A.content h b (b.data ++ l) ∧ w' = { w with inp := rest })
  | write h =>
    (A.σ h = none ∧ a = .int 0 ∧ A' = A ∧ w' = w) ∨
    ∃ b, A.σ h = some (.buf b) ∧
      ((d = none ∧ a = .int (-1) ∧ A' = A ∧ w' = w) ∨
      ∃ j l rest, d = some j ∧ b.data = l ++ rest ∧ l.length = min j b.data.length ∧
        a = .int l.length ∧ A' = A.content h b rest ∧ w' = { w with out := w.out ++ l })
  | writeView i =>
    (A.view i = .null ∧ a = .int 0 ∧ A' = A ∧ w' = w) ∨
    (A.view i ≠ .null ∧
      ((d = none ∧ a = .int (-1) ∧ A' = A ∧ w' = w) ∨
      ∃ j l rest, d = some j ∧ A.text K i = l ++ rest ∧ l.length = min j (A.text K i).length ∧ a = .int l.length ∧ w' = { w with out := w.out ++ l } ∧
        A' = A.shorten i (if l ≠ [] ∧ rest = [] then none else some (l.length, rest.length))))
  | pack h _ o t x =>
    w' = w ∧ a = .done ∧ ∃ b, A.σ h = some (.buf b) ∧
      let e := Edit.insert b.data.length (wire o t x)
      A' = if e.InPlace cfg b then A.content h b (e.content b) else A.moved h (e.apply cfg b)
  | unpack i _ o t =>
    w' = w ∧ ∃ x rest, t.InRange x ∧ A.text K i = wire o t x ++ rest ∧ a = .int x ∧ A' = A.shorten i (if rest = [] then none else some (t.width, rest.length))
  | encrypt h key iv _ =>
    w' = w ∧ a = .done ∧ ∃ b out, A.σ h = some (.buf b) ∧ Aes256Cbc ((A.σ.data key).take 32) ((A.σ.data iv).take 16) (pkcs7 b.data) out ∧ A' = A.crypted h b out
  | decrypt h key iv _ =>
    w' = w ∧ a = .done ∧ ∃ b out, A.σ h = some (.buf b) ∧ Deciphers ((A.σ.data key).take 32) ((A.σ.data iv).take 16) b.data out ∧ A' = A.crypted h b out

/-- A program with input and output: its next action, given all the answers it has got; `none` when it has finished. -/
abbrev IProgram := List Answer → Option IAct

/-- The first `n` actions of the program; `os k` is what the operating system decides if the action with number `k` is a call to it. -/
inductive IPlays (cfg : Cfg) (dflt : Alloc) (K : Nat → List Byte) (os : Nat → Option Nat) (p : IProgram) :
    Nat → List Answer → Mixed → World → List Answer → Mixed → World → Prop
  | zero (t : List Answer) (A : Mixed) (w : World) : IPlays cfg dflt K os p 0 t A w t A w
  | stop {n : Nat} {t : List Answer} {A : Mixed} {w : World} : p t = none → IPlays cfg dflt K os p (n + 1) t A w t A w
  | next {n : Nat} {t t' : List Answer} {x : IAct} {a : Answer} {A B C : Mixed} {w w1 w2 : World} : p t = some x → x.Step cfg dflt K (os t.length) A w a B w1 →
      IPlays cfg dflt K os p n (t ++ [a]) B w1 t' C w2 → IPlays cfg dflt K os p (n + 1) t A w t' C w2

/-- Every action is legal where it is executed, for the first `n` actions. -/
def LegalIPlay (cfg : Cfg) (dflt : Alloc) (K : Nat → List Byte) (os : Nat → Option Nat) (p : IProgram) : Nat → List Answer → Mixed → World → Prop
  | 0, _, _, _ => True
  | n + 1, t, A, w => ∀ x, p t = some x → x.Legal cfg dflt K A ∧ ∀ a B w1, x.Step cfg dflt K (os t.length) A w a B w1 → LegalIPlay cfg dflt K os p n (t ++ [a]) B w1

/-! ## The machine side -/

/-- Execute an action. -/
def IAct.exec (cfg : Cfg) (dflt : Alloc) (K : Nat → List Byte) (ka : Nat → Addr) (d : Option Nat) (X : MState) (w : World) : IAct → Res (Answer × MState × World)
  | act x => do
    let (a, X) ← x.exec cfg dflt K ka X
    .ok (a, X, w)
  | read h => do
    let (n, s, inp) ← strbuf_append_read cfg X.s (some (X.ρ h)) d w.inp
    .ok (.int n, { X with s := s }, { w with inp := inp })
  | write h => do
    let (n, bp, s, out) ← strbuf_write cfg X.s (some (X.ρ h)) d w.out
    .ok (.int n, { X with ρ := X.ρ.setPtr h bp, s := s }, { w with out := out })
  | writeView i => do
    match ← strview_write X.s.mem (some (viewAt X.views i)) d w.out with
    | (n, some v, out) => .ok (.int n, { X with views := X.views.set i v }, { w with out := out })
    | _ => .env .other
  | pack h k o t x => do
    let (_, bp, s) ← STRBUF_PACK cfg .little o t X.s (X.ρ k) (some (X.ρ h)) x
    .ok (.done, { X with ρ := X.ρ.setPtr h bp, s := s }, w)
  | unpack i k o t => do
    let (x, m, v) ← STRVIEW_UNPACK .little o t X.s.mem (X.ρ k) (viewAt X.views i)
    .ok (.int x, { X with views := X.views.set i v, s := { X.s with mem := m } }, w)
  | encrypt h key iv k => do
    let (_, bp, s) ← strbuf_encrypt cfg .little X.s (some (X.ρ h)) (cstrOf (X.ρ key)) (cstrOf (X.ρ iv)) (X.ρ k)
    .ok (.done, { X with ρ := X.ρ.setPtr h bp, s := s }, w)
  | decrypt h key iv k => do
    let (_, bp, s) ← strbuf_decrypt cfg .little X.s (some (X.ρ h)) (cstrOf (X.ρ key)) (cstrOf (X.ρ iv)) (X.ρ k)
    .ok (.done, { X with ρ := X.ρ.setPtr h bp, s := s }, w)

/-- The first `n` actions of a program. -/
def iplay (cfg : Cfg) (dflt : Alloc) (K : Nat → List Byte) (ka : Nat → Addr) (os : Nat → Option Nat) (p : IProgram) :
    Nat → List Answer → MState → World → Res (List Answer × MState × World)
  | 0, t, X, w => .ok (t, X, w)
  | n + 1, t, X, w =>
    match p t with
    | none => .ok (t, X, w)
    | some x => do
      let (a, X, w) ← x.exec cfg dflt K ka (os t.length) X w
      iplay cfg dflt K ka os p n (t ++ [a]) X w

end CStr
