import Verif.Spec.Grep
/-
  Two programs written with the library and its accessories (Spec/Filter.lean). The first encrypts its input, with the length in front, and writes the result to its output:
```
key = strbuf_create_init(<constant 0>, NULL);  iv = strbuf_create_init(<constant 1>, NULL);
in = strbuf_create_empty(0, NULL);  out = strbuf_create_empty(0, NULL);
do { strbuf_grow(&in, in->size + 1); n = strbuf_append_read(&in, STDIN); } while(n);
STRBUF_PACK_BE(&out, (uint32_t)in->size);
strbuf_append(&out, strbuf_view(&in));
strbuf_encrypt(&out, key->cstr, iv->cstr);
while(out->size) strbuf_write(STDOUT, &out);
```
  The second does the reverse:
```
key = strbuf_create_init(<constant 0>, NULL);  iv = strbuf_create_init(<constant 1>, NULL);
in = strbuf_create_empty(0, NULL);
do { strbuf_grow(&in, in->size + 1); n = strbuf_append_read(&in, STDIN); } while(n);
strbuf_decrypt(&in, key->cstr, iv->cstr);
text = strbuf_view(&in);
STRVIEW_UNPACK_BE(&len, &text);
if(len == text.size) while(text.size) strview_write(STDOUT, &text);
```
  The variables `in`, `out`, `key`, `iv` are 0, 1, 2, 3. The integer variables that the macros use are in the memory area 9.
-/
namespace CStr

/-- The places in the first program. -/
inductive Seal where
  | key | iv | inp | out
  | top
  | grow (n : Int)
  | read
  | size
  | pack (n : Int)
  | view
  | append
  | crypt
  | flush
  | write
  | stop

def Seal.act : Seal → Option IAct
  | .key => some (.act (.cmd (.cmd (.createInit 2 (.const 0) none))))
  | .iv => some (.act (.cmd (.cmd (.createInit 3 (.const 1) none))))
  | .inp => some (.act (.cmd (.cmd (.createEmpty 0 0 none))))
  | .out => some (.act (.cmd (.cmd (.createEmpty 1 0 none))))
  | .top => some (.act (.ask (.bufSize 0)))
  | .grow n => some (.act (.cmd (.cmd (.op 0 (.grow (n + 1))))))
  | .read => some (.read 0)
  | .size => some (.act (.ask (.bufSize 0)))
  | .pack n => some (.pack 1 9 .BE .u32 n)
  | .view => some (.act (.cmd (.view 0)))
  | .append => some (.act (.cmd (.op 1 (.append 0))))
  | .crypt => some (.encrypt 1 2 3 9)
  | .flush => some (.act (.ask (.bufSize 1)))
  | .write => some (.write 1)
  | .stop => none

def Seal.next : Seal → Answer → Seal
  | .key, _ => .iv
  | .iv, _ => .inp
  | .inp, _ => .out
  | .out, _ => .top
  | .top, .int n => .grow n
  | .grow _, _ => .read
  | .read, .int n => if n = 0 then .size else .top
  | .size, .int n => .pack n
  | .pack _, _ => .view
  | .view, _ => .append
  | .append, _ => .crypt
  | .crypt, _ => .flush
  | .flush, .int n => if n = 0 then .stop else .write
  | .write, _ => .flush
  | p, _ => p

/-- The first program. -/
def sealer : IProgram := Machine.program ⟨.key, Seal.act, Seal.next⟩

/-- The places in the second program. -/
inductive Unseal where
  | key | iv | inp
  | top
  | grow (n : Int)
  | read
  | crypt
  | view
  | unpack
  | check (n : Int)
  | left
  | write
  | stop

def Unseal.act : Unseal → Option IAct
  | .key => some (.act (.cmd (.cmd (.createInit 2 (.const 0) none))))
  | .iv => some (.act (.cmd (.cmd (.createInit 3 (.const 1) none))))
  | .inp => some (.act (.cmd (.cmd (.createEmpty 0 0 none))))
  | .top => some (.act (.ask (.bufSize 0)))
  | .grow n => some (.act (.cmd (.cmd (.op 0 (.grow (n + 1))))))
  | .read => some (.read 0)
  | .crypt => some (.decrypt 0 2 3 9)
  | .view => some (.act (.cmd (.view 0)))
  | .unpack => some (.unpack 0 9 .BE .u32)
  | .check _ => some (.act (.ask (.viewSize 0)))
  | .left => some (.act (.ask (.viewSize 0)))
  | .write => some (.writeView 0)
  | .stop => none

def Unseal.next : Unseal → Answer → Unseal
  | .key, _ => .iv
  | .iv, _ => .inp
  | .inp, _ => .top
  | .top, .int n => .grow n
  | .grow _, _ => .read
  | .read, .int n => if n = 0 then .crypt else .top
  | .crypt, _ => .view
  | .view, _ => .unpack
  | .unpack, .int n => .check n
  | .check n, .int m => if m = n then .left else .stop
  | .left, .int n => if n = 0 then .stop else .write
  | .write, _ => .left
  | p, _ => p

/-- The second program. -/
def opener : IProgram := Machine.program ⟨.key, Unseal.act, Unseal.next⟩

/-- `c` is the message `m` sealed: the length in four bytes, most significant first, then the message, encrypted with AES-256 in cipher block chaining mode after padding. -/
def IsSealed (key iv m c : List Byte) : Prop := Aes256Cbc key iv (pkcs7 (wire .BE .u32 m.length ++ m)) c

/-- At the start there is only the memory area for the variables of the macros. -/
def sealStart (n : Nat) : Mixed := ⟨fun k => if k = 9 then some (.mem n) else none, [], 0⟩

end CStr
