import Verif.Spec.HeldViews
import Verif.Spec.Num
/-
  Programs that look at what they hold and decide what to do next by what they see. A program is any function from the answers it has got so far to its next action: a command
  (Spec/HeldViews.lean) or a question. This covers branches, loops and recursion of every kind.
  `Query.Step` says what the answer is, in terms of byte strings; `Query.ask` gets it from the modelled functions or by reading the fields and bytes the program may read.
-/
namespace CStr

/-- What a program sees. -/
inductive Answer where
  /-- a command has been executed -/
  | done
  | bool (b : Bool)
  | int (n : Int)
  | char (c : Byte)
  /-- the error number and the destination of a conversion -/
  | conv (err : Int) (dst : Int)
  deriving DecidableEq

/-- Questions; `i`, `j` are numbers of views, `h` is a variable. -/
inductive Query where
  /-- `strview_is_valid(v[i])` -/
  | valid (i : Nat)
  /-- `v[i].size` -/
  | viewSize (i : Nat)
  /-- `v[i].data[k]` -/
  | viewChar (i k : Nat)
  /-- `strview_is_match(v[i], v[j])` and so on -/
  | isMatch (i j : Nat)
  | isMatchNocase (i j : Nat)
  | startsWith (i j : Nat)
  | startsWithNocase (i j : Nat)
  | contains (i j : Nat)
  | containsNocase (i j : Nat)
  /-- `strview_compare(v[i], v[j])`: is it negative, zero or positive? -/
  | compare (i j : Nat)
  /-- `h == NULL` -/
  | isNull (h : Nat)
  /-- `h->size` -/
  | bufSize (h : Nat)
  /-- `h->capacity` -/
  | capacity (h : Nat)
  /-- `h->cstr[k]`, the terminator included -/
  | bufChar (h k : Nat)
  /-- `h[k]` of a C string obtained from `strbuf_to_cstr`, the terminator included -/
  | strChar (h k : Nat)
  /-- `strview_pop_first_char(&v[i])` -/
  | popChar (i : Nat)
  /-- `strnum_value_..(&d, &v[i], o)` for an unsigned type; `d` is what the destination holds before -/
  | unsigned (t : UTy) (i : Nat) (o : UInt32) (d : Nat)
  /-- the same for a signed type -/
  | signed (t : STy) (i : Nat) (o : UInt32) (d : Int)

/-- The views used. -/
def Query.uses : Query → List Nat
  | valid i | viewSize i | viewChar i _ | popChar i | unsigned _ i _ _ | signed _ i _ _ => [i]
  | isMatch i j | isMatchNocase i j | startsWith i j | startsWithNocase i j | contains i j | containsNocase i j | compare i j => [i, j]
  | isNull _ | bufSize _ | capacity _ | bufChar _ _ | strChar _ _ => []

/-- A question is legitimate: no stale view is used, and what is read is there. -/
def Query.Legal (K : Nat → List Byte) (A : Mixed) (q : Query) : Prop :=
  (∀ i ∈ q.uses, A.Fresh i) ∧
  match q with
  | viewChar i k => k < (A.text K i).length
  | bufSize h | capacity h => ∃ b, A.σ h = some (.buf b)
  | bufChar h k => ∃ b, A.σ h = some (.buf b) ∧ k ≤ b.data.length
  | strChar h k => ∃ l al, A.σ h = some (.str l al) ∧ k ≤ l.length
  | _ => True

/-- The view `i` is now its part `c`. -/
def Mixed.shorten (A : Mixed) (i : Nat) (c : Cut) : Mixed := { A with views := A.views.set i ((A.view i).cut c) }

/-- A conversion of a number read from the text `l` of view `i`, with the digits `ds` in front of `rest`: fails without digits, or if the value is out of range; otherwise the digits are removed
from the front of the view. -/
def ConvStep (A : Mixed) (i : Nat) (l ds rest : List Byte) (inRange : Prop) (d val : Int) (a : Answer) (A' : Mixed) : Prop :=
  (ds = [] ∧ a = .conv EINVAL d ∧ A' = A) ∨ (ds ≠ [] ∧ ¬ inRange ∧ a = .conv ERANGE d ∧ A' = A) ∨
  (ds ≠ [] ∧ inRange ∧ a = .conv 0 val ∧ A' = A.shorten i (some (l.length - rest.length, rest.length)))

/-- What the answer is, and what the program holds after the question. -/
def Query.Step (K : Nat → List Byte) (A : Mixed) (q : Query) (a : Answer) (A' : Mixed) : Prop :=
  match q with
  | valid i => A' = A ∧ ∃ r, a = .bool r ∧ (r = true ↔ A.view i ≠ .null)
  | viewSize i => A' = A ∧ a = .int (A.text K i).length
  | viewChar i k => A' = A ∧ ∃ c, a = .char c ∧ (A.text K i)[k]? = some c
  | isMatch i j => A' = A ∧ ∃ r, a = .bool r ∧ (r = true ↔ A.text K i = A.text K j)
  | isMatchNocase i j => A' = A ∧ ∃ r, a = .bool r ∧ (r = true ↔ (A.text K i).map toUpper = (A.text K j).map toUpper)
  | startsWith i j => A' = A ∧ ∃ r, a = .bool r ∧
      (r = true ↔ A.view j = .null ∧ A.view i = .null ∨ A.view j ≠ .null ∧ A.text K j <+: A.text K i)
  | startsWithNocase i j => A' = A ∧ ∃ r, a = .bool r ∧
      (r = true ↔ A.view j = .null ∧ A.view i = .null ∨ A.view j ≠ .null ∧ (A.text K j).map toUpper <+: (A.text K i).map toUpper)
  | contains i j => A' = A ∧ ∃ r, a = .bool r ∧ (r = true ↔ A.view i ≠ .null ∧ A.view j ≠ .null ∧ A.text K j <:+: A.text K i)
  | containsNocase i j => A' = A ∧ ∃ r, a = .bool r ∧
      (r = true ↔ A.view i ≠ .null ∧ A.view j ≠ .null ∧ (A.text K j).map toUpper <:+: (A.text K i).map toUpper)
  | compare i j => A' = A ∧ ((a = .int (-1) ∧ A.text K i < A.text K j) ∨ (a = .int 0 ∧ A.text K i = A.text K j) ∨ (a = .int 1 ∧ A.text K j < A.text K i))
  | isNull h => A' = A ∧ ∃ r, a = .bool r ∧ (r = true ↔ A.σ h = none)
  | bufSize h => A' = A ∧ ∃ b, A.σ h = some (.buf b) ∧ a = .int b.data.length
  | capacity h => A' = A ∧ ∃ b, A.σ h = some (.buf b) ∧ a = .int b.cap
  | bufChar h k => A' = A ∧ ∃ b c, A.σ h = some (.buf b) ∧ (b.data ++ [0])[k]? = some c ∧ a = .char c
  | strChar h k => A' = A ∧ ∃ l al c, A.σ h = some (.str l al) ∧ (l ++ [0])[k]? = some c ∧ a = .char c
  | popChar i => (A.text K i = [] ∧ a = .char 0 ∧ A' = A) ∨ ∃ c t, A.text K i = c :: t ∧ a = .char c ∧ A' = A.shorten i (some (1, t.length))
  | unsigned t i o d => ∃ l1 l2 base ds n rest, AfterSpaces o (A.text K i) l1 ∧ AfterPrefix o l1 base l2 ∧ DigitRunActual base l2 ds n rest ∧
      ConvStep A i (A.text K i) ds rest (n ≤ t.max) d n a A'
  | signed t i o d => ∃ l1 l2 l3 neg base ds n rest, AfterSpaces o (A.text K i) l1 ∧ AfterSign o l1 neg l2 ∧ AfterPrefix o l2 base l3 ∧ DigitRunActual base l3 ds n rest ∧
      ConvStep A i (A.text K i) ds rest (t.InRange (signedVal neg n)) d (signedVal neg n) a A'

/-! ## Programs -/

/-- An action: a command or a question. -/
inductive Act where
  | cmd (c : MCmd)
  | ask (q : Query)

def Act.Legal (cfg : Cfg) (dflt : Alloc) (K : Nat → List Byte) (A : Mixed) : Act → Prop
  | cmd c => c.Legal cfg dflt K A
  | ask q => q.Legal K A

def Act.Step (cfg : Cfg) (dflt : Alloc) (K : Nat → List Byte) (A : Mixed) (x : Act) (a : Answer) (A' : Mixed) : Prop :=
  match x with
  | cmd c => a = .done ∧ c.Step cfg dflt K A A'
  | ask q => q.Step K A a A'

/-- A program: its next action, given all the answers it has got; `none` when it has finished. -/
abbrev Program := List Answer → Option Act

/-- The first `n` actions of the program, begun with the answers `t` and ended with the answers `t'`. -/
inductive Plays (cfg : Cfg) (dflt : Alloc) (K : Nat → List Byte) (p : Program) : Nat → List Answer → Mixed → List Answer → Mixed → Prop
  | zero (t : List Answer) (A : Mixed) : Plays cfg dflt K p 0 t A t A
  | stop {n : Nat} {t : List Answer} {A : Mixed} : p t = none → Plays cfg dflt K p (n + 1) t A t A
  | next {n : Nat} {t t' : List Answer} {x : Act} {a : Answer} {A B C : Mixed} : p t = some x → x.Step cfg dflt K A a B →
      Plays cfg dflt K p n (t ++ [a]) B t' C → Plays cfg dflt K p (n + 1) t A t' C

/-- Every action is legal where it is executed, for the first `n` actions. -/
def LegalPlay (cfg : Cfg) (dflt : Alloc) (K : Nat → List Byte) (p : Program) : Nat → List Answer → Mixed → Prop
  | 0, _, _ => True
  | n + 1, t, A => ∀ x, p t = some x → x.Legal cfg dflt K A ∧ ∀ a B, x.Step cfg dflt K A a B → LegalPlay cfg dflt K p n (t ++ [a]) B

/-! ## The machine side -/

/-- A function that answers yes or no. -/
def yesNo (X : MState) (r : Res Bool) : Res (Answer × MState) := do
  let b ← r
  .ok (.bool b, X)

/-- A conversion that may change view `i`. -/
def converted (X : MState) (i : Nat) : Int × Option Int × Option View → Res (Answer × MState)
  | (err, some d, some v) => .ok (.conv err d, { X with views := X.views.set i v })
  | _ => .env .other

/-- Ask. -/
def Query.ask (X : MState) : Query → Res (Answer × MState)
  | valid i => .ok (.bool (strview_is_valid (viewAt X.views i)), X)
  | viewSize i => .ok (.int (viewAt X.views i).size, X)
  | viewChar i k => do
    let c ← load X.s.mem ((viewAt X.views i).data + k)
    .ok (.char c, X)
  | isMatch i j => yesNo X (strview_is_match_strview X.s.mem (viewAt X.views i) (viewAt X.views j))
  | isMatchNocase i j => yesNo X (strview_is_match_nocase_strview X.s.mem (viewAt X.views i) (viewAt X.views j))
  | startsWith i j => yesNo X (strview_starts_with_strview X.s.mem (viewAt X.views i) (viewAt X.views j))
  | startsWithNocase i j => yesNo X (strview_starts_with_nocase_strview X.s.mem (viewAt X.views i) (viewAt X.views j))
  | contains i j => yesNo X (strview_contains X.s.mem (viewAt X.views i) (viewAt X.views j))
  | containsNocase i j => yesNo X (strview_contains_nocase X.s.mem (viewAt X.views i) (viewAt X.views j))
  | compare i j => do
    let c ← strview_compare X.s.mem (viewAt X.views i) (viewAt X.views j)
    .ok (.int c.sign, X)
  | isNull h => .ok (.bool (X.ρ h == 0), X)
  | bufSize h => do
    let n ← getSize X.s.mem (X.ρ h)
    .ok (.int n, X)
  | capacity h => do
    let n ← getCap X.s.mem (X.ρ h)
    .ok (.int n, X)
  | bufChar h k => do
    let c ← load X.s.mem (X.ρ h + 24 + k)
    .ok (.char c, X)
  | strChar h k => do
    let c ← load X.s.mem (X.ρ h + k)
    .ok (.char c, X)
  | popChar i => do
    match ← strview_pop_first_char X.s.mem (some (viewAt X.views i)) with
    | (c, some v) => .ok (.char c, { X with views := X.views.set i v })
    | (_, none) => .env .other
  | unsigned t i o d => do
    let (err, d, v) ← strnum_value_u t X.s.mem (some d) (some (viewAt X.views i)) o
    converted X i (err, d.map Int.ofNat, v)
  | signed t i o d => do
    let r ← strnum_value_s t X.s.mem (some d) (some (viewAt X.views i)) o
    converted X i r

/-- Execute an action. -/
def Act.exec (cfg : Cfg) (dflt : Alloc) (K : Nat → List Byte) (ka : Nat → Addr) (X : MState) : Act → Res (Answer × MState)
  | cmd c => do
    let X ← c.exec cfg dflt K ka X
    .ok (.done, X)
  | ask q => q.ask X

/-- The first `n` actions of a program. -/
def play (cfg : Cfg) (dflt : Alloc) (K : Nat → List Byte) (ka : Nat → Addr) (p : Program) : Nat → List Answer → MState → Res (List Answer × MState)
  | 0, t, X => .ok (t, X)
  | n + 1, t, X =>
    match p t with
    | none => .ok (t, X)
    | some x => do
      let (a, X) ← x.exec cfg dflt K ka X
      play cfg dflt K ka p n (t ++ [a]) X

end CStr
