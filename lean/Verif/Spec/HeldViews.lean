import Verif.Spec.BufHist
import Verif.Spec.ViewHist
import Verif.Spec.Threads
/-
  Programs that keep views of buffers in variables while they change buffers: buffer commands (Spec/BufHist.lean), view functions, and buffer functions that
  take a view the program has kept. A view of a buffer is stale as soon as its buffer moves, is destroyed, or has no bytes any more at the place of the view; then it
  must not be used any more. All other views must stay what they are, and show the bytes that are at their place now.
  `Mixed`, `MCmd.Legal`, `MCmd.Step` give the meaning in terms of byte strings and places in them; `MCmd.exec` runs the modelled functions.
-/
namespace CStr

/-! ## Views as places in a text -/

/-- A view that is kept: the invalid view, the `n` bytes from offset `i` in a text, or a view whose buffer has been changed since. -/
inductive AView where
  | null
  | part (r : Ref) (i n : Nat)
  | stale
  deriving DecidableEq

/-- The bytes of the view. -/
def AView.bytes (K : Nat → List Byte) (σ : AState) : AView → List Byte
  | .part r i n => ((r.text K σ).drop i).take n
  | _ => []

/-- The view as an argument. -/
def AView.src : AView → Src
  | .part r i n => .part r i n
  | _ => .null

/-- A part of a text, offset and length; `none` is the invalid view. -/
abbrev Cut := Option (Nat × Nat)

/-- The part of a view. -/
def AView.cut : AView → Cut → AView
  | .part r i _, some (j, n) => .part r (i + j) n
  | _, _ => .null

/-- `trim_start` of `l` gives `c`. -/
def TrimStartTo (cs l : List Byte) (c : Cut) : Prop :=
  ∃ pre rest, l = pre ++ rest ∧ (∀ x ∈ pre, x ∈ cs) ∧ (∀ x, rest.head? = some x → x ∉ cs) ∧ c = some (pre.length, rest.length)

def TrimEndTo (cs l : List Byte) (c : Cut) : Prop :=
  ∃ rest suf, l = rest ++ suf ∧ (∀ x ∈ suf, x ∈ cs) ∧ (∀ x, rest.getLast? = some x → x ∉ cs) ∧ c = some (0, rest.length)

/-- If nothing remains, the result is at the end of the text. -/
def TrimTo (cs l : List Byte) (c : Cut) : Prop :=
  ∃ pre rest suf, l = pre ++ rest ++ suf ∧ (∀ x ∈ pre, x ∈ cs) ∧ (∀ x ∈ suf, x ∈ cs) ∧ (∀ x, rest.head? = some x → x ∉ cs) ∧
    (∀ x, rest.getLast? = some x → x ∉ cs) ∧ (rest = [] → suf = []) ∧ c = some (pre.length, rest.length)

/-- The first occurrence. -/
def FindFirstTo (fold : Byte → Byte) (n l : List Byte) (c : Cut) : Prop :=
  (∃ i, OccursAt fold n l i ∧ (∀ j, OccursAt fold n l j → i ≤ j) ∧ c = some (i, n.length)) ∨ ((∀ i, ¬ OccursAt fold n l i) ∧ c = none)

/-- The last occurrence. -/
def FindLastTo (fold : Byte → Byte) (n l : List Byte) (c : Cut) : Prop :=
  (∃ i, OccursAt fold n l i ∧ (∀ j, OccursAt fold n l j → j ≤ i) ∧ c = some (i, n.length)) ∨ ((∀ i, ¬ OccursAt fold n l i) ∧ c = none)

/-- As many layers of the first byte as there are, are removed. -/
def DequoteTo (l : List Byte) (c : Cut) : Prop :=
  (l = [] ∧ c = some (0, 0)) ∨ ∃ q t n mid, l = q :: t ∧ Layers q mid n l ∧ ¬ (1 < mid.length ∧ mid.head? = some q ∧ mid.getLast? = some q) ∧
    c = some (n, mid.length)

/-- Where a part behind a delimiter is: behind it, unless it is empty. -/
def behindAt (pre post : List Byte) : Nat := if post = [] then pre.length else pre.length + 1

/-- `strview_split_first_delim` of `l`: the part returned and what the source becomes. -/
def SplitFirstTo (excl : Bool) (ds l : List Byte) (c src : Cut) : Prop :=
  (∃ pre d post, SplitsFwd excl ds l pre d post ∧ (∀ pre' d' post', SplitsFwd excl ds l pre' d' post' → pre.length ≤ pre'.length) ∧
    c = some (0, pre.length) ∧ src = some (behindAt pre post, post.length)) ∨
  ((∀ pre d post, ¬ SplitsFwd excl ds l pre d post) ∧ c = some (0, l.length) ∧ src = none)

def SplitLastTo (excl : Bool) (ds l : List Byte) (c src : Cut) : Prop :=
  (∃ pre d post, SplitsBwd excl ds l pre d post ∧ (∀ pre' d' post', SplitsBwd excl ds l pre' d' post' → pre'.length ≤ pre.length) ∧
    c = some (behindAt pre post, post.length) ∧ src = some (0, pre.length)) ∨
  ((∀ pre d post, ¬ SplitsBwd excl ds l pre d post) ∧ c = some (0, l.length) ∧ src = none)

def SplitIndexTo (n : Int) (l : List Byte) (c src : Cut) : Prop :=
  ∃ a b, l = a ++ b ∧
    ((0 ≤ n ∧ (a.length : Int) = min n l.length ∧ c = some (0, a.length) ∧ src = some (a.length, b.length)) ∨
     (n < 0 ∧ (b.length : Int) = min (-n) l.length ∧ c = some (a.length, b.length) ∧ src = some (0, a.length)))

/-- `strview_split_line` of `l` with the discriminator `e`, which becomes `e'`. -/
def SplitLineTo (e : Byte) (l : List Byte) (c src : Cut) (e' : Byte) : Prop :=
  let t := skipPending e l
  let k := l.length - t.length
  (∃ line term rest, FirstLine t line term rest ∧ c = some (k, line.length) ∧ src = some (k + restAt line term rest, rest.length) ∧
    e' = pendingAfter term) ∨
  (NoEol t ∧ c = none ∧ src = some (k, t.length) ∧ e' = e)

/-- A place `x` in the text of `r` relative to a view: how far behind its start, if it is in the view or at its end. -/
def AView.offset : AView → Ref → Nat → Option Nat
  | .part r i n, r', x => if r = r' ∧ i ≤ x ∧ x ≤ i + n then some (x - i) else none
  | _, _, _ => none

/-! ## Calls of view functions -/

/-- One call of a view function. As `VOp`, but delimiters are NULL or a constant of the program. -/
inductive VCall where
  | sub (i : Nat) (b e : Int)
  | trim (i j : Nat)
  | trimStart (i j : Nat)
  | trimEnd (i j : Nat)
  | findFirst (i j : Nat)
  | findFirstNocase (i j : Nat)
  | findLast (i j : Nat)
  | findLastNocase (i j : Nat)
  | splitFirst (i : Nat) (delims : Option Nat) (excl : Bool)
  | splitLast (i : Nat) (delims : Option Nat) (excl : Bool)
  | splitIndex (i : Nat) (n : Int)
  | splitLeft (i j : Nat)
  | splitRight (i j : Nat)
  | pop (i : Nat)
  | splitLine (i : Nat)
  | splitLineNull (i : Nat)
  | dequote (i : Nat)

/-- The call, the constants being at `ka`. -/
def VCall.op (ka : Nat → Addr) : VCall → VOp
  | sub i b e => .sub i b e
  | trim i j => .trim i j
  | trimStart i j => .trimStart i j
  | trimEnd i j => .trimEnd i j
  | findFirst i j => .findFirst i j
  | findFirstNocase i j => .findFirstNocase i j
  | findLast i j => .findLast i j
  | findLastNocase i j => .findLastNocase i j
  | splitFirst i d x => .splitFirst i ((d.map ka).getD 0) x
  | splitLast i d x => .splitLast i ((d.map ka).getD 0) x
  | splitIndex i n => .splitIndex i n
  | splitLeft i j => .splitLeft i j
  | splitRight i j => .splitRight i j
  | pop i => .pop i
  | splitLine i => .splitLine i
  | splitLineNull i => .splitLineNull i
  | dequote i => .dequote i

/-- The views used. -/
def VCall.uses : VCall → List Nat
  | trim i j | trimStart i j | trimEnd i j | findFirst i j | findFirstNocase i j | findLast i j | findLastNocase i j | splitLeft i j | splitRight i j =>
    [i, j]
  | sub i _ _ | splitFirst i _ _ | splitLast i _ _ | splitIndex i _ | pop i | splitLine i | splitLineNull i | dequote i => [i]

/-- What the program holds: its buffers, the views, and the `eol` variable. -/
structure Mixed where
  σ : AState
  views : List AView
  eol : Byte

/-- View `i`; a view that is not held is the invalid view. -/
def Mixed.view (A : Mixed) (i : Nat) : AView := A.views.getD i .null

/-- The bytes of view `i`. -/
def Mixed.text (K : Nat → List Byte) (A : Mixed) (i : Nat) : List Byte := (A.view i).bytes K A.σ

/-- View `i` may be used. -/
def Mixed.Fresh (A : Mixed) (i : Nat) : Prop := A.view i ≠ .stale

/-- The two views are not in different constants (where these are relative to each other is not known). -/
def AView.Comparable : AView → AView → Prop
  | .part (.const k) _ _, .part (.const k') _ _ => k = k'
  | _, _ => True

/-- The arguments are legitimate: no stale view; integers are `int`s; delimiters contain no NUL; the needle of `find_last` is not
longer than the haystack (`C08_deviation_low_address`); positions are comparable. -/
def VCall.Legal (K : Nat → List Byte) (A : Mixed) (c : VCall) : Prop :=
  (∀ i ∈ c.uses, A.Fresh i) ∧
  match c with
  | sub _ b e => (INT_MIN ≤ b ∧ b ≤ INT_MAX) ∧ INT_MIN ≤ e ∧ e ≤ INT_MAX
  | splitFirst _ d _ | splitLast _ d _ => ∀ k, d = some k → (0 : Byte) ∉ K k
  | splitIndex _ n => INT_MIN ≤ n ∧ n ≤ INT_MAX
  | findLast i j | findLastNocase i j => (A.text K j).length ≤ (A.text K i).length
  | splitLeft i j | splitRight i j => (A.view i).Comparable (A.view j)
  | _ => True

/-- The delimiters. -/
def delimsOf (K : Nat → List Byte) (d : Option Nat) : List Byte := (d.map K).getD []

/-- A view is returned. -/
def Mixed.keep (A : Mixed) (i : Nat) (c : Cut) : Mixed := { A with views := A.views ++ [(A.view i).cut c] }

/-- View `i` is changed and a view is returned. -/
def Mixed.keepSplit (A : Mixed) (i : Nat) (c src : Cut) : Mixed :=
  { A with views := A.views.set i ((A.view i).cut src) ++ [(A.view i).cut c] }

/-- The whole text. -/
def whole (l : List Byte) : Cut := some (0, l.length)

/-- Where `strview_split_left` splits. -/
def AView.startIn (a : AView) : AView → Option Nat
  | .part r i _ => a.offset r i
  | _ => none

/-- Where `strview_split_right` splits. -/
def AView.endIn (a : AView) : AView → Option Nat
  | .part r i n => a.offset r (i + n)
  | _ => none

/-- What a call does: with view `i` of the text `l`, and view `j` of the text `l'`, the program holds `A'` after it. An invalid needle is never found. -/
def VCall.Step (K : Nat → List Byte) (A : Mixed) (c : VCall) (A' : Mixed) : Prop :=
  match c with
  | sub i b e => A' = A.keep i ((subRange (A.text K i) b e).map fun r => (r.1, r.2 - r.1))
  | trim i j => ∃ c, TrimTo (A.text K j) (A.text K i) c ∧ A' = A.keep i c
  | trimStart i j => ∃ c, TrimStartTo (A.text K j) (A.text K i) c ∧ A' = A.keep i c
  | trimEnd i j => ∃ c, TrimEndTo (A.text K j) (A.text K i) c ∧ A' = A.keep i c
  | findFirst i j => ∃ c, (A.view j = .null ∧ c = none ∨ A.view j ≠ .null ∧ FindFirstTo id (A.text K j) (A.text K i) c) ∧ A' = A.keep i c
  | findFirstNocase i j => ∃ c, (A.view j = .null ∧ c = none ∨ A.view j ≠ .null ∧ FindFirstTo toUpper (A.text K j) (A.text K i) c) ∧ A' = A.keep i c
  | findLast i j => ∃ c, (A.view j = .null ∧ c = none ∨ A.view j ≠ .null ∧ FindLastTo id (A.text K j) (A.text K i) c) ∧ A' = A.keep i c
  | findLastNocase i j => ∃ c, (A.view j = .null ∧ c = none ∨ A.view j ≠ .null ∧ FindLastTo toUpper (A.text K j) (A.text K i) c) ∧ A' = A.keep i c
  | splitFirst i d x => ∃ c s, SplitFirstTo x (delimsOf K d) (A.text K i) c s ∧ A' = A.keepSplit i c s
  | splitLast i d x => ∃ c s, SplitLastTo x (delimsOf K d) (A.text K i) c s ∧ A' = A.keepSplit i c s
  | splitIndex i n => ∃ c s, SplitIndexTo n (A.text K i) c s ∧ A' = A.keepSplit i c s
  | splitLeft i j =>
    match (A.view i).startIn (A.view j) with
    | some o => A' = A.keepSplit i (some (0, o)) (some (o, (A.text K i).length - o))
    | none => A' = A.keepSplit i none (whole (A.text K i))
  | splitRight i j =>
    match (A.view i).endIn (A.view j) with
    | some o => A' = A.keepSplit i (some (o, (A.text K i).length - o)) (some (0, o))
    | none => A' = A.keepSplit i none (whole (A.text K i))
  | pop i => A' = { A with views := A.views.set i ((A.view i).cut
      (if A.text K i = [] then some (0, 0) else some (1, (A.text K i).length - 1))) }
  | splitLine i => ∃ c s e, SplitLineTo A.eol (A.text K i) c s e ∧ A' = { A.keepSplit i c s with eol := e }
  | splitLineNull i => ∃ c s e, SplitLineTo 0 (A.text K i) c s e ∧ A' = A.keepSplit i c s
  | dequote i => ∃ c, DequoteTo (A.text K i) c ∧ A' = A.keep i c

/-! ## Programs -/

/-- Buffer functions that take views the program has kept (numbers of views). -/
inductive WOp where
  | append (i : Nat)
  | prepend (i : Nat)
  | insertAtIndex (x : Int) (i : Nat)
  | insertBefore (d i : Nat)
  | insertAfter (d i : Nat)
  | assign (i : Nat)
  | cat (is : List Nat)
  | strip (i : Nat)
  /-- a format of literal text and views printed with `PRIstr` -/
  | printf (ps : List (List Byte ⊕ Nat))
  | appendPrintf (ps : List (List Byte ⊕ Nat))

/-- The views used. -/
def WOp.uses : WOp → List Nat
  | append i | prepend i | insertAtIndex _ i | assign i | strip i => [i]
  | insertBefore d i | insertAfter d i => [d, i]
  | cat is => is
  | printf ps | appendPrintf ps => ps.filterMap fun p => p.getRight?

/-- A piece of formatted output. -/
def Mixed.piece (A : Mixed) : List Byte ⊕ Nat → Piece
  | .inl l => .text l
  | .inr i => .arg (A.view i).src

/-- The operation, its arguments being the places the views stand for. -/
def WOp.hop (A : Mixed) : WOp → HOp
  | append i => .append (A.view i).src
  | prepend i => .prepend (A.view i).src
  | insertAtIndex x i => .insertAtIndex x (A.view i).src
  | insertBefore d i => .insertBefore (A.view d).src (A.view i).src
  | insertAfter d i => .insertAfter (A.view d).src (A.view i).src
  | assign i => .assign (A.view i).src
  | cat is => .cat (is.map fun i => (A.view i).src)
  | strip i => .strip (A.view i).src
  | printf ps => .printf (ps.map A.piece)
  | appendPrintf ps => .appendPrintf (ps.map A.piece)

/-- The call, its arguments being the views that the program has kept. -/
def WOp.call (vs : List View) : WOp → BufOp
  | append i => .append (viewAt vs i)
  | prepend i => .prepend (viewAt vs i)
  | insertAtIndex x i => .insertAtIndex x (viewAt vs i)
  | insertBefore d i => .insertBefore (viewAt vs d) (viewAt vs i)
  | insertAfter d i => .insertAfter (viewAt vs d) (viewAt vs i)
  | assign i => .assign (viewAt vs i)
  | cat is => .cat (is.map (viewAt vs))
  | strip i => .strip (viewAt vs i)
  | printf ps => .printf (piecesFmt (ps.map (Sum.map id (viewAt vs))))
  | appendPrintf ps => .appendPrintf (piecesFmt (ps.map (Sum.map id (viewAt vs))))

/-- Commands. -/
inductive MCmd where
  /-- a buffer command whose arguments are evaluated on the spot -/
  | cmd (c : Cmd)
  /-- a buffer function with views that were kept -/
  | op (h : Nat) (o : WOp)
  /-- `h = strbuf_create_init(v[i], o)` -/
  | create (h i : Nat) (o : Option Alloc)
  /-- keep `strbuf_view(&h)` -/
  | view (h : Nat)
  /-- keep the view of a constant -/
  | const (k : Nat)
  /-- call a view function -/
  | call (c : VCall)

/-- The variables a command changes. -/
def Cmd.changes : Cmd → List Nat
  | .createEmpty h _ _ => [h]
  | .createInit h _ _ => [h]
  | .createFixed h k _ => [h, k]
  | .destroy h => [h]
  | .toCstr h k => [h, k]
  | .freeStr k _ => [k]
  | .op h _ => [h]

/-- A view of the bytes `[i, i + n)` of the buffer in variable `h` can be used after the command: the command does not change `h`, or it is an operation that
leaves the buffer where it is (`Edit.InPlace`: the capacity stays the same), with a result that has these bytes. -/
def Cmd.leaves (cfg : Cfg) (K : Nat → List Byte) (σ : AState) (h i n : Nat) (c : Cmd) : Bool :=
  decide (h ∉ c.changes) ||
  match c with
  | .op _ o => match σ h with
    | some (.buf b) => decide ((o.edit K σ h b).InPlace cfg b ∧ i + n ≤ ((o.edit K σ h b).content b).length)
    | _ => false
  | _ => false

/-- Views become stale. -/
def AView.after (cfg : Cfg) (K : Nat → List Byte) (σ : AState) (c : Cmd) : AView → AView
  | .part (.buf h) i n => if c.leaves cfg K σ h i n then .part (.buf h) i n else .stale
  | a => a

/-- The effect of a buffer command. -/
def Mixed.run (cfg : Cfg) (dflt : Alloc) (K : Nat → List Byte) (A : Mixed) (c : Cmd) : Mixed :=
  { A with σ := c.step cfg dflt K A.σ, views := A.views.map (AView.after cfg K A.σ c) }

/-- The view of a whole text, the invalid view if there is no buffer. -/
def AState.whole (σ : AState) (h : Nat) : AView :=
  match σ h with
  | some (.buf b) => .part (.buf h) 0 b.data.length
  | _ => .null

/-- What a command must satisfy. -/
def MCmd.Legal (cfg : Cfg) (dflt : Alloc) (K : Nat → List Byte) (A : Mixed) : MCmd → Prop
  | cmd c => c.Legal cfg dflt K A.σ
  | op h o => (∀ i ∈ o.uses, A.Fresh i) ∧ (Cmd.op h (o.hop A)).Legal cfg dflt K A.σ
  | create h i o => A.Fresh i ∧ (Cmd.createInit h (A.view i).src o).Legal cfg dflt K A.σ
  | view h => A.σ.Handle h
  | const _ => True
  | call c => c.Legal K A

/-- What a command does. -/
def MCmd.Step (cfg : Cfg) (dflt : Alloc) (K : Nat → List Byte) (A : Mixed) (c : MCmd) (A' : Mixed) : Prop :=
  match c with
  | cmd c => A' = A.run cfg dflt K c
  | op h o => A' = A.run cfg dflt K (.op h (o.hop A))
  | create h i o => A' = A.run cfg dflt K (.createInit h (A.view i).src o)
  | view h => A' = { A with views := A.views ++ [A.σ.whole h] }
  | const k => A' = { A with views := A.views ++ [.part (.const k) 0 (K k).length] }
  | call c => c.Step K A A'

/-- What a program does. -/
inductive MRun (cfg : Cfg) (dflt : Alloc) (K : Nat → List Byte) : List MCmd → Mixed → Mixed → Prop
  | nil (A : Mixed) : MRun cfg dflt K [] A A
  | cons {c : MCmd} {cs : List MCmd} {A B C : Mixed} : c.Step cfg dflt K A B → MRun cfg dflt K cs B C → MRun cfg dflt K (c :: cs) A C

/-- Every command of the program is legal where it is executed. -/
def LegalMixed (cfg : Cfg) (dflt : Alloc) (K : Nat → List Byte) : List MCmd → Mixed → Prop
  | [], _ => True
  | c :: cs, A => c.Legal cfg dflt K A ∧ ∀ B, c.Step cfg dflt K A B → LegalMixed cfg dflt K cs B

/-! ## The machine side -/

/-- The variables of the program and the machine. -/
structure MState where
  ρ : Vars
  s : St
  views : List View
  eol : Byte

/-- Execute a command with the modelled functions. -/
def MCmd.exec (cfg : Cfg) (dflt : Alloc) (K : Nat → List Byte) (ka : Nat → Addr) (X : MState) : MCmd → Res MState
  | cmd c => do
    let (ρ, s) ← c.exec cfg dflt K ka X.ρ X.s
    .ok { X with ρ := ρ, s := s }
  | op h o => do
    let (_, bp, s) ← (o.call X.views).run cfg X.s (some (X.ρ h))
    .ok { X with ρ := X.ρ.setPtr h bp, s := s }
  | create h i o => do
    let (p, s) ← strbuf_create_init cfg dflt X.s (viewAt X.views i) o
    .ok { X with ρ := X.ρ.set h p, s := s }
  | view h => do
    let v ← strbuf_view X.s.mem (some (X.ρ h))
    .ok { X with views := X.views ++ [v] }
  | const k => .ok { X with views := X.views ++ [⟨ka k, (K k).length⟩] }
  | call c => do
    let (vs, eol) ← (c.op ka).run X.s.mem X.views X.eol
    .ok { X with views := vs, eol := eol }

/-- Execute a program. -/
def runMixed (cfg : Cfg) (dflt : Alloc) (K : Nat → List Byte) (ka : Nat → Addr) : List MCmd → MState → Res MState
  | [], X => .ok X
  | c :: cs, X => do
    let X ← c.exec cfg dflt K ka X
    runMixed cfg dflt K ka cs X

/-- The view `v` in the machine is what `a` says. Nothing is known of a stale view. -/
def ViewRep (K : Nat → List Byte) (ka : Nat → Addr) (σ : AState) (ρ : Vars) : AView → View → Prop
  | .null, v => v = .invalid
  | .part r i n, v => r.There σ ∧ i + n ≤ (r.text K σ).length ∧ v = ⟨r.addr ka ρ + i, n⟩
  | .stale, _ => True

/-- The machine represents what the program holds. -/
structure MRep (K : Nat → List Byte) (ka : Nat → Addr) (A : Mixed) (X : MState) : Prop where
  rep : Rep K ka A.σ X.ρ X.s
  number : X.views.length = A.views.length
  views : ∀ i, ViewRep K ka A.σ X.ρ (A.view i) (viewAt X.views i)
  eol : X.eol = A.eol
  eolOk : A.eol = 0 ∨ IsEol A.eol

end CStr
