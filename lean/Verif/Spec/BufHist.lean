import Verif.Spec.BufCall
import Verif.Spec.Text
import Verif.Model.Print
/-
  Programs over many buffers. `AState`, `Legal`, `step` say what a program means on byte strings alone; `exec` runs the same program with the
  modelled functions on the machine; `Rep` relates the two.
-/
namespace CStr

/-! ## The abstract side -/

/-- What a program variable (slot) can hold. -/
inductive Obj where
  /-- A buffer. -/
  | buf (b : Buf)
  /-- A C string obtained from `strbuf_to_cstr`, with the allocator it came from (`fn = 0`: it is the storage of a fixed buffer). -/
  | str (l : List Byte) (al : Alloc)
  /-- Memory of the program itself: `n` bytes, suitably aligned for a fixed buffer. -/
  | mem (n : Nat)

/-- The abstract state: what each slot holds (`none`: the variable is NULL). -/
abbrev AState := Nat → Option Obj

/-- Change one slot. -/
def AState.set (σ : AState) (h : Nat) (o : Option Obj) : AState := fun k => if k = h then o else σ k

/-- The content of the buffer in slot `h`; nothing if there is none. -/
def AState.data (σ : AState) (h : Nat) : List Byte :=
  match σ h with
  | some (.buf b) => b.data
  | _ => []

/-- The range `[B, E)` of a text of `l.length` bytes that `strview_sub` with `begin`, `end` selects; `none` if it selects nothing. -/
def subRange (l : List Byte) (b e : Int) : Option (Nat × Nat) :=
  if l = [] then some (0, 0)
  else if fromEnd l.length b ≤ fromEnd l.length e ∧ fromEnd l.length b < l.length ∧ 0 ≤ fromEnd l.length e then
    some ((max (fromEnd l.length b) 0).toNat, (min (fromEnd l.length e) l.length).toNat)
  else none

/-- The bytes it selects. -/
def subList (l : List Byte) (b e : Int) : List Byte :=
  match subRange l b e with
  | some (B, E) => (l.take E).drop B
  | none => []

/-- A text a view can point into: the content of a buffer, or a constant of the program. -/
inductive Ref where
  | buf (h : Nat)
  | const (k : Nat)
  deriving DecidableEq

/-- A view argument: a constant of the program, a part of a buffer, `strview_sub(strbuf_view(&h), b, e)`, the invalid view, or a view that the
program has obtained before and kept, of the `n` bytes from offset `i` in a text. -/
inductive Src where
  | const (k : Nat)
  | sub (h : Nat) (b e : Int)
  | null
  | part (r : Ref) (i n : Nat)

/-- A C string argument: a constant of the program, the content of a buffer from position `i` on (`&h->cstr[i]`), or a string obtained
from `strbuf_to_cstr`. -/
inductive CSrc where
  | const (k : Nat)
  | tail (h : Nat) (i : Nat)
  | str (h : Nat)

/-- A piece of formatted output: literal text of the format, or a view printed with `PRIstr`. -/
inductive Piece where
  | text (l : List Byte)
  | arg (src : Src)

/-- Does the slot hold a buffer or NULL, so that it can be used as a buffer variable? -/
def AState.Handle (σ : AState) (h : Nat) : Prop := ∀ o, σ h = some o → ∃ b, o = .buf b

/-- The text. -/
def Ref.text (K : Nat → List Byte) (σ : AState) : Ref → List Byte
  | .buf h => σ.data h
  | .const k => K k

/-- Bytes of a view argument; `K` are the constants. -/
def Src.bytes (K : Nat → List Byte) (σ : AState) : Src → List Byte
  | .const k => K k
  | .sub h b e => subList (σ.data h) b e
  | .null => []
  | .part r i n => ((r.text K σ).drop i).take n

/-- The place of a view argument in the buffer of slot `h`, if it is a part of that buffer. -/
def Src.placeIn (σ : AState) (h : Nat) : Src → Option (Nat × Nat)
  | .const _ => none
  | .sub k b e => if k = h then subRange (σ.data h) b e else none
  | .null => none
  | .part r i n => if r = .buf h then some (i, i + n) else none

/-- The argument is a part of the buffer in slot `h`, starting at one of its bytes. -/
def Src.own (σ : AState) (h : Nat) (x : Src) : Bool :=
  match x.placeIn σ h with
  | some (B, _) => B < (σ.data h).length
  | none => false

/-- The text is there. -/
def Ref.There (σ : AState) : Ref → Prop
  | .buf h => ∃ b, σ h = some (.buf b)
  | .const _ => True

def Src.Legal (K : Nat → List Byte) (σ : AState) : Src → Prop
  | .const _ => True
  | .sub h b e => σ.Handle h ∧ INT_MIN ≤ b ∧ b ≤ INT_MAX ∧ INT_MIN ≤ e ∧ e ≤ INT_MAX
  | .null => True
  | .part r i n => r.There σ ∧ i + n ≤ (r.text K σ).length

def CSrc.bytes (K : Nat → List Byte) (σ : AState) : CSrc → List Byte
  | .const k => K k
  | .tail h i => (σ.data h).drop i
  | .str h => match σ h with
    | some (.str l _) => l
    | _ => []

/-- C strings end at the first NUL, so the bytes must not contain one. -/
def CSrc.Legal (K : Nat → List Byte) (σ : AState) (x : CSrc) : Prop :=
  (0 : Byte) ∉ x.bytes K σ ∧
  match x with
  | .const _ => True
  | .tail h i => ∃ b, σ h = some (.buf b) ∧ i ≤ b.data.length
  | .str h => ∃ l al, σ h = some (.str l al)

/-- A C string argument outside the buffer of slot `h`. -/
def CSrc.outside (h : Nat) : CSrc → Prop
  | .tail k _ => k ≠ h
  | _ => True

/-- The text of a piece. A view is printed up to the first NUL. -/
def Piece.bytes (K : Nat → List Byte) (σ : AState) : Piece → List Byte
  | .text l => l
  | .arg x => (x.bytes K σ).takeWhile (· ≠ 0)

/-- Printing a part of the destination to itself is not allowed. -/
def Piece.Legal (K : Nat → List Byte) (σ : AState) (h : Nat) : Piece → Prop
  | .text _ => True
  | .arg x => x.Legal K σ ∧ x.own σ h = false

/-- Operations on a buffer, with arguments that name constants and other buffers. -/
inductive HOp where
  | append (x : Src)
  | appendCstr (x : CSrc)
  | prepend (x : Src)
  | prependCstr (x : CSrc)
  | insertAtIndex (i : Int) (x : Src)
  | insertAtIndexCstr (i : Int) (x : CSrc)
  | insertBefore (dst x : Src)
  | insertBeforeCstr (dst : Src) (x : CSrc)
  | insertAfter (dst x : Src)
  | insertAfterCstr (dst : Src) (x : CSrc)
  | assign (x : Src)
  | cat (xs : List Src)
  | strip (x : Src)
  | stripCstr (x : CSrc)
  | appendChar (c : Byte)
  | shrink
  | grow (n : Int)
  | appendUsing (t : List Byte)
  | printf (ps : List Piece)
  | appendPrintf (ps : List Piece)
  | prnf (t : List Byte)
  | appendPrnf (t : List Byte)

/-- The operation (Spec/BufOp.lean) it stands for on the buffer `b` in slot `h`. -/
def HOp.edit (K : Nat → List Byte) (σ : AState) (h : Nat) (b : Buf) : HOp → Edit
  | .append x => .insert b.data.length (x.bytes K σ)
  | .appendCstr x => .insert b.data.length (x.bytes K σ)
  | .prepend x => .insert 0 (x.bytes K σ)
  | .prependCstr x => .insert 0 (x.bytes K σ)
  | .insertAtIndex i x => .insert i (x.bytes K σ)
  | .insertAtIndexCstr i x => .insert i (x.bytes K σ)
  | .insertBefore dst x => match dst.placeIn σ h with
    | some (B, _) => .insert B (x.bytes K σ)
    | none => .keep
  | .insertBeforeCstr dst x => match dst.placeIn σ h with
    | some (B, _) => .insert B (x.bytes K σ)
    | none => .keep
  | .insertAfter dst x => match dst.placeIn σ h with
    | some (_, E) => .insert E (x.bytes K σ)
    | none => .keep
  | .insertAfterCstr dst x => match dst.placeIn σ h with
    | some (_, E) => .insert E (x.bytes K σ)
    | none => .keep
  | .assign x => .assign (x.bytes K σ)
  | .cat xs => .cat (xs.map (·.bytes K σ)) (xs.any (·.own σ h))
  | .strip x => .strip (x.bytes K σ)
  | .stripCstr x => .strip (x.bytes K σ)
  | .appendChar c => .appendChar c
  | .shrink => .shrink
  | .grow n => .grow n
  | .appendUsing t => if b.data.length + t.length ≤ b.cap then .appendUsing t else .usingFault
  | .printf ps => .printf (ps.map (·.bytes K σ)).flatten
  | .appendPrintf ps => .appendPrintf (ps.map (·.bytes K σ)).flatten
  | .prnf t => .prnf t
  | .appendPrnf t => .appendPrnf t

/-- The arguments are legitimate. -/
def HOp.Args (K : Nat → List Byte) (σ : AState) (h : Nat) : HOp → Prop
  | .append x | .prepend x | .insertAtIndex _ x | .assign x => x.Legal K σ
  | .appendCstr x | .prependCstr x | .insertAtIndexCstr _ x => x.Legal K σ
  | .insertBefore dst x | .insertAfter dst x => dst.Legal K σ ∧ x.Legal K σ
  | .insertBeforeCstr dst x | .insertAfterCstr dst x => dst.Legal K σ ∧ x.Legal K σ
  | .cat xs => ∀ x ∈ xs, x.Legal K σ
  | .strip x => x.Legal K σ ∧ x.own σ h = false
  | .stripCstr x => x.Legal K σ ∧ x.outside h
  | .printf ps | .appendPrintf ps => ∀ x ∈ ps, x.Legal K σ h
  | _ => True

/-- Commands of a program. -/
inductive Cmd where
  /-- `h = strbuf_create_empty(n, o)` -/
  | createEmpty (h : Nat) (n : Nat) (o : Option Alloc)
  /-- `h = strbuf_create_init(x, o)` -/
  | createInit (h : Nat) (x : Src) (o : Option Alloc)
  /-- `h = strbuf_create_fixed(k, n)`, `k` a memory area of `n` bytes -/
  | createFixed (h : Nat) (k : Nat) (n : Nat)
  /-- `strbuf_destroy(&h)` -/
  | destroy (h : Nat)
  /-- `k = strbuf_to_cstr(&h)` -/
  | toCstr (h k : Nat)
  /-- release the C string in slot `k` with the allocator `al` -/
  | freeStr (k : Nat) (al : Alloc)
  /-- an operation on the buffer in slot `h` -/
  | op (h : Nat) (o : HOp)

/-- The allocator a creation uses: the given one or the default. -/
def allocFor (dflt : Alloc) (o : Option Alloc) : Alloc := o.getD dflt

/-- What a command must satisfy. Creation needs a free variable, a usable allocator, a representable capacity; `strbuf_to_cstr` a free variable and, on a
dynamic buffer, a content shorter than `INT_MAX`; a string is released with its own allocator; operations need `HOp.Args` and, if there is
a buffer, `Edit.Ok`. -/
def Cmd.Legal (cfg : Cfg) (dflt : Alloc) (K : Nat → List Byte) (σ : AState) : Cmd → Prop
  | .createEmpty h n o => σ h = none ∧ (allocFor dflt o).Ok ∧ (n : Int) ≤ INT_MAX
  | .createInit h x o => σ h = none ∧ (allocFor dflt o).Ok ∧ x.Legal K σ
  | .createFixed h k n => σ h = none ∧ σ k = some (.mem n) ∧ 24 < n
  | .destroy h => σ.Handle h
  | .toCstr h k => σ.Handle h ∧ σ k = none ∧ h ≠ k ∧ ∀ b, σ h = some (.buf b) → b.Dynamic → (b.data.length : Int) < INT_MAX
  | .freeStr k al => (∃ l, σ k = some (.str l al)) ∧ al.fn ≠ 0
  | .op h o => σ.Handle h ∧ o.Args K σ h ∧ ∀ b, σ h = some (.buf b) → (o.edit K σ h b).Ok cfg b

/-- What a command does. -/
def Cmd.step (cfg : Cfg) (dflt : Alloc) (K : Nat → List Byte) (σ : AState) : Cmd → AState
  | .createEmpty h n o => σ.set h (some (.buf ⟨[], n, allocFor dflt o⟩))
  | .createInit h x o => σ.set h (some (.buf ⟨x.bytes K σ, (x.bytes K σ).length, allocFor dflt o⟩))
  | .createFixed h k n => (σ.set k none).set h (some (.buf ⟨[], min (n - 25) 2147483647, ⟨0, 0⟩⟩))
  | .destroy h => σ.set h none
  | .toCstr h k => match σ h with
    | some (.buf b) => (σ.set h none).set k (some (.str b.data b.al))
    | _ => σ
  | .freeStr k _ => σ.set k none
  | .op h o => match σ h with
    | some (.buf b) => σ.set h (some (.buf ((o.edit K σ h b).apply cfg b)))
    | _ => σ

/-- What a program does. -/
def runAbs (cfg : Cfg) (dflt : Alloc) (K : Nat → List Byte) : List Cmd → AState → AState
  | [], σ => σ
  | c :: cs, σ => runAbs cfg dflt K cs (c.step cfg dflt K σ)

/-- Every command of the program is legal where it is executed. -/
def LegalRun (cfg : Cfg) (dflt : Alloc) (K : Nat → List Byte) : List Cmd → AState → Prop
  | [], _ => True
  | c :: cs, σ => c.Legal cfg dflt K σ ∧ LegalRun cfg dflt K cs (c.step cfg dflt K σ)

/-! ## The machine side -/

/-- The program's variables: the pointer in each slot, 0 = NULL. -/
abbrev Vars := Nat → Addr

/-- Assign a variable. -/
def Vars.set (ρ : Vars) (h : Nat) (p : Addr) : Vars := fun k => if k = h then p else ρ k

/-- Assign a variable through the `strbuf_t**` argument. -/
def Vars.setPtr (ρ : Vars) (h : Nat) : Option Addr → Vars
  | some p => ρ.set h p
  | none => ρ

/-- Where the text is. -/
def Ref.addr (ka : Nat → Addr) (ρ : Vars) : Ref → Addr
  | .buf h => ρ h + 24
  | .const k => ka k

/-- Evaluate a view argument with the library functions. `ka` are the addresses of the constants. -/
def Src.eval (K : Nat → List Byte) (ka : Nat → Addr) (ρ : Vars) (s : St) : Src → Res View
  | .const k => .ok ⟨ka k, (K k).length⟩
  | .sub h b e => do
    let v ← strbuf_view s.mem (some (ρ h))
    strview_sub v b e
  | .null => .ok .invalid
  | .part r i n => .ok ⟨r.addr ka ρ + i, n⟩

def CSrc.eval (ka : Nat → Addr) (ρ : Vars) : CSrc → Addr
  | .const k => ka k
  | .tail h i => ρ h + 24 + i
  | .str h => ρ h

/-- The text of pieces: literal text, and views printed with `PRIstr`. -/
def readPieces (m : Mem) : List (List Byte ⊕ View) → Res (List Byte)
  | [] => .ok []
  | .inl l :: r => do
    let t ← readPieces m r
    .ok (l ++ t)
  | .inr v :: r => do
    let l ← pri_str m v
    let t ← readPieces m r
    .ok (l ++ t)

/-- A format made of literal text and `PRIstr` conversions. -/
def piecesFmt (ps : List (List Byte ⊕ View)) : Fmt := fun m =>
  match readPieces m ps with
  | .ok l => .text l
  | _ => .error (-1) []

def evalPieces (K : Nat → List Byte) (ka : Nat → Addr) (ρ : Vars) (s : St) : List Piece → Res (List (List Byte ⊕ View))
  | [] => .ok []
  | .text l :: r => do
    let t ← evalPieces K ka ρ s r
    .ok (.inl l :: t)
  | .arg x :: r => do
    let v ← x.eval K ka ρ s
    let t ← evalPieces K ka ρ s r
    .ok (.inr v :: t)

def evalSrcs (K : Nat → List Byte) (ka : Nat → Addr) (ρ : Vars) (s : St) : List Src → Res (List View)
  | [] => .ok []
  | x :: r => do
    let v ← x.eval K ka ρ s
    let t ← evalSrcs K ka ρ s r
    .ok (v :: t)

/-- A callback that delivers the text `t` if there is room for it, else reports an error. -/
def fetchText (t : List Byte) : Fetcher := fun _ _ n => if (t.length : Int) ≤ n then (t, t.length) else ([], -1)

/-- The call with evaluated arguments. -/
def HOp.eval (K : Nat → List Byte) (ka : Nat → Addr) (ρ : Vars) (s : St) : HOp → Res BufOp
  | .append x => do let v ← x.eval K ka ρ s; .ok (.append v)
  | .appendCstr x => .ok (.appendCstr (x.eval ka ρ))
  | .prepend x => do let v ← x.eval K ka ρ s; .ok (.prepend v)
  | .prependCstr x => .ok (.prependCstr (x.eval ka ρ))
  | .insertAtIndex i x => do let v ← x.eval K ka ρ s; .ok (.insertAtIndex i v)
  | .insertAtIndexCstr i x => .ok (.insertAtIndexCstr i (x.eval ka ρ))
  | .insertBefore dst x => do let d ← dst.eval K ka ρ s; let v ← x.eval K ka ρ s; .ok (.insertBefore d v)
  | .insertBeforeCstr dst x => do let d ← dst.eval K ka ρ s; .ok (.insertBeforeCstr d (x.eval ka ρ))
  | .insertAfter dst x => do let d ← dst.eval K ka ρ s; let v ← x.eval K ka ρ s; .ok (.insertAfter d v)
  | .insertAfterCstr dst x => do let d ← dst.eval K ka ρ s; .ok (.insertAfterCstr d (x.eval ka ρ))
  | .assign x => do let v ← x.eval K ka ρ s; .ok (.assign v)
  | .cat xs => do let vs ← evalSrcs K ka ρ s xs; .ok (.cat vs)
  | .strip x => do let v ← x.eval K ka ρ s; .ok (.strip v)
  | .stripCstr x => .ok (.stripCstr (x.eval ka ρ))
  | .appendChar c => .ok (.appendChar c)
  | .shrink => .ok .shrink
  | .grow n => .ok (.grow n)
  | .appendUsing t => .ok (.appendUsing (fetchText t))
  | .printf ps => do let l ← evalPieces K ka ρ s ps; .ok (.printf (piecesFmt l))
  | .appendPrintf ps => do let l ← evalPieces K ka ρ s ps; .ok (.appendPrintf (piecesFmt l))
  | .prnf t => .ok (.prnf t)
  | .appendPrnf t => .ok (.appendPrnf t)

/-- Execute a command with the modelled functions. -/
def Cmd.exec (cfg : Cfg) (dflt : Alloc) (K : Nat → List Byte) (ka : Nat → Addr) (ρ : Vars) (s : St) : Cmd → Res (Vars × St)
  | .createEmpty h n o => do
    let (p, s) ← strbuf_create_empty dflt s n o
    .ok (ρ.set h p, s)
  | .createInit h x o => do
    let v ← x.eval K ka ρ s
    let (p, s) ← strbuf_create_init cfg dflt s v o
    .ok (ρ.set h p, s)
  | .createFixed h k n => do
    let (p, m) ← strbuf_create_fixed s.mem (ρ k) n
    .ok ((ρ.set k 0).set h p, { s with mem := m })
  | .destroy h => do
    let (bp, s) ← strbuf_destroy s (some (ρ h))
    .ok (ρ.setPtr h bp, s)
  | .toCstr h k => do
    let (q, bp, s) ← strbuf_to_cstr cfg s (some (ρ h))
    .ok ((ρ.setPtr h bp).set k q, s)
  | .freeStr k al => do
    let (_, s) ← allocCall s al (ρ k) 0
    .ok (ρ.set k 0, s)
  | .op h o => do
    let call ← o.eval K ka ρ s
    let (_, bp, s) ← call.run cfg s (some (ρ h))
    .ok (ρ.setPtr h bp, s)

/-- Execute a program. -/
def runExec (cfg : Cfg) (dflt : Alloc) (K : Nat → List Byte) (ka : Nat → Addr) : List Cmd → Vars → St → Res (Vars × St)
  | [], ρ, s => .ok (ρ, s)
  | c :: cs, ρ, s => do
    let (ρ, s) ← c.exec cfg dflt K ka ρ s
    runExec cfg dflt K ka cs ρ s

/-! ## The relation between the two -/

/-- Bytes of memory an object occupies. -/
def Obj.size : Obj → Nat
  | .buf b => storage b.cap
  | .str l _ => l.length + 1
  | .mem n => n

/-- The allocator that owns the object (`fn = 0`: none). -/
def Obj.owner : Obj → Alloc
  | .buf b => b.al
  | .str _ al => al
  | .mem _ => ⟨0, 0⟩

/-- The object is in memory at `p`. -/
def ObjAt (s : St) (p : Addr) : Obj → Prop
  | .buf b => BufAt s p b
  | .str l al => 0 < p ∧ p + (l.length + 1 : Nat) ≤ litBase ∧ (l.length : Int) ≤ INT_MAX ∧ Holds s.mem p (l ++ [0]) ∧
      (al.fn ≠ 0 → s.live p = some ⟨l.length + 1, al⟩)
  | .mem n => 0 < p ∧ p % 8 = 0 ∧ 0 < n ∧ p + n ≤ litBase ∧ ∀ i : Nat, i < n → (s.mem (p + i)).isSome

/-- The two ranges do not overlap. -/
def Apart (p : Addr) (n : Nat) (q : Addr) (k : Nat) : Prop := p + n ≤ q ∨ q + k ≤ p

/-- The machine state represents the abstract state: empty slots are NULL, the objects are in memory at the addresses in the variables, without
overlap; the constants are where they belong, with a terminator and outside all objects; and there are no other heap blocks: every live block
is the storage of an object, and is owned by its allocator. -/
structure Rep (K : Nat → List Byte) (ka : Nat → Addr) (σ : AState) (ρ : Vars) (s : St) : Prop where
  sane : s.Sane
  null : ∀ h, σ h = none → ρ h = 0
  obj : ∀ h o, σ h = some o → ObjAt s (ρ h) o
  apart : ∀ h k o o', σ h = some o → σ k = some o' → h ≠ k → Apart (ρ h) o.size (ρ k) o'.size
  const : ∀ k, 0 < ka k ∧ ((K k).length : Int) ≤ INT_MAX ∧ Holds s.mem (ka k) (K k ++ [0])
  constApart : ∀ k h o, σ h = some o → Apart (ka k) ((K k).length + 1) (ρ h) o.size
  owned : ∀ q blk, s.live q = some blk → ∃ h o, σ h = some o ∧ ρ h = q ∧ blk = ⟨o.size, o.owner⟩ ∧ o.owner.fn ≠ 0

end CStr
