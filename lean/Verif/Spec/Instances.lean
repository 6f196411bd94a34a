import Verif.Spec.Tasks
/-
  The same program with other variables: every variable `h` it names is the variable `f h`. So several instances of one program can run at the same time, each with variables of its own.
-/
namespace CStr

section
variable (f : Nat → Nat)

def Ref.rename : Ref → Ref
  | .buf h => .buf (f h)
  | .const k => .const k

def Src.rename : Src → Src
  | .const k => .const k
  | .sub h b e => .sub (f h) b e
  | .null => .null
  | .part r i n => .part (r.rename f) i n

def CSrc.rename : CSrc → CSrc
  | .const k => .const k
  | .tail h i => .tail (f h) i
  | .str h => .str (f h)

def Piece.rename : Piece → Piece
  | .text l => .text l
  | .arg x => .arg (x.rename f)

def HOp.rename : HOp → HOp
  | .append x => .append (x.rename f)
  | .appendCstr x => .appendCstr (x.rename f)
  | .prepend x => .prepend (x.rename f)
  | .prependCstr x => .prependCstr (x.rename f)
  | .insertAtIndex i x => .insertAtIndex i (x.rename f)
  | .insertAtIndexCstr i x => .insertAtIndexCstr i (x.rename f)
  | .insertBefore dst x => .insertBefore (dst.rename f) (x.rename f)
  | .insertBeforeCstr dst x => .insertBeforeCstr (dst.rename f) (x.rename f)
  | .insertAfter dst x => .insertAfter (dst.rename f) (x.rename f)
  | .insertAfterCstr dst x => .insertAfterCstr (dst.rename f) (x.rename f)
  | .assign x => .assign (x.rename f)
  | .cat xs => .cat (xs.map (·.rename f))
  | .strip x => .strip (x.rename f)
  | .stripCstr x => .stripCstr (x.rename f)
  | .appendChar c => .appendChar c
  | .shrink => .shrink
  | .grow n => .grow n
  | .appendUsing t => .appendUsing t
  | .printf ps => .printf (ps.map (·.rename f))
  | .appendPrintf ps => .appendPrintf (ps.map (·.rename f))
  | .prnf t => .prnf t
  | .appendPrnf t => .appendPrnf t

def Cmd.rename : Cmd → Cmd
  | .createEmpty h n o => .createEmpty (f h) n o
  | .createInit h x o => .createInit (f h) (x.rename f) o
  | .createFixed h k n => .createFixed (f h) (f k) n
  | .destroy h => .destroy (f h)
  | .toCstr h k => .toCstr (f h) (f k)
  | .freeStr k al => .freeStr (f k) al
  | .op h o => .op (f h) (o.rename f)

def MCmd.rename : MCmd → MCmd
  | .cmd c => .cmd (c.rename f)
  | .op h o => .op (f h) o
  | .create h i o => .create (f h) i o
  | .view h => .view (f h)
  | .const k => .const k
  | .call c => .call c

def Query.rename : Query → Query
  | .isNull h => .isNull (f h)
  | .bufSize h => .bufSize (f h)
  | .capacity h => .capacity (f h)
  | .bufChar h k => .bufChar (f h) k
  | .strChar h k => .strChar (f h) k
  | q => q

def IAct.rename : IAct → IAct
  | .act (.cmd c) => .act (.cmd (c.rename f))
  | .act (.ask q) => .act (.ask (q.rename f))
  | .read h => .read (f h)
  | .write h => .write (f h)
  | .writeView i => .writeView i
  | .pack h k o t x => .pack (f h) (f k) o t x
  | .unpack i k o t => .unpack i (f k) o t
  | .encrypt h key iv k => .encrypt (f h) (f key) (f iv) (f k)
  | .decrypt h key iv k => .decrypt (f h) (f key) (f iv) (f k)

/-- The program with the variables `f h`. -/
def IProgram.rename (p : IProgram) : IProgram := fun t => (p t).map (·.rename f)

end

end CStr
