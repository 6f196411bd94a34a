import Verif.Spec.Buf
/-
  What the buffer operations are supposed to do, as operations on abstract buffers (content, capacity, allocator).
  Nothing here refers to memory or to the modelled functions.
-/
namespace CStr

/-- An operation on an abstract buffer, with the bytes its arguments stand for. -/
inductive Edit where
  /-- Insert `S` at the position selected by index `i`. Appending is insertion at the size, prepending at 0. -/
  | insert (i : Int) (S : List Byte)
  /-- Change nothing (insertion relative to a place that is not in the buffer). -/
  | keep
  /-- Replace the content by `S`. -/
  | assign (S : List Byte)
  /-- Replace the content by the concatenation; `self`: one of the parts is a view of the buffer. -/
  | cat (parts : List (List Byte)) (self : Bool)
  /-- Remove all bytes that occur in `chars`. -/
  | strip (chars : List Byte)
  /-- Append one character. -/
  | appendChar (c : Byte)
  /-- Reduce the capacity to the size. -/
  | shrink
  /-- Ask for a capacity of at least `n`. -/
  | grow (n : Int)
  /-- The callback fills in `t`. -/
  | appendUsing (t : List Byte)
  /-- The callback reports an impossible count. -/
  | usingFault
  /-- Formatted text (C library), replacing the content or appended. -/
  | printf (l : List Byte)
  | appendPrintf (l : List Byte)
  /-- Characters from the bundled formatter, replacing the content or appended. -/
  | prnf (l : List Byte)
  | appendPrnf (l : List Byte)

/-- The content the operation would produce with unlimited room. -/
def Edit.wanted (b : Buf) : Edit → List Byte
  | .insert i S => b.data.take (insertPos b.data.length i) ++ S ++ b.data.drop (insertPos b.data.length i)
  | .keep => b.data
  | .assign S => S
  | .cat parts _ => parts.flatten
  | .strip chars => b.data.filter (· ∉ chars)
  | .appendChar c => b.data ++ [c]
  | .shrink => b.data
  | .grow _ => b.data
  | .appendUsing t => b.data ++ t
  | .usingFault => []
  | .printf l => l
  | .appendPrintf l => b.data ++ l
  | .prnf l => l
  | .appendPrnf l => b.data ++ l

/-- The content the operation produces: the wanted one if it can be stored, else nothing. The exception is concatenation to a
fixed buffer that is itself among the parts, which also produces nothing. -/
def Edit.content (b : Buf) (e : Edit) : List Byte :=
  match e with
  | .cat _ true => if b.Dynamic ∧ b.Fits (e.wanted b).length then e.wanted b else []
  | _ => if b.Fits (e.wanted b).length then e.wanted b else []

/-- The capacity after the operation. -/
def Edit.cap (cfg : Cfg) (b : Buf) (e : Edit) : Nat :=
  match e with
  | .shrink => if b.Dynamic then b.data.length else b.cap
  | .grow n => if b.Dynamic then max b.cap n.toNat else b.cap
  | _ => b.capFor cfg (e.wanted b).length

/-- The abstract buffer after the operation. -/
def Edit.apply (cfg : Cfg) (b : Buf) (e : Edit) : Buf := ⟨e.content b, e.cap cfg b, b.al⟩

/-- Whether the operation returns the view of the content. (Otherwise it returns an invalid view.) -/
def Edit.returns (b : Buf) : Edit → Prop
  | .grow _ => b.Dynamic
  | .usingFault => False
  | _ => True

instance (b : Buf) (e : Edit) : Decidable (e.returns b) := by
  cases e <;> simp only [Edit.returns] <;> infer_instance

/-- The operation stays clear of signed overflow (`Cfg.Handles`), its numbers are `int`s, and for the formatted output: the text
length is an `int`, and the space passed to `vsnprintf` is one. For the bundled formatter on a dynamic buffer the result must fit, because
otherwise the final capacity depends on the number of characters. -/
def Edit.Ok (cfg : Cfg) (b : Buf) (e : Edit) : Prop :=
  cfg.Handles b (e.wanted b).length ∧
  match e with
  | .insert i _ => INT_MIN ≤ i ∧ i ≤ INT_MAX
  | .grow n => n ≤ INT_MAX
  | .appendUsing t => b.data.length + t.length ≤ b.cap
  | .printf l => (l.length : Int) ≤ INT_MAX ∧ (cfg.wrapv = true ∨ (b.capFor cfg l.length : Int) < INT_MAX)
  | .appendPrintf l => (l.length : Int) ≤ INT_MAX ∧
      (cfg.wrapv = true ∨ (b.capFor cfg (b.data.length + l.length) : Int) - b.data.length < INT_MAX)
  | .prnf l => (l.length : Int) ≤ INT_MAX ∧ (b.Dynamic → b.Fits l.length)
  | .appendPrnf l => (l.length : Int) ≤ INT_MAX ∧ (b.Dynamic → b.Fits (b.data.length + l.length))
  | _ => True

/-- A concatenation with the buffer itself among the parts. -/
def Edit.self : Edit → Bool
  | .cat _ s => s
  | _ => false

/-- There is room in the buffer for the operation: the wanted content fits the capacity, and it is not one of the operations that change the capacity although it
does: `strbuf_shrink`, `strbuf_grow` beyond the capacity. (Concatenation with the buffer itself among the parts needs a dynamic buffer.) -/
def Edit.Room (b : Buf) (e : Edit) : Prop :=
  (e.wanted b).length ≤ b.cap ∧
  match e with
  | .shrink => False
  | .grow n => n ≤ b.cap
  | .cat _ self => self = true → b.Dynamic
  | _ => True

/-- The operation leaves the buffer where it is: the capacity stays the same. -/
def Edit.InPlace (cfg : Cfg) (b : Buf) (e : Edit) : Prop := e.cap cfg b = b.cap

instance (cfg : Cfg) (b : Buf) (e : Edit) : Decidable (e.InPlace cfg b) := inferInstanceAs (Decidable (_ = _))

/-- The operation does not call the allocator: the capacity stays the same, and it is not a concatenation to a dynamic buffer that is among the parts
itself (which needs a temporary buffer). -/
def Edit.Quiet (cfg : Cfg) (b : Buf) (e : Edit) : Prop := e.InPlace cfg b ∧ (b.Dynamic → e.self = false)

end CStr
