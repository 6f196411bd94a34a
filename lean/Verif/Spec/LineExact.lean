import Verif.Spec.Lines
/-
  What a reader of lines that arrive in pieces makes of the pieces, exactly.
-/
namespace CStr

/-- The text (given in reverse) ends with a line ending character that is not the second one of a two-character line ending. -/
def openEnd : List UInt8 → Bool
  | [] => false
  | x :: r => decide (IsEol x) && !(openEnd r && decide (r.head? ≠ some x))

/-- The piece is a single line ending character that completes the two-character line ending begun by the text. -/
def Completes (text piece : List UInt8) : Prop :=
  ∃ y, piece = [y] ∧ IsEol y ∧ openEnd text.reverse = true ∧ text.getLast? ≠ some y

instance (text piece : List UInt8) : Decidable (Completes text piece) :=
  match piece with
  | [y] => decidable_of_iff (IsEol y ∧ openEnd text.reverse = true ∧ text.getLast? ≠ some y)
      ⟨fun h => ⟨y, rfl, h⟩, fun ⟨_, e, h⟩ => by cases e; exact h⟩
  | [] => isFalse fun ⟨_, e, _⟩ => by cases e
  | _ :: _ :: _ => isFalse fun ⟨_, e, _⟩ => by cases e

/-- The text that is read: pieces that complete a line ending and contain nothing else leave no trace. -/
def heard : List UInt8 → List (List UInt8) → List UInt8
  | text, [] => text
  | text, p :: ps => if Completes text p then heard text ps else heard (text ++ p) ps

end CStr
