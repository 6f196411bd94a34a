/-
  Specification of lines: CR, LF, CRLF and LFCR each end one line. Independent of the model.
-/
namespace CStr

/-- Carriage return or line feed. -/
def IsEol (b : UInt8) : Prop := b = 13 ∨ b = 10

instance (b : UInt8) : Decidable (IsEol b) := inferInstanceAs (Decidable (_ ∨ _))

/-- No line ending in the text. -/
def NoEol (t : List UInt8) : Prop := ∀ x ∈ t, ¬ IsEol x

/-- `text` starts with `line`, ended by `term` (the longest terminator there), followed by `rest`. -/
inductive FirstLine : (text line term rest : List UInt8) → Prop
  | two (line : List UInt8) (a b : UInt8) (rest : List UInt8) :
      NoEol line → IsEol a → IsEol b → a ≠ b → FirstLine (line ++ a :: b :: rest) line [a, b] rest
  | one (line : List UInt8) (a : UInt8) (rest : List UInt8) :
      NoEol line → IsEol a → (∀ b t, rest = b :: t → IsEol b → b = a) →
      FirstLine (line ++ a :: rest) line [a] rest

/-- The discriminator value after a line ended by `term`. -/
def pendingAfter : List UInt8 → UInt8
  | [a] => a
  | _ => 0

/-- What `strview_split_line` ignores at the start of the text because of a pending `eol`. -/
def skipPending (e : UInt8) : List UInt8 → List UInt8
  | c :: t => if e ≠ 0 ∧ IsEol c ∧ c ≠ e then t else c :: t
  | [] => []

/-- Where in the text the rest begins: behind the terminator, but if the terminator is one character and nothing follows, the (empty) rest is at the
terminator. -/
def restAt (line term rest : List UInt8) : Nat := if term.length = 1 ∧ rest = [] then line.length else line.length + term.length

/-- `text` consists of the terminated lines `ls` followed by the unterminated `rem`. -/
inductive Lines : (text : List UInt8) → (ls : List (List UInt8)) → (rem : List UInt8) → Prop
  | done (t : List UInt8) : NoEol t → Lines t [] t
  | line {t l term r rem : List UInt8} {ls : List (List UInt8)} :
      FirstLine t l term r → Lines r ls rem → Lines t (l :: ls) rem

end CStr
