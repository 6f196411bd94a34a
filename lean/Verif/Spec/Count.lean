import Verif.Spec.Replace
/-
  Counting the occurrences of a text, with the functions of the library, and what that means.
-/
namespace CStr

/-- docs/strview-api.md, `strview_find_first` ("a position reference for further parsing"):
`count = 0; while(1) {left = ⟨cut src at the first needle⟩; if(!strview_is_valid(left)) break; count++;}` with the cut as in `cutAtFirst`. -/
def countAll (m : Mem) (needle : View) : Nat → View → Res Nat
  | 0, _ => .fuel
  | k + 1, src => do
    match ← cutAtFirst m src needle with
    | (left, some src) =>
      if strview_is_valid left then do
        let count ← countAll m needle k src
        .ok (count + 1)
      else .ok 0
    | _ => .env .other

/-- `k` pieces of `h`, one behind the other, are equal to `n`. -/
inductive Disjointly (n : List Byte) : List Byte → Nat → Prop where
  | done (h : List Byte) : Disjointly n h 0
  | next {a b : List Byte} {k : Nat} (rest : Disjointly n b k) : Disjointly n (a ++ n ++ b) (k + 1)

end CStr
