import Verif.C.Basic
/-!
What stripping a buffer of characters given by a view of its own content does. The characters looked for are the bytes at the places `i` to
`i + n` of the content, whatever these are at the time: every byte removed so far has shifted what follows one place down, and put one
more zero at the end.
-/
namespace CStr

/-- The bytes at the places `i` to `i + n` once `z` bytes, all from before the reader, have been removed from `data`. -/
def ownWindow (data : List Byte) (i n z : Nat) : List Byte := ((data ++ List.replicate z 0).drop (i + z)).take n

/-- What is kept of the bytes not yet examined, when `z` bytes have been removed. -/
def stripOwn (data : List Byte) (i n : Nat) : Nat → List Byte → List Byte
  | _, [] => []
  | z, c :: rest => if c ∈ ownWindow data i n z then stripOwn data i n (z + 1) rest else c :: stripOwn data i n z rest

end CStr
