import Verif.Model.Strview
/-
  Meaning of views: which byte sequence a `strview_t` stands for. These are the only notions of the machine
  model that the property statements use besides the modelled functions themselves.
-/
namespace CStr

/-- `v` denotes the byte sequence `l` in memory `m`: it has that many bytes and they are readable there.
An invalid view (NULL, 0) denotes the empty sequence. -/
structure Denotes (m : Mem) (v : View) (l : List Byte) : Prop where
  size : v.size = l.length
  max : (l.length : Int) ≤ INT_MAX
  holds : Holds m v.data l

/-- `v` is a valid view (non-NULL) of the byte sequence `l`. -/
structure ViewOf (m : Mem) (v : View) (l : List Byte) : Prop extends Denotes m v l where
  pos : 0 < v.data

/-- `p` points to the NUL-terminated C string with the characters `l`. -/
structure CString (m : Mem) (p : Addr) (l : List Byte) : Prop where
  pos : 0 < p
  max : (l.length : Int) ≤ INT_MAX
  noNul : (0 : Byte) ∉ l
  holds : Holds m p (l ++ [0])

/-- The part of the view `v` of `n` bytes from offset `i`. -/
def View.part (v : View) (i n : Nat) : View := ⟨v.data + i, n⟩

/-- `u` is invalid or a part of the view `v`. -/
def View.Inside (u v : View) : Prop :=
  u = .invalid ∨ (0 < u.data ∧ 0 ≤ u.size ∧ v.data ≤ u.data ∧ u.data + u.size ≤ v.data + v.size)

/-- A memory that contains exactly the given bytes at the given address (used in examples). -/
def memAt (a : Addr) (l : List Byte) : Mem :=
  fun x => if a ≤ x then l[(x - a).toNat]? else none

end CStr
