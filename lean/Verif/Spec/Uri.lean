import Verif.Model.Uri
import Verif.Spec.View
import Verif.Spec.Text
/-
  URIs in the shapes that parse-uri.c lists (lines 11-39), as texts put together from their components.
-/
namespace CStr

/-- Component `u`: `none` is an absent component (an invalid view), `some l` is present with the text `l`. -/
def Component (m : Mem) (u : View) : Option (List Byte) → Prop
  | none => u = .invalid
  | some l => ViewOf m u l

/-- An optional component with its delimiter before it. -/
def optBefore (d : List Byte) : Option (List Byte) → List Byte
  | none => []
  | some l => d ++ l

/-- An optional component with its delimiter after it. -/
def optAfter (d : List Byte) : Option (List Byte) → List Byte
  | none => []
  | some l => l ++ d

/-- The shapes `[scheme://][user@]host[:port][/path]`. -/
structure HostUri where
  scheme : Option (List Byte)
  user : Option (List Byte)
  host : List Byte
  port : Option (List Byte)
  path : Option (List Byte)

/-- What follows the scheme. -/
def HostUri.rest (u : HostUri) : List Byte := optAfter [64] u.user ++ u.host ++ optBefore [58] u.port ++ optBefore [47] u.path

/-- The text of a URI. -/
def HostUri.text (u : HostUri) : List Byte := optAfter [58, 47, 47] u.scheme ++ u.rest

/-- Which texts are understood: the components do not contain the characters that delimit them. 58 is `:`, 47 is `/`, 64 is `@`. -/
structure HostUri.Ok (u : HostUri) : Prop where
  scheme : ∀ s, u.scheme = some s → 58 ∉ s ∧ u.rest ≠ []
  noScheme : u.scheme = none → ∀ i, ¬ OccursAt id [58, 47, 47] u.rest i
  user : ∀ s, u.user = some s → 64 ∉ s
  noUser : u.user = none → 64 ∉ u.rest
  host : 58 ∉ u.host ∧ 47 ∉ u.host
  port : ∀ s, u.port = some s → 47 ∉ s ∧ ∃ d t, s = d :: t ∧ 48 ≤ d ∧ d ≤ 57
  noPort : u.port = none → ∀ s, u.path = some s → 58 ∉ s

/-- The shapes `scheme:[path]`. -/
structure PathUri where
  scheme : List Byte
  path : List Byte

def PathUri.text (u : PathUri) : List Byte := u.scheme ++ [58] ++ u.path

/-- Which texts are understood. In particular the path must not begin with a digit: that would be a port. -/
structure PathUri.Ok (u : PathUri) : Prop where
  scheme : 58 ∉ u.scheme
  noHost : ∀ i, ¬ OccursAt id [58, 47, 47] u.text i
  noUser : 64 ∉ u.text
  noPort : ∀ d t, u.path = d :: t → ¬ (48 ≤ d ∧ d ≤ 57)

/-- The line that shows a component: its name, padded to six characters, ` = "`, its text, `"` and the end of the line. Nothing if it is absent. -/
def shownLine (name : List Byte) : Option (List Byte) → List Byte
  | none => []
  | some l => name ++ [32, 61, 32, 34] ++ l ++ [34, 10]

/-- What the program prints for these components: their lines and an empty line. The names are `scheme`, `host`, `path`, `user`, `port`. -/
def shownUri (scheme host path user port : Option (List Byte)) : List Byte :=
  shownLine [115, 99, 104, 101, 109, 101] scheme ++ shownLine [104, 111, 115, 116, 32, 32] host ++ shownLine [112, 97, 116, 104, 32, 32] path ++
    shownLine [117, 115, 101, 114, 32, 32] user ++ shownLine [112, 111, 114, 116, 32, 32] port ++ [10]

end CStr
