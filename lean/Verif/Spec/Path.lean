import Verif.Spec.Combine
/-
  The parts of a file path, with the functions of the library.
-/
namespace CStr

/-- docs/strview-api.md, `strview_split_last_delim`:
`name = strview_split_last_delim(&path, sep, false); ext = strview_split_last_delim(&name, dot, false);`
The result is what remains in `path`, what remains in `name`, and `ext`. -/
def pathParts (m : Mem) (sep dot : Addr) (path : View) : Res (View × View × View) := do
  match ← strview_split_last_delim m (some path) sep false with
  | (name, some path) =>
    match ← strview_split_last_delim m (some name) dot false with
    | (ext, some name) => .ok (path, name, ext)
    | _ => .env .other
  | _ => .env .other

end CStr
