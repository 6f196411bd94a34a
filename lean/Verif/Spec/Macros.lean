import Verif.Model.Macros
import Verif.Spec.View
/-! The bytes a macro argument stands for. -/
namespace CStr

/-- The argument is a C string or a view, and `v` is a view of its characters `l`. -/
def CArg.Str (m : Mem) (x : CArg) (v : View) (l : List Byte) : Prop :=
  match x with
  | .charPtr a => CString m a l ∧ v = ⟨a, l.length⟩
  | .constCharPtr a => CString m a l ∧ v = ⟨a, l.length⟩
  | .view w => Denotes m w l ∧ v = w
  | _ => False

end CStr
