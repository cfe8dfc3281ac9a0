import Verif.Model.Poly

/-! Model of the comparison of coefficients in poly/lagrange.go. -/

set_option autoImplicit false

namespace Verif.Lagr

/-- poly/lagrange.go:32-36, the loop of `Equal` over the positions that are left (the curve is K256 on both sides). -/
def equalLoop : List Fn → List Fn → Res Int
  | [], _ => .ok 1
  | _ :: _, [] => .panic "index out of range"
  | a :: l, b :: l' => if a ≠ b then .ok 0 else equalLoop l l'

/-- poly/lagrange.go:28-38 `Equal`. -/
def equal (l other : List Fn) : Res Int :=
  if l.length ≠ other.length then .ok 0 else equalLoop l other

end Verif.Lagr
