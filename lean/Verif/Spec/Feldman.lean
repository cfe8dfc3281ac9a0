import Verif.Spec.Dealings
import Mathlib.LinearAlgebra.Lagrange

/-!
What can be computed of an unmasked dealing from the public key of the secret and the shares of a group one short of the
threshold.
-/

set_option autoImplicit false

namespace Verif.Dealings

/-- The points 0 and the places of the nodes. -/
noncomputable def nodesOf (seen : List (NodeIndex × Fn)) : Finset Fn := insert 0 (seen.map fun o => place o.1).toFinset

/-- The coefficients, as points, of the polynomial with `t` coefficients that has `key` at 0 and `share • G` at the places of the
nodes: by Lagrange's formula, in which only `key` and the shares occur. -/
noncomputable def simulated (t : Nat) (key : Pt) (seen : List (NodeIndex × Fn)) : List Pt :=
  (List.range t).map fun k => (Lagrange.basis (nodesOf seen) id 0).coeff k • key +
    (seen.map fun o => ((Lagrange.basis (nodesOf seen) id (place o.1)).coeff k * o.2) • G).sum

end Verif.Dealings
