import Verif.Spec.Feldman
import Verif.Spec.Poly

/-!
Resharing an unmasked secret again and again: what somebody has of it who is in control of other nodes every time.
-/

set_option autoImplicit false

namespace Verif.Dealings

/-- The weight of node `j` when values at the places of `nodes` are interpolated at 0. -/
noncomputable def sumWeight (nodes : List NodeIndex) (j : NodeIndex) : Fn :=
  ((nodes.erase j).map fun i => (0 - place i) / (place j - place i)).prod

/-- One resharing: the dealers, the new number of coefficients (the threshold), and what the adversary has of it.  They know the
polynomials `dealt` by dealers they control, and what is `given` by each dealer to the nodes `next` which they control afterwards. -/
structure Renewal where
  dealers : List NodeIndex
  t : Nat
  next : List NodeIndex
  dealt : NodeIndex → List Fn
  given : NodeIndex → NodeIndex → Fn

/-- The polynomial of the new shares, if the dealers use the polynomials `f`. -/
noncomputable def Renewal.shared (r : Renewal) (f : NodeIndex → List Fn) : List Fn :=
  (List.range r.t).map fun k => (r.dealers.map fun i => sumWeight r.dealers i * (f i).getD k 0).sum

/-- The resharings happen in this order, beginning with shares on the polynomial `F`, while the adversary is in control of the nodes `A`;
the dealers use the polynomials of `fs` (none for other nodes), which agree with what the adversary knows. -/
def Explains : List NodeIndex → List Fn → List Renewal → List (NodeIndex → List Fn) → Prop
  | _, _, [], [] => True
  | A, F, r :: rs, f :: fs =>
    (∀ i, i ∉ r.dealers → f i = []) ∧
    (∀ i ∈ r.dealers, (f i).length = r.t ∧ (f i).head? = some ((toPoly F).eval (place i)) ∧ (i ∈ A → f i = r.dealt i) ∧
      ∀ j ∈ r.next, (toPoly (f i)).eval (place j) = r.given i j) ∧
    Explains r.next (r.shared f) rs fs
  | _, _, _, _ => False

/-- There are enough dealers every time, `t` being the threshold before, and the adversary is in control of one node less than the
threshold every time. -/
def OneShort : Nat → List Renewal → Prop
  | _, [] => True
  | t, r :: rs => r.dealers.Nodup ∧ t ≤ r.dealers.length ∧ r.next.Nodup ∧ (∀ j ∈ r.next, 0 ≤ j.toInt) ∧ r.next.length + 1 = r.t ∧
    OneShort r.t rs

/-- The polynomial of the shares in the end. -/
noncomputable def finalShared : List Fn → List Renewal → List (NodeIndex → List Fn) → List Fn
  | _, r :: rs, f :: fs => finalShared (r.shared f) rs fs
  | F, _, _ => F

/-- The commitments of all dealings, computed from those to the first shares and from what the adversary was given. -/
noncomputable def commitmentsShown : List Pt → List Renewal → List (NodeIndex → List Pt)
  | _, [] => []
  | K, r :: rs =>
    let g := fun i => if i ∈ r.dealers then simulated r.t (valueAtNode K i) (r.next.map fun j => (j, r.given i j)) else []
    g :: commitmentsShown ((List.range r.t).map fun k => (r.dealers.map fun i => sumWeight r.dealers i • (g i).getD k 0).sum) rs

end Verif.Dealings
