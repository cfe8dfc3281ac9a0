import Verif.Model.Point

/-!
Small specification used by `Props/Exact.lean`: what a point decompressed from an abscissa and a parity has to be.
-/

set_option autoImplicit false

namespace Verif

/-- `r` is the point with abscissa `x` and an ordinate of parity `par`, or the identity if the curve has no point with
this abscissa. -/
def Decompressed (x : Fp) (par : Nat) (r : RawPt) : Prop :=
  (∃ y, OnCurve x y ∧ y.val % 2 = par ∧ r = .aff x y) ∨ ((∀ y, ¬ OnCurve x y) ∧ r = .inf)

end Verif
