import Verif.Model.Heap

/-!
poly/lagrange.go, constructor and accessor on memory.

A `LagrangeCoefficients` is not assigned to after its construction, so it is the list of the addresses it holds.  That the slice of the
pointers is shared as well (so that an element of it can be replaced) is left out.
-/

set_option autoImplicit false

namespace Verif.Heap

/-- poly/lagrange.go:19-26 `New`: the pointers are kept. -/
def newLagrange (coefficients : List Addr) : Go (List Addr) :=
  if coefficients.length = 0 then Go.err "coefficients is empty" else pure coefficients

/-- poly/lagrange.go:40-42 `Coefficients`: the pointers are handed out. -/
def lagrangeCoefficients (l : List Addr) : Go (List Addr) := pure l

end Verif.Heap
