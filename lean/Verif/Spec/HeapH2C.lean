import Verif.Spec.HeapView
import Verif.Model.HashToCurve

/-! The constants of the isogeny in memory, and points as decoders see them. -/

set_option autoImplicit false

namespace Verif.Heap

/-- The values of the global variable `K256C`. -/
def isogenyConstant : Fin 13 → Fp :=
  ![H2C.c0, H2C.c1, H2C.c2, H2C.c3, H2C.c4, H2C.c5, H2C.c6, H2C.c7, H2C.c8, H2C.c9, H2C.c10, H2C.c11, H2C.c12]

/-- The global variable `K256C` is initialised: its thirteen objects exist and hold the constants.  (Nothing is said about
which other pointers refer to them.) -/
def Constants (K : Fin 13 → Addr) (m : Mem) : Prop := ∀ i, K i < m.next ∧ m.fe (K i) = isogenyConstant i

/-- A pointer to a point, whose value is given by coordinates. -/
def View.rawPt : View Addr RawPt := View.pt.via id Point.raw

end Verif.Heap
