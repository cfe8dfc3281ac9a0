import Verif.Kat.Vectors
import Verif.Lemmas.Point

/-!
C111: with SHA-256 as deployed, the second generator of the Pedersen commitments is the hash of the letter `h` to the
curve, so it was not chosen for its discrete logarithm.
-/

namespace Verif

open Kat in
/-- C111.  `GeneratorH` decodes the constant of curve/point.go:55; hashing `"h"` with the domain separator
`"ic-crypto-tecdsa-secp256k1-generator-h"` gives the same coordinates, and the encoding of the constant is the
serialization of that point. -/
theorem C111_generator_h :
    H2C.hashToCurve prim (ascii "h") (ascii "ic-crypto-tecdsa-secp256k1-generator-h") = .ok (Point.raw Point.H) ∧
    Point.serialize Point.H = Point.generatorHBytes :=
  ⟨generatorH_eq, by decide +kernel⟩

end Verif
