import Verif.Model.Zk

/-!
What the generator of a seed gives: the first one or two scalars of the key stream that belongs to the seed.
-/

set_option autoImplicit false

namespace Verif

/-- The primitives with other key streams; everything that is hashed stays the same. -/
def Prim.withStreams (P : Prim) (streams : Bytes → Nat → UInt8) : Prim := { P with chacha20 := streams }

/-- The first scalar drawn from the seed's generator is `r`. -/
def Draws (P : Prim) (seed : Seed) (r : Fn) : Prop := ∃ rng, Scalar.random (seed.rng P) = .ok (r, rng)

/-- The first two are `r1` and `r2`. -/
def Draws2 (P : Prim) (seed : Seed) (r1 r2 : Fn) : Prop :=
  ∃ rng rng', Scalar.random (seed.rng P) = .ok (r1, rng) ∧ Scalar.random rng = .ok (r2, rng')

end Verif
