import Verif.Spec.Sign
import Verif.Spec.TranscriptExact

/-! What everybody can compute from two signature shares that one node made with one presignature. -/

set_option autoImplicit false

namespace Verif.Sign

open Dealings

/-- What is public about a request: the number of the message's hash, and the results of `DeriveRho`. -/
structure Public where
  hash : Fn
  derived : Derived

/-- The factor of the blinding in the numerator. -/
def Public.theta (q : Public) : Fn := q.hash + q.derived.rho * q.derived.keyTweak

/-- Numerator and denominator of a share: the values, respectively the masks. -/
structure Fraction where
  num : Fn
  den : Fn

/-- The openings that a share is made of: of the blinding, of its product with the nonce and of that with the key. -/
structure Parts where
  lambda : Fn
  kappaLambda : Fn
  keyLambda : Fn
  deriving DecidableEq

/-- The blinding, from the denominators if these have different randomisers and from the numerators otherwise; then the other two. -/
def partsFrom (q q' : Public) (f f' : Fraction) : Parts :=
  let l := if q.derived.randomizer ≠ q'.derived.randomizer
    then (f.den - f'.den) / (q.derived.randomizer - q'.derived.randomizer)
    else (f.num - f'.num) / (q.theta - q'.theta)
  ⟨l, f.den - q.derived.randomizer * l, (f.num - q.theta * l) / q.derived.rho⟩

/-- The share shows these values and masks. -/
def SigShare.Shows (sh : SigShare) (values masks : Fraction) : Prop :=
  sh = ⟨some (.pedersen values.num masks.num), some (.pedersen values.den masks.den)⟩

/-- The secret, by Lagrange's formula, from values of nodes. -/
noncomputable def secretFrom (nodes : List NodeIndex) (value : NodeIndex → Fn) : Fn :=
  (nodes.map fun i => weightAtZero nodes i * value i).sum

end Verif.Sign
