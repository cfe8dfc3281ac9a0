import Verif.Spec.Dealings
import Verif.Spec.Poly
import Verif.Spec.ZeroKnowledge

/-!
What fewer than threshold-many recipients see of a dealing.
-/

set_option autoImplicit false

namespace Verif.Dealings

open Mega

/-- The choices of a dealer (coefficients of the value polynomial and of the mask) that share `secret`, give the published
commitment and give the nodes their openings. -/
def Explanations (t : Nat) (points : List Pt) (seen : List (NodeIndex × Fn × Fn)) (secret : Fn) : Set (List Fn × List Fn) :=
  {c | c.1.length = t ∧ c.2.length = t ∧ List.zipWith (fun v m : Fn => v • G + m • Point.H) c.1 c.2 = points ∧
    (∀ o ∈ seen, (toPoly c.1).eval (place o.1) = o.2.1 ∧ (toPoly c.2).eval (place o.1) = o.2.2) ∧ c.1.head? = some secret}

/-- The two dealings differ at most in the ciphertext entries of nodes outside `B`. -/
def Alike (B : List NodeIndex) (d d' : Dealing) : Prop :=
  d'.commitment = d.commitment ∧ d'.proof = d.proof ∧
  ∃ c c', d.ciphertext = some (.pair c) ∧ d'.ciphertext = some (.pair c') ∧ c'.ephemeralKey = c.ephemeralKey ∧
    c'.popPublicKey = c.popPublicKey ∧ c'.popProof = c.popProof ∧ c'.ctexts.length = c.ctexts.length ∧
    ∀ j ∈ B, c'.ctexts[j.toInt.toNat]? = c.ctexts[j.toInt.toNat]?

/-- The dealing shares `secret`: the recipients decrypt to the values (and masks) of polynomials with `t` coefficients, the
first of which is `secret`. -/
def SharesOut (P : Prim) (d : Dealing) (t : Int) (keys : List Fn) (ad : Bytes) (dealer : NodeIndex) (secret : Fn) : Prop :=
  ∃ values mask c cm, d.ciphertext = some c ∧ d.commitment = some cm ∧ (values.length : Int) = t ∧ (mask.length : Int) = t ∧
    values.head? = some secret ∧
    ∀ (i : NodeIndex) (k : Fn), 0 ≤ i.toInt → keys[i.toInt.toNat]? = some k →
      c.decryptAndCheck P cm ad dealer i k (k • G) =
        .ok (.pedersen ((toPoly values).eval (place i)) ((toPoly mask).eval (place i)))

end Verif.Dealings
