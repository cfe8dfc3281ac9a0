import Verif.Spec.Dealings
import Verif.Lemmas.Zk

/-!
What a dealing says about the operation that it was made for.
-/

set_option autoImplicit false

namespace Verif.Dealings

open Zk

/-- The two operations are of one kind. -/
def Op.SameKind : Op → Op → Prop
  | .random, .random => True
  | .reshareMasked _, .reshareMasked _ => True
  | .reshareUnmasked _, .reshareUnmasked _ => True
  | .unmaskedTimesMasked _ _, .unmaskedTimesMasked _ _ => True
  | _, _ => False

/-- The two operations are of one kind, and the commitments of the earlier transcripts that they refer to have the same values at the node:
those that the node's shares there open. -/
def Op.SameAt (i : NodeIndex) : Op → Op → Prop
  | .random, .random => True
  | .reshareMasked p, .reshareMasked p' => valueAtNode p.c.points i = valueAtNode p'.c.points i
  | .reshareUnmasked p, .reshareUnmasked p' => valueAtNode p.c.points i = valueAtNode p'.c.points i
  | .unmaskedTimesMasked l r, .unmaskedTimesMasked l' r' =>
    valueAtNode l.c.points i = valueAtNode l'.c.points i ∧ valueAtNode r.c.points i = valueAtNode r'.c.points i
  | _, _ => False

/-- An unmasked secret is reshared that lies in a wrapped commitment, as transcripts store it. -/
def Op.Wrapped : Op → Prop
  | .reshareUnmasked p => p.wrap ≠ .plain
  | _ => False

/-- Two different hash inputs give the challenge of the dealing's proof: the two that its verification hashes for the two operations.
`c0` is the constant term of the dealing's commitment. -/
def SameProofChallenge (P : Prim) (i : NodeIndex) (ad : Bytes) (c0 : Pt) (proof : Option ProofVal) : Op → Op → Prop
  | .reshareMasked p, .reshareMasked p' => ∃ pf : Zk.Proof, proof = some (.masked (some pf)) ∧
    let input (A : Pt) : EqOpen.Instance × Pt := (⟨G, Point.H, A, c0⟩, pf.response • Point.H - pf.challenge • (A - c0))
    let x := input (valueAtNode p.c.points i)
    let y := input (valueAtNode p'.c.points i)
    (EqOpen.transcript x.1 x.2 ad).Disjoint (EqOpen.transcript y.1 y.2 ad) ∧
      EqOpen.hashToChallenge P x.1 x.2 ad = .ok pf.challenge ∧ EqOpen.hashToChallenge P y.1 y.2 ad = .ok pf.challenge
  | .unmaskedTimesMasked l r, .unmaskedTimesMasked l' r' => ∃ pf : Product.Proof, proof = some (.product (some pf)) ∧
    let input (L R : Pt) : Product.Instance × Pt × Pt := (⟨G, Point.H, L, R, c0⟩, pf.response1 • G - pf.challenge • L,
      pf.response1 • R + pf.response2 • Point.H - pf.challenge • c0)
    let x := input (valueAtNode l.c.points i) (valueAtNode r.c.points i)
    let y := input (valueAtNode l'.c.points i) (valueAtNode r'.c.points i)
    (Product.transcript x.1 x.2.1 x.2.2 ad).Disjoint (Product.transcript y.1 y.2.1 y.2.2 ad) ∧
      Product.hashToChallenge P x.1 x.2.1 x.2.2 ad = .ok pf.challenge ∧
      Product.hashToChallenge P y.1 y.2.1 y.2.2 ad = .ok pf.challenge
  | _, _ => False

end Verif.Dealings
