import Verif.Spec.Transcript
import Verif.Lemmas.Poly
import Mathlib.LinearAlgebra.Lagrange

/-!
Dealers that cheat: what is known about their dealings from two answers to one first message of their proofs, and the numbers that
are the discrete logarithm of the second generator if they got away with it.
-/

set_option autoImplicit false

namespace Verif.Dealings

open Polynomial
open Point (H)

/-- Two answers to one first message of a product proof, for different challenges (what rewinding the dealer gives, C151). -/
structure ProductFork (L R M : Pt) (pf pf' : Zk.Product.Proof) : Prop where
  differ : pf.challenge ≠ pf'.challenge
  first : pf.response1 • G - pf.challenge • L = pf'.response1 • G - pf'.challenge • L
  second : pf.response1 • R + pf.response2 • H - pf.challenge • M = pf'.response1 • R + pf'.response2 • H - pf'.challenge • M

/-- The same for proofs of equal openings. -/
structure EqFork (a b : Pt) (pf pf' : Zk.Proof) : Prop where
  differ : pf.challenge ≠ pf'.challenge
  first : pf.response • H - pf.challenge • (a - b) = pf'.response • H - pf'.challenge • (a - b)

/-- What the two answers give. -/
def ProductFork.mask (pf pf' : Zk.Product.Proof) : Fn := (pf.response2 - pf'.response2) / (pf.challenge - pf'.challenge)

def EqFork.mask (pf pf' : Zk.Proof) : Fn := (pf.response - pf'.response) / (pf.challenge - pf'.challenge)

/-- The dealer's proof in a dealing, if there is one of the kind. -/
def Dealing.productProof (d : Dealing) : Option Zk.Product.Proof :=
  match d.proof with
  | some (.product p) => p
  | _ => none

def Dealing.eqProof (d : Dealing) : Option Zk.Proof :=
  match d.proof with
  | some (.masked p) => p
  | _ => none

/-- The number `w` is what the proof in the dealing of dealer `j` and a second answer to its first message give. -/
def ProductAnswers (L R : Com) (j : NodeIndex) (d : Dealing) (w : Fn) : Prop :=
  ∃ cm M pf pf', d.commitment = some cm ∧ cm.points.head? = some M ∧ d.productProof = some pf ∧
    ProductFork (valueAtNode L.c.points j) (valueAtNode R.c.points j) M pf pf' ∧ w = ProductFork.mask pf pf'

def EqAnswers (p1 : Com) (j : NodeIndex) (d : Dealing) (w : Fn) : Prop :=
  ∃ cm M pf pf', d.commitment = some cm ∧ cm.points.head? = some M ∧ d.eqProof = some pf ∧
    EqFork (valueAtNode p1.c.points j) M pf pf' ∧ w = EqFork.mask pf pf'

/-- The value at zero of the polynomial through the points that the dealers are given. -/
def interpolated (dealers : List NodeIndex) (y : NodeIndex → Fn) : Fn :=
  match Lagr.atZero dealers with
  | .ok w => (List.zipWith (· * ·) w (dealers.map y)).sum
  | _ => 0

/-- The mask that the product of two shared secrets must have, from the polynomials of the factors and the masks `w` of the
dealers. -/
noncomputable def productMask (dealers : List NodeIndex) (l m : List Fn) (w : NodeIndex → Fn) : Fn :=
  interpolated dealers fun j => (toPoly l).eval (place j) * (toPoly m).eval (place j) + w j

/-- The discrete logarithm of the second generator, if the shared product `f` (with mask `g`) is not that of `l` and `r` (with
mask `m`). -/
noncomputable def productLog (dealers : List NodeIndex) (l r m f g : List Fn) (w : NodeIndex → Fn) : Fn :=
  (Poly.coeff l 0 * Poly.coeff r 0 - Poly.coeff f 0) / (Poly.coeff g 0 - productMask dealers l m w)

/-- The same, if the reshared secret `f` is not the secret `v` (with mask `m`). -/
def reshareLog (dealers : List NodeIndex) (v m f : List Fn) (w : NodeIndex → Fn) : Fn :=
  (Poly.coeff f 0 - Poly.coeff v 0) / (Poly.coeff m 0 - interpolated dealers w)

/-- The polynomial with `k` coefficients through the first `k` of the given values. -/
noncomputable def through (k : Nat) (nodes : List NodeIndex) (y : NodeIndex → Fn) : List Fn :=
  coeffList (Lagrange.interpolate (nodes.take k).toFinset place y) k

/-- A transcript of a product, made from publicly verified dealings, whoever made them; `a j` is what rewinding dealer `j` gives. -/
structure ProductOf (P : Prim) (t receivers : Int) (ad : Bytes) (L R T : Com) (ds : DealingMap) (a : NodeIndex → Fn) : Prop where
  sorted : OMap.Sorted BitVec.toInt ds
  accepted : ∀ x ∈ ds, publiclyVerify P x.2 K256 (.unmaskedTimesMasked L R) t x.1 receivers ad = .ok ()
  made : newTranscript t ds (.unmaskedTimesMasked L R) = .ok (some T)
  answers : ∀ x ∈ ds, ProductAnswers L R x.1 x.2 (a x.1)

/-- The same for resharing. -/
structure ReshareOf (P : Prim) (t receivers : Int) (ad : Bytes) (p1 T : Com) (ds : DealingMap) (a : NodeIndex → Fn) : Prop where
  sorted : OMap.Sorted BitVec.toInt ds
  accepted : ∀ x ∈ ds, publiclyVerify P x.2 K256 (.reshareMasked p1) t x.1 receivers ad = .ok ()
  made : newTranscript t ds (.reshareMasked p1) = .ok (some T)
  answers : ∀ x ∈ ds, EqAnswers p1 x.1 x.2 (a x.1)

end Verif.Dealings
