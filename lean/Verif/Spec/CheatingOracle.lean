import Verif.Spec.Cheating
import Verif.Spec.Oracle

/-!
Dealers that cheat, as a program in the random oracle model: what they end with, when they have cheated, and the number computed from
two runs.
-/

set_option autoImplicit false

namespace Verif.Oracle

open Polynomial Dealings
open Point (H)

/-- What the dealers of a product end with: the polynomials of both factors and of the mask of the second, and for every dealer an
opening of the constant term of the dealing, and the proof. -/
structure ProductRun where
  l : List Fn
  r : List Fn
  m : List Fn
  dealers : List NodeIndex
  val : NodeIndex → Fn
  mask : NodeIndex → Fn
  ad : Bytes
  pf : NodeIndex → Zk.Product.Proof

namespace ProductRun

/-- Statement and proof of a dealer. -/
noncomputable def claim (x : ProductRun) (j : NodeIndex) : ProductClaim :=
  ⟨(toPoly x.l).eval (place j) • G, (toPoly x.r).eval (place j) • G + (toPoly x.m).eval (place j) • H,
    x.val j • G + x.mask j • H, x.ad, x.pf j⟩

/-- All proofs are accepted and there are as many dealers as a product needs, yet the shared value is not the product. -/
structure Cheats {D : Finset Question} (O : D → Fn) (x : ProductRun) : Prop where
  nodup : x.dealers.Nodup
  enough : x.l.length + x.r.length ≤ x.dealers.length + 1
  accepted : ∀ j ∈ x.dealers, Accepted O (x.claim j).asks (x.pf j).challenge
  wrong : interpolated x.dealers x.val ≠ Poly.coeff x.l 0 * Poly.coeff x.r 0

/-- The first dealer whose value is not the product of the two shares. -/
noncomputable def wrongDealer (x : ProductRun) : Option NodeIndex :=
  x.dealers.find? fun j => x.val j ≠ (toPoly x.l).eval (place j) * (toPoly x.r).eval (place j)

/-- The question on which this dealer's proof depends. -/
noncomputable def depends (D : Finset Question) (x : ProductRun) : Option D :=
  x.wrongDealer.bind fun j => within D (x.claim j).asks

/-- The number computed from two runs. -/
noncomputable def log (x x' : ProductRun) : Fn :=
  match x.wrongDealer, x'.wrongDealer with
  | some j, some j' =>
    let l := (toPoly x.l).eval (place j)
    (l * (toPoly x.r).eval (place j) - x.val j) / (x.mask j - (l * (toPoly x.m).eval (place j) +
      slope (x.pf j).response2 (x'.pf j').response2 (x.pf j).challenge (x'.pf j').challenge))
  | _, _ => 0

end ProductRun

/-- The same for resharing a masked secret: the polynomials of secret and mask, and for every dealer the constant term and the
proof. -/
structure ReshareRun where
  v : List Fn
  m : List Fn
  dealers : List NodeIndex
  val : NodeIndex → Fn
  ad : Bytes
  pf : NodeIndex → Zk.Proof

namespace ReshareRun

noncomputable def claim (x : ReshareRun) (j : NodeIndex) : EqClaim :=
  ⟨(toPoly x.v).eval (place j) • G + (toPoly x.m).eval (place j) • H, x.val j • G, x.ad, x.pf j⟩

structure Cheats {D : Finset Question} (O : D → Fn) (x : ReshareRun) : Prop where
  nodup : x.dealers.Nodup
  enough : x.v.length ≤ x.dealers.length
  accepted : ∀ j ∈ x.dealers, Accepted O (x.claim j).asks (x.pf j).challenge
  wrong : interpolated x.dealers x.val ≠ Poly.coeff x.v 0

noncomputable def wrongDealer (x : ReshareRun) : Option NodeIndex :=
  x.dealers.find? fun j => x.val j ≠ (toPoly x.v).eval (place j)

noncomputable def depends (D : Finset Question) (x : ReshareRun) : Option D :=
  x.wrongDealer.bind fun j => within D (x.claim j).asks

noncomputable def log (x x' : ReshareRun) : Fn :=
  match x.wrongDealer, x'.wrongDealer with
  | some j, some j' => (x.val j - (toPoly x.v).eval (place j)) / ((toPoly x.m).eval (place j) -
      slope (x.pf j).response (x'.pf j').response (x.pf j).challenge (x'.pf j').challenge)
  | _, _ => 0

end ReshareRun

/-- Rewinding: the program is run once more, with the answer `a` instead to the question that its first result depends on. -/
def rewindAt {D : Finset Question} {R : Type} (g : Alg D Fn R) (depends : R → Option D) (O : D → Fn) (a : Fn) : R × R :=
  (g.run O, match depends (g.run O) with
    | some q => g.run (Function.update O q a)
    | none => g.run O)

end Verif.Oracle
