import Verif.Spec.Ceremony

/-!
Everything together: a key and `N` nonces are generated, `N` random masked transcripts `λ`, the products `κλ` and `xλ`
(testutils/signature_protocol_setup.go:31-69), and then nodes sign.  All honest dealings are spelled out.
-/

set_option autoImplicit false

namespace Verif.KeyGen

open Dealings Sign
open Point (H)

/-- What the `Q + 1` honest dealers of a product draw: polynomials whose constant terms are given, and masks. -/
structure ProductDrawn (k Q : Nat) where
  tails : Fin (Q + 1) → Fin k → Fn
  masks : Fin (Q + 1) → Fin (k + 1) → Fn

variable {k M R Q N : Nat} (B : List NodeIndex) (nodes : Fin (Q + 1) → NodeIndex)

/-- The polynomial that an honest node deals. -/
def ProductDrawn.deals (ω : ProductDrawn k Q) (c : Fin (Q + 1) → Fn) (r : Fin (Q + 1)) : List Fn := c r :: List.ofFn (ω.tails r)

/-- What the group sees of it. -/
noncomputable def ProductDrawn.shown (ω : ProductDrawn k Q) (c : Fin (Q + 1) → Fn) : First Q where
  commitments r := List.zipWith (fun v m : Fn => v • G + m • H) (ω.deals c r) (List.ofFn (ω.masks r))
  openings r j := (forGroup B (ω.deals c r) j, forGroup B (List.ofFn (ω.masks r)) j)

/-- What nodes of the group deal for a product: each the coefficients after the constant term (which is the product of its shares) and a mask. -/
abbrev ProductDealt (k : Nat) := List (NodeIndex × (Fin k → Fn) × (Fin (k + 1) → Fn))

/-- All dealers of a product. -/
def productDealers (deals : ProductDealt k) : List NodeIndex := List.ofFn nodes ++ deals.map Prod.fst

/-- The polynomial behind a product; `at'` is what node `i` has to deal. -/
noncomputable def productPoly (deals : ProductDealt k) (at' : NodeIndex → Fn) (ω : ProductDrawn k Q) : List Fn :=
  let w := weightAtZero (productDealers nodes deals)
  List.ofFn fun c : Fin (k + 1) => ∑ r, w (nodes r) * (ω.deals (fun r => at' (nodes r)) r).getD c 0 +
    (deals.map fun x => w x.1 * (at' x.1 :: List.ofFn x.2.1).getD c 0).sum

/-- Its mask. -/
noncomputable def productMask (deals : ProductDealt k) (ω : ProductDrawn k Q) : List Fn :=
  let w := weightAtZero (productDealers nodes deals)
  List.ofFn fun c : Fin (k + 1) => ∑ r, w (nodes r) * ω.masks r c + (deals.map fun x => w x.1 * x.2.2 c).sum

/-- What the group sees while a presignature is made, besides the nonce. -/
structure PresigShown (M Q : Nat) where
  lambda : First M
  kl : First Q
  xl : First Q

/-- What those do that are not honest, in all rounds: each depends on what they may have seen by then, and on more.  (`keys`: when key and
nonces are generated; `adds`, `addsMask`: what is added to `λ`; `klDeals`, `xlDeals`: what the group deals for the products.) -/
structure Meddling (k M R Q N : Nat) where
  keys : (Fin N → First M) → Reaction k M R
  adds : (Fin N → First M) → List (Shown M R) → Fin N → Fin (k + 1) → Fn
  addsMask : (Fin N → First M) → List (Shown M R) → Fin N → Fin (k + 1) → Fn
  klDeals : (Fin N → PresigShown M Q) → List (Shown M R) → Fin N → ProductDealt k
  xlDeals : (Fin N → PresigShown M Q) → List (Shown M R) → Fin N → ProductDealt k

variable (W : Meddling k M R Q N)

/-- The polynomial of a generation (see C190_polynomials). -/
noncomputable def Outcome.poly (k : Nat) (o : Outcome M R) : List Fn := through (k + 1) B o.secret o.shares

section real

variable (l : List (Outcome M R)) (lam : Fin N → Drawn k M 0) (pr : Fin N → ProductDrawn k Q × ProductDrawn k Q)

/-- The honest dealings for all `λ`. -/
noncomputable def lambdaViews (i : Fin N) : First M := (lam i).first B

/-- The polynomial `λ`. -/
noncomputable def lambdaPoly (i : Fin N) : List Fn := (lam i).secret B fun _ => W.adds (lambdaViews B lam) (l.map Outcome.view) i

/-- What node `j` has to deal for `κλ` and for `xλ`. -/
noncomputable def klAt (i : Fin N) (j : NodeIndex) : Fn :=
  (toPoly ((nth l (i + 1)).poly B k)).eval (place j) * (toPoly (lambdaPoly B W l lam i)).eval (place j)

noncomputable def xlAt (i : Fin N) (j : NodeIndex) : Fn :=
  (toPoly ((nth l 0).poly B k)).eval (place j) * (toPoly (lambdaPoly B W l lam i)).eval (place j)

/-- What the group sees of all presignatures. -/
noncomputable def presigViews (i : Fin N) : PresigShown M Q where
  lambda := lambdaViews B lam i
  kl := (pr i).1.shown B fun r => klAt B W l lam i (nodes r)
  xl := (pr i).2.shown B fun r => xlAt B W l lam i (nodes r)

/-- All polynomials of a presignature. -/
noncomputable def presigSecrets (i : Fin N) : Secrets where
  x := (nth l 0).poly B k
  kappa := (nth l (i + 1)).poly B k
  lambda := lambdaPoly B W l lam i
  kl := productPoly nodes (W.klDeals (presigViews B nodes W l lam pr) (l.map Outcome.view) i) (klAt B W l lam i) (pr i).1
  xl := productPoly nodes (W.xlDeals (presigViews B nodes W l lam pr) (l.map Outcome.view) i) (xlAt B W l lam i) (pr i).2
  lambdaMask := List.ofFn fun c => ∑ d, (lam i).masks d c + W.addsMask (lambdaViews B lam) (l.map Outcome.view) i c
  klMask := productMask nodes (W.klDeals (presigViews B nodes W l lam pr) (l.map Outcome.view) i) (pr i).1
  xlMask := productMask nodes (W.xlDeals (presigViews B nodes W l lam pr) (l.map Outcome.view) i) (pr i).2

end real

/-- The attack on signing, with the given polynomials. -/
noncomputable def attackWith {α : Type} (P : Prim) (X : List Fn) (S : Fin N → Secrets) (A : List Pt → (Fin N → Presig) → Attack N α) :
    List (Fin N × Request) × α :=
  (A (X.map fun v : Fn => v • G) fun i => presigOf (S i)).run
    (fun i q j => SigShare.new P q.path q.hashedMsg q.randomness (unmasked (S i).x) (unmasked (S i).kappa)
      (share (S i).lambda (S i).lambdaMask j) (share (S i).kl (S i).klMask j) (share (S i).xl (S i).xlMask j)) []

section made

variable (l : List (Outcome M R)) (v : Fin N → PresigShown M Q)

/-- What the group adds to `λ`. -/
def added (i : Fin N) : Fin (k + 1) → Fn := W.adds (fun i => (v i).lambda) (l.map Outcome.view) i

def addedMask (i : Fin N) : Fin (k + 1) → Fn := W.addsMask (fun i => (v i).lambda) (l.map Outcome.view) i

/-- The shares of `λ` of the group, and what its nodes have to deal for the products. -/
noncomputable def lambdaShare (i : Fin N) (j : NodeIndex) : Fn := groupShare (fun _ => added W l v i) (v i).lambda j

noncomputable def klDue (i : Fin N) (j : NodeIndex) : Fn := (nth l (i + 1)).shares j * lambdaShare W l v i j

noncomputable def xlDue (i : Fin N) (j : NodeIndex) : Fn := (nth l 0).shares j * lambdaShare W l v i j

/-- A share of a product, from what the group sees and deals. -/
noncomputable def productShare (deals : ProductDealt k) (due : NodeIndex → Fn) (s : First Q) (j : NodeIndex) : Fn :=
  let w := weightAtZero (productDealers nodes deals)
  ∑ r, w (nodes r) * (s.openings r j).1 + (deals.map fun x => w x.1 * (toPoly (due x.1 :: List.ofFn x.2.1)).eval (place j)).sum

/-- Its mask. -/
noncomputable def productMaskShare (deals : ProductDealt k) (s : First Q) (j : NodeIndex) : Fn :=
  let w := weightAtZero (productDealers nodes deals)
  ∑ r, w (nodes r) * (s.openings r j).2 + (deals.map fun x => w x.1 * (toPoly (List.ofFn x.2.2)).eval (place j)).sum

/-- What the group holds in the end, from what it sees. -/
noncomputable def heldFrom (i : Fin N) : Held where
  kappa := (nth l (i + 1)).shares
  seen :=
    { lambda := lambdaShare W l v i
      lambdaMask := fun j => ∑ d, ((v i).lambda.openings d j).2 + (toPoly (List.ofFn (addedMask W l v i))).eval (place j)
      kl := productShare nodes (W.klDeals v (l.map Outcome.view) i) (klDue W l v i) (v i).kl
      klMask := productMaskShare nodes (W.klDeals v (l.map Outcome.view) i) (v i).kl
      xl := productShare nodes (W.xlDeals v (l.map Outcome.view) i) (xlDue W l v i) (v i).xl
      xlMask := productMaskShare nodes (W.xlDeals v (l.map Outcome.view) i) (v i).xl }

/-- What is drawn to make up what is seen of a presignature. -/
structure PresigCoins (k M Q : Nat) where
  lambda : Coins k M 0
  kl : Coins k Q 0
  xl : Coins k Q 0

/-- What is made up. -/
noncomputable def PresigCoins.shown (c : PresigCoins k M Q) : PresigShown M Q := ⟨c.lambda.first B, c.kl.first B, c.xl.first B⟩

/-- The point behind the constant term of a product, as a multiple of `H`, where `G = η • H`. -/
noncomputable def productPoint (deals : ProductDealt k) (due : NodeIndex → Fn) (η : Fn) (points : Fin (Q + 1) → Fn) : Fn :=
  let w := weightAtZero (productDealers nodes deals)
  ∑ r, w (nodes r) * points r + (deals.map fun x => w x.1 * (x.2.2 0 + due x.1 * η)).sum

/-- The numbers from which presignature and shares are made up as in C186. -/
noncomputable def madeFrom (η : Fn) (c : Fin N → PresigCoins k M Q) (blind : Fin N → Fn) (i : Fin N) : Made :=
  let v := fun i => (c i).shown B
  { c := blind i
    lambda := ∑ d, (c i).lambda.points d + added W l v i 0 * η + addedMask W l v i 0
    kl := productPoint nodes (W.klDeals v (l.map Outcome.view) i) (klDue W l v i) η (c i).kl.points
    xl := productPoint nodes (W.xlDeals v (l.map Outcome.view) i) (xlDue W l v i) η (c i).xl.points }

end made

/-- Who attacks: they are given what the group sees of all rounds, then the commitments, and then have nodes sign. -/
abbrev Attacker (M R Q N : Nat) (α : Type) := List (Shown M R) → (Fin N → PresigShown M Q) → List Pt → (Fin N → Presig) → Attack N α

variable {α : Type} (P : Prim) (A : Attacker M R Q N α)

/-- The attack on the whole protocol, once key and nonces are generated. -/
noncomputable def protocol (l : List (Outcome M R)) (lam : Fin N → Drawn k M 0) (pr : Fin N → ProductDrawn k Q × ProductDrawn k Q) :
    List (Fin N × Request) × α :=
  attackWith P ((nth l 0).poly B k) (presigSecrets B nodes W l lam pr) (A (l.map Outcome.view) (presigViews B nodes W l lam pr))

/-- The same program with everything made up from public points and ECDSA signatures. -/
noncomputable def protocolOracle (η : Fn) (X : Pt) (K : Fin N → Pt) (oracle : Fin N → Fn → Fn → Fn → Option (Fn × Fn))
    (l : List (Outcome M R)) (blind : Fin N → Fn) (c : Fin N → PresigCoins k M Q) : List (Fin N × Request) × α :=
  attackOracle P (k + 1) B (nth l 0).shares (heldFrom nodes W l fun i => (c i).shown B) η X K oracle
    (A (l.map Outcome.view) fun i => (c i).shown B) (madeFrom B nodes W l η c blind)

/-- The rounds of products are in order: honest dealers are distinct and not of the group, those of the group are distinct, and the dealers are at
least as many as a product of two polynomials has coefficients. -/
structure ProductsInOrder : Prop where
  honest : Function.Injective nodes
  apart : ∀ r, nodes r ∉ B
  kl : ∀ v l i, ((W.klDeals v l i).map Prod.fst).Nodup ∧ (∀ x ∈ W.klDeals v l i, x.1 ∈ B) ∧ 2 * k ≤ Q + (W.klDeals v l i).length
  xl : ∀ v l i, ((W.xlDeals v l i).map Prod.fst).Nodup ∧ (∀ x ∈ W.xlDeals v l i, x.1 ∈ B) ∧ 2 * k ≤ Q + (W.xlDeals v l i).length

end Verif.KeyGen
