import Verif.Spec.SignGame
import Verif.Spec.TranscriptExact

/-!
Generation of a key, as testutils/signature_protocol_setup.go:33-48 does it (a random transcript, then the same reshared without mask): what a
group of nodes one short of the threshold sees of it, and the same made up from the public key.
-/

set_option autoImplicit false

namespace Verif.KeyGen

open Dealings Sign
open Point (H)

/-- What the honest nodes draw for threshold `k + 1`: `M + 1` of them deal a random polynomial and a mask, and then `R` of them reshare their
shares, with polynomials whose constant term is the share. -/
structure Drawn (k M R : Nat) where
  values : Fin (M + 1) → Fin (k + 1) → Fn
  masks : Fin (M + 1) → Fin (k + 1) → Fn
  tails : Fin R → Fin k → Fn

/-- What the group sees of the honest dealings of the first round: commitments, and its own openings. -/
structure First (M : Nat) where
  commitments : Fin (M + 1) → List Pt
  openings : Fin (M + 1) → NodeIndex → Fn × Fn

/-- What the group sees of the honest dealings of both rounds. -/
structure Shown (M R : Nat) where
  first : First M
  commitments : Fin R → List Pt
  openings : Fin R → NodeIndex → Fn

variable {k M R : Nat} (B : List NodeIndex) (nodes : Fin R → NodeIndex) (others : First M → Fin (k + 1) → Fn)

/-- The values of a polynomial for the nodes of the group. -/
noncomputable def forGroup (q : List Fn) (j : NodeIndex) : Fn := if j ∈ B then (toPoly q).eval (place j) else 0

/-- The first round. -/
noncomputable def Drawn.first (ω : Drawn k M R) : First M where
  commitments d := List.zipWith (fun v m : Fn => v • G + m • H) (List.ofFn (ω.values d)) (List.ofFn (ω.masks d))
  openings d j := (forGroup B (List.ofFn (ω.values d)) j, forGroup B (List.ofFn (ω.masks d)) j)

/-- The polynomial behind the random transcript: the sum of the honest polynomials and of what the others added (`others`), who deal
after they have seen the honest dealings. -/
noncomputable def Drawn.secret (ω : Drawn k M R) : List Fn :=
  List.ofFn fun c => ∑ d, ω.values d c + others (ω.first B) c

/-- The key. -/
noncomputable def Drawn.key (ω : Drawn k M R) : Fn := (toPoly (ω.secret B others)).eval 0

/-- The polynomial with which an honest node reshares its share. -/
noncomputable def Drawn.reshared (ω : Drawn k M R) (r : Fin R) : List Fn :=
  (toPoly (ω.secret B others)).eval (place (nodes r)) :: List.ofFn (ω.tails r)

/-- Both rounds. -/
noncomputable def Drawn.shown (ω : Drawn k M R) : Shown M R where
  first := ω.first B
  commitments r := (ω.reshared B nodes others r).map fun v : Fn => v • G
  openings r := forGroup B (ω.reshared B nodes others r)

/-- What a program draws that makes the same up. -/
structure Coins (k M R : Nat) where
  points : Fin (M + 1) → Fn
  values : Fin (M + 1) → Fin k → Fn
  masks : Fin (M + 1) → Fin k → Fn
  later : Fin R → Fin k → Fn

/-- Values given to the nodes of the group, in the order of the list. -/
def given (s : Fin k → Fn) (j : NodeIndex) : Fn := (List.ofFn s).getD (B.idxOf j) 0

/-- The first round, made up. -/
noncomputable def Coins.first (c : Coins k M R) : First M where
  commitments d := throughPts (k + 1) B (c.points d • H) fun j => given B (c.values d) j • G + given B (c.masks d) j • H
  openings d j := (given B (c.values d) j, given B (c.masks d) j)

/-- The share of the random transcript of a node in the group. -/
noncomputable def groupShare (v : First M) (j : NodeIndex) : Fn :=
  ∑ d, (v.openings d j).1 + (toPoly (List.ofFn (others v))).eval (place j)

/-- Both rounds, made up from the public key `X`. -/
noncomputable def Coins.made (X : Pt) (c : Coins k M R) : Shown M R where
  first := c.first B
  commitments r := throughPts (k + 1) B
    (valueAt (throughPts (k + 1) B X fun j => groupShare others (c.first B) j • G) (place (nodes r)))
    fun j => given B (c.later r) j • G
  openings r := given B (c.later r)

/-- What nodes of the group deal in the second round, after they have seen the honest dealings: those that deal, each with the coefficients
after the constant term, which is the node's share. -/
abbrev Dealt (k : Nat) := List (NodeIndex × (Fin k → Fn))

variable (dealt : Shown M R → Dealt k)

/-- All dealers of the second round. -/
def dealers (v : Shown M R) : List NodeIndex := List.ofFn nodes ++ (dealt v).map Prod.fst

/-- The polynomial that a node of the group deals. -/
noncomputable def groupDeals (v : Shown M R) (x : NodeIndex × (Fin k → Fn)) : List Fn :=
  groupShare others v.first x.1 :: List.ofFn x.2

/-- The polynomial behind the transcript of the second round. -/
noncomputable def Drawn.keyPoly (ω : Drawn k M R) : List Fn :=
  let v := ω.shown B nodes others
  let w := weightAtZero (dealers nodes dealt v)
  List.ofFn fun c : Fin (k + 1) => ∑ r, w (nodes r) * (ω.reshared B nodes others r).getD c 0 +
    ((dealt v).map fun x => w x.1 * (groupDeals others v x).getD c 0).sum

/-- The shares of the key that the group computes from what it sees. -/
noncomputable def keyShares (v : Shown M R) (j : NodeIndex) : Fn :=
  let w := weightAtZero (dealers nodes dealt v)
  ∑ r, w (nodes r) * v.openings r j + ((dealt v).map fun x => w x.1 * (toPoly (groupDeals others v x)).eval (place j)).sum

/-- The second round is in order: honest dealers are distinct and not of the group, dealers of the group are distinct, and at least as many deal as
the threshold. -/
structure InOrder : Prop where
  honest : Function.Injective nodes
  apart : ∀ r, nodes r ∉ B
  distinct : ∀ v, ((dealt v).map Prod.fst).Nodup
  group : ∀ v, ∀ x ∈ dealt v, x.1 ∈ B
  enough : ∀ v, k + 1 ≤ R + (dealt v).length

end Verif.KeyGen
