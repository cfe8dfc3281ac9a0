import Verif.Model.Dealings

/-! What a dealing is supposed to carry, in terms of its inputs. -/

set_option autoImplicit false

namespace Verif.Dealings

open Mega
open Point (H)

/-- The value at `x` of the polynomial with the given coefficients in the group. -/
noncomputable def valueAt (pts : List Pt) (x : Fn) : Pt := ∑ j : Fin pts.length, x ^ (j : ℕ) • pts[j]

/-- The place of a node: nodes are numbered from 0, and node `i` sits at `i + 1` (modulo 2^64). -/
def place (i : NodeIndex) : Fn := ((i + 1).toNat : Fn)

/-- The value at a node. -/
noncomputable def valueAtNode (pts : List Pt) (i : NodeIndex) : Pt := valueAt pts (place i)

/-- The value that is being dealt, if the shares determine it. -/
def Shares.secret : Shares → Option Fn
  | .reshareUnmasked s => some s
  | .reshareMasked s _ => some s
  | .unmaskedTimesMasked l r _ => some (l * r)
  | _ => none

/-- Whether the dealing must hide the value (Pedersen commitment, pairs of plaintexts). -/
def Shares.hidden : Shares → Bool
  | .random => true
  | .unmaskedTimesMasked _ _ _ => true
  | _ => false

/-- The dealer's shares are openings, at the dealer's index, of the commitments the operation refers to. -/
def Matches (dealer : NodeIndex) : Shares → Op → Prop
  | .random, .random => True
  | .reshareUnmasked s, .reshareUnmasked p1 =>
    p1.c.kind = .simple ∧ p1.c.points ≠ [] ∧ valueAtNode p1.c.points dealer = s • G
  | .reshareMasked s m, .reshareMasked p1 => p1.c.points ≠ [] ∧ valueAtNode p1.c.points dealer = s • G + m • H
  | .unmaskedTimesMasked l r m, .unmaskedTimesMasked left right =>
    left.c.kind = .simple ∧ left.c.points ≠ [] ∧ valueAtNode left.c.points dealer = l • G ∧
    right.c.kind = .pedersen ∧ right.c.points ≠ [] ∧ valueAtNode right.c.points dealer = r • G + m • H
  | _, _ => False

/-- Number of recipients of a ciphertext. -/
def Cipher.size : Cipher → Nat
  | .single m => m.ctexts.length
  | .pair m => m.ctexts.length

def Cipher.isPair : Cipher → Bool
  | .single _ => false
  | .pair _ => true

/-- The proof of possession that a ciphertext carries is accepted for this dealer and associated data. -/
def Cipher.popAccepted (P : Prim) (ad : Bytes) (dealer : NodeIndex) : Cipher → Prop
  | .single m => verifyPop P .single ad dealer m.ephemeralKey m.popPublicKey m.popProof = .ok ()
  | .pair m => verifyPop P .pairs ad dealer m.ephemeralKey m.popPublicKey m.popProof = .ok ()

/-- What a dealing for an operation has to satisfy beyond sizes and the proof of possession; `c0` is the constant term of
its commitment. -/
def ProofAccepted (P : Prim) (dealer : NodeIndex) (ad : Bytes) (kind : Kind) (pair : Bool) (c0 : Pt)
    (proof : Option ProofVal) : Op → Prop
  | .random => kind = .pedersen ∧ pair = true ∧ proof = none
  | .reshareMasked p1 => kind = .simple ∧ pair = false ∧ p1.c.points ≠ [] ∧
    ∃ pf, proof = some (.masked (some pf)) ∧ Zk.EqOpen.verify P pf (valueAtNode p1.c.points dealer) c0 ad = .ok ()
  | .reshareUnmasked p1 => kind = .simple ∧ pair = false ∧ p1.c.points ≠ [] ∧ p1.c.kind = .simple ∧ proof = none ∧
    (p1.wrap = .plain → c0 = valueAtNode p1.c.points dealer)
  | .unmaskedTimesMasked l r => kind = .pedersen ∧ pair = true ∧ l.c.points ≠ [] ∧ r.c.points ≠ [] ∧
    l.c.kind = .simple ∧ r.c.kind = .pedersen ∧
    ∃ pf, proof = some (.product (some pf)) ∧
      Zk.Product.verify P pf (valueAtNode l.c.points dealer) (valueAtNode r.c.points dealer) c0 ad = .ok ()
  | .other => False

/-- The commitments an operation refers to are not empty. -/
def Op.NonEmpty : Op → Prop
  | .reshareMasked p => p.c.points ≠ []
  | .reshareUnmasked p => p.c.points ≠ []
  | .unmaskedTimesMasked l r => l.c.points ≠ [] ∧ r.c.points ≠ []
  | _ => True

/-- A proof as the code itself makes it: a pointer to a struct whose embedded pointer is not nil. -/
def ProofVal.WellFormed (p : ProofVal) : Prop :=
  (∃ pf, p = .masked (some pf)) ∨ (∃ pf, p = .product (some pf))

end Verif.Dealings
