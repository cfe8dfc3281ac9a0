import Verif.Spec.Rfc9380
import Verif.Spec.Dealings

/-!
The generators behind a dealing, by the labels on the way from the dealer's seed, and what a dealing made with given random
choices looks like.
-/

set_option autoImplicit false

namespace Verif.Dealings

/-- The key of the generator reached from a seed by deriving with the given labels. -/
def keyAt (H : Bytes → Bytes) (seed : Bytes) (labels : List String) : Option Bytes :=
  labels.foldl (fun o l => o.bind fun b => Rfc9380.expandMessageXmd H b (ascii l) 32) (some seed)

/-- The labels of the generators for the polynomials, the ephemeral key, the nonce of the proof of possession and the nonces
of the dealing's own proof (if it has one). -/
def generators : Shares → List (List String)
  | .random =>
    [["ic-crypto-tecdsa-create-dealing-polynomials"],
      ["ic-crypto-tecdsa-create-dealing-mega-encrypt", "ic-crypto-tecdsa-mega-encryption-pair-ephemeral-key"],
      ["ic-crypto-tecdsa-create-dealing-mega-encrypt", "ic-crypto-tecdsa-mega-encryption-pair-pop-proof"]]
  | .reshareUnmasked _ =>
    [["ic-crypto-tecdsa-create-dealing-polynomials"],
      ["ic-crypto-tecdsa-create-dealing-mega-encrypt", "ic-crypto-tecdsa-mega-encryption-single-ephemeral-key"],
      ["ic-crypto-tecdsa-create-dealing-mega-encrypt", "ic-crypto-tecdsa-mega-encryption-single-pop-proof"]]
  | .reshareMasked _ _ =>
    [["ic-crypto-tecdsa-create-dealing-polynomials"],
      ["ic-crypto-tecdsa-create-dealing-mega-encrypt", "ic-crypto-tecdsa-mega-encryption-single-ephemeral-key"],
      ["ic-crypto-tecdsa-create-dealing-mega-encrypt", "ic-crypto-tecdsa-mega-encryption-single-pop-proof"],
      ["ic-crypto-tecdsa-zk-proof-of-equal-openings"]]
  | .unmaskedTimesMasked _ _ _ =>
    [["ic-crypto-tecdsa-create-dealing-polynomials"],
      ["ic-crypto-tecdsa-create-dealing-mega-encrypt", "ic-crypto-tecdsa-mega-encryption-pair-ephemeral-key"],
      ["ic-crypto-tecdsa-create-dealing-mega-encrypt", "ic-crypto-tecdsa-mega-encryption-pair-pop-proof"],
      ["ic-crypto-tecdsa-zk-proof-of-product"]]
  | .other => []

/-- No two of the generators have the same key. -/
def KeysDiffer (P : Prim) (seed : Seed) (shares : Shares) : Prop :=
  ((generators shares).map (keyAt P.sha256 seed.value)).Nodup

/-- The random choices of a dealer: the coefficients of the two polynomials, the ephemeral secret, the nonce of the proof of
possession, and the two nonces of the dealing's own proof. -/
structure Choices where
  values : List Fn
  mask : List Fn
  ephemeral : Fn
  popNonce : Fn
  nonce1 : Fn
  nonce2 : Fn

/-- The proof of possession in a ciphertext. -/
def Cipher.pop : Cipher → Zk.Proof
  | .single m => m.popProof
  | .pair m => m.popProof

/-- The responses of the dealing's own proof are those for the given nonces. -/
def ProofMade (shares : Shares) (mask0 nonce1 nonce2 : Fn) : Option ProofVal → Prop
  | none => shares = .random ∨ ∃ s, shares = .reshareUnmasked s
  | some (.masked (some pf)) => ∃ s1 s2, shares = .reshareMasked s1 s2 ∧ pf.response = s2 * pf.challenge + nonce1
  | some (.product (some pf)) => ∃ l r rm, shares = .unmaskedTimesMasked l r rm ∧
      pf.response1 = l * pf.challenge + nonce1 ∧ pf.response2 = (mask0 - l * rm) * pf.challenge + nonce2
  | _ => False

/-- The dealing is the one made with these choices. -/
def MadeWith (shares : Shares) (ch : Choices) (d : Dealing) : Prop :=
  ∃ c cm, d.ciphertext = some c ∧ d.commitment = some cm ∧
    (if shares.hidden then cm.points = List.zipWith (fun v m : Fn => v • G + m • Point.H) ch.values ch.mask
      else cm.points = ch.values.map fun v : Fn => v • G) ∧
    c.ephemeral = ch.ephemeral • G ∧ c.pop.response = ch.ephemeral * c.pop.challenge + ch.popNonce ∧
    ProofMade shares (ch.mask.headD 0) ch.nonce1 ch.nonce2 d.proof

end Verif.Dealings
