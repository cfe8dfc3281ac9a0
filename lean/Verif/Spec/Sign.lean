import Verif.Model.Sign
import Verif.Spec.Transcript
import Verif.Lemmas.Poly

/-! ECDSA over secp256k1 (SEC 1, section 4.1), and what the shares of a signing protocol are. -/

set_option autoImplicit false

namespace Verif.Sign

open Dealings Polynomial
open Point (H)

/-- SEC 1, 4.1.4: `(r, s)` is an ECDSA signature on the number `e` under the public key `Q`. -/
def EcdsaValid (Q : Pt) (e r s : Fn) : Prop :=
  r ≠ 0 ∧ s ≠ 0 ∧ ∃ (x y : Fp) (h : OnCurve x y), (e / s) • G + (r / s) • Q = Pt.mk x y h ∧ r = (x.val : Fn)

/-- SEC 1, 4.1.3 step 5: the number belonging to a message hash.  Of a hash of more than 256 bits, the leftmost 256 are
taken. -/
def hashNumber (hash : Bytes) : Fn := (beVal (hash.take 32) : Fn)

/-- The low one of `s` and `-s`. -/
def lowOf (s : Fn) : Fn := if n < 2 * s.val then -s else s

/-- The shared secrets of a signing protocol run, as polynomials of the nodes' places: key `x`, nonce `κ`, blinding `λ`, the
products `κλ` and `xλ`, and the masks of the last three. -/
structure Secrets where
  x : List Fn
  kappa : List Fn
  lambda : List Fn
  kl : List Fn
  xl : List Fn
  lambdaMask : List Fn
  klMask : List Fn
  xlMask : List Fn

/-- The polynomials have the products as constant terms, and `t` coefficients (all that matters of `x` and `κ` is that there
is a constant term). -/
structure Secrets.Consistent (S : Secrets) (t : Nat) (x0 k0 l0 : Fn) : Prop where
  hx : S.x.head? = some x0
  hk : S.kappa.head? = some k0
  hl : S.lambda.head? = some l0
  hkl : S.kl.head? = some (k0 * l0)
  hxl : S.xl.head? = some (x0 * l0)
  lenl : S.lambda.length ≤ t
  lenkl : S.kl.length ≤ t
  lenxl : S.xl.length ≤ t

/-- The transcript of an unmasked secret. -/
def unmasked (f : List Fn) : Option Com := some ⟨.interpolation, ⟨.simple, f.map fun v : Fn => v • G⟩⟩

/-- A node's opening of a masked secret. -/
noncomputable def share (f g : List Fn) (i : NodeIndex) : Option Opening :=
  some (.pedersen ((toPoly f).eval (place i)) ((toPoly g).eval (place i)))

/-- The honest signature shares of the given signers: what `SigShare.new` returns on their openings. -/
def HonestShares (P : Prim) (path : List Key.Index) (hashedMsg randomness : Bytes) (S : Secrets) (signers : List NodeIndex)
    (sh : NodeIndex → SigShare) : Prop :=
  ∀ i ∈ signers, SigShare.new P path hashedMsg randomness (unmasked S.x) (unmasked S.kappa) (share S.lambda S.lambdaMask i)
    (share S.kl S.klMask i) (share S.xl S.xlMask i) = .ok (sh i)

end Verif.Sign
