import Verif.Spec.Sign
import Verif.Spec.Dealings
import Mathlib.LinearAlgebra.Lagrange

/-!
What is seen of signing by a group of nodes one short of the threshold, and how to make it up from the signature.
-/

set_option autoImplicit false

namespace Verif.Sign

open Dealings
open Point (H)

/-- 0 and the places of the nodes. -/
noncomputable def places (B : List NodeIndex) : Finset Fn := insert 0 (B.map place).toFinset

/-- The `k`-th coefficient of the polynomial that is 1 at `x` and 0 at the other places. -/
noncomputable def weight (B : List NodeIndex) (x : Fn) (k : Nat) : Fn := (Lagrange.basis (places B) id x).coeff k

/-- The polynomial with `t` coefficients, value `a` at 0 and values `f j` at the places of the nodes, by Lagrange's formula. -/
noncomputable def through (t : Nat) (B : List NodeIndex) (a : Fn) (f : NodeIndex → Fn) : List Fn :=
  (List.range t).map fun k => a * weight B 0 k + (B.map fun j => f j * weight B (place j) k).sum

/-- The same for points. -/
noncomputable def throughPts (t : Nat) (B : List NodeIndex) (A : Pt) (F : NodeIndex → Pt) : List Pt :=
  (List.range t).map fun k => weight B 0 k • A + (B.map fun j => weight B (place j) k • F j).sum

/-- What signing shows: the commitments to `λ`, `κλ` and `xλ`, and the signature share of every node. -/
structure View where
  lambda : List Pt
  kl : List Pt
  xl : List Pt
  shares : NodeIndex → Res SigShare

/-- The openings of the nodes in the group. -/
structure Seen where
  lambda : NodeIndex → Fn
  lambdaMask : NodeIndex → Fn
  kl : NodeIndex → Fn
  klMask : NodeIndex → Fn
  xl : NodeIndex → Fn
  xlMask : NodeIndex → Fn

/-- What signing shows when the secrets are `S`. -/
noncomputable def viewOf (P : Prim) (path : List Key.Index) (hashedMsg randomness : Bytes) (S : Secrets) : View where
  lambda := List.zipWith (fun v m : Fn => v • G + m • H) S.lambda S.lambdaMask
  kl := List.zipWith (fun v m : Fn => v • G + m • H) S.kl S.klMask
  xl := List.zipWith (fun v m : Fn => v • G + m • H) S.xl S.xlMask
  shares i := SigShare.new P path hashedMsg randomness (unmasked S.x) (unmasked S.kappa) (share S.lambda S.lambdaMask i)
    (share S.kl S.klMask i) (share S.xl S.xlMask i)

/-- The polynomials have `t` coefficients and give the group's members their openings. -/
structure Secrets.Gives (S : Secrets) (t : Nat) (B : List NodeIndex) (v : Seen) : Prop where
  len : S.lambda.length = t ∧ S.lambdaMask.length = t ∧ S.kl.length = t ∧ S.klMask.length = t ∧ S.xl.length = t ∧
    S.xlMask.length = t
  openings : ∀ j ∈ B, (toPoly S.lambda).eval (place j) = v.lambda j ∧ (toPoly S.lambdaMask).eval (place j) = v.lambdaMask j ∧
    (toPoly S.kl).eval (place j) = v.kl j ∧ (toPoly S.klMask).eval (place j) = v.klMask j ∧
    (toPoly S.xl).eval (place j) = v.xl j ∧ (toPoly S.xlMask).eval (place j) = v.xlMask j

/-- The secrets that are possible for a given key, nonce and openings of the group. -/
def Possible (x kappa : List Fn) (x0 k0 : Fn) (t : Nat) (B : List NodeIndex) (v : Seen) : Set Secrets :=
  {S | S.x = x ∧ S.kappa = kappa ∧ (∃ l0, S.Consistent t x0 k0 l0) ∧ S.Gives t B v}

/-- Four scalars. -/
structure Coins where
  a : Fn
  u : Fn
  nu : Fn
  mu : Fn

/-- The number of which the signature has the low one: the sign is found from public points. -/
def fullS (sig : Signature) (e : Fn) (Q R : Pt) : Fn :=
  if (e / sig.s) • G + (sig.r / sig.s) • Q = R then sig.s else -sig.s

/-- A view made up from public values (the results of `DeriveRho` and the master public key), the signature, the openings of the
group, and four scalars. -/
noncomputable def simulate (t : Nat) (B : List NodeIndex) (v : Seen) (e : Fn) (d : Derived) (pk : Pt) (sig : Signature)
    (c : Coins) : View :=
  let theta := e + d.rho * d.keyTweak
  let s := fullS sig e (d.keyTweak • G + pk) d.randomizedPresig
  let L : Pt := c.u • H
  let numerator := through t B (s * c.a) fun j => theta * v.lambda j + d.rho * v.xl j
  let numeratorMask := through t B c.nu fun j => theta * v.lambdaMask j + d.rho * v.xlMask j
  let denominator := through t B c.a fun j => d.randomizer * v.lambda j + v.kl j
  let denominatorMask := through t B c.mu fun j => d.randomizer * v.lambdaMask j + v.klMask j
  { lambda := throughPts t B L fun j => v.lambda j • G + v.lambdaMask j • H
    kl := throughPts t B (c.a • G + c.mu • H - d.randomizer • L) fun j => v.kl j • G + v.klMask j • H
    xl := throughPts t B (d.rho⁻¹ • ((s * c.a) • G + c.nu • H - theta • L)) fun j => v.xl j • G + v.xlMask j • H
    shares := fun i => .ok
      ⟨some (.pedersen (Poly.evaluateAt numerator (place i)) (Poly.evaluateAt numeratorMask (place i))),
        some (.pedersen (Poly.evaluateAt denominator (place i)) (Poly.evaluateAt denominatorMask (place i)))⟩ }

end Verif.Sign
