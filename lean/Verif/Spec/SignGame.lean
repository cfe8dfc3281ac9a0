import Verif.Spec.SignView
import Verif.Spec.Oracle

/-!
The game of a program that attacks signing with the knowledge of a group of nodes one short of the threshold, and the same
program run with an oracle for ordinary ECDSA signatures instead.
-/

set_option autoImplicit false

namespace Verif.Sign

open Dealings
open Point (H)

/-- What nodes are asked to sign. -/
structure Request where
  path : List Key.Index
  hashedMsg : Bytes
  randomness : Bytes

/-- The published part of a presignature: the commitments to `κ`, `λ`, `κλ` and `xλ`. -/
structure Presig where
  kappa : List Pt
  lambda : List Pt
  kl : List Pt
  xl : List Pt

/-- A program that has signatures made, with presignatures of its choice among `N`.  It is given the signature shares of all nodes.  In
the end it has a result. -/
inductive Attack (N : Nat) (α : Type) where
  | stop (a : α)
  | sign (i : Fin N) (q : Request) (next : Option (NodeIndex → Res SigShare) → Attack N α)

/-- Running the program: every presignature is used once (asked again, there is no answer).  The result comes with the requests that were
answered. -/
def Attack.run {N : Nat} {α : Type} (answer : Fin N → Request → NodeIndex → Res SigShare) :
    List (Fin N × Request) → Attack N α → List (Fin N × Request) × α
  | asked, stop a => (asked, a)
  | asked, sign i q next =>
    if i ∈ asked.map Prod.fst then (next none).run answer asked else (next (some (answer i q))).run answer ((i, q) :: asked)

/-- What the group holds of a presignature. -/
structure Held where
  kappa : NodeIndex → Fn
  seen : Seen

/-- What the group does not know of a presignature besides the nonce. -/
structure Blinds where
  lambda : Fn
  lambdaMask : Fn
  klMask : Fn
  xlMask : Fn

/-- The polynomials of one presignature: those with the given values for the group and the given constant terms. -/
noncomputable def secretsOf (t : Nat) (B : List NodeIndex) (keyShares : NodeIndex → Fn) (h : Held) (x0 k0 : Fn) (b : Blinds) : Secrets where
  x := through t B x0 keyShares
  kappa := through t B k0 h.kappa
  lambda := through t B b.lambda h.seen.lambda
  kl := through t B (k0 * b.lambda) h.seen.kl
  xl := through t B (x0 * b.lambda) h.seen.xl
  lambdaMask := through t B b.lambdaMask h.seen.lambdaMask
  klMask := through t B b.klMask h.seen.klMask
  xlMask := through t B b.xlMask h.seen.xlMask

/-- What is published of a presignature. -/
noncomputable def presigOf (S : Secrets) : Presig where
  kappa := S.kappa.map fun v : Fn => v • G
  lambda := List.zipWith (fun v m : Fn => v • G + m • H) S.lambda S.lambdaMask
  kl := List.zipWith (fun v m : Fn => v • G + m • H) S.kl S.klMask
  xl := List.zipWith (fun v m : Fn => v • G + m • H) S.xl S.xlMask

/-- The attack on the nodes: the program sees the commitments to the key and of all presignatures, and then has nodes sign, which do what
`NewThresholdEcdsaSigShareInternal` does. -/
noncomputable def attackNodes {N : Nat} {α : Type} (P : Prim) (t : Nat) (B : List NodeIndex) (keyShares : NodeIndex → Fn)
    (held : Fin N → Held) (x0 : Fn) (k0 : Fin N → Fn) (A : List Pt → (Fin N → Presig) → Attack N α) (b : Fin N → Blinds) :
    List (Fin N × Request) × α :=
  (A ((through t B x0 keyShares).map fun v : Fn => v • G) fun i => presigOf (secretsOf t B keyShares (held i) x0 (k0 i) (b i))).run
    (fun i q j => SigShare.new P q.path q.hashedMsg q.randomness
      (unmasked (secretsOf t B keyShares (held i) x0 (k0 i) (b i)).x) (unmasked (secretsOf t B keyShares (held i) x0 (k0 i) (b i)).kappa)
      (share (secretsOf t B keyShares (held i) x0 (k0 i) (b i)).lambda (secretsOf t B keyShares (held i) x0 (k0 i) (b i)).lambdaMask j)
      (share (secretsOf t B keyShares (held i) x0 (k0 i) (b i)).kl (secretsOf t B keyShares (held i) x0 (k0 i) (b i)).klMask j)
      (share (secretsOf t B keyShares (held i) x0 (k0 i) (b i)).xl (secretsOf t B keyShares (held i) x0 (k0 i) (b i)).xlMask j)) []

/-- SEC 1, 4.1.3: the numbers `r` and `s` for the private key `x`, the nonce `k` and the number `e` (`none` for the nonce 0). -/
noncomputable def ecdsaSign (x k e : Fn) : Option (Fn × Fn) :=
  match k • G with
  | .zero => none
  | .some a _ _ => some ((a.val : Fn), (e + (a.val : Fn) * x) / k)

/-- The oracle for signatures: with the `i`-th nonce, moved by `δ`, and the key, moved by `tweak`, it signs `e`. -/
noncomputable def ecdsaOracle {N : Nat} (x0 : Fn) (k0 : Fin N → Fn) (i : Fin N) (tweak δ e : Fn) : Option (Fn × Fn) :=
  ecdsaSign (x0 + tweak) (k0 i + δ) e

/-- What a presignature is made up from, besides the point `k • G`. -/
structure Made where
  c : Fn
  lambda : Fn
  kl : Fn
  xl : Fn

/-- A presignature made up for the nonce of which `K` is the public point. -/
noncomputable def presigFor (t : Nat) (B : List NodeIndex) (h : Held) (K : Pt) (m : Made) : Presig where
  kappa := throughPts t B K fun j => h.kappa j • G
  lambda := throughPts t B (m.lambda • H) fun j => h.seen.lambda j • G + h.seen.lambdaMask j • H
  kl := throughPts t B (m.kl • H) fun j => h.seen.kl j • G + h.seen.klMask j • H
  xl := throughPts t B (m.xl • H) fun j => h.seen.xl j • G + h.seen.xlMask j • H

/-- Signature shares of all nodes made up from the signature, where `G = η • H`, and `X` is the public key.  (If the nonce is zero there
is no signature.) -/
noncomputable def sharesFor (t : Nat) (B : List NodeIndex) (v : Seen) (η : Fn) (X : Pt) (d : Derived) (e : Fn) (signature : Option (Fn × Fn))
    (m : Made) (j : NodeIndex) : SigShare :=
  let theta := e + d.rho * d.keyTweak
  let numerator := match signature with
    | some (_, s) => s * m.c
    | none => if theta • G + d.rho • X = 0 then 0 else m.c
  let denominator := match signature with
    | some _ => m.c
    | none => 0
  ⟨some (.pedersen (Poly.evaluateAt (through t B numerator fun i => theta * v.lambda i + d.rho * v.xl i) (place j))
      (Poly.evaluateAt (through t B (theta * m.lambda + d.rho * m.xl - numerator * η)
        fun i => theta * v.lambdaMask i + d.rho * v.xlMask i) (place j))),
    some (.pedersen (Poly.evaluateAt (through t B denominator fun i => d.randomizer * v.lambda i + v.kl i) (place j))
      (Poly.evaluateAt (through t B (d.randomizer * m.lambda + m.kl - denominator * η)
        fun i => d.randomizer * v.lambdaMask i + v.klMask i) (place j)))⟩

/-- The transcript with the given commitment, without mask. -/
def plainCom (points : List Pt) : Option Com := some ⟨.interpolation, ⟨.simple, points⟩⟩

/-- The same program run with made-up presignatures and shares: of key and nonces it takes the public points and one signature of the oracle
for each request. -/
noncomputable def attackOracle {N : Nat} {α : Type} (P : Prim) (t : Nat) (B : List NodeIndex) (keyShares : NodeIndex → Fn)
    (held : Fin N → Held) (η : Fn) (X : Pt) (K : Fin N → Pt) (oracle : Fin N → Fn → Fn → Fn → Option (Fn × Fn))
    (A : List Pt → (Fin N → Presig) → Attack N α) (m : Fin N → Made) : List (Fin N × Request) × α :=
  (A (throughPts t B X fun j => keyShares j • G) fun i => presigFor t B (held i) (K i) (m i)).run
    (fun i q j => do
      let d ← deriveRho P q.hashedMsg q.randomness q.path (plainCom (throughPts t B X fun j => keyShares j • G))
        (plainCom (presigFor t B (held i) (K i) (m i)).kappa)
      let e ← convertHashToInteger q.hashedMsg
      .ok (sharesFor t B (held i).seen η X d e (oracle i d.keyTweak d.randomizer e) (m i) j)) []

/-- What a forger ends with: a derivation path, a message hash, and the numbers of a signature. -/
structure Forgery where
  path : List Key.Index
  hashedMsg : Bytes
  r : Fn
  s : Fn

/-- The signature is valid under the key derived from `X`, and this hash was not signed for this path. -/
def Forged {N : Nat} (P : Prim) (X : Pt) (result : List (Fin N × Request) × Forgery) : Prop :=
  (∃ tweak chain, Key.deriveTweak P result.2.path X = .ok (tweak, chain) ∧
    EcdsaValid (tweak • G + X) (beVal result.2.hashedMsg : Fn) result.2.r result.2.s) ∧
  ∀ a ∈ result.1, ¬ (a.2.path = result.2.path ∧ a.2.hashedMsg = result.2.hashedMsg)

end Verif.Sign
