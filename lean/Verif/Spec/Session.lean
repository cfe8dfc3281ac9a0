import Verif.Spec.Presig

/-!
Key generation first, then presignatures and signatures in whatever order: the attacker decides at every step, from all they have seen, whether
one more presignature is made and how they meddle with it, or what is signed with which presignature.
-/

set_option autoImplicit false

namespace Verif.KeyGen

open Dealings Sign
open Point (H)

/-- A program that has presignatures made, meddling with them (`w`), and has each of them answer one question (`i` counts them in the order in
which they were made).  In the end it has a result. -/
inductive Session (W V Q A α : Type) where
  | stop (a : α)
  | make (w : W) (next : Option V → Session W V Q A α)
  | ask (i : Nat) (q : Q) (next : Option A → Session W V Q A α)

/-- What a presignature shows when it is made, and how it answers, where `d` is what honest nodes draw for it. -/
structure Machine (W V Q A D : Type) where
  view : W → D → V
  answer : W → D → Q → A

/-- Running the program with the choices of the honest nodes for as many presignatures as may be made.  Every presignature answers once.  The
result comes with the questions that were answered. -/
def Session.run {W V Q A D α : Type} (m : Machine W V Q A D) :
    Session W V Q A α → List D → List (Option (W × D)) → List (Nat × Q) → List (Nat × Q) × α
  | stop a, _, _, asked => (asked, a)
  | make _ next, [], made, asked => (next none).run m [] made asked
  | make w next, d :: tape, made, asked => (next (some (m.view w d))).run m tape (made ++ [some (w, d)]) asked
  | ask i q next, tape, made, asked =>
    match made[i]? with
    | some (some (w, d)) => (next (some (m.answer w d q))).run m tape (made.set i none) ((i, q) :: asked)
    | _ => (next none).run m tape made asked

/-- What honest nodes draw for one presignature: for the nonce, for `λ` and for both products. -/
abbrev PresigDrawn (k M R Q : Nat) := Drawn k M R × (Fin 1 → Drawn k M 0) × (Fin 1 → ProductDrawn k Q × ProductDrawn k Q)

/-- What the group sees when a presignature is made, with what is published. -/
structure PresigView (M R Q : Nat) where
  nonce : Shown M R
  shown : PresigShown M Q
  presig : Presig

variable {k M R Q : Nat} (B : List NodeIndex) (keyNodes : Fin R → NodeIndex) (nodes : Fin (Q + 1) → NodeIndex) (P : Prim)

/-- What the group may do while a presignature is made. -/
abbrev Proper (k M R Q : Nat) (B : List NodeIndex) (nodes : Fin (Q + 1) → NodeIndex) := {W : Meddling k M R Q 1 // ProductsInOrder B nodes W}

/-- One presignature under the key `o` (the nonce is generated by two rounds as the key is). -/
noncomputable def realMachine (o : Outcome M R) :
    Machine (Proper k M R Q B nodes) (PresigView M R Q) Request (NodeIndex → Res SigShare) (PresigDrawn k M R Q) where
  view W d :=
    let l := generateFrom B keyNodes (W.1.keys (lambdaViews B d.2.1)) [d.1.first B] [o] [d.1]
    ⟨(nth l 1).view, presigViews B nodes W.1 l d.2.1 d.2.2 0, presigOf (presigSecrets B nodes W.1 l d.2.1 d.2.2 0)⟩
  answer W d q j :=
    let l := generateFrom B keyNodes (W.1.keys (lambdaViews B d.2.1)) [d.1.first B] [o] [d.1]
    let S := presigSecrets B nodes W.1 l d.2.1 d.2.2 0
    SigShare.new P q.path q.hashedMsg q.randomness (unmasked S.x) (unmasked S.kappa)
      (share S.lambda S.lambdaMask j) (share S.kl S.klMask j) (share S.xl S.xlMask j)

/-- What is drawn to make a presignature up: the blinding number, the nonce, and coins. -/
abbrev PresigMade (k M R Q : Nat) := Fn × (Fn × Coins k M R) × (Fin 1 → PresigCoins k M Q)

/-- The same made up from the public points of the key and of the nonce, and, for each question, one signature of
`oracle tweak nonce δ e` (with the key moved by `tweak` and the nonce moved by `δ`). -/
noncomputable def oracleMachine (η : Fn) (X : Pt) (oracle : Fn → Fn → Fn → Fn → Option (Fn × Fn)) (o : Outcome M R) :
    Machine (Proper k M R Q B nodes) (PresigView M R Q) Request (NodeIndex → Res SigShare) (PresigMade k M R Q) where
  view W d :=
    let l := makeUpFrom B keyNodes (W.1.keys fun i => (d.2.2 i).lambda.first B) [d.2.1.2.first B] [o] [d.2.1]
    let v := fun i => (d.2.2 i).shown B
    ⟨(nth l 1).view, v 0, presigFor (k + 1) B (heldFrom nodes W.1 l v 0) (d.2.1.1 • G) (madeFrom B nodes W.1 l η d.2.2 (fun _ => d.1) 0)⟩
  answer W d q j :=
    let l := makeUpFrom B keyNodes (W.1.keys fun i => (d.2.2 i).lambda.first B) [d.2.1.2.first B] [o] [d.2.1]
    let h := heldFrom nodes W.1 l (fun i => (d.2.2 i).shown B) 0
    let m := madeFrom B nodes W.1 l η d.2.2 (fun _ => d.1) 0
    do
      let r ← deriveRho P q.hashedMsg q.randomness q.path (plainCom (throughPts (k + 1) B X fun j => o.shares j • G))
        (plainCom (presigFor (k + 1) B h (d.2.1.1 • G) m).kappa)
      let e ← convertHashToInteger q.hashedMsg
      .ok (sharesFor (k + 1) B h.seen η X r e (oracle r.keyTweak d.2.1.1 r.randomizer e) m j)

variable (E : Reaction k M R) {α : Type}

/-- Who attacks: they are given what the group sees of the generation of the key, and the commitment to it. -/
abbrev KeyAttacker (k M R Q : Nat) (B : List NodeIndex) (nodes : Fin (Q + 1) → NodeIndex) (α : Type) :=
  Shown M R → List Pt → Session (Proper k M R Q B nodes) (PresigView M R Q) Request (NodeIndex → Res SigShare) α

variable (A : KeyAttacker k M R Q B nodes α)

/-- Everything, for what the honest nodes draw: the key, and the result of the attack. -/
noncomputable def liveAttack (ω : Drawn k M R) (tape : List (PresigDrawn k M R Q)) : Pt × List (Nat × Request) × α :=
  let o := ω.outcome B keyNodes E [ω.first B] []
  (o.secret • G, (A o.view ((o.poly B k).map fun v : Fn => v • G)).run (realMachine B keyNodes nodes P o) tape [] [])

/-- The same made up for the key `y.1`. -/
noncomputable def liveOracle (η : Fn) (y : Fn × Coins k M R) (tape : List (PresigMade k M R Q)) : Pt × List (Nat × Request) × α :=
  let o := Coins.outcome B keyNodes E [y.2.first B] [] y
  (y.1 • G, (A o.view (throughPts (k + 1) B (y.1 • G) fun j => o.shares j • G)).run
    (oracleMachine B keyNodes nodes P η (y.1 • G) (fun tweak nonce δ e => ecdsaSign (y.1 + tweak) (nonce + δ) e) o) tape [] [])

/-- The signature is valid under the key derived from the public key, and this hash was not signed for this path. -/
def LiveForged (P : Prim) (result : Pt × List (Nat × Request) × Forgery) : Prop :=
  (∃ tweak chain, Key.deriveTweak P result.2.2.path result.1 = .ok (tweak, chain) ∧
    EcdsaValid (tweak • G + result.1) (beVal result.2.2.hashedMsg : Fn) result.2.2.r result.2.2.s) ∧
  ∀ a ∈ result.2.1, ¬ (a.2.path = result.2.2.path ∧ a.2.hashedMsg = result.2.2.hashedMsg)

end Verif.KeyGen
