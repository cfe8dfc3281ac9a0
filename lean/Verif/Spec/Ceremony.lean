import Verif.Spec.KeyGen

/-!
The key and any number of nonces, generated one after the other or together, and then signatures made with them.
-/

set_option autoImplicit false

namespace Verif.KeyGen

open Dealings Sign

/-- How those react that are not honest: knowing the honest dealings of the first rounds of all generations, and everything of the earlier
generations, they add a polynomial to the first round and deal in the second. -/
structure Reaction (k M R : Nat) where
  adds : List (First M) → List (Shown M R) → Fin (k + 1) → Fn
  deals : List (First M) → List (Shown M R) → Shown M R → Dealt k

/-- A generation: what the group sees, the shares it has in the end, and the secret. -/
structure Outcome (M R : Nat) where
  view : Shown M R
  shares : NodeIndex → Fn
  secret : Fn

variable {k M R : Nat} (B : List NodeIndex) (nodes : Fin R → NodeIndex) (E : Reaction k M R)

/-- One generation, after the others. -/
noncomputable def Drawn.outcome (all : List (First M)) (earlier : List (Shown M R)) (ω : Drawn k M R) : Outcome M R :=
  let others := fun _ => E.adds all earlier
  ⟨ω.shown B nodes others, keyShares nodes others (E.deals all earlier) (ω.shown B nodes others), ω.key B others⟩

/-- All generations, for what the honest nodes draw in each of them. -/
noncomputable def generateFrom (all : List (First M)) : List (Outcome M R) → List (Drawn k M R) → List (Outcome M R)
  | done, [] => done
  | done, ω :: rest => generateFrom all (done ++ [ω.outcome B nodes E all (done.map Outcome.view)]) rest

noncomputable def generate (ωs : List (Drawn k M R)) : List (Outcome M R) :=
  generateFrom B nodes E (ωs.map (Drawn.first B)) [] ωs

/-- One generation, made up from the public key of `x`. -/
noncomputable def Coins.outcome (all : List (First M)) (earlier : List (Shown M R)) (y : Fn × Coins k M R) : Outcome M R :=
  let others := fun _ => E.adds all earlier
  let view := y.2.made B nodes others (y.1 • G)
  ⟨view, keyShares nodes others (E.deals all earlier) view, y.1⟩

/-- All of them, made up. -/
noncomputable def makeUpFrom (all : List (First M)) : List (Outcome M R) → List (Fn × Coins k M R) → List (Outcome M R)
  | done, [] => done
  | done, y :: rest => makeUpFrom all (done ++ [Coins.outcome B nodes E all (done.map Outcome.view) y]) rest

noncomputable def makeUp (ys : List (Fn × Coins k M R)) : List (Outcome M R) :=
  makeUpFrom B nodes E (ys.map fun y => y.2.first B) [] ys

/-- The `i`-th of them. -/
def nth (l : List (Outcome M R)) (i : Nat) : Outcome M R := l.getD i ⟨⟨⟨fun _ => [], fun _ _ => 0⟩, fun _ => [], fun _ _ => 0⟩, fun _ => 0, 0⟩

variable {N : Nat} {α : Type} (P : Prim) (seen : List (Shown M R) → Fin N → Seen)
  (A : List (Shown M R) → List Pt → (Fin N → Presig) → Attack N α)

/-- What the group holds of the presignatures: the shares of the nonces are those of the generations after the first. -/
def holds (l : List (Outcome M R)) (i : Fin N) : Held := ⟨(nth l (i + 1)).shares, seen (l.map Outcome.view) i⟩

/-- The attack: key and nonces are generated, and then nodes sign with them. -/
noncomputable def wholeAttack (l : List (Outcome M R)) (b : Fin N → Blinds) : List (Fin N × Request) × α :=
  attackNodes P (k + 1) B (nth l 0).shares (holds seen l) (nth l 0).secret (fun i => (nth l (i + 1)).secret) (A (l.map Outcome.view)) b

/-- The same with the oracle: of the key `x` and the nonces `ks` it takes the public points and one signature for each request. -/
noncomputable def wholeOracle (η : Fn) (l : List (Outcome M R)) (X : Pt) (K : Fin N → Pt)
    (oracle : Fin N → Fn → Fn → Fn → Option (Fn × Fn)) (m : Fin N → Made) : List (Fin N × Request) × α :=
  attackOracle P (k + 1) B (nth l 0).shares (holds seen l) η X K oracle (A (l.map Outcome.view)) m

end Verif.KeyGen
