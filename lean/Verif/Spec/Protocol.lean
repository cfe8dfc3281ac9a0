import Verif.Model.Protocol
import Verif.Spec.Poly
import Verif.Spec.Transcript

/-! What a protocol round is supposed to have achieved. -/

set_option autoImplicit false

namespace Verif.Protocol

open Dealings
open Point (H)

/-- The share of node number `i`: the value at `i + 1`. -/
noncomputable def shareOf (f : List Fn) (i : Nat) : Fn := (toPoly f).eval ((i : Fn) + 1)

/-- The transcript commits to `f` (values) and `g` (masks), of `t` coefficients each, and node `i` of `n` has opened their
values at `i + 1`. -/
def SharesMasked (R : Round) (n : Nat) (t : Int) (f g : List Fn) : Prop :=
  (f.length : Int) = t ∧ (g.length : Int) = t ∧
    R.transcript.c = ⟨.pedersen, List.zipWith (fun v m : Fn => v • G + m • H) f g⟩ ∧
    R.openings = (List.range n).map fun i => .pedersen (shareOf f i) (shareOf g i)

/-- The same without masks; the commitment is one that signing accepts. -/
def SharesUnmasked (R : Round) (n : Nat) (t : Int) (f : List Fn) : Prop :=
  (f.length : Int) = t ∧ R.transcript = ⟨.interpolation, ⟨.simple, f.map fun v : Fn => v • G⟩⟩ ∧
    R.openings = (List.range n).map fun i => .simple (shareOf f i)

/-- Setups that differ only in the number of rounds done. -/
def SameNodes (s s' : Setup) : Prop := s'.threshold = s.threshold ∧ s'.sk = s.sk ∧ s'.ad = s.ad ∧ s'.seed = s.seed

/-! ### What can keep a run from finishing -/

/-- From no position of any seed's key stream does the sampling of a scalar go on forever. -/
def Flows (P : Prim) : Prop := ∀ (sd : Seed) (pos : Nat), pos % 4 = 0 → ∃ x, Scalar.random ⟨P.chacha20 sd.value, pos⟩ = .ok x

/-- Drawing one of `m` entries again and again, one gets each of them at some time. -/
def Fair (P : Prim) : Prop := ∀ (sd : Seed) (pos m i : Nat), pos % 4 = 0 → m ≤ 2 ^ 32 → i < m →
  ∃ k, (Rng.uint32 ⟨P.chacha20 sd.value, pos + 4 * k⟩).1 % m = i

/-- Some seed's generator gives the scalar zero, so that adding it to a ciphertext does not damage it. -/
def ZeroScalar (P : Prim) : Prop := ∃ (sd : Seed) (rng : Rng), Scalar.random (sd.rng P) = .ok (0, rng)

/-- A run with `corrupted` damaged dealings returns, unless the generators have one of the defects above.  It does not end
with an error. -/
def GoesThrough {α : Type} (P : Prim) (corrupted : Nat) (r : Res α) : Prop :=
  (∃ a, r = .ok a) ∨ ((¬ Flows P ∨ corrupted ≠ 0 ∧ ¬ Fair P) ∧ r = .diverge) ∨
    ((corrupted ≠ 0 ∧ ZeroScalar P) ∧ r.isPanic = true)

end Verif.Protocol
