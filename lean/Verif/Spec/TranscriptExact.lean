import Verif.Spec.Transcript

/-! Which dealings make a transcript, and which transcript, by formulas. -/

set_option autoImplicit false

namespace Verif.Dealings

/-- Lagrange's coefficient at 0 of dealer `i` among the given dealers. -/
noncomputable def weightAtZero (dealers : List NodeIndex) (i : NodeIndex) : Fn :=
  ((dealers.filter (· ≠ i)).map fun j => place j / (place j - place i)).prod

/-- The weight of a dealing in the operation. -/
noncomputable def Op.weight (op : Op) (dealers : List NodeIndex) (i : NodeIndex) : Fn :=
  match op with
  | .random => 1
  | _ => weightAtZero dealers i

/-- The weighted sum of the `j`-th points of the commitments. -/
noncomputable def combinedPoint (op : Op) (ds : DealingMap) (cm : NodeIndex → Commitment) (j : Nat) : Pt :=
  (ds.map fun x => op.weight (ds.map Prod.fst) x.1 • (cm x.1).points.getD j 0).sum

/-- The transcript of the operation for threshold `t`. -/
noncomputable def combinedOf (op : Op) (t : Nat) (ds : DealingMap) (cm : NodeIndex → Commitment) : Com :=
  ⟨match op with
    | .random => .summation
    | _ => .interpolation,
   ⟨op.dealingKind, (List.range t).map (combinedPoint op ds cm)⟩⟩

/-- The dealings are refused unless: all have `t` points and, for a random transcript, are of the kind with masks; for the others,
there is at least one, the operands are of the right kind, there are as many dealings as the polynomial behind the operation has
coefficients, and, when an unmasked transcript is reshared, the key stays the same. -/
def Op.Allowed (op : Op) (t : Nat) (ds : DealingMap) (cm : NodeIndex → Commitment) : Prop :=
  (∀ x ∈ ds, (cm x.1).points.length = t) ∧
  match op with
  | .random => ∀ x ∈ ds, (cm x.1).kind = .pedersen
  | .reshareMasked p => ds ≠ [] ∧ p.c.kind = .pedersen ∧ p.c.points.length ≤ ds.length
  | .reshareUnmasked p => ds ≠ [] ∧ p.c.kind = .simple ∧ p.c.points.length ≤ ds.length ∧
      p.c.points.head? = some (combinedPoint op ds cm 0)
  | .unmaskedTimesMasked l r => ds ≠ [] ∧ l.c.kind = .simple ∧ r.c.kind = .pedersen ∧
      l.c.points.length + r.c.points.length ≤ ds.length + 1
  | .other => False

end Verif.Dealings
