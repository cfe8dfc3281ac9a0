import Verif.Model.Commitment
import Verif.Lemmas.Poly
import Verif.Lemmas.Scalar
import Verif.Props.Point

/-! Lemmas about polynomial commitments. -/

namespace Verif

open Polynomial
open Point (H)
set_option autoImplicit false

/-- The first `k` coefficients of a polynomial, padded with zeros. -/
def truncate (poly : List Fn) (k : Nat) : List Fn := (List.range k).map (Poly.coeff poly)

theorem coeff_truncate (poly : List Fn) (k i : Nat) :
    Poly.coeff (truncate poly k) i = if i < k then Poly.coeff poly i else 0 := by
  by_cases h : i < k <;> simp [truncate, Poly.coeff_eq_getD, h]

theorem toPoly_truncate {poly : List Fn} {k : Nat} (h : ∀ i, k ≤ i → Poly.coeff poly i = 0) :
    toPoly (truncate poly k) = toPoly poly := by
  rw [toPoly_eq_iff]
  intro i
  rw [coeff_truncate]
  split
  · rfl
  · exact (h i (by omega)).symm

theorem coeff_of_length_le {poly : List Fn} {i : Nat} (h : poly.length ≤ i) : Poly.coeff poly i = 0 := by
  rw [Poly.coeff, dif_neg (by omega)]

theorem nonZeroCoefficients_le (poly : List Fn) : Poly.nonZeroCoefficients poly ≤ poly.length := by
  rw [Poly.nonZeroCoefficients]
  omega

namespace Commitment

theorem pedersen_eq (s t : Fn) : Point.pedersen s t = s • G + t • H := rfl

theorem evalLoop_pedersen (i : NodeIndex) (l : List (Fn × Fn)) :
    evalLoop i (l.map fun q => Point.pedersen q.1 q.2) =
      Point.pedersen (Poly.evaluateAt (l.map Prod.fst) (Scalar.fromNodeIndex i))
        (Poly.evaluateAt (l.map Prod.snd) (Scalar.fromNodeIndex i)) := by
  simp only [Poly.evaluateAt_foldr]
  induction l with
  | nil =>
    simp only [List.map_nil, evalLoop, List.foldr_nil, pedersen_eq]
    rw [zero_smul Fn G, zero_smul Fn H, add_zero]
  | cons q l ih =>
    rw [List.map_cons, evalLoop, ih]
    simp only [List.map_cons, List.foldr_cons, C13_mul_by_node_index, Point.scalarMul, pedersen_eq]
    module

theorem evalLoop_mulByG (i : NodeIndex) (l : List Fn) :
    evalLoop i (l.map Point.mulByG) = Point.mulByG (Poly.evaluateAt l (Scalar.fromNodeIndex i)) := by
  simp only [Poly.evaluateAt_foldr]
  induction l with
  | nil => exact (zero_smul Fn G).symm
  | cons q l ih =>
    simp only [List.map_cons, evalLoop, List.foldr_cons, ih, C13_mul_by_node_index, Point.scalarMul, Point.mulByG]
    module

theorem evaluateAt_eq {c : Commitment} (h : c.points ≠ []) (i : NodeIndex) :
    c.evaluateAt i = .ok (evalLoop i c.points) := by
  cases hp : c.points with
  | nil => exact absurd hp h
  | cons a l => simp [evaluateAt, curveType, hp]

theorem evaluateAt_nil {c : Commitment} (h : c.points = []) (i : NodeIndex) : (c.evaluateAt i).isPanic = true := by
  simp [evaluateAt, curveType, h]

theorem createSimple_eq_ok {poly : List Fn} {num : Int} {c : Commitment} (h : createSimple poly num = .ok c) :
    c = ⟨.simple, (truncate poly num.toNat).map Point.mulByG⟩ := by
  rw [createSimple] at h
  split at h
  · cases h
  · cases h
    simp [truncate, Function.comp_def]

theorem createPedersen_eq_ok {v m : List Fn} {num : Int} {c : Commitment} (h : createPedersen v m num = .ok c) :
    c = ⟨.pedersen, ((List.range num.toNat).map fun i => (Poly.coeff v i, Poly.coeff m i)).map
      fun q => Point.pedersen q.1 q.2⟩ := by
  rw [createPedersen] at h
  split at h
  · cases h
  · cases h
    simp [Function.comp_def]

theorem mulByG_inj {a b : Fn} : Point.mulByG a = Point.mulByG b ↔ a = b := smul_left_inj G_ne_zero

theorem flatMap_serialize_injective {a b : List Pt} (h : a.flatMap Point.serialize = b.flatMap Point.serialize) :
    a = b := by
  induction a generalizing b with
  | nil =>
    cases b with
    | nil => rfl
    | cons q b =>
      have := congrArg List.length h
      simp [Point.length_serialize] at this
      try omega
  | cons q a ih =>
    cases b with
    | nil =>
      have := congrArg List.length h
      simp [Point.length_serialize] at this
      try omega
    | cons r b =>
      rw [List.flatMap_cons, List.flatMap_cons] at h
      obtain ⟨h1, h2⟩ := List.append_inj h (by simp [Point.length_serialize])
      rw [Point.serialize_injective h1, ih h2]

theorem equal_eq_one (c d : Commitment) : c.equal d = 1 ↔ c.points = d.points := by
  rw [equal]
  by_cases hl : c.points.length = d.points.length
  · rw [if_neg (by simpa using hl)]
    have key : ∀ a b : List Pt, a.length = b.length →
        (((a.zip b).all fun pq => decide (pq.1 = pq.2)) = true ↔ a = b) := by
      intro a
      induction a with
      | nil => intro b hb; cases b <;> simp_all
      | cons x a ih =>
        intro b hb
        cases b with
        | nil => simp at hb
        | cons y b =>
          have := ih b (by simpa using hb)
          simp only [List.zip_cons_cons, List.all_cons, Bool.and_eq_true, decide_eq_true_eq, List.cons.injEq, this]
    rw [← key _ _ hl]
    split <;> simp_all
  · rw [if_pos hl]
    simp only [zero_ne_one, false_iff]
    exact fun h => hl (by rw [h])

end Commitment

end Verif
