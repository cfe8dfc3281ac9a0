import Verif.Lemmas.Commitment

/-!
Properties C39–C44, C74–C76: polynomial commitments and their openings.  The evaluation point of node `i` is
`Scalar.fromNodeIndex i`.
-/

namespace Verif

open Polynomial
open Point (H)
set_option autoImplicit false

/-! ### C39, C40 -/

/-- C39 does not hold for every opening and every `num`: the empty commitment panics, and so does an opening that is
passed as a pointer (which is what `Deserialize` returns) although it holds the right value. -/
theorem C39_false :
    (∃ c, Commitment.createSimple [] 0 = .ok c ∧ ∀ i, (c.checkOpening i (.simple 0)).isPanic = true) ∧
    (∃ c, Commitment.createSimple [5] 1 = .ok c ∧ ∀ i, Poly.evaluateAt [5] (Scalar.fromNodeIndex i) = 5 ∧
      c.checkOpening i (.simple 5) = .ok true ∧ (c.checkOpening i (.simplePtr 5)).isPanic = true) := by
  refine ⟨⟨⟨.simple, []⟩, rfl, fun i => rfl⟩, ⟨.simple, [Point.mulByG 5]⟩, ?_, fun i => ⟨rfl, ?_, rfl⟩⟩
  · rw [Commitment.createSimple, if_neg (by decide +kernel)]
    rfl
  · have h : Commitment.evalLoop i ([5].map Point.mulByG) = Point.mulByG 5 := Commitment.evalLoop_mulByG i [5]
    simp only [Commitment.checkOpening]
    rw [Commitment.evaluateAt_eq (by simp)]
    simpa using h

/-- C39 for simple commitments to at least one coefficient and openings of the value type: the check succeeds for the
polynomial's value at the node and for nothing else; no other opening succeeds.  Missing: `num = 0` and pointer
openings, see `C39_false`. -/
theorem C39_simple_opening_partial (poly : List Fn) (num : Int) (hlen : (poly.length : Int) ≤ num) (hnum : 1 ≤ num) :
    ∃ c, Commitment.createSimple poly num = .ok c ∧ (c.points.length : Int) = num ∧
      (∀ i v, c.checkOpening i (.simple v) = .ok (decide (v = Poly.evaluateAt poly (Scalar.fromNodeIndex i)))) ∧
      (∀ i o, c.checkOpening i o = .ok true →
        o = .simple (Poly.evaluateAt poly (Scalar.fromNodeIndex i))) := by
  have hc := nonZeroCoefficients_le poly
  obtain ⟨c, h⟩ : ∃ c, Commitment.createSimple poly num = .ok c := by
    rw [Commitment.createSimple, if_neg (by omega)]
    exact ⟨_, rfl⟩
  obtain rfl := Commitment.createSimple_eq_ok h
  have hk : ∀ i v, Commitment.checkOpening ⟨.simple, (truncate poly num.toNat).map Point.mulByG⟩ i (.simple v) =
      .ok (decide (v = Poly.evaluateAt poly (Scalar.fromNodeIndex i))) := by
    intro i v
    simp only [Commitment.checkOpening]
    rw [Commitment.evaluateAt_eq (by simp [truncate]; omega), Res.ok_bind, Commitment.evalLoop_mulByG,
      Poly.evaluateAt_eq, toPoly_truncate (fun j hj => coeff_of_length_le (by omega)), ← Poly.evaluateAt_eq]
    simp only [Commitment.mulByG_inj, eq_comm]
  refine ⟨_, h, by simp [truncate]; omega, hk, fun i o ho => ?_⟩
  cases o with
  | simple v =>
    rw [hk] at ho
    simp only [Res.ok.injEq, decide_eq_true_eq] at ho
    rw [ho]
  | simplePtr v => cases ho
  | pedersen v m => cases ho
  | pedersenPtr v m => cases ho

/-- C39 for Pedersen commitments: the check succeeds exactly for the value pairs with the right commitment point, in
particular for the pair of the polynomials' values.  Missing: as for simple commitments. -/
theorem C39_pedersen_opening_partial (values masking : List Fn) (num : Int) (hv : (values.length : Int) ≤ num)
    (hm : (masking.length : Int) ≤ num) (hnum : 1 ≤ num) :
    ∃ c, Commitment.createPedersen values masking num = .ok c ∧ (c.points.length : Int) = num ∧
      (∀ i v m, c.checkOpening i (.pedersen v m) = .ok (decide (v • G + m • H =
        Poly.evaluateAt values (Scalar.fromNodeIndex i) • G + Poly.evaluateAt masking (Scalar.fromNodeIndex i) • H))) ∧
      (∀ i, c.checkOpening i (.pedersen (Poly.evaluateAt values (Scalar.fromNodeIndex i))
        (Poly.evaluateAt masking (Scalar.fromNodeIndex i))) = .ok true) ∧
      (∀ i o, c.checkOpening i o = .ok true → ∃ v m, o = .pedersen v m) := by
  have h1 := nonZeroCoefficients_le values
  have h2 := nonZeroCoefficients_le masking
  obtain ⟨c, h⟩ : ∃ c, Commitment.createPedersen values masking num = .ok c := by
    rw [Commitment.createPedersen, if_neg (by omega)]
    exact ⟨_, rfl⟩
  have hc := Commitment.createPedersen_eq_ok h
  have hk : ∀ i v m, c.checkOpening i (.pedersen v m) = .ok (decide (v • G + m • H =
      Poly.evaluateAt values (Scalar.fromNodeIndex i) • G + Poly.evaluateAt masking (Scalar.fromNodeIndex i) • H)) := by
    intro i v m
    have e1 : toPoly ((List.range num.toNat).map (Poly.coeff values)) = toPoly values :=
      toPoly_truncate (fun j hj => coeff_of_length_le (by omega))
    have e2 : toPoly ((List.range num.toNat).map (Poly.coeff masking)) = toPoly masking :=
      toPoly_truncate (fun j hj => coeff_of_length_le (by omega))
    rw [hc]
    simp only [Commitment.checkOpening]
    rw [Commitment.evaluateAt_eq (by simp; omega), Res.ok_bind, Commitment.evalLoop_pedersen]
    simp only [List.map_map, Function.comp_def, Poly.evaluateAt_eq, e1, e2, Commitment.pedersen_eq]
    simp only [eq_comm]
  refine ⟨c, h, by rw [hc]; simp; omega, hk, fun i => by rw [hk]; simp, fun i o ho => ?_⟩
  rw [hc] at ho
  cases o with
  | simple v => cases ho
  | simplePtr v => cases ho
  | pedersen v m => exact ⟨v, m, rfl⟩
  | pedersenPtr v m => cases ho

/-- The hypotheses are met by a quadratic polynomial, whose value at node 1 is `1 + 2·2 + 3·4 = 17`. -/
example : ∃ c, Commitment.createSimple [1, 2, 3] 3 = .ok c ∧ c.checkOpening 1 (.simple 17) = .ok true ∧
    c.checkOpening 1 (.simple 16) = .ok false := by
  obtain ⟨c, h, -, hk, -⟩ := C39_simple_opening_partial [1, 2, 3] 3 (by decide) (by decide)
  refine ⟨c, h, ?_, ?_⟩ <;> rw [hk] <;> decide +kernel

/-- C40 does not hold: `Create` counts non-zero coefficients, so `5X²` is accepted with `num = 1` and committed to as
the zero polynomial. -/
theorem C40_false : ∃ c, Commitment.createSimple [0, 0, 5] 1 = .ok c ∧
    ∃ Q, c.evaluateAt 0 = .ok Q ∧ Q ≠ Point.mulByG (Poly.evaluateAt [0, 0, 5] (Scalar.fromNodeIndex 0)) := by
  obtain ⟨c, h⟩ : ∃ c, Commitment.createSimple [0, 0, 5] 1 = .ok c := by
    rw [Commitment.createSimple, if_neg (by decide +kernel)]
    exact ⟨_, rfl⟩
  have hc := Commitment.createSimple_eq_ok h
  refine ⟨c, h, _, Commitment.evaluateAt_eq (by rw [hc]; simp [truncate]) 0, ?_⟩
  rw [hc, Commitment.evalLoop_mulByG, ne_eq, Commitment.mulByG_inj]
  decide +kernel

/-- C40, what a returned simple commitment commits to: the first `num` coefficients; hence to the polynomial, if all
later coefficients are zero.  Missing: the other polynomials, see `C40_false`, and `num = 0`, where evaluation panics. -/
theorem C40_simple_commits_partial (poly : List Fn) (num : Int) (c : Commitment)
    (h : Commitment.createSimple poly num = .ok c) (hnum : 1 ≤ num) (i : NodeIndex) :
    c.evaluateAt i = .ok (Poly.evaluateAt (poly.take num.toNat) (Scalar.fromNodeIndex i) • G) ∧
    ((∀ j, num.toNat ≤ j → Poly.coeff poly j = 0) →
      c.evaluateAt i = .ok (Poly.evaluateAt poly (Scalar.fromNodeIndex i) • G)) := by
  have hc := Commitment.createSimple_eq_ok h
  have h0 : c.evaluateAt i =
      .ok (Poly.evaluateAt (truncate poly num.toNat) (Scalar.fromNodeIndex i) • G) := by
    rw [hc, Commitment.evaluateAt_eq (by simp [truncate]; omega), Commitment.evalLoop_mulByG]
    rfl
  have ht : toPoly (truncate poly num.toNat) = toPoly (poly.take num.toNat) := by
    rw [toPoly_eq_iff]
    intro j
    rw [coeff_truncate, Poly.coeff_eq_getD, Poly.coeff_eq_getD]
    by_cases hj : j < num.toNat <;> simp [hj]
  refine ⟨by rw [h0, Poly.evaluateAt_eq, ht, ← Poly.evaluateAt_eq], fun hz => ?_⟩
  rw [h0, Poly.evaluateAt_eq, toPoly_truncate hz, ← Poly.evaluateAt_eq]

/-- C40 for Pedersen commitments, in the same way. -/
theorem C40_pedersen_commits_partial (values masking : List Fn) (num : Int) (c : Commitment)
    (h : Commitment.createPedersen values masking num = .ok c) (hnum : 1 ≤ num)
    (hv : ∀ j, num.toNat ≤ j → Poly.coeff values j = 0) (hm : ∀ j, num.toNat ≤ j → Poly.coeff masking j = 0)
    (i : NodeIndex) :
    c.evaluateAt i = .ok (Poly.evaluateAt values (Scalar.fromNodeIndex i) • G +
      Poly.evaluateAt masking (Scalar.fromNodeIndex i) • H) := by
  have hc := Commitment.createPedersen_eq_ok h
  have e1 : toPoly ((List.range num.toNat).map (Poly.coeff values)) = toPoly values := toPoly_truncate hv
  have e2 : toPoly ((List.range num.toNat).map (Poly.coeff masking)) = toPoly masking := toPoly_truncate hm
  rw [hc, Commitment.evaluateAt_eq (by simp; omega), Commitment.evalLoop_pedersen]
  simp only [List.map_map, Function.comp_def, Poly.evaluateAt_eq, e1, e2, Commitment.pedersen_eq]

/-! ### C41, C42 -/

/-- C41: every commitment with a point has a byte representation, and it determines the commitment. -/
theorem C41_representation_injective (c d : Commitment) (hc : c.points ≠ []) (hd : d.points ≠ []) :
    ∃ b b', c.stableRepresentation = .ok b ∧ d.stableRepresentation = .ok b' ∧ (b = b' → c = d) := by
  obtain ⟨k, l⟩ := c
  obtain ⟨k', l'⟩ := d
  cases l with
  | nil => exact absurd rfl hc
  | cons x l =>
    cases l' with
    | nil => exact absurd rfl hd
    | cons y l' =>
      refine ⟨_, _, rfl, rfl, fun h => ?_⟩
      obtain ⟨h1, h2⟩ := List.append_inj h rfl
      have hp := Commitment.flatMap_serialize_injective h2
      have hk : k = k' := by
        cases k <;> cases k' <;> first | rfl | (dsimp only at h1; exact absurd h1 (by decide))
      simp_all

example : (⟨.simple, [G]⟩ : Commitment).points ≠ [] ∧ (⟨.pedersen, [G]⟩ : Commitment).points ≠ [] := by simp

/-- C42 does not hold: a simple and a Pedersen commitment with the same points are reported equal. -/
theorem C42_false : ∃ c d : Commitment, c.equal d = 1 ∧ c ≠ d :=
  ⟨⟨.simple, [G]⟩, ⟨.pedersen, [G]⟩, (Commitment.equal_eq_one _ _).2 rfl, fun h => by cases h⟩

/-- C42, what is compared: the point lists, so that among commitments of one kind `Equal` is equality.  Missing: the
kind. -/
theorem C42_equal_partial (c d : Commitment) :
    (c.equal d = 1 ↔ c.points = d.points) ∧ (c.equal d = 0 ↔ c.points ≠ d.points) ∧
    (c.kind = d.kind → (c.equal d = 1 ↔ c = d)) := by
  have h := Commitment.equal_eq_one c d
  refine ⟨h, ?_, fun hk => ?_⟩
  · rw [ne_eq, ← h, Commitment.equal]
    split
    · simp
    · split <;> simp
  · rw [h]
    cases c; cases d; simp_all

/-! ### C43, C44 -/

/-- C43 does not hold: a Pedersen opening comes back as a simple one, without its mask; and what comes back from a
simple opening panics in `CheckOpening`, whatever the commitment. -/
theorem C43_false :
    (∀ v m, Opening.deserialize (Opening.serialize (.pedersen v m)) = .ok (.opening (.simplePtr v))) ∧
    (∀ v (c : Commitment) i, ∃ o, Opening.deserialize (Opening.serialize (.simple v)) = .ok (.opening o) ∧
      (c.checkOpening i o).isPanic = true) := by
  have hd : ∀ v, Opening.decodeScalar (Scalar.serializeTagged v) = .ok v := fun v => by
    simp [Opening.decodeScalar, Scalar.serializeTagged, Scalar.unmarshalTagged, Scalar.k256Deserialize_serialize]
  refine ⟨fun v m => ?_, fun v c i => ⟨.simplePtr v, ?_, ?_⟩⟩
  · simp [Opening.serialize, Opening.deserialize, Kind.toInt, hd]
  · simp [Opening.serialize, Opening.deserialize, Kind.toInt, hd]
  · obtain ⟨k, l⟩ := c
    cases k <;> rfl

/-- C43 for simple openings: the scalar is restored (behind a pointer).  Missing: Pedersen openings and the value type,
see `C43_false`. -/
theorem C43_simple_opening_partial (v : Fn) :
    Opening.deserialize (Opening.serialize (.simple v)) = .ok (.opening (.simplePtr v)) ∧
    Opening.deserialize (Opening.serialize (.simplePtr v)) = .ok (.opening (.simplePtr v)) := by
  have hd : Opening.decodeScalar (Scalar.serializeTagged v) = .ok v := by
    simp [Opening.decodeScalar, Scalar.serializeTagged, Scalar.unmarshalTagged, Scalar.k256Deserialize_serialize]
  constructor <;> simp [Opening.serialize, Opening.deserialize, Kind.toInt, hd]

/-- C44 does not hold: no Pedersen commitment and no simple commitment containing the identity can be read back, and
the empty commitment cannot be written. -/
theorem C44_false :
    (∀ l, l ≠ [] → ∃ w, Commitment.serialize ⟨.pedersen, l⟩ = .ok w ∧ (Commitment.deserialize w).isErr = true) ∧
    (∃ w, Commitment.serialize ⟨.simple, [0]⟩ = .ok w ∧ (Commitment.deserialize w).isErr = true) ∧
    (∀ k, (Commitment.serialize ⟨k, []⟩).isPanic = true) := by
  refine ⟨fun l hl => ?_, ⟨_, rfl, rfl⟩, fun k => rfl⟩
  cases l with
  | nil => exact absurd rfl hl
  | cons a l => exact ⟨_, rfl, rfl⟩

/-- C44 for simple commitments with at least one point and no identity.  Missing: the others, see `C44_false`. -/
theorem C44_simple_commitment_partial (l : List Pt) (hne : l ≠ []) (h0 : 0 ∉ l) :
    ∃ w, Commitment.serialize ⟨.simple, l⟩ = .ok w ∧
      Commitment.deserialize w = .ok (.simple, l.map Point.raw) := by
  have hm : Res.mapM' Point.unmarshalTagged (l.map Point.serializeTagged) = .ok (l.map Point.raw) := by
    rw [Res.mapM'_eq_ok, List.forall₂_map_left_iff, List.forall₂_map_right_iff, List.forall₂_same]
    exact fun P hP => C09_cbor_point_partial P (fun h => h0 (h ▸ hP))
  cases l with
  | nil => exact absurd rfl hne
  | cons a l =>
    refine ⟨_, rfl, ?_⟩
    rw [Commitment.deserialize, if_pos ⟨rfl, rfl⟩]
    exact congrArg (fun r => r >>= fun points => Res.ok (Kind.simple, points)) hm

example : [G] ≠ [] ∧ (0 : Pt) ∉ [G] := ⟨by simp, by simpa using G_ne_zero.symm⟩

/-! ### C74–C76 -/

/-- C74: creation succeeds exactly if every polynomial has at most `num` non-zero coefficients, and otherwise returns an
error. -/
theorem C74_create_exact (poly masking : List Fn) (num : Int) :
    ((Commitment.createSimple poly num).isOk = true ↔ (poly.countP (fun c => decide (c ≠ 0)) : Int) ≤ num) ∧
    ((Commitment.createSimple poly num).isErr = true ↔ num < (poly.countP (fun c => decide (c ≠ 0)) : Int)) ∧
    ((Commitment.createPedersen poly masking num).isOk = true ↔
      (poly.countP (fun c => decide (c ≠ 0)) : Int) ≤ num ∧ (masking.countP (fun c => decide (c ≠ 0)) : Int) ≤ num) ∧
    ((Commitment.createPedersen poly masking num).isErr = true ↔
      num < (poly.countP (fun c => decide (c ≠ 0)) : Int) ∨ num < (masking.countP (fun c => decide (c ≠ 0)) : Int)) := by
  rw [Commitment.createSimple, Commitment.createPedersen, Poly.nonZeroCoefficients_eq, Poly.nonZeroCoefficients_eq]
  generalize poly.countP (fun c => decide (c ≠ 0)) = a
  generalize masking.countP (fun c => decide (c ≠ 0)) = b
  refine ⟨?_, ?_, ?_, ?_⟩ <;> split <;> simp <;> omega

/-- C75: the constant term is the commitment to the value at zero. -/
theorem C75_constant_term (poly masking : List Fn) (num : Int) (hnum : 1 ≤ num) (c : Commitment) :
    (Commitment.createSimple poly num = .ok c → c.constantTerm = .ok (Poly.evaluateAt poly 0 • G)) ∧
    (Commitment.createPedersen poly masking num = .ok c →
      c.constantTerm = .ok (Poly.evaluateAt poly 0 • G + Poly.evaluateAt masking 0 • H)) := by
  obtain ⟨k, hk⟩ : ∃ k, num.toNat = k + 1 := ⟨num.toNat - 1, by omega⟩
  have h0 : ∀ l : List Fn, Poly.evaluateAt l 0 = Poly.coeff l 0 := by
    intro l
    rw [Poly.evaluateAt_foldr]
    cases l <;> simp [Poly.coeff]
  constructor
  · intro h
    have hc := Commitment.createSimple_eq_ok h
    rw [hc, h0, truncate, hk, List.range_succ_eq_map]
    rfl
  · intro h
    have hc := Commitment.createPedersen_eq_ok h
    rw [hc, h0, h0, hk, List.range_succ_eq_map]
    rfl

example : ∃ c, Commitment.createSimple [7, 1] 2 = .ok c ∧ c.constantTerm = .ok ((7 : Fn) • G) := by
  obtain ⟨c, h, -, -, -⟩ := C39_simple_opening_partial [7, 1] 2 (by decide) (by decide)
  refine ⟨c, h, ?_⟩
  rw [(C75_constant_term [7, 1] [] 2 (by decide) c).1 h, show Poly.evaluateAt [7, 1] 0 = (7 : Fn) by decide +kernel]

/-- C76: `VerifyIs` accepts exactly the commitment's kind and curve. -/
theorem C76_verify_is (c : Commitment) (h : c.points ≠ []) (kind : Kind) (curve : CurveType) :
    (c.verifyIs kind curve = .ok () ↔ curve = K256 ∧ c.kind = kind) ∧
    ((c.verifyIs kind curve).isErr = true ↔ ¬ (curve = K256 ∧ c.kind = kind)) := by
  have hc : c.curveType = .ok K256 := by
    cases hp : c.points with
    | nil => exact absurd hp h
    | cons a l => simp [Commitment.curveType, hp]
  rw [Commitment.verifyIs, hc, Res.ok_bind]
  by_cases h1 : curve = K256 <;> by_cases h2 : c.kind = kind <;> simp [h1, h2, eq_comm]

example : (⟨.simple, [G]⟩ : Commitment).points ≠ [] := by simp

/-- C76: `ReturnOpeningIfConsistent` follows `CheckOpening`. -/
theorem C76_return_opening (c : Commitment) (i : NodeIndex) (o : Opening) :
    (∀ o', c.returnOpeningIfConsistent i o = .ok o' ↔ o' = o ∧ c.checkOpening i o = .ok true) ∧
    ((c.returnOpeningIfConsistent i o).isErr = true ↔
      c.checkOpening i o = .ok false ∨ (c.checkOpening i o).isErr = true) ∧
    ((c.returnOpeningIfConsistent i o).isPanic = true ↔ (c.checkOpening i o).isPanic = true) := by
  rw [Commitment.returnOpeningIfConsistent]
  cases c.checkOpening i o with
  | ok b => cases b <;> simp [eq_comm]
  | err e => simp
  | panic e => simp
  | diverge => simp

end Verif
