import Verif.Spec.OneOperation
import Verif.Props.Context

/-! C202: a dealing passes for one operation only. -/

set_option autoImplicit false

namespace Verif

open RoCall Mega Zk Dealings

theorem eqTranscript_disjoint (i i' : EqOpen.Instance) (c c' : Pt) (ad ad' : Bytes) (h : ¬ (i = i' ∧ kept ad = kept ad')) :
    (EqOpen.transcript i c ad).Disjoint (EqOpen.transcript i' c' ad') := by
  rw [eq_transcript_eq, eq_transcript_eq]
  refine Ro.disjoint_run fun ⟨_, hp⟩ => h ?_
  replace hp := (accepted_perm_iff (cs := eqCalls i c ad) (cs' := eqCalls i' c' ad') (by
      show [ascii "associated_data", ascii "instance_g", ascii "instance_h", ascii "instance_a", ascii "instance_b",
        ascii "commitment"].Nodup
      decide +kernel) rfl).1 hp
  simp only [eqCalls, List.map_cons, List.map_nil, List.cons.injEq, and_true, seen_ad] at hp
  rw [seen_pt (by decide +kernel), seen_pt (by decide +kernel), seen_pt (by decide +kernel), seen_pt (by decide +kernel),
    seen_pt (by decide +kernel)] at hp
  obtain ⟨a, b, c, d⟩ := i
  obtain ⟨a', b', c', d'⟩ := i'
  simp only [EqOpen.Instance.mk.injEq]
  tauto

theorem prodTranscript_disjoint (i i' : Product.Instance) (c1 c2 c1' c2' : Pt) (ad ad' : Bytes) (h : ¬ (i = i' ∧ kept ad = kept ad')) :
    (Product.transcript i c1 c2 ad).Disjoint (Product.transcript i' c1' c2' ad') := by
  rw [prod_transcript_eq, prod_transcript_eq]
  refine Ro.disjoint_run fun ⟨_, hp⟩ => h ?_
  replace hp := (accepted_perm_iff (cs := prodCalls i c1 c2 ad) (cs' := prodCalls i' c1' c2' ad') (by
      show [ascii "associated_data", ascii "instance_g", ascii "instance_h", ascii "instance_lhs", ascii "instance_rhs",
        ascii "instance_product", ascii "commitment1", ascii "commitment2"].Nodup
      decide +kernel) rfl).1 hp
  simp only [prodCalls, List.map_cons, List.map_nil, List.cons.injEq, and_true, seen_ad] at hp
  rw [seen_pt (by decide +kernel), seen_pt (by decide +kernel), seen_pt (by decide +kernel), seen_pt (by decide +kernel),
    seen_pt (by decide +kernel), seen_pt (by decide +kernel), seen_pt (by decide +kernel)] at hp
  obtain ⟨a, b, c, d, e⟩ := i
  obtain ⟨a', b', c', d', e'⟩ := i'
  simp only [Product.Instance.mk.injEq]
  tauto

/-- C202: a dealing that is accepted twice, by whatever dealers and with whatever associated data, is accepted for operations of one kind, one
threshold and one number of receivers. -/
theorem C202_kind (P P' : Prim) (d : Dealing) (curve curve' : CurveType) (op op' : Op) (t t' : Int) (dealer dealer' : NodeIndex)
    (receivers receivers' : Int) (ad ad' : Bytes) (h : publiclyVerify P d curve op t dealer receivers ad = .ok ())
    (h' : publiclyVerify P' d curve' op' t' dealer' receivers' ad' = .ok ()) :
    op.SameKind op' ∧ t = t' ∧ receivers = receivers' ∧ curve = curve' := by
  obtain ⟨hc, cm, c, c0, e1, e2, e3, -, e5, -, hp⟩ := accepted_only h
  obtain ⟨hc', cm', c', c0', f1, f2, f3, -, f5, -, hp'⟩ := accepted_only h'
  rw [e1, Option.some.injEq] at f1
  rw [e2, Option.some.injEq] at f2
  subst f1 f2
  refine ⟨?_, e3.symm.trans f3, e5.symm.trans f5, hc.trans hc'.symm⟩
  cases op <;> cases op' <;> simp only [ProofAccepted] at hp hp' <;> simp only [Op.SameKind] <;> grind

/-- C202, the part that holds: unless an unmasked secret is reshared from a wrapped commitment, a dealing that is accepted for two operations is
so because the earlier commitments have the same values at the dealer, or its proof shows a collision of the hash function.
Missing: resharing of unmasked secrets from wrapped commitments (`C202_false`). -/
theorem C202_instance_partial (P : Prim) (d : Dealing) (curve curve' : CurveType) (op op' : Op) (t t' : Int) (dealer : NodeIndex)
    (receivers receivers' : Int) (ad : Bytes) (h : publiclyVerify P d curve op t dealer receivers ad = .ok ())
    (h' : publiclyVerify P d curve' op' t' dealer receivers' ad = .ok ()) (hw : ¬ op.Wrapped) (hw' : ¬ op'.Wrapped) :
    op.SameAt dealer op' ∨ ∃ cm c0, d.commitment = some cm ∧ cm.points.head? = some c0 ∧
      SameProofChallenge P dealer ad c0 d.proof op op' := by
  have hkind := (C202_kind P P d curve curve' op op' t t' dealer dealer receivers receivers' ad ad h h').1
  obtain ⟨-, cm, c, c0, e1, e2, -, e4, -, -, hp⟩ := accepted_only h
  obtain ⟨-, cm', c', c0', f1, f2, -, f4, -, -, hp'⟩ := accepted_only h'
  rw [e1, Option.some.injEq] at f1
  subst f1
  rw [e4, Option.some.injEq] at f4
  subst f4
  by_cases hs : op.SameAt dealer op'
  · exact .inl hs
  refine .inr ⟨cm, c0, e1, e4, ?_⟩
  cases op with
  | random => cases op' <;> first | exact (hs trivial).elim | exact hkind.elim
  | other => exact hp.elim
  | reshareUnmasked p =>
    cases op' with
    | reshareUnmasked p' =>
      refine (hs ?_).elim
      have a := hp.2.2.2.2.2 (not_not.1 hw)
      have b := hp'.2.2.2.2.2 (not_not.1 hw')
      exact a.symm.trans b
    | _ => exact hkind.elim
  | reshareMasked p =>
    cases op' with
    | reshareMasked p' =>
      obtain ⟨-, -, -, pf, g1, g2⟩ := hp
      obtain ⟨-, -, -, pf', k1, k2⟩ := hp'
      rw [g1] at k1
      cases k1
      refine ⟨pf, g1, eqTranscript_disjoint _ _ _ _ ad ad fun e => hs ?_, ((C48_verification_exact P ad).2.1 _ _ _).1 g2,
        ((C48_verification_exact P ad).2.1 _ _ _).1 k2⟩
      exact congrArg EqOpen.Instance.a e.1
    | _ => exact hkind.elim
  | unmaskedTimesMasked l r =>
    cases op' with
    | unmaskedTimesMasked l' r' =>
      obtain ⟨-, -, -, -, -, -, pf, g1, g2⟩ := hp
      obtain ⟨-, -, -, -, -, -, pf', k1, k2⟩ := hp'
      rw [g1] at k1
      cases k1
      refine ⟨pf, g1, prodTranscript_disjoint _ _ _ _ _ _ ad ad fun e => hs ⟨?_, ?_⟩, ((C48_verification_exact P ad).2.2 _ _ _ _).1 g2,
        ((C48_verification_exact P ad).2.2 _ _ _ _).1 k2⟩
      · exact congrArg Product.Instance.lhsCom e.1
      · exact congrArg Product.Instance.rhsCom e.1
    | _ => exact hkind.elim

/-- C202 is false: a dealing accepted for the resharing of one unmasked secret from a wrapped commitment, as transcripts store it, is accepted for
the resharing of every other such secret, whatever the hash function. -/
theorem C202_false (P : Prim) (d : Dealing) (curve : CurveType) (p : Com) (t : Int) (dealer : NodeIndex) (receivers : Int) (ad : Bytes)
    (h : publiclyVerify P d curve (.reshareUnmasked p) t dealer receivers ad = .ok ()) (w : Wrap) (hw : w ≠ .plain) (points : List Pt)
    (hne : points ≠ []) : publiclyVerify P d curve (.reshareUnmasked ⟨w, ⟨.simple, points⟩⟩) t dealer receivers ad = .ok () := by
  obtain ⟨hc, cm, c, c0, e1, e2, e3, e4, e5, e6, h1, h2, -, -, h5, -⟩ := accepted_only h
  exact accepted_of _ _ _ _ _ _ _ _ ⟨hc, cm, c, c0, e1, e2, e3, e4, e5, e6, h1, h2, hne, rfl, h5, fun e => (hw e).elim⟩

/-- A dealing of 6 is accepted for a resharing of 6, and of 5. -/
example : ∃ d, new zeroPrim (.reshareUnmasked 6) ⟨[]⟩ 1 [Point.mulByG 3] 0 [] = .ok d ∧
    publiclyVerify zeroPrim d K256 (.reshareUnmasked ⟨.interpolation, ⟨.simple, [(6 : Fn) • G]⟩⟩) 1 0 1 [] = .ok () ∧
    publiclyVerify zeroPrim d K256 (.reshareUnmasked ⟨.interpolation, ⟨.simple, [(5 : Fn) • G]⟩⟩) 1 0 1 [] = .ok () ∧
    ¬ (Op.reshareUnmasked ⟨.interpolation, ⟨.simple, [(6 : Fn) • G]⟩⟩).SameAt 0
      (.reshareUnmasked ⟨.interpolation, ⟨.simple, [(5 : Fn) • G]⟩⟩) := by
  obtain ⟨d, hd, h, -, -, -, hne⟩ := C83_false
  refine ⟨d, hd, C202_false _ _ _ _ _ _ _ _ h .interpolation (by simp) _ (by simp), h, fun e => hne ?_⟩
  simpa [Op.SameAt, valueAtNode, valueAt] using e

/-- The hypotheses of `C202_instance_partial` are met by a dealing of 6 and two commitments of different lengths with the same value. -/
example : ∃ d, new zeroPrim (.reshareUnmasked 6) ⟨[]⟩ 1 [Point.mulByG 3] 0 [] = .ok d ∧
    publiclyVerify zeroPrim d K256 (.reshareUnmasked ⟨.plain, ⟨.simple, [(6 : Fn) • G]⟩⟩) 1 0 1 [] = .ok () ∧
    publiclyVerify zeroPrim d K256 (.reshareUnmasked ⟨.plain, ⟨.simple, [(6 : Fn) • G, 0]⟩⟩) 1 0 1 [] = .ok () := by
  obtain ⟨d, hd⟩ := dealing_exists (.reshareUnmasked 6) ⟨[]⟩ 1 [Point.mulByG 3] 0 [] (by norm_num) (by simp)
  exact ⟨d, hd, (C54_honest_dealings_verify zeroPrim (.reshareUnmasked 6) (.reshareUnmasked ⟨.plain, ⟨.simple, [(6 : Fn) • G]⟩⟩) ⟨[]⟩ 1 [3] 0
      [] d ⟨rfl, by simp, by simp [valueAtNode, valueAt]⟩ hd).1,
    (C54_honest_dealings_verify zeroPrim (.reshareUnmasked 6) (.reshareUnmasked ⟨.plain, ⟨.simple, [(6 : Fn) • G, 0]⟩⟩) ⟨[]⟩ 1 [3] 0
      [] d ⟨rfl, by simp, by simp [valueAtNode, valueAt]⟩ hd).1⟩

end Verif
