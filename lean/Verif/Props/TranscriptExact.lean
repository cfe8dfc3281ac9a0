import Verif.Spec.TranscriptExact
import Verif.Props.Transcript

/-! Property C188: exactly which dealings make a transcript, and which. -/

set_option autoImplicit false

namespace Verif

open Mega Zk Dealings Polynomial

/-- The weights that the code computes are those of Lagrange's formula. -/
theorem Dealings.atZero_weights (samples : List NodeIndex) (hne : samples ≠ []) (hn : samples.Nodup) :
    Lagr.atZero samples = .ok (samples.map (weightAtZero samples)) := by
  rw [Lagr.atZero, Lagr.atValue_eq 0 samples hne hn, List.map_map]
  congr 1
  refine List.map_congr_left fun i hi => ?_
  rw [Function.comp, Lagr.lcoeff, weightAtZero]
  have hinj := Lagr.fromNodeIndex_injective
  have he : (samples.map Scalar.fromNodeIndex).toFinset.erase (Scalar.fromNodeIndex i) =
      ((samples.filter (· ≠ i)).map Scalar.fromNodeIndex).toFinset := by
    ext y
    simp only [Finset.mem_erase, List.mem_toFinset, List.mem_map, List.mem_filter, decide_eq_true_eq]
    constructor
    · rintro ⟨h1, j, hj, rfl⟩
      exact ⟨j, ⟨hj, fun e => h1 (by rw [e])⟩, rfl⟩
    · rintro ⟨j, ⟨hj, h1⟩, rfl⟩
      exact ⟨fun e => h1 (hinj e), j, hj, rfl⟩
  rw [he, List.prod_toFinset _ ((hn.filter _).map hinj), List.map_map]
  congr 1
  refine List.map_congr_left fun j _ => ?_
  simp only [Function.comp, sub_zero]
  rfl

theorem Dealings.combinedPoint_eq {op : Op} {ds : DealingMap} {cm : NodeIndex → Commitment} {j : Nat} :
    combinedPoint op ds cm j =
      ((ds.map Prod.fst).map fun i => op.weight (ds.map Prod.fst) i • (cm i).points.getD j 0).sum := by
  rw [combinedPoint, List.map_map]
  rfl

/-- C188: dealings of distinct dealers make a transcript exactly when they are allowed, it is then the weighted sum of their
commitments, and in the other cases an error is returned.  (Left out of the last part: resharing an unmasked transcript without points, whose
constant term the code reads without a check.) -/
theorem C188_exactly (t : Nat) (ht : 0 < t) (ds : DealingMap) (cm : NodeIndex → Commitment) (hc : Commits ds cm)
    (hn : (ds.map Prod.fst).Nodup) (op : Op) (hop : op ≠ .other) :
    (∀ T, newTranscript t ds op = .ok T ↔ op.Allowed t ds cm ∧ T = some (combinedOf op t ds cm)) ∧
    ((∀ p, op = .reshareUnmasked p → p.c.points ≠ []) → ¬ op.Allowed t ds cm → (newTranscript t ds op).isErr = true) := by
  have key : (op.Allowed t ds cm → newTranscript t ds op = .ok (some (combinedOf op t ds cm))) ∧
      (¬ op.Allowed t ds cm → (newTranscript t ds op).isErr = true ∨
        (newTranscript t ds op).isPanic = true ∧ ∃ p, op = .reshareUnmasked p ∧ p.c.points = []) := by
    obtain ⟨r1, r2, r3, r4, r5⟩ := C61_rejections_partial t ds cm hc
    have hl0 : ¬ (∀ x ∈ ds, (cm x.1).points.length = t) → (newTranscript t ds op).isErr = true := by
      intro h
      push Not at h
      obtain ⟨x, hx, hne⟩ := h
      exact r1 op ⟨x, hx, by exact_mod_cast hne⟩
    have hempty : ∀ q : NodeIndex → Commitment, ds = [] → ∀ kind, (combineViaInterpolation kind t ds).isErr = true := by
      rintro - rfl kind
      obtain ⟨e, he⟩ := Lagr.atValue_err 0 [] (Or.inl rfl)
      have he' : Lagr.atZero [] = .err e := he
      simp [combineViaInterpolation, Res.mapM', he']
    by_cases hl : ∀ x ∈ ds, (cm x.1).points.length = t
    swap
    · exact ⟨fun h => absurd h.1 hl, fun _ => Or.inl (hl0 hl)⟩
    have hl' : ∀ x ∈ ds, ((cm x.1).points.length : Int) = (t : Int) := fun x hx => by exact_mod_cast hl x hx
    have hcl := (checkLengths_cases hc t).1.2 hl'
    have hcomb : ds ≠ [] → ∀ kind, combineViaInterpolation kind t ds =
        .ok ⟨.interpolation, ⟨kind, (List.range t).map fun j =>
          ((ds.map Prod.fst).map fun i => weightAtZero (ds.map Prod.fst) i • (cm i).points.getD j 0).sum⟩⟩ := fun hne kind =>
      combineViaInterpolation_eq hc hne kind (by omega) hl' (atZero_weights _ (by simpa using hne) hn)
    cases op with
    | random =>
      refine ⟨fun h => ?_, fun h => Or.inl (r5 ?_)⟩
      · rw [newTranscript_random hc (by omega) hl' h.2, combinedOf, linCombPts]
        simp only [Int.toNat_natCast, Op.dealingKind, funext fun j => combinedPoint_eq (op := .random) (ds := ds) (cm := cm) (j := j),
          Op.weight]
      · by_contra hk
        push Not at hk
        exact h ⟨hl, hk⟩
    | reshareMasked p =>
      refine ⟨fun h => ?_, fun h => Or.inl ?_⟩
      · obtain ⟨-, h1, h2, h3⟩ := h
        rw [newTranscript, hcl, Res.ok_bind, if_neg (not_not.2 h2), if_neg (by omega), hcomb h1]
        simp only [combinedOf, Op.dealingKind, funext fun j => combinedPoint_eq (op := .reshareMasked p) (ds := ds) (cm := cm) (j := j),
          Op.weight, Res.ok_bind]
      · by_cases h1 : p.c.kind ≠ .pedersen ∨ ds.length < p.c.points.length
        · exact r2 p h1
        push Not at h1
        have h0 : ds = [] := by
          by_contra h0
          exact h ⟨hl, h0, h1.1, h1.2⟩
        obtain ⟨e, he⟩ := Res.isErr_iff.1 (hempty cm h0 .simple)
        rw [newTranscript, hcl, Res.ok_bind, if_neg (not_not.2 h1.1), if_neg (by omega), he]
        rfl
    | reshareUnmasked p =>
      by_cases h1 : p.c.kind ≠ .simple ∨ ds.length < p.c.points.length
      · refine ⟨fun h => ?_, fun _ => Or.inl (r3 p h1)⟩
        obtain ⟨-, -, h2, h3, -⟩ := h
        exact absurd h1 (by push Not; exact ⟨h2, h3⟩)
      push Not at h1
      by_cases h0 : ds = []
      · refine ⟨fun h => absurd h0 h.2.1, fun _ => Or.inl ?_⟩
        obtain ⟨e, he⟩ := Res.isErr_iff.1 (hempty cm h0 .simple)
        rw [newTranscript, hcl, Res.ok_bind, if_neg (not_not.2 h1.1), if_neg (by omega), he]
        rfl
      obtain ⟨k, rfl⟩ : ∃ k, t = k + 1 := ⟨t - 1, by omega⟩
      have hrun : newTranscript ((k + 1 : Nat) : Int) ds (.reshareUnmasked p) = (do
          let a ← index p.c.points 0
          if a ≠ combinedPoint (.reshareUnmasked p) ds cm 0 then .err "invalid commitment"
          else .ok (some (combinedOf (.reshareUnmasked p) (k + 1) ds cm))) := by
        rw [newTranscript, hcl, Res.ok_bind, if_neg (not_not.2 h1.1), if_neg (by omega), hcomb h0, Res.ok_bind]
        simp only [combinedOf, Op.dealingKind, funext fun j => combinedPoint_eq (op := .reshareUnmasked p) (ds := ds) (cm := cm) (j := j),
          Op.weight]
        have hb := index_getD ((List.range (k + 1)).map fun j =>
          ((ds.map Prod.fst).map fun i => weightAtZero (ds.map Prod.fst) i • (cm i).points.getD j 0).sum) 0 (i := 0) (by simp)
        rw [Nat.cast_zero] at hb
        have hb' := hb.trans (congrArg Res.ok (show _ =
          ((ds.map Prod.fst).map fun i => weightAtZero (ds.map Prod.fst) i • (cm i).points.getD 0 0).sum by
            rw [List.range_succ_eq_map]; rfl))
        simp only [hb', Res.ok_bind]
      cases hp : p.c.points with
      | nil =>
        refine ⟨fun h => ?_, fun _ => Or.inr ⟨?_, p, rfl, hp⟩⟩
        · obtain ⟨-, -, -, -, h5⟩ := h
          rw [hp] at h5
          cases h5
        · rw [hrun, hp]
          rfl
      | cons a rest =>
        have hi : index p.c.points 0 = .ok a := by rw [hp]; rfl
        rw [hrun, hi, Res.ok_bind]
        refine ⟨fun h => ?_, fun h => Or.inl ?_⟩
        · obtain ⟨-, -, -, -, h5⟩ := h
          rw [hp, List.head?_cons, Option.some.injEq] at h5
          rw [if_neg (not_not.2 h5)]
        · rw [if_pos]
          · rfl
          · intro e
            exact h ⟨hl, h0, h1.1, h1.2, by rw [hp, List.head?_cons, e]⟩
    | unmaskedTimesMasked l r =>
      refine ⟨fun h => ?_, fun h => Or.inl ?_⟩
      · obtain ⟨-, h1, h2, h3, h4⟩ := h
        rw [newTranscript, hcl, Res.ok_bind, if_neg (by simp [h2, h3]), if_neg (by omega), hcomb h1]
        simp only [combinedOf, Op.dealingKind, funext fun j => combinedPoint_eq (op := .unmaskedTimesMasked l r) (ds := ds) (cm := cm) (j := j),
          Op.weight, Res.ok_bind]
      · by_cases h1 : l.c.kind ≠ .simple ∨ r.c.kind ≠ .pedersen ∨ ds.length + 1 < l.c.points.length + r.c.points.length
        · exact r4 l r h1
        push Not at h1
        have h0 : ds = [] := by
          by_contra h0
          exact h ⟨hl, h0, h1.1, h1.2.1, h1.2.2⟩
        obtain ⟨e, he⟩ := Res.isErr_iff.1 (hempty cm h0 .pedersen)
        rw [newTranscript, hcl, Res.ok_bind, if_neg (by simp [h1.1, h1.2.1]), if_neg (by omega), he]
        rfl
    | other => exact absurd rfl hop
  refine ⟨fun T => ⟨fun h => ?_, fun h => by rw [key.1 h.1, h.2]⟩, fun hp h => ?_⟩
  · by_cases ha : op.Allowed t ds cm
    · rw [key.1 ha, Res.ok.injEq] at h
      exact ⟨ha, h.symm⟩
    · rcases key.2 ha with h1 | ⟨h1, -⟩ <;> rw [h] at h1 <;> cases h1
  · rcases key.2 h with h1 | ⟨-, p, h1, h2⟩
    · exact h1
    · exact absurd h2 (hp p h1)

/-- C188: a dealing without a commitment never makes a transcript. -/
theorem C188_nil (t : Int) (ds : DealingMap) (op : Op) (h : ∃ x ∈ ds, x.2.commitment = none) :
    (newTranscript t ds op).isErr = true ∨ (newTranscript t ds op).isPanic = true := by
  have : (checkLengths t ds).isErr = true ∨ (checkLengths t ds).isPanic = true := by
    induction ds with
    | nil => obtain ⟨x, hx, -⟩ := h; simp at hx
    | cons y ds ih =>
      rw [checkLengths]
      cases hy : y.2.commitment with
      | none => exact Or.inr rfl
      | some c =>
        rw [nonNil, Res.ok_bind]
        split
        · exact Or.inl rfl
        · obtain ⟨x, hx, hxn⟩ := h
          rcases List.mem_cons.1 hx with rfl | hx
          · rw [hy] at hxn; cases hxn
          · exact ih ⟨x, hx, hxn⟩
  rw [newTranscript.eq_def]
  rcases this with h1 | h1
  · obtain ⟨e, he⟩ := Res.isErr_iff.1 h1
    rw [he]; exact Or.inl rfl
  · obtain ⟨e, he⟩ := Res.isPanic_iff.1 h1
    rw [he]; exact Or.inr rfl

/-- The weights of two dealers, 0 and 1 (at places 1 and 2), are 2 and −1. -/
example : weightAtZero [0, 1] 0 = 2 ∧ weightAtZero [0, 1] 1 = -1 := by
  decide +kernel

/-- Dealings that are allowed: two for a random transcript, and the same two for a reshared masked one with threshold 1. -/
example : (∀ op : Op, op = .random ∨ op = .reshareMasked ⟨.summation, ⟨.pedersen, [G, G]⟩⟩ →
    op.Allowed 1 [(0, ⟨none, some ⟨.pedersen, [G]⟩, none⟩), (1, ⟨none, some ⟨.pedersen, [G]⟩, none⟩)]
      fun _ => ⟨.pedersen, [G]⟩) ∧
    Commits [(0, ⟨none, some ⟨.pedersen, [G]⟩, none⟩), (1, ⟨none, some ⟨.pedersen, [G]⟩, none⟩)] fun _ => ⟨.pedersen, [G]⟩ := by
  refine ⟨?_, by simp [Commits]⟩
  rintro op (rfl | rfl) <;> simp [Op.Allowed]

end Verif
