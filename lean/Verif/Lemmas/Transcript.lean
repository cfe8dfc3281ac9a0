import Verif.Spec.Transcript
import Verif.Props.Dealings
import Verif.Props.Poly

/-! Lemmas about transcripts: linear combinations of polynomials and commitments. -/

set_option autoImplicit false

namespace Verif

open Mega Zk Dealings Polynomial

/-- The Lagrange weights of distinct nodes. -/
theorem Lagr.weights (v : Fn) (samples : List NodeIndex) (hne : samples ≠ []) (hn : samples.Nodup) :
    ∃ w : NodeIndex → Fn, Lagr.atValue v samples = .ok (samples.map w) ∧
      ∀ f : Fn[X], f.degree < samples.length → (samples.map fun i => w i * f.eval (place i)).sum = f.eval v := by
  have hnd : (samples.map Scalar.fromNodeIndex).Nodup := hn.map Lagr.fromNodeIndex_injective
  set S := (samples.map Scalar.fromNodeIndex).toFinset with hS
  refine ⟨fun i => Lagr.lcoeff S v (Scalar.fromNodeIndex i), ?_, fun f hf => ?_⟩
  · rw [Lagr.atValue_eq v samples hne hn, List.map_map]; rfl
  · have hcard : S.card = samples.length := by rw [hS, List.toFinset_card_of_nodup hnd, List.length_map]
    rw [← Lagr.sum_lcoeff S v f (by rw [hcard]; exact hf), hS, List.sum_toFinset _ hnd, List.map_map]
    rfl

theorem Lagr.interpolateScalar_map (samples : List NodeIndex) (hne : samples ≠ []) (w g : NodeIndex → Fn) :
    Lagr.interpolateScalar (samples.map w) (samples.map g) = .ok (samples.map fun i => w i * g i).sum := by
  rw [Lagr.interpolateScalar_eq (by simp) (by simpa using hne), List.zipWith_map, List.zipWith_self]
  congr 2
  exact List.map_congr_left fun i _ => mul_comm _ _

theorem Lagr.interpolatePoint_map (samples : List NodeIndex) (hne : samples ≠ []) (w : NodeIndex → Fn) (g : NodeIndex → Pt) :
    Lagr.interpolatePoint (samples.map w) (samples.map g) = .ok (samples.map fun i => w i • g i).sum := by
  rw [Lagr.interpolatePoint_eq (by simp) (by simpa using hne), List.zipWith_map, List.zipWith_self]

namespace Dealings

/-- Coefficientwise linear combination. -/
def linComb (w : NodeIndex → Fn) (samples : List NodeIndex) (q : NodeIndex → List Fn) (t : Nat) : List Fn :=
  (List.range t).map fun j => (samples.map fun i => w i * Poly.coeff (q i) j).sum

/-- The same in the group. -/
noncomputable def linCombPts (w : NodeIndex → Fn) (samples : List NodeIndex) (pts : NodeIndex → List Pt) (t : Nat) : List Pt :=
  (List.range t).map fun j => (samples.map fun i => w i • (pts i).getD j 0).sum

theorem length_linComb (w : NodeIndex → Fn) (samples : List NodeIndex) (q : NodeIndex → List Fn) (t : Nat) :
    (linComb w samples q t).length = t := by simp [linComb]

theorem length_linCombPts (w : NodeIndex → Fn) (samples : List NodeIndex) (pts : NodeIndex → List Pt) (t : Nat) :
    (linCombPts w samples pts t).length = t := by simp [linCombPts]

theorem coeff_linComb (w : NodeIndex → Fn) (samples : List NodeIndex) (q : NodeIndex → List Fn) (t j : Nat) :
    Poly.coeff (linComb w samples q t) j = if j < t then (samples.map fun i => w i * Poly.coeff (q i) j).sum else 0 := by
  by_cases h : j < t <;> simp [linComb, Poly.coeff, h]

theorem eval_linComb (w : NodeIndex → Fn) (samples : List NodeIndex) (q : NodeIndex → List Fn) (t : Nat)
    (hq : ∀ i ∈ samples, (q i).length ≤ t) (x : Fn) :
    (toPoly (linComb w samples q t)).eval x = (samples.map fun i => w i * (toPoly (q i)).eval x).sum := by
  have h : toPoly (linComb w samples q t) = (samples.map fun i => C (w i) * toPoly (q i)).sum := by
    ext j
    rw [coeff_toPoly, coeff_linComb, Polynomial.coeff_list_sum, List.map_map]
    have e : ∀ i, (Polynomial.coeff · j) (C (w i) * toPoly (q i)) = w i * Poly.coeff (q i) j := fun i => by
      show (C (w i) * toPoly (q i)).coeff j = _
      rw [coeff_C_mul, coeff_toPoly]
    split_ifs with hj
    · congr 1
      exact List.map_congr_left fun i _ => (e i).symm
    · symm
      apply List.sum_eq_zero
      intro y hy
      obtain ⟨i, hi, rfl⟩ := List.mem_map.1 hy
      refine (e i).trans ?_
      rw [Poly.coeff, dif_neg (not_lt.2 (le_trans (hq i hi) (not_lt.1 hj))), mul_zero]
  rw [h]
  clear h hq
  induction samples with
  | nil => simp
  | cons i l ih => simp only [List.map_cons, List.sum_cons, eval_add, eval_mul, eval_C, ih]

theorem linCombPts_mulByG (w : NodeIndex → Fn) (samples : List NodeIndex) (q : NodeIndex → List Fn) (t : Nat) :
    linCombPts w samples (fun i => (q i).map Point.mulByG) t = (linComb w samples q t).map Point.mulByG := by
  rw [linCombPts, linComb, List.map_map]
  refine List.map_congr_left fun j _ => ?_
  have e : ∀ i, ((q i).map Point.mulByG).getD j 0 = Point.mulByG (Poly.coeff (q i) j) := by
    intro i
    by_cases h : j < (q i).length
    · simp [List.getD_eq_getElem?_getD, Poly.coeff, h]
    · rw [List.getD_eq_getElem?_getD, Poly.coeff, dif_neg h, List.getElem?_eq_none (by simpa using h), Option.getD_none]
      exact (zero_smul Fn G).symm
  simp only [e, Function.comp, Point.mulByG]
  induction samples with
  | nil => exact (zero_smul Fn G).symm
  | cons i l ih => simp only [List.map_cons, List.sum_cons, ih, add_smul, mul_smul]

theorem linCombPts_pedersen (w : NodeIndex → Fn) (samples : List NodeIndex) (q r : NodeIndex → List Fn) (t : Nat)
    (hl : ∀ i ∈ samples, (q i).length = (r i).length) :
    linCombPts w samples (fun i => List.zipWith Point.pedersen (q i) (r i)) t =
      List.zipWith Point.pedersen (linComb w samples q t) (linComb w samples r t) := by
  rw [linCombPts, linComb, linComb, List.zipWith_map, List.zipWith_self]
  refine List.map_congr_left fun j _ => ?_
  have e : ∀ i ∈ samples, (List.zipWith Point.pedersen (q i) (r i)).getD j 0 =
      Point.pedersen (Poly.coeff (q i) j) (Poly.coeff (r i) j) := by
    intro i hi
    by_cases h : j < (q i).length
    · simp [List.getD_eq_getElem?_getD, Poly.coeff, h, ← hl i hi]
    · have h2 : (List.zipWith Point.pedersen (q i) (r i)).length ≤ j := by rw [List.length_zipWith, ← hl i hi, min_self]; exact not_lt.1 h
      rw [List.getD_eq_getElem?_getD, Poly.coeff, Poly.coeff, dif_neg h, dif_neg (by rw [← hl i hi]; exact h), List.getElem?_eq_none h2, Option.getD_none, Commitment.pedersen_eq]
      exact ((congrArg₂ (· + ·) (zero_smul Fn G) (zero_smul Fn Point.H)).trans (add_zero 0)).symm
  rw [List.map_congr_left fun i hi => by rw [e i hi]]
  clear e hl
  simp only [Commitment.pedersen_eq]
  induction samples with
  | nil => exact ((congrArg₂ (· + ·) (zero_smul Fn G) (zero_smul Fn Point.H)).trans (add_zero 0)).symm
  | cons i l ih =>
    simp only [List.map_cons, List.sum_cons]
    rw [ih]
    module

theorem valueAt_range (pts : List Pt) (x : Fn) {t : Nat} (h : pts.length ≤ t) :
    valueAt pts x = ∑ j ∈ Finset.range t, x ^ j • pts.getD j 0 := by
  have h0 : valueAt pts x = ∑ j ∈ Finset.range pts.length, x ^ j • pts.getD j 0 := by
    rw [valueAt, ← Fin.sum_univ_eq_sum_range (fun j => x ^ j • pts.getD j 0)]
    refine Finset.sum_congr rfl fun j _ => ?_
    simp [List.getD_eq_getElem?_getD]
  rw [h0]
  refine Finset.sum_subset (Finset.range_mono h) fun j _ hj => ?_
  rw [Finset.mem_range, not_lt] at hj
  simp [List.getD_eq_getElem?_getD, hj]

theorem valueAt_linCombPts (w : NodeIndex → Fn) (samples : List NodeIndex) (pts : NodeIndex → List Pt) (t : Nat)
    (hp : ∀ i ∈ samples, (pts i).length ≤ t) (x : Fn) :
    valueAt (linCombPts w samples pts t) x = (samples.map fun i => w i • valueAt (pts i) x).sum := by
  rw [valueAt_range (t := t) _ _ (length_linCombPts w samples pts t).le]
  have h1 : ∀ i ∈ samples, w i • valueAt (pts i) x = ∑ j ∈ Finset.range t, x ^ j • (w i • (pts i).getD j 0) := by
    intro i hi
    rw [valueAt_range _ _ (hp i hi), Finset.smul_sum]
    refine Finset.sum_congr rfl fun j _ => ?_
    rw [smul_smul, smul_smul, mul_comm]
  rw [List.map_congr_left h1]
  have h2 : ∀ j ∈ Finset.range t, x ^ j • (linCombPts w samples pts t).getD j 0 =
      x ^ j • (samples.map fun i => w i • (pts i).getD j 0).sum := by
    intro j hj
    rw [Finset.mem_range] at hj
    simp [linCombPts, List.getD_eq_getElem?_getD, hj]
  rw [Finset.sum_congr rfl h2]
  clear h1 h2 hp
  induction samples with
  | nil => simp
  | cons i l ih => simp only [List.map_cons, List.sum_cons, smul_add, Finset.sum_add_distrib, ih]

/-- Interpolating the values of a group polynomial with fewer coefficients than nodes gives its value. -/
theorem sum_weights_valueAt {samples : List NodeIndex} {w : NodeIndex → Fn} {v : Fn}
    (hw : ∀ f : Fn[X], f.degree < samples.length → (samples.map fun i => w i * f.eval (place i)).sum = f.eval v)
    (pts : List Pt) (hl : pts.length ≤ samples.length) :
    (samples.map fun i => w i • valueAtNode pts i).sum = valueAt pts v := by
  have h1 : ∀ i, w i • valueAtNode pts i =
      ∑ j ∈ Finset.range pts.length, (w i * (X ^ j : Fn[X]).eval (place i)) • pts.getD j 0 := by
    intro i
    rw [valueAtNode, valueAt_range _ _ le_rfl, Finset.smul_sum]
    refine Finset.sum_congr rfl fun j _ => ?_
    rw [smul_smul, eval_pow, eval_X]
  simp only [h1]
  have h2 : (samples.map fun i => ∑ j ∈ Finset.range pts.length, (w i * (X ^ j : Fn[X]).eval (place i)) • pts.getD j 0).sum =
      ∑ j ∈ Finset.range pts.length, (samples.map fun i => w i * (X ^ j : Fn[X]).eval (place i)).sum • pts.getD j 0 := by
    clear hw hl h1
    induction samples with
    | nil => exact (Finset.sum_eq_zero fun j _ => zero_smul Fn (pts.getD j 0)).symm
    | cons i l ih => simp only [List.map_cons, List.sum_cons, ih, add_smul, Finset.sum_add_distrib]
  rw [h2, valueAt_range _ _ le_rfl]
  refine Finset.sum_congr rfl fun j hj => ?_
  rw [hw, eval_pow, eval_X]
  refine lt_of_le_of_lt (degree_X_pow_le j) ?_
  rw [Finset.mem_range] at hj
  exact_mod_cast lt_of_lt_of_le hj hl

theorem valueAt_zero {pts : List Pt} {p : Pt} (h : pts.head? = some p) : valueAt pts 0 = p := by
  cases pts with
  | nil => cases h
  | cons a l =>
    cases h
    rw [valueAt]
    refine (Fin.sum_univ_succ (n := l.length) fun j => (0 : Fn) ^ (j : ℕ) • (p :: l)[j]).trans ?_
    rw [Finset.sum_eq_zero]
    · simp
    · intro j _
      rw [Fin.val_succ, zero_pow (Nat.succ_ne_zero _)]
      exact zero_smul Fn (_ : Pt)

/-! ### The loops of the model -/

theorem Commits.tail {x : NodeIndex × Dealing} {ds : DealingMap} {cm : NodeIndex → Commitment} (h : Commits (x :: ds) cm) :
    Commits ds cm := fun y hy => h y (List.mem_cons_of_mem _ hy)

theorem checkLengths_cases {ds : DealingMap} {cm : NodeIndex → Commitment} (h : Commits ds cm) (t : Int) :
    (checkLengths t ds = .ok () ↔ ∀ x ∈ ds, ((cm x.1).points.length : Int) = t) ∧
    (checkLengths t ds = .ok () ∨ (checkLengths t ds).isErr = true) := by
  induction ds with
  | nil => simp [checkLengths]
  | cons x ds ih =>
    have ih := ih h.tail
    rw [checkLengths, h x (by simp), nonNil, Res.ok_bind]
    split_ifs with hl
    · simp [hl]
    · rw [not_not] at hl
      refine ⟨ih.1.trans ?_, ih.2⟩
      simp [hl]

theorem mapM_commitments {ds : DealingMap} {cm : NodeIndex → Commitment} (h : Commits ds cm) :
    Res.mapM' (fun x : NodeIndex × Dealing => nonNil x.2.commitment) ds = .ok (ds.map fun x => cm x.1) :=
  Res.mapM'_ok fun x hx => by rw [h x hx]; rfl

theorem index_getD {τ : Type} (l : List τ) (d : τ) {i : Nat} (h : i < l.length) : index l i = .ok (l.getD i d) := by
  rw [index, if_neg (by omega)]
  simp [List.getD_eq_getElem?_getD, h]

theorem interpolateAll_eq {samples : List NodeIndex} (hne : samples ≠ []) (w : NodeIndex → Fn) (cm : NodeIndex → Commitment)
    (t : Nat) (hl : ∀ i ∈ samples, (cm i).points.length = t) :
    interpolateAll (samples.map w) (samples.map cm) t = .ok (linCombPts w samples (fun i => (cm i).points) t) := by
  rw [interpolateAll, linCombPts]
  refine Res.mapM'_ok fun j hj => ?_
  rw [List.mem_range] at hj
  have hv : Res.mapM' (fun c : Commitment => index c.points j) (samples.map cm) =
      .ok ((samples.map cm).map fun c => c.points.getD j 0) := by
    refine Res.mapM'_ok fun c hc => ?_
    obtain ⟨i, hi, rfl⟩ := List.mem_map.1 hc
    exact index_getD _ _ (by rw [hl i hi]; exact hj)
  rw [hv, Res.ok_bind, List.map_map]
  exact Lagr.interpolatePoint_map samples hne w fun i => (cm i).points.getD j 0

theorem combineViaInterpolation_eq {ds : DealingMap} {cm : NodeIndex → Commitment} (h : Commits ds cm) (hne : ds ≠ [])
    (kind : Kind) {t : Int} (ht : 0 ≤ t)
    (hl : ∀ x ∈ ds, ((cm x.1).points.length : Int) = t) {w : NodeIndex → Fn}
    (hw : Lagr.atZero (ds.map Prod.fst) = .ok ((ds.map Prod.fst).map w)) :
    combineViaInterpolation kind t ds =
      .ok ⟨.interpolation, ⟨kind, linCombPts w (ds.map Prod.fst) (fun i => (cm i).points) t.toNat⟩⟩ := by
  have hm : (ds.map fun x => cm x.1) = (ds.map Prod.fst).map cm := by rw [List.map_map]; rfl
  rw [combineViaInterpolation, mapM_commitments h, Res.ok_bind, hw, Res.ok_bind, if_neg (by omega), hm,
    interpolateAll_eq (by simpa using hne) w cm t.toNat]
  · rfl
  · intro i hi
    obtain ⟨x, hx, rfl⟩ := List.mem_map.1 hi
    have := hl x hx
    omega

theorem addInto_eq (a b : List Pt) (h : a.length = b.length) : addInto a b = .ok (List.zipWith (· + ·) a b) := by
  induction a generalizing b with
  | nil => rfl
  | cons x a ih =>
    cases b with
    | nil => simp at h
    | cons y b => rw [addInto, ih b (by simpa using h)]; rfl

theorem sumLoop_eq {ds : DealingMap} {cm : NodeIndex → Commitment} (h : Commits ds cm) (acc : List Pt)
    (hk : ∀ x ∈ ds, (cm x.1).kind = .pedersen) (hl : ∀ x ∈ ds, (cm x.1).points.length = acc.length) :
    sumLoop acc ds = .ok ((List.range acc.length).map fun j =>
      acc.getD j 0 + ((ds.map Prod.fst).map fun i => (cm i).points.getD j 0).sum) := by
  induction ds generalizing acc with
  | nil =>
    rw [sumLoop]
    congr 1
    refine List.ext_getElem (by simp) fun j h1 h2 => ?_
    simp [List.getD_eq_getElem?_getD, h1]
  | cons x ds ih =>
    have hx := hl x (by simp)
    rw [sumLoop, h x (by simp), nonNil, Res.ok_bind, if_neg (by simp [hk x (by simp)]), addInto_eq _ _ hx.symm, Res.ok_bind,
      ih h.tail _ (fun y hy => hk y (by simp [hy])) (fun y hy => by
        rw [hl y (by simp [hy]), List.length_zipWith, hx, min_self])]
    rw [List.length_zipWith, hx, min_self]
    congr 1
    refine List.map_congr_left fun j hj => ?_
    rw [List.mem_range] at hj
    have : (List.zipWith (· + ·) acc (cm x.1).points).getD j 0 = acc.getD j 0 + (cm x.1).points.getD j 0 := by
      simp [List.getD_eq_getElem?_getD, hj, hx]
    rw [this, List.map_cons, List.map_cons, List.sum_cons, add_assoc]

theorem sumLoop_kind {ds : DealingMap} {cm : NodeIndex → Commitment} (h : Commits ds cm) (acc : List Pt)
    (hk : ∃ x ∈ ds, (cm x.1).kind ≠ .pedersen) (hl : ∀ x ∈ ds, (cm x.1).points.length = acc.length) :
    (sumLoop acc ds).isErr = true := by
  induction ds generalizing acc with
  | nil => obtain ⟨x, hx, -⟩ := hk; simp at hx
  | cons x ds ih =>
    rw [sumLoop, h x (by simp), nonNil, Res.ok_bind]
    split_ifs with hx
    · rfl
    · rw [addInto_eq _ _ (hl x (by simp)).symm, Res.ok_bind]
      refine ih h.tail _ ?_ fun y hy => by
        rw [hl y (by simp [hy]), List.length_zipWith, hl x (by simp), min_self]
      obtain ⟨y, hy, hyk⟩ := hk
      rcases List.mem_cons.1 hy with rfl | hy
      · exact absurd hyk hx
      · exact ⟨y, hy, hyk⟩

/-- The combined commitment of a random transcript. -/
theorem newTranscript_random {ds : DealingMap} {cm : NodeIndex → Commitment} (h : Commits ds cm) {t : Int} (ht : 0 ≤ t)
    (hl : ∀ x ∈ ds, ((cm x.1).points.length : Int) = t) (hk : ∀ x ∈ ds, (cm x.1).kind = .pedersen) :
    newTranscript t ds .random = .ok (some ⟨.summation, ⟨.pedersen,
      linCombPts (fun _ => 1) (ds.map Prod.fst) (fun i => (cm i).points) t.toNat⟩⟩) := by
  have hz : ∀ j, (List.replicate t.toNat (0 : Pt)).getD j 0 = 0 := by
    intro j
    by_cases hj : j < t.toNat <;> simp [List.getD_eq_getElem?_getD, hj]
  rw [newTranscript, ((checkLengths_cases h t).1.2 hl), Res.ok_bind]
  rw [if_neg (by omega), sumLoop_eq h _ hk (fun x hx => by rw [List.length_replicate]; have := hl x hx; omega), Res.ok_bind,
    List.length_replicate, linCombPts]
  simp only [hz, zero_add, one_smul]

/-- Interpolating transcripts, in terms of the weights. -/
theorem newTranscript_interp {ds : DealingMap} {cm : NodeIndex → Commitment} (h : Commits ds cm)
    (hn : (ds.map Prod.fst).Nodup) (hne : ds ≠ []) {t : Int} (ht : 0 ≤ t)
    (hl : ∀ x ∈ ds, ((cm x.1).points.length : Int) = t) :
    ∃ w : NodeIndex → Fn, Lagr.atZero (ds.map Prod.fst) = .ok ((ds.map Prod.fst).map w) ∧
      (∀ f : Fn[X], f.degree < ds.length → ((ds.map Prod.fst).map fun i => w i * f.eval (place i)).sum = f.eval 0) ∧
      (∀ p1, p1.c.kind = .pedersen → p1.c.points.length ≤ ds.length →
        newTranscript t ds (.reshareMasked p1) = .ok (some ⟨.interpolation, ⟨.simple,
          linCombPts w (ds.map Prod.fst) (fun i => (cm i).points) t.toNat⟩⟩)) ∧
      (∀ p1 a, p1.c.kind = .simple → p1.c.points.length ≤ ds.length → p1.c.points.head? = some a → 0 < t →
        newTranscript t ds (.reshareUnmasked p1) =
          if a ≠ ((ds.map Prod.fst).map fun i => w i • (cm i).points.getD 0 0).sum then .err "invalid commitment"
          else .ok (some ⟨.interpolation, ⟨.simple,
            linCombPts w (ds.map Prod.fst) (fun i => (cm i).points) t.toNat⟩⟩)) ∧
      (∀ l r, l.c.kind = .simple → r.c.kind = .pedersen →
        (l.c.points.length + r.c.points.length : Int) - 1 ≤ ds.length →
        newTranscript t ds (.unmaskedTimesMasked l r) = .ok (some ⟨.interpolation, ⟨.pedersen,
          linCombPts w (ds.map Prod.fst) (fun i => (cm i).points) t.toNat⟩⟩)) := by
  obtain ⟨w, hw, hsum⟩ := Lagr.weights 0 (ds.map Prod.fst) (by simpa using hne) hn
  rw [List.length_map] at hsum
  have hc := (checkLengths_cases h t).1.2 hl
  have hcomb := fun kind => combineViaInterpolation_eq h hne kind ht hl hw
  refine ⟨w, hw, hsum, fun p1 h1 h2 => ?_, fun p1 a h1 h2 h3 h4 => ?_, fun l r h1 h2 h3 => ?_⟩
  · rw [newTranscript, hc, Res.ok_bind]
    rw [if_neg (not_not.2 h1), if_neg (by omega), hcomb]
    rfl
  · rw [newTranscript, hc, Res.ok_bind]
    obtain ⟨k, hk⟩ : ∃ k, t.toNat = k + 1 := ⟨t.toNat - 1, by omega⟩
    have ha : index p1.c.points 0 = .ok a := by
      cases hp : p1.c.points with
      | nil => rw [hp] at h3; cases h3
      | cons x l => rw [hp] at h3; cases h3; rfl
    rw [if_neg (not_not.2 h1), if_neg (by omega), hcomb, Res.ok_bind, ha, Res.ok_bind]
    have hb : index (linCombPts w (ds.map Prod.fst) (fun i => (cm i).points) t.toNat) 0 =
        .ok ((ds.map Prod.fst).map fun i => w i • (cm i).points.getD 0 0).sum := by
      have := index_getD (linCombPts w (ds.map Prod.fst) (fun i => (cm i).points) t.toNat) 0 (i := 0)
        (by rw [length_linCombPts]; omega)
      rw [Nat.cast_zero] at this
      rw [this, linCombPts, hk, List.range_succ_eq_map]
      simp [List.getD_eq_getElem?_getD]
    simp only
    rw [hb, Res.ok_bind]
  · rw [newTranscript, hc, Res.ok_bind]
    rw [if_neg (by simp [h1, h2]), if_neg (by omega), hcomb]
    rfl

/-! ### Openings -/

theorem gatherSimple_eq (is : List NodeIndex) (v : NodeIndex → Fn) :
    gatherSimple is (is.map fun i => .simple (v i)) = .ok (is, is.map v) := by
  induction is with
  | nil => rfl
  | cons i is ih => simp only [List.map_cons, gatherSimple, ih, Res.ok_bind]

theorem gatherPedersen_eq (is : List NodeIndex) (v m : NodeIndex → Fn) :
    gatherPedersen is (is.map fun i => .pedersen (v i) (m i)) = .ok (is, is.map v, is.map m) := by
  induction is with
  | nil => rfl
  | cons i is ih => simp only [List.map_cons, gatherPedersen, ih, Res.ok_bind]

theorem sumOpenings_eq (is : List NodeIndex) (v m : NodeIndex → Fn) (a b : Fn) :
    sumOpenings a b (is.map fun i => .pedersen (v i) (m i)) = .ok (a + (is.map v).sum, b + (is.map m).sum) := by
  induction is generalizing a b with
  | nil => simp [sumOpenings]
  | cons i is ih => simp only [List.map_cons, sumOpenings, ih, List.sum_cons, add_assoc]

theorem collectSimple_eq (is : List NodeIndex) (v : NodeIndex → Fn) :
    collectSimple (is.map fun i => (i, .simple (v i))) = .ok (is, is.map v) := by
  induction is with
  | nil => rfl
  | cons i is ih => simp only [List.map_cons, collectSimple, ih, Res.ok_bind]

theorem collectPedersen_eq (is : List NodeIndex) (v m : NodeIndex → Fn) :
    collectPedersen (is.map fun i => (i, .pedersen (v i) (m i))) = .ok (is, is.map v, is.map m) := by
  induction is with
  | nil => rfl
  | cons i is ih => simp only [List.map_cons, collectPedersen, ih, Res.ok_bind]

theorem returnOpening_simple {c : Commitment} (hk : c.kind = .simple) (hne : c.points ≠ []) {i : NodeIndex} {v : Fn}
    (h : valueAtNode c.points i = v • G) : c.returnOpeningIfConsistent i (.simple v) = .ok (.simple v) := by
  refine ((C76_return_opening c i _).1 _).2 ⟨rfl, ?_⟩
  simp only [Commitment.checkOpening, hk]
  rw [Commitment.evaluateAt_value hne, Res.ok_bind, h]
  simp [Point.mulByG, Point.scalarMul]

theorem returnOpening_pedersen {c : Commitment} (hk : c.kind = .pedersen) (hne : c.points ≠ []) {i : NodeIndex} {v m : Fn}
    (h : valueAtNode c.points i = v • G + m • Point.H) :
    c.returnOpeningIfConsistent i (.pedersen v m) = .ok (.pedersen v m) := by
  refine ((C76_return_opening c i _).1 _).2 ⟨rfl, ?_⟩
  simp only [Commitment.checkOpening, hk]
  rw [Commitment.evaluateAt_value hne, Res.ok_bind, h]
  simp [Commitment.pedersen_eq]

theorem returnOpening_ok {c : Commitment} {i : NodeIndex} {o o' : Opening} (h : c.returnOpeningIfConsistent i o = .ok o') :
    o' = o ∧ c.points ≠ [] ∧ Opens c i o := by
  obtain ⟨rfl, h⟩ := ((C76_return_opening c i o).1 o').1 h
  have hne : c.points ≠ [] := by
    intro e
    unfold Commitment.checkOpening at h
    split at h
    · rw [Commitment.evaluateAt, Commitment.curveType, e] at h; cases h
    · rw [Commitment.evaluateAt, Commitment.curveType, e] at h; cases h
    · cases h
  refine ⟨rfl, hne, ?_⟩
  unfold Commitment.checkOpening at h
  split at h
  · rw [Commitment.evaluateAt_value hne, Res.ok_bind] at h
    simp only [Res.ok.injEq, decide_eq_true_eq] at h
    exact ⟨by assumption, h⟩
  · rw [Commitment.evaluateAt_value hne, Res.ok_bind] at h
    simp only [Res.ok.injEq, decide_eq_true_eq] at h
    exact ⟨by assumption, h⟩
  · cases h

end Dealings

end Verif

namespace Verif

open Mega Zk Dealings Polynomial

namespace Dealings

/-- What a transcript that was created looks like: weights `w` and the weighted sum of the dealings' commitments. -/
structure Shape (t : Int) (ds : DealingMap) (cm : NodeIndex → Commitment) (op : Op) (T : Com) (w : NodeIndex → Fn) : Prop where
  nonneg : 0 ≤ t
  lengths : ∀ x ∈ ds, ((cm x.1).points.length : Int) = t
  com : T.c = ⟨op.dealingKind, linCombPts w (ds.map Prod.fst) (fun i => (cm i).points) t.toNat⟩
  random : op = .random → T.wrap = .summation ∧ (∀ i, w i = 1) ∧ ∀ x ∈ ds, (cm x.1).kind = .pedersen
  interp : op ≠ .random → T.wrap = .interpolation ∧ ds ≠ [] ∧ Lagr.atZero (ds.map Prod.fst) = .ok ((ds.map Prod.fst).map w) ∧
    ∀ f : Fn[X], f.degree < ds.length → ((ds.map Prod.fst).map fun i => w i * f.eval (place i)).sum = f.eval 0

theorem newTranscript_shape {t : Int} {ds : DealingMap} {cm : NodeIndex → Commitment} {op : Op} {T : Com}
    (hc : Commits ds cm) (hn : (ds.map Prod.fst).Nodup) (h : newTranscript t ds op = .ok (some T)) :
    ∃ w, Shape t ds cm op T w := by
  have hlen : checkLengths t ds = .ok () := by
    rw [newTranscript.eq_def] at h
    obtain ⟨⟨⟩, h1, -⟩ := Res.bind_eq_ok.1 h
    exact h1
  have hl := (checkLengths_cases hc t).1.1 hlen
  have hneg : ds ≠ [] → 0 ≤ t := by
    intro hne
    obtain ⟨x, hx⟩ := List.exists_mem_of_ne_nil ds hne
    have := hl x hx
    omega
  have hemp : ∀ kind, combineViaInterpolation kind t ([] : DealingMap) = .err "invalid arguments" ∨
      (combineViaInterpolation kind t ([] : DealingMap)).isErr = true := by
    intro kind
    right
    obtain ⟨e, he⟩ := Lagr.atValue_err 0 [] (Or.inl rfl)
    have he' : Lagr.atZero [] = .err e := he
    simp [combineViaInterpolation, Res.mapM', he']
  have hcomb : ∀ kind, combineViaInterpolation kind t ds = .ok T → ds ≠ [] := by
    rintro kind hk rfl
    rcases hemp kind with h1 | h1 <;> rw [hk] at h1 <;> cases h1
  by_cases hop : op = .random
  · subst hop
    have ht : 0 ≤ t := by
      by_contra hlt
      rw [newTranscript, hlen, Res.ok_bind, if_pos (by omega)] at h
      cases h
    have hk : ∀ x ∈ ds, (cm x.1).kind = .pedersen := by
      by_contra hx
      push Not at hx
      have := sumLoop_kind hc (List.replicate t.toNat 0) hx fun x hx => by
        rw [List.length_replicate]; have := hl x hx; omega
      rw [newTranscript, hlen, Res.ok_bind, if_neg (by omega)] at h
      obtain ⟨a, h1, -⟩ := Res.bind_eq_ok.1 h
      rw [h1] at this
      cases this
    rw [newTranscript_random hc ht hl hk] at h
    simp only [Res.ok.injEq, Option.some.injEq] at h
    subst h
    exact ⟨fun _ => 1, ht, hl, rfl, fun _ => ⟨rfl, fun _ => rfl, hk⟩, fun e => absurd rfl e⟩
  · have key : ds ≠ [] ∧ ∃ T', combineViaInterpolation op.dealingKind t ds = .ok T' ∧ T' = T := by
      suffices hs : ∃ T', combineViaInterpolation op.dealingKind t ds = .ok T' ∧ T' = T by
        obtain ⟨T', h1, h2⟩ := hs
        exact ⟨hcomb _ (by rw [h1, h2]), T', h1, h2⟩
      rw [newTranscript.eq_def, hlen, Res.ok_bind] at h
      cases op with
      | random => exact absurd rfl hop
      | reshareMasked p1 =>
        simp only at h
        split_ifs at h
        obtain ⟨a, h1, h2⟩ := Res.bind_eq_ok.1 h
        exact ⟨a, h1, by simpa using h2⟩
      | reshareUnmasked p1 =>
        simp only at h
        split_ifs at h
        obtain ⟨a, h1, h2⟩ := Res.bind_eq_ok.1 h
        obtain ⟨b, -, h2⟩ := Res.bind_eq_ok.1 h2
        obtain ⟨b', -, h2⟩ := Res.bind_eq_ok.1 h2
        split_ifs at h2
        exact ⟨a, h1, by simpa using h2⟩
      | unmaskedTimesMasked l r =>
        simp only at h
        split_ifs at h
        obtain ⟨a, h1, h2⟩ := Res.bind_eq_ok.1 h
        exact ⟨a, h1, by simpa using h2⟩
      | other => simp at h
    obtain ⟨hne, T', h1, rfl⟩ := key
    have ht := hneg hne
    obtain ⟨w, hw, hsum, -⟩ := newTranscript_interp hc hn hne ht hl
    rw [combineViaInterpolation_eq hc hne op.dealingKind ht hl hw] at h1
    simp only [Res.ok.injEq] at h1
    subst h1
    exact ⟨w, ht, hl, rfl, fun e => absurd e hop, fun _ => ⟨rfl, hne, hw, hsum⟩⟩

/-- The scalars of an opening. -/
def Opening.val : Opening → Fn
  | .simple v => v
  | .simplePtr v => v
  | .pedersen v _ => v
  | .pedersenPtr v _ => v

def Opening.mask : Opening → Fn
  | .pedersen _ m => m
  | .pedersenPtr _ m => m
  | _ => 0

theorem opens_simple {c : Commitment} {i : NodeIndex} {o : Opening} (h : Opens c i o) (hk : c.kind = .simple) :
    o = .simple (Opening.val o) ∧ valueAtNode c.points i = Opening.val o • G := by
  cases o with
  | simple v => exact ⟨rfl, h.2⟩
  | pedersen v m => have := h.1; rw [hk] at this; cases this
  | simplePtr v => exact h.elim
  | pedersenPtr v m => exact h.elim

theorem opens_pedersen {c : Commitment} {i : NodeIndex} {o : Opening} (h : Opens c i o) (hk : c.kind = .pedersen) :
    o = .pedersen (Opening.val o) (Opening.mask o) ∧
      valueAtNode c.points i = Opening.val o • G + Opening.mask o • Point.H := by
  cases o with
  | simple v => have := h.1; rw [hk] at this; cases this
  | pedersen v m => exact ⟨rfl, h.2⟩
  | simplePtr v => exact h.elim
  | pedersenPtr v m => exact h.elim

theorem sum_map_smul_G {is : List NodeIndex} (w v : NodeIndex → Fn) (B : Pt) :
    (is.map fun i => w i • (v i • B)).sum = (is.map fun i => w i * v i).sum • B := by
  induction is with
  | nil => exact (zero_smul Fn B).symm
  | cons i l ih => simp only [List.map_cons, List.sum_cons]; rw [ih]; module

theorem sum_map_add {is : List NodeIndex} (f g : NodeIndex → Pt) :
    (is.map fun i => f i + g i).sum = (is.map f).sum + (is.map g).sum := by
  induction is with
  | nil => simp
  | cons i l ih => simp only [List.map_cons, List.sum_cons]; rw [ih]; abel

/-- Openings of all dealings combine to the weighted sum. -/
theorem combineOpenings_eq {t : Int} {ds : DealingMap} {cm : NodeIndex → Commitment} {op : Op} {T : Com}
    {w : NodeIndex → Fn} (hs : Shape t ds cm op T w) (ht : 0 < t) (hk : ∀ x ∈ ds, (cm x.1).kind = op.dealingKind)
    (i : NodeIndex) (o : NodeIndex → Opening) (ho : ∀ x ∈ ds, Opens (cm x.1) i (o x.1)) :
    combineOpenings (ds.map Prod.fst) (ds.map fun x => o x.1) (some T) i = .ok
      (match op.dealingKind with
        | .simple => .simple ((ds.map Prod.fst).map fun j => w j * Opening.val (o j)).sum
        | .pedersen => .pedersen ((ds.map Prod.fst).map fun j => w j * Opening.val (o j)).sum
            ((ds.map Prod.fst).map fun j => w j * Opening.mask (o j)).sum) := by
  have hmem : ∀ j ∈ ds.map Prod.fst, ∃ x ∈ ds, x.1 = j := fun j hj => by simpa using hj
  have hval : valueAtNode T.c.points i =
      ((ds.map Prod.fst).map fun j => w j • valueAtNode (cm j).points i).sum := by
    rw [hs.com]
    refine valueAt_linCombPts w _ _ _ (fun j hj => ?_) _
    obtain ⟨x, hx, rfl⟩ := hmem j hj
    have := hs.lengths x hx
    omega
  have hne : T.c.points ≠ [] := by
    intro e
    have h1 := length_linCombPts w (ds.map Prod.fst) (fun i => (cm i).points) t.toNat
    rw [hs.com] at e
    simp only at e
    rw [e] at h1
    simp at h1
    omega
  have hTk : T.c.kind = op.dealingKind := by rw [hs.com]
  have hmap : (ds.map fun x => o x.1) = (ds.map Prod.fst).map o := by rw [List.map_map]; rfl
  rw [hmap]
  generalize hkeys : ds.map Prod.fst = keys at *
  cases hkind : op.dealingKind with
  | simple =>
    have hop : op ≠ .random := by rintro rfl; cases hkind
    have ho' : ∀ j ∈ keys, o j = .simple (Opening.val (o j)) ∧ valueAtNode (cm j).points i = Opening.val (o j) • G := by
      intro j hj
      obtain ⟨x, hx, rfl⟩ := hmem j hj
      exact opens_simple (ho x hx) ((hk x hx).trans hkind)
    obtain ⟨hwrap, hdne, hz, -⟩ := hs.interp hop
    rw [hkeys] at hz
    have hkne : keys ≠ [] := by rw [← hkeys]; simpa using hdne
    have e1 : keys.map o = keys.map fun j => .simple (Opening.val (o j)) := List.map_congr_left fun j hj => (ho' j hj).1
    obtain ⟨wr, c⟩ := T
    simp only at hwrap hTk hne hval
    subst hwrap
    rw [hkind] at hTk
    simp only [combineOpenings, hTk]
    rw [e1, gatherSimple_eq, Res.ok_bind]
    simp only
    rw [hz, Res.ok_bind, Lagr.interpolateScalar_map keys hkne w, Res.ok_bind]
    refine returnOpening_simple hTk hne ?_
    rw [hval, ← sum_map_smul_G]
    congr 1
    exact List.map_congr_left fun j hj => by rw [(ho' j hj).2]
  | pedersen =>
    have ho' : ∀ j ∈ keys, o j = .pedersen (Opening.val (o j)) (Opening.mask (o j)) ∧
        valueAtNode (cm j).points i = Opening.val (o j) • G + Opening.mask (o j) • Point.H := by
      intro j hj
      obtain ⟨x, hx, rfl⟩ := hmem j hj
      exact opens_pedersen (ho x hx) ((hk x hx).trans hkind)
    have e1 : keys.map o = keys.map fun j => .pedersen (Opening.val (o j)) (Opening.mask (o j)) :=
      List.map_congr_left fun j hj => (ho' j hj).1
    rw [hkind] at hTk
    have hfin : valueAtNode T.c.points i = (keys.map fun j => w j * Opening.val (o j)).sum • G +
        (keys.map fun j => w j * Opening.mask (o j)).sum • Point.H := by
      rw [hval, ← sum_map_smul_G, ← sum_map_smul_G, ← sum_map_add]
      congr 1
      exact List.map_congr_left fun j hj => by rw [(ho' j hj).2, smul_add]
    by_cases hop : op = .random
    · obtain ⟨hwrap, hw1, -⟩ := hs.random hop
      obtain ⟨wr, c⟩ := T
      simp only at hwrap hTk hne hfin
      subst hwrap
      simp only [combineOpenings]
      rw [e1, sumOpenings_eq, Res.ok_bind]
      simp only [hw1, one_mul, zero_add] at hfin ⊢
      exact returnOpening_pedersen hTk hne hfin
    · obtain ⟨hwrap, hdne, hz, -⟩ := hs.interp hop
      rw [hkeys] at hz
      have hkne : keys ≠ [] := by rw [← hkeys]; simpa using hdne
      obtain ⟨wr, c⟩ := T
      simp only at hwrap hTk hne hfin
      subst hwrap
      simp only [combineOpenings, hTk]
      rw [e1, gatherPedersen_eq, Res.ok_bind]
      simp only
      rw [hz, Res.ok_bind, Lagr.interpolateScalar_map keys hkne w, Res.ok_bind, Lagr.interpolateScalar_map keys hkne w,
        Res.ok_bind]
      exact returnOpening_pedersen hTk hne hfin

end Dealings

end Verif
