import Verif.Spec.Reconstruct
import Verif.Props.TranscriptExact

/-! C195: reconstruction of a share when some of the openings are wrong. -/

set_option autoImplicit false

namespace Verif

open Mega Zk Dealings Polynomial

namespace Dealings

theorem atValue_weights (x : Fn) (openers : List NodeIndex) (hne : openers ≠ []) (hn : openers.Nodup) :
    Lagr.atValue x openers = .ok (openers.map (weightAt openers x)) := by
  rw [Lagr.atValue_eq x openers hne hn, List.map_map]
  congr 1
  refine List.map_congr_left fun j _ => ?_
  have hnd : ((openers.filter (· ≠ j)).map Scalar.fromNodeIndex).Nodup := (hn.filter _).map Lagr.fromNodeIndex_injective
  have hset : (openers.map Scalar.fromNodeIndex).toFinset.erase (Scalar.fromNodeIndex j) =
      ((openers.filter (· ≠ j)).map Scalar.fromNodeIndex).toFinset := by
    ext y
    simp only [Finset.mem_erase, List.mem_toFinset, List.mem_map, List.mem_filter, decide_eq_true_eq]
    constructor
    · rintro ⟨h1, l, h2, rfl⟩
      exact ⟨l, ⟨h2, fun e => h1 (by rw [e])⟩, rfl⟩
    · rintro ⟨l, ⟨h2, h3⟩, rfl⟩
      exact ⟨fun e => h3 (Lagr.fromNodeIndex_injective e), l, h2, rfl⟩
  rw [Function.comp_apply, Lagr.lcoeff, hset, List.prod_toFinset _ hnd, List.map_map]
  rfl

theorem weightAt_ne_zero {openers : List NodeIndex} {i j : NodeIndex} (hi : ∀ l ∈ openers, l ≠ j → l ≠ i) :
    weightAt openers (place i) j ≠ 0 := by
  rw [weightAt, Ne, List.prod_eq_zero_iff, List.mem_map]
  rintro ⟨l, hl, h⟩
  rw [List.mem_filter, decide_eq_true_eq] at hl
  rcases div_eq_zero_iff.1 h with h | h
  · exact hi l hl.1 hl.2 (Lagr.fromNodeIndex_injective (sub_eq_zero.1 h))
  · exact hl.2 (Lagr.fromNodeIndex_injective (sub_eq_zero.1 h))

theorem ofKind_simple {c : Commitment} {o : Opening} (h : OfKind c o) (hk : c.kind = .simple) : o = .simple (Opening.val o) := by
  cases o with
  | simple v => rfl
  | pedersen v m => rw [OfKind, hk] at h; cases h
  | simplePtr v => exact h.elim
  | pedersenPtr v m => exact h.elim

theorem ofKind_pedersen {c : Commitment} {o : Opening} (h : OfKind c o) (hk : c.kind = .pedersen) :
    o = .pedersen (Opening.val o) (Opening.mask o) := by
  cases o with
  | simple v => rw [OfKind, hk] at h; cases h
  | pedersen v m => rfl
  | simplePtr v => exact h.elim
  | pedersenPtr v m => exact h.elim

theorem missBy_eq_zero {c : Commitment} {j : NodeIndex} {o : Opening} (h : OfKind c o) : missBy c j o = 0 ↔ Opens c j o := by
  cases o with
  | simple v => rw [missBy, sub_eq_zero]; exact ⟨fun e => ⟨h, e.symm⟩, fun e => e.2.symm⟩
  | pedersen v m => rw [missBy, sub_eq_zero]; exact ⟨fun e => ⟨h, e.symm⟩, fun e => e.2.symm⟩
  | simplePtr v => exact h.elim
  | pedersenPtr v m => exact h.elim

theorem sum_map_sub' {is : List NodeIndex} (w : NodeIndex → Fn) (f g : NodeIndex → Pt) :
    (is.map fun i => w i • (f i - g i)).sum = (is.map fun i => w i • f i).sum - (is.map fun i => w i • g i).sum := by
  induction is with
  | nil => simp
  | cons i l ih => simp only [List.map_cons, List.sum_cons]; rw [ih, smul_sub]; abel

theorem returnOpening_iff {c : Commitment} {i : NodeIndex} {o : Opening} (hne : c.points ≠ []) (hk : OfKind c o) :
    (Opens c i o → c.returnOpeningIfConsistent i o = .ok o) ∧
    (¬ Opens c i o → (c.returnOpeningIfConsistent i o).isErr = true) := by
  refine ⟨fun h => ?_, fun h => ?_⟩
  · cases o with
    | simple v => exact returnOpening_simple hk hne h.2
    | pedersen v m => exact returnOpening_pedersen hk hne h.2
    | simplePtr v => exact h.elim
    | pedersenPtr v m => exact h.elim
  · have hval := Commitment.evaluateAt_value hne i
    cases o with
    | simple v =>
      have hk' : c.kind = .simple := hk
      have : ¬ valueAtNode c.points i = Point.mulByG v := fun e => h ⟨hk, e⟩
      simp [Commitment.returnOpeningIfConsistent, Commitment.checkOpening, hk', hval, this, Res.isErr]
    | pedersen v m =>
      have hk' : c.kind = .pedersen := hk
      have : ¬ valueAtNode c.points i = Point.pedersen v m := fun e => h ⟨hk, e.trans (Commitment.pedersen_eq ..)⟩
      simp [Commitment.returnOpeningIfConsistent, Commitment.checkOpening, hk', hval, this, Res.isErr]
    | simplePtr v => exact hk.elim
    | pedersenPtr v m => exact hk.elim

end Dealings

/-- Openings of the right kind, at least as many as the commitment has coefficients, however wrong: a share is reconstructed if and
only if what they miss the commitment by cancels in the weighted sum; then it opens the commitment at the node, and otherwise the
reconstruction fails. -/
theorem C195_exact_partial (d : Dealing) (cm : Commitment) (hcm : d.commitment = some cm) (hne : cm.points ≠ [])
    (openers : List NodeIndex) (o : NodeIndex → Opening) (hn : openers.Nodup) (hlen : cm.points.length ≤ openers.length)
    (ho : ∀ j ∈ openers, OfKind cm (o j)) (i : NodeIndex) :
    ((openers.map fun j => weightAt openers (place i) j • missBy cm j (o j)).sum = 0 →
      ∃ res, reconstructShare d (openers.map fun j => (j, o j)) i = .ok res ∧ Opens cm i res) ∧
    ((openers.map fun j => weightAt openers (place i) j • missBy cm j (o j)).sum ≠ 0 →
      (reconstructShare d (openers.map fun j => (j, o j)) i).isErr = true) := by
  have hone : openers ≠ [] := by
    rintro rfl
    exact hne (List.length_eq_zero_iff.1 (by simpa using hlen))
  have hw := atValue_weights (place i) openers hone hn
  obtain ⟨w, hw'⟩ : ∃ w, w = weightAt openers (place i) := ⟨_, rfl⟩
  obtain ⟨w₂, h2, hsum₂⟩ := Lagr.weights (place i) openers hone hn
  have hsum : ∀ f : Fn[X], f.degree < openers.length → (openers.map fun j => w j * f.eval (place j)).sum = f.eval (place i) := by
    intro f hf
    rw [hw, Res.ok.injEq, List.map_inj_left] at h2
    rw [← hsum₂ f hf]
    congr 1
    exact List.map_congr_left fun j hj => by rw [hw', h2 j hj]
  rw [← hw'] at hw ⊢
  have hval := sum_weights_valueAt hsum cm.points hlen
  obtain ⟨ct, hct⟩ : ∃ ct, cm.curveType = .ok ct := by
    rw [Commitment.curveType]
    cases hp : cm.points with
    | nil => exact absurd hp hne
    | cons a l => exact ⟨_, rfl⟩
  have hplace : Scalar.fromNodeIndex i = place i := rfl
  obtain ⟨res, hk, hrec, hmiss⟩ : ∃ res, OfKind cm res ∧
      reconstructShare d (openers.map fun j => (j, o j)) i = cm.returnOpeningIfConsistent i res ∧
      (openers.map fun j => w j • missBy cm j (o j)).sum = missBy cm i res := by
    rw [reconstructShare.eq_def, hcm, nonNil, Res.ok_bind, if_neg (by rw [List.length_map]; omega), hct, Res.ok_bind]
    simp only [hplace]
    cases hk : cm.kind with
    | simple =>
      have ho' := fun j hj => ofKind_simple (ho j hj) hk
      have e1 : (openers.map fun j => (j, o j)) = openers.map fun j => (j, .simple (Opening.val (o j))) :=
        List.map_congr_left fun j hj => by rw [← ho' j hj]
      simp only
      rw [e1, collectSimple_eq, Res.ok_bind]
      simp only
      rw [hw, Res.ok_bind, Lagr.interpolateScalar_map openers hone w, Res.ok_bind]
      refine ⟨_, ?_, rfl, ?_⟩
      · exact hk
      · rw [missBy, ← sum_map_smul_G]
        refine Eq.trans ?_ (congrArg _ hval)
        rw [← sum_map_sub']
        congr 1
        exact List.map_congr_left fun j hj => by rw [ho' j hj, missBy]; rfl
    | pedersen =>
      have ho' := fun j hj => ofKind_pedersen (ho j hj) hk
      have e1 : (openers.map fun j => (j, o j)) =
          openers.map fun j => (j, .pedersen (Opening.val (o j)) (Opening.mask (o j))) :=
        List.map_congr_left fun j hj => by rw [← ho' j hj]
      simp only
      rw [e1, collectPedersen_eq, Res.ok_bind]
      simp only
      rw [hw, Res.ok_bind, Lagr.interpolateScalar_map openers hone w, Res.ok_bind, Lagr.interpolateScalar_map openers hone w,
        Res.ok_bind]
      refine ⟨_, ?_, rfl, ?_⟩
      · exact hk
      · rw [missBy, ← sum_map_smul_G, ← sum_map_smul_G, ← sum_map_add]
        refine Eq.trans ?_ (congrArg _ hval)
        rw [show (openers.map fun j => w j • Opening.val (o j) • G + w j • Opening.mask (o j) • Point.H) =
          openers.map fun j => w j • (Opening.val (o j) • G + Opening.mask (o j) • Point.H) from
            List.map_congr_left fun j _ => by rw [smul_add], ← sum_map_sub']
        congr 1
        exact List.map_congr_left fun j hj => by rw [ho' j hj, missBy]; rfl
  rw [hmiss, hrec]
  have h := returnOpening_iff (i := i) hne hk
  constructor
  · intro h0
    rw [missBy_eq_zero hk] at h0
    exact ⟨res, h.1 h0, h0⟩
  · intro h0
    rw [Ne, missBy_eq_zero hk] at h0
    exact h.2 h0

/-- One wrong opening spoils the reconstruction, however many others are right, unless the share of one of the others is asked for. -/
theorem C195_false (d : Dealing) (cm : Commitment) (hcm : d.commitment = some cm) (hne : cm.points ≠ [])
    (openers : List NodeIndex) (o : NodeIndex → Opening) (hn : openers.Nodup) (hlen : cm.points.length ≤ openers.length)
    (j : NodeIndex) (hj : j ∈ openers) (hright : ∀ l ∈ openers, l ≠ j → Opens cm l (o l)) (hwrong : ¬ Opens cm j (o j))
    (hkind : OfKind cm (o j)) (i : NodeIndex) (hi : ∀ l ∈ openers, l ≠ j → l ≠ i) :
    (reconstructShare d (openers.map fun j => (j, o j)) i).isErr = true := by
  have hk : ∀ l ∈ openers, OfKind cm (o l) := by
    intro l hl
    by_cases h : l = j
    · rw [h]; exact hkind
    · have := hright l hl h
      revert this
      cases o l with
      | simple v => exact fun h => h.1
      | pedersen v m => exact fun h => h.1
      | simplePtr v => exact id
      | pedersenPtr v m => exact id
  refine (C195_exact_partial d cm hcm hne openers o hn hlen hk i).2 ?_
  rw [← List.sum_toFinset _ hn, Finset.sum_eq_single j]
  · rw [smul_ne_zero_iff]
    exact ⟨weightAt_ne_zero hi, fun h => hwrong ((missBy_eq_zero hkind).1 h)⟩
  · intro l hl hlj
    rw [(missBy_eq_zero (hk l (List.mem_toFinset.1 hl))).2 (hright l (List.mem_toFinset.1 hl) hlj), smul_zero]
  · intro h
    exact absurd (List.mem_toFinset.2 hj) h

/-- So does one opening of the other kind, whatever the others are. -/
theorem C195_false_kind (d : Dealing) (cm : Commitment) (hcm : d.commitment = some cm) (hne : cm.points ≠ []) (openings : OpeningMap)
    (j : NodeIndex) (o : Opening) (hj : (j, o) ∈ openings)
    (ho : (cm.kind = .simple ∧ ∃ v m, o = .pedersen v m) ∨ (cm.kind = .pedersen ∧ ∃ v, o = .simple v)) (i : NodeIndex) :
    (reconstructShare d openings i).isErr = true := by
  obtain ⟨ct, hct⟩ : ∃ ct, cm.curveType = .ok ct := by
    rw [Commitment.curveType]
    cases hp : cm.points with
    | nil => exact absurd hp hne
    | cons a l => exact ⟨_, rfl⟩
  rw [reconstructShare.eq_def, hcm, nonNil, Res.ok_bind]
  split_ifs with hlen
  · rfl
  rw [hct, Res.ok_bind]
  rcases ho with ⟨hk, v, m, rfl⟩ | ⟨hk, v, rfl⟩
  · have hc : ∀ l : OpeningMap, (j, .pedersen v m) ∈ l → ∃ e, collectSimple l = .err e := by
      intro l
      induction l with
      | nil => intro h; cases h
      | cons x l ih =>
        intro h
        obtain ⟨x1, x2⟩ := x
        cases x2 with
        | pedersen a b => exact ⟨_, rfl⟩
        | simple a =>
          obtain ⟨e, he⟩ := ih ((List.mem_cons.1 h).resolve_left (by simp))
          exact ⟨e, by simp only [collectSimple, he, Res.err_bind]⟩
        | simplePtr a => exact ih ((List.mem_cons.1 h).resolve_left (by simp))
        | pedersenPtr a b => exact ih ((List.mem_cons.1 h).resolve_left (by simp))
    obtain ⟨e, he⟩ := hc openings hj
    simp only [hk, he, Res.err_bind, Res.isErr]
  · have hc : ∀ l : OpeningMap, (j, .simple v) ∈ l → ∃ e, collectPedersen l = .err e := by
      intro l
      induction l with
      | nil => intro h; cases h
      | cons x l ih =>
        intro h
        obtain ⟨x1, x2⟩ := x
        cases x2 with
        | simple a => exact ⟨_, rfl⟩
        | pedersen a b =>
          obtain ⟨e, he⟩ := ih ((List.mem_cons.1 h).resolve_left (by simp))
          exact ⟨e, by simp only [collectPedersen, he, Res.err_bind]⟩
        | simplePtr a => exact ih ((List.mem_cons.1 h).resolve_left (by simp))
        | pedersenPtr a b => exact ih ((List.mem_cons.1 h).resolve_left (by simp))
    obtain ⟨e, he⟩ := hc openings hj
    simp only [hk, he, Res.err_bind, Res.isErr]

theorem Dealings.as_map {α : Type} : ∀ (l : List (NodeIndex × α)), (l.map Prod.fst).Nodup →
    ∃ o : NodeIndex → Option α, ∀ y ∈ l, o y.1 = some y.2
  | [], _ => ⟨fun _ => none, by simp⟩
  | x :: l, h => by
    rw [List.map_cons, List.nodup_cons] at h
    obtain ⟨o, ho⟩ := as_map l h.2
    refine ⟨fun j => if j = x.1 then some x.2 else o j, fun y hy => ?_⟩
    rcases List.mem_cons.1 hy with rfl | hy
    · simp
    · have : y.1 ≠ x.1 := fun e => h.1 (e ▸ List.mem_map_of_mem hy)
      simp only [if_neg this, ho y hy]

/-- If the caller keeps only openings for which `CheckOpening` holds, then enough right ones suffice, whatever the others are. -/
theorem C195_sorted_out_partial (d : Dealing) (cm : Commitment) (hcm : d.commitment = some cm) (hne : cm.points ≠ [])
    (openings : OpeningMap) (hn : (openings.map Prod.fst).Nodup)
    (hlen : cm.points.length ≤ (openings.filter (passes cm)).length) (i : NodeIndex) :
    ∃ res, reconstructShare d (openings.filter (passes cm)) i = .ok res ∧ Opens cm i res := by
  set l := openings.filter (passes cm) with hl
  have hnl : (l.map Prod.fst).Nodup := hn.sublist (List.filter_sublist.map _)
  obtain ⟨o, ho⟩ := Dealings.as_map l hnl
  have hmap : l = (l.map Prod.fst).map fun j => (j, (o j).getD (.simple 0)) := by
    rw [List.map_map]
    conv_lhs => rw [← List.map_id l]
    exact List.map_congr_left fun y hy => by simp [ho y hy]
  obtain ⟨res, h1, h2, -⟩ := C64_reconstruction d cm hcm hne (l.map Prod.fst) (fun j => (o j).getD (.simple 0)) hnl
    (by rw [List.length_map]; exact hlen) (by
      intro j hj
      obtain ⟨y, hy, rfl⟩ := List.mem_map.1 hj
      rw [ho y hy, Option.getD_some]
      have hp := (List.mem_filter.1 hy).2
      have hc : cm.checkOpening y.1 y.2 = .ok true := by
        revert hp
        rw [passes]
        cases cm.checkOpening y.1 y.2 <;> simp
      exact (returnOpening_ok (((C76_return_opening cm y.1 y.2).1 _).2 ⟨rfl, hc⟩)).2.2) i
  rw [← hmap] at h1
  exact ⟨res, h1, h2⟩

/-! A case: the line `6 + x`, of which nodes 0 and 4 have the values 7 and 11, and node 1 claims 9 instead of 8. -/

private theorem lineValue (j : NodeIndex) : valueAtNode [(6 : Fn) • G, (1 : Fn) • G] j = (6 + place j) • G := by
  rw [valueAtNode, valueAt]
  refine (Fin.sum_univ_two (fun k : Fin 2 => place j ^ (k : ℕ) • ([(6 : Fn) • G, (1 : Fn) • G] : List Pt)[k])).trans ?_
  simp [add_smul]

private def claimed (j : NodeIndex) : Opening := if j = 0 then .simple 7 else if j = 1 then .simple 9 else .simple 11

private theorem right (j : NodeIndex) (h : j = 0 ∨ j = 4) : Opens ⟨.simple, [(6 : Fn) • G, (1 : Fn) • G]⟩ j (claimed j) := by
  have p0 : (6 : Fn) + place 0 = 7 := by decide +kernel
  have p4 : (6 : Fn) + place 4 = 11 := by decide +kernel
  rcases h with rfl | rfl
  · exact ⟨rfl, by rw [lineValue, p0]⟩
  · exact ⟨rfl, by rw [lineValue, p4]⟩

/-- With the three openings there is no share for node 2. -/
example : (reconstructShare ⟨none, some ⟨.simple, [(6 : Fn) • G, (1 : Fn) • G]⟩, none⟩
    [(0, .simple 7), (1, .simple 9), (4, .simple 11)] 2).isErr = true := by
  have p1 : (6 : Fn) + place 1 ≠ 9 := by decide +kernel
  have hk : OfKind ⟨.simple, [(6 : Fn) • G, (1 : Fn) • G]⟩ (claimed 1) := rfl
  refine C195_false _ _ rfl (by simp) [0, 1, 4] claimed (by simp) (by simp) 1 (by simp) (fun l hl hne => ?_)
    (fun h => p1 ?_) hk 2 (by simp)
  · simp only [List.mem_cons, List.not_mem_nil, or_false] at hl
    exact right l (hl.imp_right fun h => h.resolve_left hne)
  · have h2 : valueAtNode [(6 : Fn) • G, (1 : Fn) • G] 1 = (9 : Fn) • G := h.2
    rw [lineValue] at h2
    exact smul_left_injective Fn G_ne_zero h2

/-- Without the wrong one there is. -/
example : ∃ res, reconstructShare ⟨none, some ⟨.simple, [(6 : Fn) • G, (1 : Fn) • G]⟩, none⟩
    ([(0, .simple 7), (1, .simple 9), (4, .simple 11)].filter (passes ⟨.simple, [(6 : Fn) • G, (1 : Fn) • G]⟩)) 2 = .ok res ∧
      Opens ⟨.simple, [(6 : Fn) • G, (1 : Fn) • G]⟩ 2 res := by
  have hp : ∀ j, j = 0 ∨ j = 4 → passes ⟨.simple, [(6 : Fn) • G, (1 : Fn) • G]⟩ (j, claimed j) = true := fun j hj => by
    have h := ((returnOpening_iff (by simp) ?_).1 (right j hj))
    · rw [passes, (((C76_return_opening _ _ _).1 _).1 h).2]
    · rcases hj with rfl | rfl <;> exact (rfl : Kind.simple = Kind.simple)
  refine C195_sorted_out_partial _ _ rfl (by simp) _ (by simp) ?_ 2
  have h0 : passes ⟨.simple, [(6 : Fn) • G, (1 : Fn) • G]⟩ (0, .simple 7) = true := hp 0 (Or.inl rfl)
  have h4 : passes ⟨.simple, [(6 : Fn) • G, (1 : Fn) • G]⟩ (4, .simple 11) = true := hp 4 (Or.inr rfl)
  rw [List.filter_cons, if_pos h0, List.filter_cons]
  split_ifs
  · rw [List.filter_cons, if_pos h4]; simp
  · rw [List.filter_cons, if_pos h4]; simp

end Verif
