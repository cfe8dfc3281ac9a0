import Verif.Props.ProtocolLive

/-! Properties of the check of openings against the constant term of a commitment (C109). -/

set_option autoImplicit false

open Polynomial

namespace Verif

open Protocol Mega Dealings Complaints Sign

/-! ### C109: checking openings against the constant term -/

theorem Protocol.zipIdx_range_map {α β : Type} (f : Nat → α) (g : α × Nat → Option β) (h : Nat → β) (n : Nat)
    (hg : ∀ i, g (f i, i) = some (h i)) : ((List.range n).map f).zipIdx.filterMap g = (List.range n).map h := by
  have key : ∀ (l : List Nat) (k : Nat), (∀ j (hj : j < l.length), l[j] = k + j) →
      ((l.map f).zipIdx k).filterMap g = l.map h := by
    intro l
    induction l with
    | nil => intro k _; rfl
    | cons a l ih =>
      intro k hk
      have ha : a = k := hk 0 (by simp)
      subst ha
      rw [List.map_cons, List.zipIdx_cons, List.filterMap_cons, hg, List.map_cons]
      simp only
      rw [ih (a + 1) fun j hj => by
        have := hk (j + 1) (by simpa using hj)
        rw [List.getElem_cons_succ] at this
        omega]
  exact key _ 0 fun j hj => by simp

theorem Protocol.atZero_range {n : Nat} (h0 : 0 < n) (hn : n ≤ 2 ^ 63) :
    ∃ l, Lagr.atZero ((List.range n).map node) = .ok l ∧ ∀ f : List Fn, f.length ≤ n →
      Lagr.interpolateScalar l ((List.range n).map fun i => shareOf f i) = .ok ((toPoly f).eval 0) := by
  obtain ⟨l, h1, -, h2⟩ := C36_lagrange_interpolation 0 ((List.range n).map node)
    (by simpa using h0.ne') (nodup_range_node hn)
  refine ⟨l, h1, fun f hf => ?_⟩
  have h3 := (h2 f (by simpa using hf)).1
  rw [Poly.evaluateAt_eq, List.map_map] at h3
  rw [← h3]
  congr 1
  refine List.map_congr_left fun i hi => ?_
  rw [List.mem_range] at hi
  simp only [Function.comp_apply, Poly.evaluateAt_eq]
  rw [show Scalar.fromNodeIndex (node i) = place (node i) from rfl, place_node (by omega)]
  rfl

/-- C109, what is checked: values of the nodes `0, …, n-1` (they always lie on a polynomial `f` with `n` coefficients) pass if, and only if, the
commitment's constant term is that of `f`. -/
theorem C109_unmasked_exact_partial (c : Commitment) (hk : c.kind = .simple) (n : Nat) (h0 : 0 < n) (hn : n ≤ 2 ^ 63) (f : List Fn)
    (hf : f.length ≤ n) (Q : Pt) (hc : c.points.head? = some Q) :
    (Q = (toPoly f).eval 0 • G →
      verifyCommitmentOpenings ⟨.plain, c⟩ ((List.range n).map fun i => .simple (shareOf f i)) = .ok ()) ∧
    (Q ≠ (toPoly f).eval 0 • G →
      (verifyCommitmentOpenings ⟨.plain, c⟩ ((List.range n).map fun i => .simple (shareOf f i))).isErr = true) := by
  obtain ⟨l, h1, h2⟩ := atZero_range h0 hn
  have hct : c.constantTerm = .ok Q := by
    cases hp : c.points with
    | nil => rw [hp] at hc; cases hc
    | cons a l => rw [hp] at hc; cases hc; rw [Commitment.constantTerm, hp]
  have e : verifyCommitmentOpenings ⟨.plain, c⟩ ((List.range n).map fun i => .simple (shareOf f i)) =
      if (toPoly f).eval 0 • G = Q then .ok () else .err "verify failed" := by
    rw [verifyCommitmentOpenings, hct, Res.ok_bind]
    simp only
    rw [if_pos ⟨trivial, hk⟩, zipIdx_range_map (fun i => Opening.simple (shareOf f i)) simpleAt (fun i => (node i, shareOf f i)) n
      (fun i => rfl), List.map_map, List.map_map]
    erw [h1]
    rw [Res.ok_bind]
    erw [h2 f hf]
    rfl
  rw [e]
  constructor
  · intro h; rw [if_pos h.symm]
  · intro h; rw [if_neg (Ne.symm h)]; rfl

/-- The same for openings with masks, and commitments of both masked kinds of objects. -/
theorem C109_masked_exact_partial (c : Com) (hk : ¬ (c.wrap = .plain ∧ c.c.kind = .simple)) (n : Nat) (h0 : 0 < n) (hn : n ≤ 2 ^ 63)
    (f g : List Fn) (hf : f.length ≤ n) (hg : g.length ≤ n) (Q : Pt) (hc : c.c.points.head? = some Q) :
    (Q = (toPoly f).eval 0 • G + (toPoly g).eval 0 • Point.H →
      verifyCommitmentOpenings c ((List.range n).map fun i => .pedersen (shareOf f i) (shareOf g i)) = .ok ()) ∧
    (Q ≠ (toPoly f).eval 0 • G + (toPoly g).eval 0 • Point.H →
      (verifyCommitmentOpenings c ((List.range n).map fun i => .pedersen (shareOf f i) (shareOf g i))).isErr = true) := by
  obtain ⟨l, h1, h2⟩ := atZero_range h0 hn
  have hct : c.c.constantTerm = .ok Q := by
    cases hp : c.c.points with
    | nil => rw [hp] at hc; cases hc
    | cons a l => rw [hp] at hc; cases hc; rw [Commitment.constantTerm, hp]
  have e : verifyCommitmentOpenings c ((List.range n).map fun i => .pedersen (shareOf f i) (shareOf g i)) =
      if (toPoly f).eval 0 • G + (toPoly g).eval 0 • Point.H = Q then .ok () else .err "verify failed" := by
    rw [verifyCommitmentOpenings, hct, Res.ok_bind]
    simp only
    rw [if_neg hk, zipIdx_range_map (fun i => Opening.pedersen (shareOf f i) (shareOf g i)) pedersenAt
      (fun i => (node i, shareOf f i, shareOf g i)) n (fun i => rfl), List.map_map, List.map_map, List.map_map]
    erw [h1]
    rw [Res.ok_bind]
    erw [h2 f hf]
    rw [Res.ok_bind]
    erw [h2 g hg]
    rfl
  rw [e]
  constructor
  · intro h; rw [if_pos h.symm]
  · intro h; rw [if_neg (Ne.symm h)]; rfl

/-- C109, the other direction: what a round has shared passes.  Missing: not everything that passes are openings. -/
theorem C109_rounds_partial (R : Round) (n : Nat) (t : Int) (ht : 0 < t) (hn : n ≤ 2 ^ 63) (hc : t ≤ n) :
    (∀ f, SharesUnmasked R n t f → verifyCommitmentOpenings R.commitment R.openings = .ok ()) ∧
    (∀ f g, SharesMasked R n t f g → verifyCommitmentOpenings R.commitment R.openings = .ok ()) := by
  constructor
  · rintro f ⟨h1, h2, h3⟩
    cases f with
    | nil => simp at h1; omega
    | cons a l =>
      have hcom : R.commitment = ⟨.plain, ⟨.simple, (a :: l).map fun v : Fn => v • G⟩⟩ := by rw [Round.commitment, h2]; rfl
      rw [hcom, h3]
      exact (C109_unmasked_exact_partial _ rfl n (by omega) hn (a :: l) (by omega) (a • G) rfl).1 (by rw [eval_zero_toPoly rfl])
  · rintro f g ⟨h1, h2, h3, h4⟩
    cases f with
    | nil => simp at h1; omega
    | cons a l =>
      cases g with
      | nil => simp at h2; omega
      | cons b m =>
        have hcom : R.commitment = ⟨.plain, ⟨.pedersen, List.zipWith (fun v m : Fn => v • G + m • Point.H) (a :: l) (b :: m)⟩⟩ := by
          rw [Round.commitment, Com.clone, h3]
        rw [hcom, h4]
        exact (C109_masked_exact_partial _ (by simp) n (by omega) hn (a :: l) (b :: m) (by omega) (by omega) (a • G + b • Point.H) rfl).1
          (by rw [eval_zero_toPoly rfl, eval_zero_toPoly rfl])

/-- The rounds of C109 exist: a random sharing by five dealers, two of their dealings damaged, among five nodes. -/
example (seed : Seed) :
    ∃ s R s', Setup.new cycPrim 5 2 seed = .ok s ∧ Round.random cycPrim Commitment.serializeBytes s 5 2 = .ok (R, s') ∧
      verifyCommitmentOpenings R.commitment R.openings = .ok () := by
  obtain ⟨s, hs⟩ := cyc_goes (setup_goes (P := cycPrim) 2 5 2 seed)
  obtain ⟨e1, e2⟩ := setup_new hs
  obtain ⟨⟨R, s'⟩, hR⟩ := cyc_goes (C110_random_round cycPrim Commitment.serializeBytes s 5 2 Commitment.serializeBytes_ok
    ⟨by omega, by omega, by omega, by omega, by omega, le_rfl, by omega, Or.inr (by omega)⟩)
  obtain ⟨-, f, g, h⟩ := C103_random_round cycPrim Commitment.serializeBytes s s' 5 2 R (by omega) (by omega) (by omega) hR
  exact ⟨s, R, s', hs, hR, (C109_rounds_partial R _ _ (by omega) (by omega) (by omega)).2 f g h⟩

/-- C109 fails as a check of the openings: values that are no openings of the commitment pass. -/
theorem C109_false : ∃ (c : Commitment) (openings : List Opening), verifyCommitmentOpenings ⟨.plain, c⟩ openings = .ok () ∧
    openings.length = 2 ∧ c.points.length = 2 ∧ ∀ i o, openings[i]? = some o → ¬ Opens c (node i) o := by
  refine ⟨⟨.simple, [(1 : Fn) • G, (1 : Fn) • G]⟩, (List.range 2).map fun i => .simple (shareOf [1, 2] i),
    (C109_unmasked_exact_partial _ rfl 2 (by norm_num) (by norm_num) [1, 2] (by simp) _ rfl).1 (by rw [eval_zero_toPoly rfl]),
    by simp, rfl, fun i o ho => ?_⟩
  obtain ⟨hi, rfl⟩ := range_map_get ho
  rintro ⟨-, h⟩
  have h' := (opens_valueOf .simple (q := [1, 1]) (r := [1, 1]) (by simp) rfl (node i)).2
  rw [place_node (by omega)] at h'
  have e : (toPoly [1, 1]).eval ((i : Fn) + 1) = shareOf [1, 2] i := smul_left_injective Fn G_ne_zero (h'.symm.trans h)
  rw [shareOf] at e
  simp only [toPoly_cons, toPoly_nil, eval_add, eval_C, eval_mul, eval_X] at e
  interval_cases i <;> revert e <;> norm_num <;> decide +kernel

/-- C109 fails for the transcript of an unmasked round itself: its commitment is of a type of its own, is taken for one with
masks, and no opening is of that kind. -/
theorem C109_transcript_false (R : Round) (n : Nat) (t : Int) (f : List Fn) (ht : 0 < t) (h : SharesUnmasked R n t f) :
    (verifyCommitmentOpenings R.transcript R.openings).isErr = true := by
  obtain ⟨h1, h2, h3⟩ := h
  cases f with
  | nil => simp at h1; omega
  | cons a l =>
    have hnone : ∀ (l : List Opening) (k : Nat), (∀ o ∈ l, ∃ v, o = .simple v) → (l.zipIdx k).filterMap pedersenAt = [] := by
      intro l
      induction l with
      | nil => intro _ _; rfl
      | cons o l ih =>
        intro k hl
        obtain ⟨v, rfl⟩ := hl o (by simp)
        rw [List.zipIdx_cons, List.filterMap_cons]
        exact ih _ fun o ho => hl o (by simp [ho])
    rw [verifyCommitmentOpenings, h2, h3]
    rw [hnone _ 0 fun o ho => by
      obtain ⟨i, -, rfl⟩ := List.mem_map.1 ho
      exact ⟨_, rfl⟩]
    rfl

end Verif
