import Verif.Lemmas.Poly
import Mathlib.Data.Set.Finite.List
import Mathlib.Data.Set.Card

/-!
Properties C32–C38: polynomials and Lagrange interpolation.  `toPoly l` is the Mathlib polynomial `c₀ + c₁X + …` with
coefficient list `l`.
-/

namespace Verif

open Polynomial

/-! ### C32, C33 -/

/-- C32: evaluation, sum, product, scaling, equality and counting of non-zero coefficients mean what they should. -/
theorem C32_polynomial_arithmetic (a b : List Fn) (s x : Fn) :
    Poly.evaluateAt a x = ∑ i : Fin a.length, a[i] * x ^ (i : ℕ) ∧
    Poly.evaluateAt (Poly.add a b) x = Poly.evaluateAt a x + Poly.evaluateAt b x ∧
    Poly.evaluateAt (Poly.mul a b) x = Poly.evaluateAt a x * Poly.evaluateAt b x ∧
    (∃ r, Poly.mulScalar a a s = .ok r ∧ Poly.evaluateAt r x = Poly.evaluateAt a x * s) ∧
    (Poly.equal a b = 1 ↔ ∀ i, Poly.coeff a i = Poly.coeff b i) ∧
    (Poly.isZero a = 1 ↔ ∀ c ∈ a, c = 0) := by
  refine ⟨?_, ?_, ?_, ?_, ?_, ?_⟩
  · rw [Poly.evaluateAt_eq, toPoly, eval_finsetSum]
    simp
  · simp only [Poly.evaluateAt_eq, Poly.toPoly_add, eval_add]
  · simp only [Poly.evaluateAt_eq, Poly.toPoly_mul, eval_mul]
  · refine ⟨_, Poly.mulScalar_self a s, ?_⟩
    simp only [Poly.evaluateAt_eq, Poly.toPoly_map_mul, eval_mul, eval_C]
    ring
  · rw [Poly.equal_eq_one, toPoly_eq_iff]
  · rw [Poly.isZero, Poly.nonZeroCoefficients_eq]
    simp [List.countP_eq_zero]

/-- C32 as ring laws: the operations are those of the polynomial ring. -/
theorem C32_polynomial_ring (a b : List Fn) (s : Fn) :
    toPoly (Poly.add a b) = toPoly a + toPoly b ∧ toPoly (Poly.mul a b) = toPoly a * toPoly b ∧
    (∃ r, Poly.mulScalar a a s = .ok r ∧ toPoly r = C s * toPoly a) ∧
    (Poly.equal a b = 1 ↔ toPoly a = toPoly b) :=
  ⟨Poly.toPoly_add a b, Poly.toPoly_mul a b, ⟨_, Poly.mulScalar_self a s, Poly.toPoly_map_mul a s⟩,
    Poly.equal_eq_one a b⟩

example : Poly.mul [1, 2] [3, 0, 1] = [3, 6, 1, 2] ∧ Poly.evaluateAt [3, 6, 1, 2] 2 = 35 ∧
    Poly.equal [1, 2, 0] [1, 2] = 1 ∧ Poly.equal [1, 2] [1, 3] = 0 := by decide +kernel

/-- C33 does not hold: `p.MulScalar(q, s)` scales the receiver `p`, not `q`, and panics if `p` is shorter. -/
theorem C33_false : (∃ p q s r, Poly.mulScalar p q s = .ok r ∧ toPoly r ≠ C s * toPoly q) ∧
    (∃ p q s, (Poly.mulScalar p q s).isPanic = true) := by
  refine ⟨⟨[2], [1], 1, [2], by decide +kernel, ?_⟩, ⟨[], [1], 1, by decide +kernel⟩⟩
  intro h
  have := congrArg (fun f => eval 0 f) h
  simp [toPoly_cons] at this
  revert this
  decide +kernel

/-- C33, exactly what the code does: it scales the first `len(q)` coefficients of the receiver. -/
theorem C33_mul_scalar_partial (p q : List Fn) (s : Fn) :
    (q.length ≤ p.length → ∃ r, Poly.mulScalar p q s = .ok r ∧ toPoly r = C s * toPoly (p.take q.length)) ∧
    (p.length < q.length → (Poly.mulScalar p q s).isPanic = true) := by
  rw [Poly.mulScalar_eq]
  constructor
  · intro h
    rw [if_pos h]
    exact ⟨_, rfl, Poly.toPoly_map_mul _ _⟩
  · intro h
    rw [if_neg (by omega)]
    rfl

/-! ### C34, C35 -/

/-- C34: a returned polynomial has as many coefficients as there are samples, passes through all of them, and is the
only polynomial with at most that many coefficients doing so. -/
theorem C34_interpolation_sound (samples : List (Fn × Fn)) (r : List Fn) (h : Poly.interpolate samples = .ok r) :
    r.length = samples.length ∧ (∀ s ∈ samples, Poly.evaluateAt r s.1 = s.2) ∧
    ∀ q : List Fn, q.length ≤ samples.length → (∀ s ∈ samples, Poly.evaluateAt q s.1 = s.2) → Poly.equal q r = 1 := by
  cases samples with
  | nil =>
    simp only [Poly.interpolate, Res.ok.injEq] at h
    subst h
    refine ⟨rfl, by simp, fun q hq _ => ?_⟩
    rw [List.length_nil, Nat.le_zero, List.length_eq_zero_iff] at hq
    subst hq
    rfl
  | cons s rest =>
    obtain ⟨x0, y0⟩ := s
    have := (Poly.interpolateLoop_spec rest [(x0, y0)] [y0] [-x0, 1] 1 (by simp) (by simp) rfl rfl
      (by simp [toPoly_cons]) (by simp [toPoly_cons, Poly.nodalL]; ring)).1 r h
    obtain ⟨h1, h2, h3⟩ := this
    rw [List.singleton_append] at h1 h2 h3
    refine ⟨h1, fun s hs => by rw [Poly.evaluateAt_eq]; exact h2 s hs, fun q hq hq' => ?_⟩
    rw [Poly.equal_eq_one]
    refine Poly.eq_of_agree h3 ?_ ?_ ?_
    · refine lt_of_lt_of_le (degree_toPoly_lt q) ?_
      rw [List.length_map]; exact_mod_cast hq
    · rw [List.length_map, ← h1]; exact degree_toPoly_lt r
    · intro x hx
      obtain ⟨t, ht, rfl⟩ := List.mem_map.1 hx
      rw [h2 t ht, ← Poly.evaluateAt_eq]; exact hq' t ht

example : Poly.interpolate [(1, 1), (2, 4), (3, 9)] = .ok [0, 0, 1] := by decide +kernel

/-- C35 does not hold: the loop scales its base polynomial by the current difference, so a sample lying on the
polynomial found so far makes the next one fail: three points of a line cannot be interpolated. -/
theorem C35_false : ∃ samples : List (Fn × Fn), (samples.map Prod.fst).Nodup ∧
    (Poly.interpolate samples).isErr = true :=
  ⟨[(1, 5), (2, 5), (3, 7)], by decide +kernel, by decide +kernel⟩

/-- C35, the exact condition: interpolation succeeds iff the x coordinates are distinct and no sample, except the first
and the last, lies on the polynomial through the samples before it (with fewer coefficients than those); otherwise it
returns an error. -/
theorem C35_interpolation_exact_partial (samples : List (Fn × Fn)) :
    ((∃ r, Poly.interpolate samples = .ok r) ↔
      (samples.map Prod.fst).Nodup ∧
      ∀ a s b, samples = a ++ s :: b → a ≠ [] → b ≠ [] →
        ¬ ∃ q : Fn[X], q.degree < a.length ∧ (∀ t ∈ a, q.eval t.1 = t.2) ∧ q.eval s.1 = s.2) ∧
    ((Poly.interpolate samples).isOk = false → (Poly.interpolate samples).isErr = true) := by
  cases samples with
  | nil => simp [Poly.interpolate]
  | cons s rest =>
    obtain ⟨x0, y0⟩ := s
    obtain ⟨-, h2, h3⟩ := Poly.interpolateLoop_spec rest [(x0, y0)] [y0] [-x0, 1] 1 (by simp) (by simp) rfl rfl
      (by simp [toPoly_cons]) (by simp [toPoly_cons, Poly.nodalL]; ring)
    constructor
    · show (∃ r, Poly.interpolateLoop [y0] [-x0, 1] rest = .ok r) ↔ _
      rw [h2]
      constructor
      · rintro (rfl | ⟨-, hnd, hall⟩)
        · refine ⟨by simp, ?_⟩
          intro a s b hab ha hb
          exfalso
          have := congrArg List.length hab
          simp at this
          have h1 := List.length_pos_of_ne_nil ha
          have h2 := List.length_pos_of_ne_nil hb
          omega
        · refine ⟨hnd, ?_⟩
          intro a s b hab ha hb
          cases a with
          | nil => exact absurd rfl ha
          | cons a0 a =>
            simp only [List.cons_append, List.cons.injEq] at hab
            have := hall a s b hab.2 hb
            rw [← hab.1]
            exact this
      · rintro ⟨hnd, hall⟩
        refine Or.inr ⟨one_ne_zero, hnd, ?_⟩
        intro a s b hab hb
        exact hall ((x0, y0) :: a) s b (by rw [hab]; rfl) (by simp) hb
    · intro hf
      obtain ⟨e, he⟩ := h3 fun r hr => by
        have : (Poly.interpolate ((x0, y0) :: rest)).isOk = true := by
          show (Poly.interpolateLoop [y0] [-x0, 1] rest).isOk = true
          rw [hr]; rfl
        rw [hf] at this; cases this
      show (Poly.interpolateLoop [y0] [-x0, 1] rest).isErr = true
      rw [he]; rfl

/-! ### C36, C37 -/

/-- C36: for distinct nodes the coefficients interpolate every polynomial with at most as many coefficients as there are
nodes, for scalars and in the exponent. -/
theorem C36_lagrange_interpolation (v : Fn) (samples : List NodeIndex) (hne : samples ≠ []) (hn : samples.Nodup) :
    ∃ l, Lagr.atValue v samples = .ok l ∧ l.length = samples.length ∧
      ∀ f : List Fn, f.length ≤ samples.length →
        Lagr.interpolateScalar l (samples.map fun i => Poly.evaluateAt f (Scalar.fromNodeIndex i)) =
          .ok (Poly.evaluateAt f v) ∧
        ∀ B : Pt, Lagr.interpolatePoint l (samples.map fun i => Poly.evaluateAt f (Scalar.fromNodeIndex i) • B) =
          .ok (Poly.evaluateAt f v • B) := by
  have hnd : (samples.map Scalar.fromNodeIndex).Nodup := hn.map Lagr.fromNodeIndex_injective
  refine ⟨_, Lagr.atValue_eq v samples hne hn, by simp, fun f hf => ?_⟩
  set S := (samples.map Scalar.fromNodeIndex).toFinset with hS
  have hcard : S.card = samples.length := by rw [hS, List.toFinset_card_of_nodup hnd, List.length_map]
  have hdeg : (toPoly f).degree < S.card :=
    lt_of_lt_of_le (degree_toPoly_lt f) (by rw [hcard]; exact_mod_cast hf)
  have hsum : ((samples.map Scalar.fromNodeIndex).map fun x => Lagr.lcoeff S v x * (toPoly f).eval x).sum =
      (toPoly f).eval v := by
    rw [← List.sum_toFinset _ hnd]
    exact Lagr.sum_lcoeff S v _ hdeg
  have hne' : (samples.map Scalar.fromNodeIndex).map (Lagr.lcoeff S v) ≠ [] := by simpa using hne
  constructor
  · rw [Lagr.interpolateScalar_eq (by simp) hne', Poly.evaluateAt_eq, ← hsum]
    congr 2
    rw [List.map_map, List.zipWith_map, List.zipWith_self, List.map_map]
    refine List.map_congr_left fun i _ => ?_
    simp only [Function.comp, Poly.evaluateAt_eq]
    ring
  · intro B
    rw [Lagr.interpolatePoint_eq (by simp) hne', Poly.evaluateAt_eq, ← hsum]
    congr 1
    rw [List.map_map, List.zipWith_map, List.zipWith_self, List.map_map, List.sum_smul, List.map_map]
    congr 1
    refine List.map_congr_left fun i _ => ?_
    simp only [Function.comp, Poly.evaluateAt_eq, smul_smul]

example : [(0 : NodeIndex), 2, 7] ≠ [] ∧ [(0 : NodeIndex), 2, 7].Nodup ∧
    Lagr.atValue 0 [0, 2, 1] = .ok [3, 1, -3] := by decide +kernel

/-- C37: `AtValue` fails exactly on an empty list or a list with duplicates (and then with an error); the interpolations
fail exactly on a length mismatch (coefficient objects returned by the API are never empty). -/
theorem C37_lagrange_validation (v : Fn) (samples : List NodeIndex) :
    ((Lagr.atValue v samples).isErr = true ↔ samples = [] ∨ ¬ samples.Nodup) ∧
    ((Lagr.atValue v samples).isErr = false → ∃ l, Lagr.atValue v samples = .ok l ∧ l ≠ [] ∧
      (∀ y : List Fn, ((Lagr.interpolateScalar l y).isErr = true ↔ y.length ≠ samples.length) ∧
        ((Lagr.interpolateScalar l y).isOk = true ↔ y.length = samples.length)) ∧
      (∀ y : List Pt, ((Lagr.interpolatePoint l y).isErr = true ↔ y.length ≠ samples.length) ∧
        ((Lagr.interpolatePoint l y).isOk = true ↔ y.length = samples.length))) := by
  have hiff : (Lagr.atValue v samples).isErr = true ↔ samples = [] ∨ ¬ samples.Nodup := by
    constructor
    · intro h
      by_contra hc
      push Not at hc
      rw [Lagr.atValue_eq v samples hc.1 hc.2] at h
      cases h
    · intro h
      obtain ⟨e, he⟩ := Lagr.atValue_err v samples h
      rw [he]; rfl
  refine ⟨hiff, fun h => ?_⟩
  have hc : samples ≠ [] ∧ samples.Nodup := by
    rw [← Bool.not_eq_true, hiff] at h
    push Not at h
    exact h
  obtain ⟨l, hl, hlen, -⟩ := C36_lagrange_interpolation v samples hc.1 hc.2
  have hne : l ≠ [] := by
    intro e; rw [e] at hlen; exact hc.1 (List.length_eq_zero_iff.1 hlen.symm)
  refine ⟨l, hl, hne, fun y => ?_, fun y => ?_⟩
  · by_cases e : y.length = l.length
    · rw [Lagr.interpolateScalar_eq e hne, ← hlen]; simp [e]
    · rw [Lagr.interpolateScalar, if_pos e, ← hlen]; simp [e]
  · by_cases e : y.length = l.length
    · rw [Lagr.interpolatePoint_eq e hne, ← hlen]; simp [e]
    · rw [Lagr.interpolatePoint, if_pos e, ← hlen]; simp [e]

/-! ### C38 -/

/-- The polynomials with `t` coefficients that share the secret and give the observed shares. -/
def Sharings (t : Nat) (obs : List (NodeIndex × Fn)) (secret : Fn) : Set (List Fn) :=
  {l | l.length = t ∧ (∀ o ∈ obs, Poly.evaluateAt l (Scalar.fromNodeIndex o.1) = o.2) ∧ Poly.coeff l 0 = secret}

theorem exists_poly_through {xs : List Fn} (hn : xs.Nodup) (g : Fn → Fn) :
    ∃ q : Fn[X], q.degree < xs.length ∧ ∀ x ∈ xs, q.eval x = g x := by
  have hc : xs.toFinset.card = xs.length := List.toFinset_card_of_nodup hn
  refine ⟨Lagrange.interpolate xs.toFinset id g, ?_, fun x hx => ?_⟩
  · rw [← hc]; exact Lagrange.degree_interpolate_lt g (fun _ _ _ _ h => h)
  · exact Lagrange.eval_interpolate_at_node g (fun _ _ _ _ h => h) (List.mem_toFinset.2 hx)

theorem fromNodeIndex_eq_zero {i : NodeIndex} : Scalar.fromNodeIndex i = 0 ↔ i = -1 := by
  have h : Scalar.fromNodeIndex (-1) = 0 := by decide +kernel
  constructor
  · intro e; exact Lagr.fromNodeIndex_injective (e.trans h.symm)
  · rintro rfl; exact h

/-- C38: fewer than `t` shares of distinct (non-negative) nodes leave every secret equally possible: the number of
sharing polynomials compatible with the observation is positive and the same for all secrets; with `t - 1` shares it is
exactly one. -/
theorem C38_sharing_secrecy (t : Nat) (obs : List (NodeIndex × Fn)) (hn : (obs.map Prod.fst).Nodup)
    (hpos : ∀ o ∈ obs, 0 ≤ o.1.toInt) (hlt : obs.length < t) :
    (∀ s s', (Sharings t obs s).ncard = (Sharings t obs s').ncard) ∧
    (∀ s, 0 < (Sharings t obs s).ncard) ∧
    (obs.length + 1 = t → ∀ s, ∃! l, l ∈ Sharings t obs s) := by
  have hne1 : ∀ o ∈ obs, o.1 ≠ -1 := by
    intro o ho e
    have := hpos o ho
    rw [e] at this
    exact absurd this (by decide +kernel)
  set xs : List Fn := 0 :: obs.map (fun o => Scalar.fromNodeIndex o.1) with hxs
  have hxn : xs.Nodup := by
    rw [hxs, List.nodup_cons]
    constructor
    · rw [List.mem_map]
      rintro ⟨o, ho, h⟩
      exact hne1 o ho (fromNodeIndex_eq_zero.1 h)
    · have := hn.map Lagr.fromNodeIndex_injective
      rwa [List.map_map] at this
  have hxl : xs.length = obs.length + 1 := by simp [hxs]
  have hdeg : ∀ {q : Fn[X]}, q.degree < xs.length → q.degree < t := fun h =>
    lt_of_lt_of_le h (by rw [hxl]; exact_mod_cast hlt)
  have hfin : ∀ s, (Sharings t obs s).Finite := fun s =>
    (List.finite_length_eq Fn t).subset fun l hl => hl.1
  have hc0 : ∀ l : List Fn, Poly.coeff l 0 = (toPoly l).eval 0 := fun l => by
    rw [← coeff_toPoly, coeff_zero_eq_eval_zero]
  have hle : ∀ s s', (Sharings t obs s).ncard ≤ (Sharings t obs s').ncard := by
    intro s s'
    obtain ⟨D, hD1, hD2⟩ := exists_poly_through hxn fun x => if x = 0 then s' - s else 0
    refine Set.ncard_le_ncard_of_injOn (fun l => Poly.add l (coeffList D t)) ?_ ?_ (hfin s')
    · rintro l ⟨h1, h2, h3⟩
      refine ⟨by simp [Poly.length_add, h1], fun o ho => ?_, ?_⟩
      · rw [Poly.evaluateAt_eq, Poly.toPoly_add, toPoly_coeffList (hdeg hD1), eval_add, ← Poly.evaluateAt_eq,
          h2 o ho, hD2 _ (by simp only [hxs, List.mem_cons, List.mem_map]; exact Or.inr ⟨o, ho, rfl⟩),
          if_neg (fun e => hne1 o ho (fromNodeIndex_eq_zero.1 e)), add_zero]
      · rw [hc0] at h3 ⊢
        rw [Poly.toPoly_add, toPoly_coeffList (hdeg hD1), eval_add, h3, hD2 0 (by simp [hxs]), if_pos rfl]
        ring
    · rintro l ⟨h1, -, -⟩ l' ⟨h1', -, -⟩ h
      refine toPoly_inj (h1.trans h1'.symm) ?_
      have := congrArg toPoly h
      simpa [Poly.toPoly_add] using this
  have hex : ∀ s, ∃ l, l ∈ Sharings t obs s := by
    intro s
    classical
    obtain ⟨D, hD1, hD2⟩ := exists_poly_through hxn fun x =>
      if x = 0 then s else ((obs.find? fun o => decide (Scalar.fromNodeIndex o.1 = x)).map Prod.snd).getD 0
    refine ⟨coeffList D t, by simp, fun o ho => ?_, ?_⟩
    · rw [Poly.evaluateAt_eq, toPoly_coeffList (hdeg hD1),
        hD2 _ (by simp only [hxs, List.mem_cons, List.mem_map]; exact Or.inr ⟨o, ho, rfl⟩),
        if_neg (fun e => hne1 o ho (fromNodeIndex_eq_zero.1 e))]
      have hf : (obs.find? fun o' => decide (Scalar.fromNodeIndex o'.1 = Scalar.fromNodeIndex o.1)) = some o := by
        cases hfe : obs.find? fun o' => decide (Scalar.fromNodeIndex o'.1 = Scalar.fromNodeIndex o.1) with
        | none => exact absurd (List.find?_eq_none.1 hfe o ho) (by simp)
        | some o' =>
          have h1 := List.mem_of_find?_eq_some hfe
          have h2 := List.find?_some hfe
          simp only [decide_eq_true_eq] at h2
          have h3 := Lagr.fromNodeIndex_injective h2
          rw [List.inj_on_of_nodup_map hn h1 ho h3]
      rw [hf]; rfl
    · rw [hc0, toPoly_coeffList (hdeg hD1), hD2 0 (by simp [hxs]), if_pos rfl]
  refine ⟨fun s s' => le_antisymm (hle s s') (hle s' s), fun s => ?_, fun ht s => ?_⟩
  · rw [Set.ncard_pos (hfin s)]; exact hex s
  · obtain ⟨l, hl⟩ := hex s
    refine ⟨l, hl, ?_⟩
    rintro l' hl'
    refine toPoly_inj (hl'.1.trans hl.1.symm) (Poly.eq_of_agree hxn ?_ ?_ ?_)
    · rw [hxl, ht, ← hl'.1]; exact degree_toPoly_lt l'
    · rw [hxl, ht, ← hl.1]; exact degree_toPoly_lt l
    · intro x hx
      rw [hxs, List.mem_cons, List.mem_map] at hx
      rcases hx with rfl | ⟨o, ho, rfl⟩
      · rw [← hc0, ← hc0, hl'.2.2, hl.2.2]
      · rw [← Poly.evaluateAt_eq, ← Poly.evaluateAt_eq, hl'.2.1 o ho, hl.2.1 o ho]

/-- Two shares of a three-coefficient sharing. -/
example : ([((0 : NodeIndex), (5 : Fn)), (3, 7)].map Prod.fst).Nodup ∧
    (∀ o ∈ [((0 : NodeIndex), (5 : Fn)), (3, 7)], 0 ≤ o.1.toInt) ∧
    [((0 : NodeIndex), (5 : Fn)), (3, 7)].length + 1 = 3 := by decide +kernel

/-- Node index -1 must be excluded: its share *is* the secret. -/
example (l : List Fn) : Poly.evaluateAt l (Scalar.fromNodeIndex (-1)) = Poly.coeff l 0 := by
  rw [fromNodeIndex_eq_zero.2 rfl, Poly.evaluateAt_eq, ← coeff_toPoly, coeff_zero_eq_eval_zero]

end Verif
