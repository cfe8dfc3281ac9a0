import Verif.Model.Poly
import Verif.Spec.Poly
import Mathlib.LinearAlgebra.Lagrange
import Mathlib.Algebra.Polynomial.Eval.Coeff
import Mathlib.Tactic.LinearCombination
import Mathlib.Tactic.FieldSimp

/-! Lemmas about polynomials and Lagrange coefficients. -/

namespace Verif

open Polynomial

@[simp] theorem toPoly_nil : toPoly [] = 0 := by simp [toPoly]

theorem toPoly_cons (c : Fn) (l : List Fn) : toPoly (c :: l) = C c + X * toPoly l := by
  rw [toPoly, toPoly]
  simp only [List.length_cons]
  rw [Fin.sum_univ_succ, Finset.mul_sum]
  congr 1
  · simp
  · refine Finset.sum_congr rfl fun i _ => ?_
    simp [pow_succ]
    ring

namespace Poly

theorem coeff_nil (i : Nat) : coeff [] i = 0 := by simp [coeff]

theorem coeff_cons_zero (c : Fn) (l : List Fn) : coeff (c :: l) 0 = c := by simp [coeff]

theorem coeff_cons_succ (c : Fn) (l : List Fn) (i : Nat) : coeff (c :: l) (i + 1) = coeff l i := by simp [coeff]

theorem coeff_eq_getD (l : List Fn) (i : Nat) : coeff l i = l.getD i 0 := by
  rw [coeff, List.getD_eq_getElem?_getD]
  split_ifs with h
  · rw [List.getElem?_eq_getElem h]; rfl
  · rw [List.getElem?_eq_none (by omega)]; rfl

end Poly

theorem coeff_toPoly (l : List Fn) (i : Nat) : (toPoly l).coeff i = Poly.coeff l i := by
  induction l generalizing i with
  | nil => simp [Poly.coeff_nil]
  | cons c l ih =>
    rw [toPoly_cons]
    cases i with
    | zero => simp [Poly.coeff_cons_zero]
    | succ i => rw [coeff_add, coeff_C_succ, coeff_X_mul, ih, Poly.coeff_cons_succ, zero_add]

theorem degree_toPoly_lt (l : List Fn) : (toPoly l).degree < l.length := by
  rw [degree_lt_iff_coeff_zero]
  intro m hm
  rw [coeff_toPoly, Poly.coeff, dif_neg (by omega)]

theorem toPoly_eq_iff {a b : List Fn} : toPoly a = toPoly b ↔ ∀ i, Poly.coeff a i = Poly.coeff b i := by
  rw [Polynomial.ext_iff]
  simp only [coeff_toPoly]

/-- Coefficient lists of one length are determined by the polynomial. -/
theorem toPoly_inj {a b : List Fn} (hl : a.length = b.length) (h : toPoly a = toPoly b) : a = b := by
  rw [toPoly_eq_iff] at h
  refine List.ext_getElem hl fun i h1 h2 => ?_
  have := h i
  rwa [Poly.coeff, Poly.coeff, dif_pos h1, dif_pos h2] at this

/-- The first `k` coefficients of a polynomial. -/
noncomputable def coeffList (f : Fn[X]) (k : Nat) : List Fn := (List.range k).map f.coeff

@[simp] theorem length_coeffList (f : Fn[X]) (k : Nat) : (coeffList f k).length = k := by simp [coeffList]

theorem toPoly_coeffList {f : Fn[X]} {k : Nat} (h : f.degree < k) : toPoly (coeffList f k) = f := by
  ext i
  rw [coeff_toPoly, Poly.coeff]
  split_ifs with hi
  · simp [coeffList]
  · rw [degree_lt_iff_coeff_zero] at h
    exact (h i (by simpa [coeffList] using hi)).symm

namespace Poly

theorem evaluateAt_foldr (p : List Fn) (x : Fn) : evaluateAt p x = p.foldr (fun c acc => acc * x + c) 0 := by
  rw [← List.foldl_reverse, evaluateAt]
  cases p.reverse with
  | nil => rfl
  | cons c cs => simp

theorem evaluateAt_eq (p : List Fn) (x : Fn) : evaluateAt p x = (toPoly p).eval x := by
  rw [evaluateAt_foldr]
  induction p with
  | nil => simp
  | cons c l ih => rw [List.foldr_cons, ih, toPoly_cons]; simp; ring

theorem length_add (a b : List Fn) : (add a b).length = max a.length b.length := by simp [add]

theorem toPoly_add (a b : List Fn) : toPoly (add a b) = toPoly a + toPoly b := by
  ext i
  rw [coeff_toPoly, coeff_add, coeff_toPoly, coeff_toPoly]
  by_cases h : i < max a.length b.length
  · rw [coeff, dif_pos (by rwa [length_add])]
    simp [add]
  · rw [coeff, dif_neg (by rwa [length_add])]
    rw [not_lt, max_le_iff] at h
    rw [coeff, coeff, dif_neg (by omega), dif_neg (by omega), zero_add]

theorem toPoly_set_add {l : List Fn} {k : Nat} (h : k < l.length) (v : Fn) :
    toPoly (l.set k (l.getD k 0 + v)) = toPoly l + C v * X ^ k := by
  ext i
  rw [coeff_toPoly, coeff_add, coeff_toPoly, coeff_C_mul, coeff_X_pow, coeff_eq_getD, coeff_eq_getD,
    List.getD_eq_getElem?_getD, List.getElem?_set]
  by_cases hi : k = i
  · subst hi
    simp [h]
  · rw [if_neg hi, if_neg (Ne.symm hi)]
    simp

theorem length_mulInner (ca : Fn) (rest : List Fn) (l : List Fn) (k : Nat) :
    (mulInner ca l k rest).length = l.length := by
  induction rest generalizing l k with
  | nil => rfl
  | cons cb rest ih => rw [mulInner, ih, List.length_set]

theorem toPoly_mulInner (ca : Fn) (rest : List Fn) (l : List Fn) (k : Nat) (h : k + rest.length ≤ l.length) :
    toPoly (mulInner ca l k rest) = toPoly l + C ca * X ^ k * toPoly rest := by
  induction rest generalizing l k with
  | nil => simp [mulInner]
  | cons cb rest ih =>
    simp only [List.length_cons] at h
    rw [mulInner, ih _ _ (by rw [List.length_set]; omega), toPoly_set_add (by omega), toPoly_cons, C_mul]
    ring

theorem length_mulOuter (rhs : List Fn) (rest : List Fn) (l : List Fn) (i : Nat) :
    (mulOuter rhs l i rest).length = l.length := by
  induction rest generalizing l i with
  | nil => rfl
  | cons ca rest ih => rw [mulOuter, ih, length_mulInner]

theorem toPoly_mulOuter (rhs : List Fn) (rest : List Fn) (l : List Fn) (i : Nat)
    (h : i + rest.length + rhs.length ≤ l.length + 1) :
    toPoly (mulOuter rhs l i rest) = toPoly l + X ^ i * toPoly rest * toPoly rhs := by
  induction rest generalizing l i with
  | nil => simp [mulOuter]
  | cons ca rest ih =>
    simp only [List.length_cons] at h
    rw [mulOuter, ih _ _ (by rw [length_mulInner]; omega), toPoly_mulInner _ _ _ _ (by omega), toPoly_cons]
    ring

theorem toPoly_replicate_zero (k : Nat) : toPoly (List.replicate k 0) = 0 := by
  induction k with
  | zero => simp
  | succ k ih => rw [List.replicate_succ, toPoly_cons, ih]; simp

theorem length_mul (a b : List Fn) : (mul a b).length = max (a.length + b.length) 1 - 1 := by
  rw [mul, length_mulOuter, List.length_replicate]

theorem toPoly_mul (a b : List Fn) : toPoly (mul a b) = toPoly a * toPoly b := by
  rw [mul, toPoly_mulOuter _ _ _ _ (by rw [List.length_replicate]; omega), toPoly_replicate_zero]
  simp

/-- Every index `i + j` used by `Mul` is in range. -/
theorem mul_index_lt (a b : List Fn) (i j : Nat) (hi : i < a.length) (hj : j < b.length) :
    i + j < max (a.length + b.length) 1 - 1 := by omega

theorem mulScalar_eq (recv lhs : List Fn) (s : Fn) :
    mulScalar recv lhs s =
      if lhs.length ≤ recv.length then .ok ((recv.take lhs.length).map (· * s)) else .panic "index out of range" := by
  split_ifs with h
  · rw [mulScalar, Res.mapM'_ok (g := fun i => coeff recv i * s)]
    · congr 1
      refine List.ext_getElem (by simp [h]) fun i h1 h2 => ?_
      simp at h1 h2
      simp [coeff, show i < recv.length by omega]
    · intro i hi
      rw [List.mem_range] at hi
      simp [coeff, show i < recv.length by omega]
  · rw [mulScalar]
    have key : ∀ (m : Nat) (l : List Nat), recv.length ∈ l → (∀ i ∈ l, i < recv.length → True) →
        Res.mapM' (fun i => if h : i < recv.length then .ok (recv[i] * s) else .panic "index out of range") l =
          .panic "index out of range" := by
      intro m l hl _
      induction l with
      | nil => simp at hl
      | cons a l ih =>
        rw [Res.mapM']
        by_cases ha : a < recv.length
        · rw [dif_pos ha]
          have : recv.length ∈ l := by
            rcases List.mem_cons.1 hl with h | h
            · omega
            · exact h
          rw [Res.ok_bind, ih this (fun _ _ _ => trivial)]
          rfl
        · rw [dif_neg ha]; rfl
    exact key 0 _ (List.mem_range.2 (by omega)) (fun _ _ _ => trivial)

theorem mulScalar_self (p : List Fn) (s : Fn) : mulScalar p p s = .ok (p.map (· * s)) := by
  rw [mulScalar_eq, if_pos le_rfl, List.take_length]

theorem toPoly_map_mul (p : List Fn) (s : Fn) : toPoly (p.map (· * s)) = C s * toPoly p := by
  induction p with
  | nil => simp
  | cons c l ih => rw [List.map_cons, toPoly_cons, toPoly_cons, ih, C_mul]; ring

theorem equal_eq_one (a b : List Fn) : equal a b = 1 ↔ toPoly a = toPoly b := by
  rw [toPoly_eq_iff, equal]
  have : ((List.range (max a.length b.length)).all fun i => decide (coeff a i = coeff b i)) = true ↔
      ∀ i, coeff a i = coeff b i := by
    rw [List.all_eq_true]
    constructor
    · intro h i
      by_cases hi : i < max a.length b.length
      · simpa using h i (List.mem_range.2 hi)
      · rw [not_lt, max_le_iff] at hi
        rw [coeff, coeff, dif_neg (by omega), dif_neg (by omega)]
    · intro h i _
      simpa using h i
  split_ifs with h
  · exact ⟨fun _ => this.1 h, fun _ => rfl⟩
  · exact ⟨fun h' => absurd h' (by norm_num), fun h' => absurd (this.2 h') h⟩

theorem nonZeroCoefficients_eq (p : List Fn) : nonZeroCoefficients p = p.countP (fun c => decide (c ≠ 0)) := by
  have key : ∀ (p : List Fn) (z : Nat), p.foldl (fun zeros c => if c = 0 then zeros + 1 else zeros) z =
      z + p.countP (fun c => decide (c = 0)) := by
    intro p
    induction p with
    | nil => simp
    | cons c l ih =>
      intro z
      rw [List.foldl_cons, ih, List.countP_cons]
      split_ifs <;> simp_all <;> omega
  rw [nonZeroCoefficients, key, zero_add]
  have h := List.length_eq_countP_add_countP (fun c : Fn => decide (c = 0)) (l := p)
  have e : p.countP (fun c => decide (¬ (decide (c = 0)) = true)) = p.countP (fun c => decide (c ≠ 0)) := by
    congr 1; funext c; simp
  rw [e] at h
  show p.length - _ = _
  omega

/-! #### Interpolation -/

/-- The product `∏ (X - x)` over a list. -/
noncomputable def nodalL (xs : List Fn) : Fn[X] := (xs.map fun x => X - C x).prod

theorem eval_nodalL (xs : List Fn) (x : Fn) : (nodalL xs).eval x = (xs.map fun y => x - y).prod := by
  rw [nodalL]
  induction xs with
  | nil => simp
  | cons y ys ih => simp [ih]

theorem eval_nodalL_eq_zero (xs : List Fn) (x : Fn) : (nodalL xs).eval x = 0 ↔ x ∈ xs := by
  rw [eval_nodalL, List.prod_eq_zero_iff, List.mem_map]
  constructor
  · rintro ⟨y, hy, h⟩; rw [sub_eq_zero] at h; rwa [h]
  · intro h; exact ⟨x, h, sub_self x⟩

/-- Two polynomials with fewer coefficients than distinct sample points that agree there are equal. -/
theorem eq_of_agree {f g : Fn[X]} {xs : List Fn} (hn : xs.Nodup) (hf : f.degree < xs.length) (hg : g.degree < xs.length)
    (h : ∀ x ∈ xs, f.eval x = g.eval x) : f = g := by
  have hc : xs.toFinset.card = xs.length := List.toFinset_card_of_nodup hn
  refine eq_of_degrees_lt_of_eval_finset_eq xs.toFinset (by rwa [hc]) (by rwa [hc]) fun x hx => ?_
  exact h x (List.mem_toFinset.1 hx)

/-- The intermediate collinearity that makes the loop fail. -/
def OnCurveOf (pre : List (Fn × Fn)) (s : Fn × Fn) : Prop :=
  ∃ q : Fn[X], q.degree < pre.length ∧ (∀ t ∈ pre, q.eval t.1 = t.2) ∧ q.eval s.1 = s.2

/-- Loop invariant and exact success condition of `Interpolate`. -/
theorem interpolateLoop_spec (rest : List (Fn × Fn)) (pre : List (Fn × Fn)) (poly base : List Fn) (c : Fn)
    (hn : (pre.map Prod.fst).Nodup) (hpre : pre ≠ [])
    (hlp : poly.length = pre.length) (hlb : base.length = pre.length + 1)
    (hp : ∀ t ∈ pre, (toPoly poly).eval t.1 = t.2)
    (hb : toPoly base = C c * nodalL (pre.map Prod.fst)) :
    (∀ r, interpolateLoop poly base rest = .ok r →
      r.length = (pre ++ rest).length ∧ (∀ t ∈ pre ++ rest, (toPoly r).eval t.1 = t.2) ∧
      ((pre ++ rest).map Prod.fst).Nodup) ∧
    ((∃ r, interpolateLoop poly base rest = .ok r) ↔
      rest = [] ∨ (c ≠ 0 ∧ ((pre ++ rest).map Prod.fst).Nodup ∧
        ∀ a s b, rest = a ++ s :: b → b ≠ [] → ¬ OnCurveOf (pre ++ a) s)) ∧
    ((∀ r, interpolateLoop poly base rest ≠ .ok r) → ∃ e, interpolateLoop poly base rest = .err e) := by
  induction rest generalizing pre poly base c with
  | nil =>
    refine ⟨fun r hr => ?_, ⟨fun _ => Or.inl rfl, fun _ => ⟨poly, rfl⟩⟩, fun h => absurd rfl (h poly)⟩
    simp only [interpolateLoop, Res.ok.injEq] at hr
    subst hr
    rw [List.append_nil]
    exact ⟨hlp, hp, hn⟩
  | cons s rest ih =>
    obtain ⟨x, y⟩ := s
    have hbx : evaluateAt base x = c * (nodalL (pre.map Prod.fst)).eval x := by
      rw [evaluateAt_eq, hb, eval_mul, eval_C]
    by_cases h0 : evaluateAt base x = 0
    · -- failure
      have hfail : interpolateLoop poly base ((x, y) :: rest) = .err "inv is zero" := by
        simp [interpolateLoop, h0]
      rw [hfail]
      refine ⟨fun r hr => (by cases hr), ⟨?_, ?_⟩, fun _ => ⟨_, rfl⟩⟩
      · rintro ⟨r, hr⟩; cases hr
      · rintro (h | ⟨hc, hnd, -⟩)
        · cases h
        · exfalso
          rw [hbx] at h0
          rcases mul_eq_zero.1 h0 with h | h
          · exact hc h
          · rw [eval_nodalL_eq_zero] at h
            rw [List.map_append, List.nodup_append] at hnd
            exact hnd.2.2 x h x (by simp) rfl
    · -- one step
      have hc : c ≠ 0 := fun h => h0 (by rw [hbx, h, zero_mul])
      have hx : x ∉ pre.map Prod.fst := fun h => h0 (by rw [hbx, (eval_nodalL_eq_zero _ _).2 h, mul_zero])
      set d : Fn := (y - evaluateAt poly x) * (evaluateAt base x)⁻¹ with hd
      have hstep : interpolateLoop poly base ((x, y) :: rest) =
          interpolateLoop (add poly (base.map (· * d))) (mul (base.map (· * d)) [-x, 1]) rest := by
        have : (evaluateAt base x)⁻¹ ≠ 0 := inv_ne_zero h0
        simp only [interpolateLoop, this, if_false, mulScalar_self, Res.ok_bind, ← hd]
      have hn' : ((pre ++ [(x, y)]).map Prod.fst).Nodup := by
        rw [List.map_append, List.nodup_append]
        refine ⟨hn, by simp, ?_⟩
        intro a ha b hb' hab
        simp at hb'
        subst hb'
        exact hx (hab ▸ ha)
      have hpb : toPoly (base.map (· * d)) = C (c * d) * nodalL (pre.map Prod.fst) := by
        rw [toPoly_map_mul, hb, C_mul (a := c)]; ring
      have hlp' : (add poly (base.map (· * d))).length = (pre ++ [(x, y)]).length := by
        rw [length_add, List.length_map, hlp, hlb, List.length_append]; simp
      have hlb' : (mul (base.map (· * d)) [-x, 1]).length = (pre ++ [(x, y)]).length + 1 := by
        rw [length_mul, List.length_map, hlb, List.length_append]; simp
      have hp' : ∀ t ∈ pre ++ [(x, y)], (toPoly (add poly (base.map (· * d)))).eval t.1 = t.2 := by
        intro t ht
        rw [toPoly_add, eval_add, hpb, eval_mul, eval_C]
        rcases List.mem_append.1 ht with ht | ht
        · rw [hp t ht, (eval_nodalL_eq_zero _ _).2 (List.mem_map_of_mem ht), mul_zero, add_zero]
        · simp at ht
          subst ht
          have hN : (nodalL (pre.map Prod.fst)).eval x ≠ 0 := fun h => hx ((eval_nodalL_eq_zero _ _).1 h)
          rw [hd, ← evaluateAt_eq, hbx]
          field_simp
          ring
      have hb' : toPoly (mul (base.map (· * d)) [-x, 1]) = C (c * d) * nodalL ((pre ++ [(x, y)]).map Prod.fst) := by
        rw [toPoly_mul, hpb, nodalL, nodalL, List.map_append, List.map_append, List.prod_append]
        simp [toPoly_cons]
        ring
      obtain ⟨ih1, ih2, ih3⟩ := ih (pre ++ [(x, y)]) _ _ (c * d) hn' (by simp) hlp' hlb' hp' hb'
      rw [hstep]
      have happ : pre ++ [(x, y)] ++ rest = pre ++ (x, y) :: rest := by simp
      rw [happ] at ih1 ih2
      refine ⟨ih1, ?_, ih3⟩
      rw [ih2]
      -- `d = 0` iff the sample lies on the polynomial so far
      have hd0 : d = 0 ↔ OnCurveOf pre (x, y) := by
        have hdeg : (toPoly poly).degree < (pre.map Prod.fst).length := by
          rw [List.length_map, ← hlp]; exact degree_toPoly_lt poly
        constructor
        · intro h
          refine ⟨toPoly poly, by simpa using hdeg, hp, ?_⟩
          rw [hd, mul_eq_zero] at h
          rcases h with h | h
          · rw [sub_eq_zero] at h; rw [← evaluateAt_eq]; exact h.symm
          · exact absurd (inv_eq_zero.1 h) h0
        · rintro ⟨q, hq, hq1, hq2⟩
          have : q = toPoly poly := by
            refine eq_of_agree hn (by simpa using hq) hdeg fun z hz => ?_
            obtain ⟨t, ht, rfl⟩ := List.mem_map.1 hz
            rw [hq1 t ht, hp t ht]
          rw [hd, evaluateAt_eq, ← this, hq2]
          simp
      constructor
      · rintro (h | ⟨hcd, hnd, hall⟩)
        · subst h
          refine Or.inr ⟨hc, by simpa using hn', ?_⟩
          intro a s b hab hb0
          exfalso
          rcases a with _ | ⟨a0, a⟩
          · simp at hab; exact hb0 hab.2
          · simp at hab
        · refine Or.inr ⟨hc, hnd, ?_⟩
          intro a s b hab hb0
          rcases a with _ | ⟨a0, a⟩
          · simp at hab
            rw [List.append_nil, ← hab.1, ← hd0]
            exact right_ne_zero_of_mul hcd
          · simp only [List.cons_append, List.cons.injEq] at hab
            have := hall a s b hab.2 hb0
            rw [← hab.1]
            simpa using this
      · rintro (h | ⟨-, hnd, hall⟩)
        · cases h
        · by_cases hr : rest = []
          · exact Or.inl hr
          · refine Or.inr ⟨mul_ne_zero hc ?_, hnd, ?_⟩
            · rw [Ne, hd0]
              have := hall [] (x, y) rest rfl hr
              simpa using this
            · intro a s b hab hb0
              have := hall ((x, y) :: a) s b (by rw [hab]; rfl) hb0
              simpa using this

end Poly

/-! ### Lagrange -/

namespace Lagr

theorem hasDuplicates_eq (l seen : List NodeIndex) :
    hasDuplicates seen l = false ↔ l.Nodup ∧ ∀ i ∈ l, i ∉ seen := by
  induction l generalizing seen with
  | nil => simp [hasDuplicates]
  | cons i rest ih =>
    rw [hasDuplicates]
    by_cases h : i ∈ seen
    · simp [h]
    · rw [if_neg h, ih, List.nodup_cons]
      constructor
      · rintro ⟨h1, h2⟩
        refine ⟨⟨fun hi => (h2 i hi) (by simp), h1⟩, ?_⟩
        intro j hj
        rcases List.mem_cons.1 hj with rfl | hj
        · exact h
        · exact fun hs => h2 j hj (by simp [hs])
      · rintro ⟨⟨h1, h2⟩, h3⟩
        refine ⟨h2, fun j hj hs => ?_⟩
        rcases List.mem_cons.1 hs with rfl | hs
        · exact h1 hj
        · exact h3 j (by simp [hj]) hs

/-- Distinct node indices have distinct scalars. -/
theorem fromNodeIndex_injective : Function.Injective Scalar.fromNodeIndex := by
  intro i j h
  have hlt : ∀ k : NodeIndex, (k + 1#64).toNat < n := fun k => lt_trans (k + 1#64).isLt (by decide +kernel)
  have := congrArg ZMod.val h
  rw [Scalar.fromNodeIndex, Scalar.fromNodeIndex, Scalar.fromUint64, Scalar.fromUint64, ZMod.val_cast_of_lt (hlt i),
    ZMod.val_cast_of_lt (hlt j)] at this
  have h2 : i + 1#64 = j + 1#64 := BitVec.eq_of_toNat_eq this
  exact (BitVec.add_left_inj _).1 h2

theorem suffixLoop_snd (v : Fn) (xs ms : List Fn) (h : xs.length = ms.length) :
    (suffixLoop v xs ms).2 = (xs.map (· - v)).prod := by
  induction xs generalizing ms with
  | nil => cases ms <;> simp [suffixLoop]
  | cons x xs ih =>
    cases ms with
    | nil => simp at h
    | cons m ms =>
      simp only [List.length_cons, Nat.add_right_cancel_iff] at h
      simp only [suffixLoop, ih ms h, List.map_cons, List.prod_cons]
      ring

theorem length_prefixProds (v : Fn) (t : Fn) (xs : List Fn) : (prefixProds v t xs).length = xs.length := by
  induction xs generalizing t with
  | nil => rfl
  | cons x xs ih => rw [prefixProds, List.length_cons, ih, List.length_cons]

/-- Product of `f` over the elements of a duplicate-free list other than the one at a split. -/
theorem prod_erase_split (f : Fn → Fn) (pre post : List Fn) (x : Fn) (h : (pre ++ x :: post).Nodup) :
    ∏ y ∈ (pre ++ x :: post).toFinset.erase x, f y = (pre.map f).prod * (post.map f).prod := by
  have hx : x ∉ pre ++ post := by
    rw [List.nodup_append] at h
    obtain ⟨h1, h2, h3⟩ := h
    rw [List.nodup_cons] at h2
    intro hm
    rcases List.mem_append.1 hm with hm | hm
    · exact h3 x hm x (by simp) rfl
    · exact h2.1 hm
  have hnd : (pre ++ post).Nodup := h.sublist (by simp)
  have hset : (pre ++ x :: post).toFinset.erase x = (pre ++ post).toFinset := by
    ext y
    simp only [Finset.mem_erase, List.mem_toFinset, List.mem_append, List.mem_cons] at hx ⊢
    constructor
    · rintro ⟨h1, h2 | h2 | h2⟩
      · exact Or.inl h2
      · exact absurd h2 h1
      · exact Or.inr h2
    · intro h2
      refine ⟨fun e => hx (e ▸ h2), ?_⟩
      tauto
  rw [hset, List.prod_toFinset f hnd, List.map_append, List.prod_append]

theorem numerator_eq (v : Fn) (xs pre : List Fn) (h : (pre ++ xs).Nodup) :
    (suffixLoop v xs (prefixProds v (pre.map (· - v)).prod xs)).1 =
      xs.map fun x => ∏ y ∈ (pre ++ xs).toFinset.erase x, (y - v) := by
  induction xs generalizing pre with
  | nil => simp [suffixLoop]
  | cons x xs ih =>
    have h' : (pre ++ [x] ++ xs).Nodup := by simpa using h
    have := ih (pre ++ [x]) h'
    have happ : pre ++ [x] ++ xs = pre ++ x :: xs := by simp
    rw [happ] at this
    simp only [List.map_append, List.map_cons, List.map_nil, List.prod_append, List.prod_cons, List.prod_nil,
      mul_one] at this
    rw [prefixProds, suffixLoop]
    simp only [List.map_cons]
    rw [this, suffixLoop_snd _ _ _ (length_prefixProds _ _ _).symm, prod_erase_split _ _ _ _ h]

theorem denom_eq (x : Fn) (l : List Fn) (hn : l.Nodup) : denom x l = ∏ y ∈ l.toFinset.erase x, (y - x) := by
  have key : ∀ (l : List Fn) (a : Fn), l.foldl (fun denom xj => if x = xj then denom else denom * (xj - x)) a =
      a * (l.map fun y => if x = y then 1 else y - x).prod := by
    intro l
    induction l with
    | nil => simp
    | cons y l ih =>
      intro a
      rw [List.foldl_cons, ih, List.map_cons, List.prod_cons]
      split_ifs <;> ring
  rw [denom, key, one_mul, ← List.prod_toFinset _ hn]
  by_cases hx : x ∈ l.toFinset
  · rw [← Finset.mul_prod_erase _ _ hx, if_pos rfl, one_mul]
    refine Finset.prod_congr rfl fun y hy => ?_
    rw [if_neg (Ne.symm (Finset.ne_of_mem_erase hy))]
  · rw [Finset.erase_eq_of_notMem hx]
    refine Finset.prod_congr rfl fun y hy => ?_
    rw [if_neg]
    rintro rfl
    exact hx hy

theorem denom_ne_zero (x : Fn) (l : List Fn) (hn : l.Nodup) : denom x l ≠ 0 := by
  rw [denom_eq x l hn, Finset.prod_ne_zero_iff]
  intro y hy
  exact sub_ne_zero.2 (Finset.ne_of_mem_erase hy)

/-- The Lagrange coefficient of `x` in the node set `s`, at the value `v`. -/
noncomputable def lcoeff (s : Finset Fn) (v x : Fn) : Fn := ∏ y ∈ s.erase x, (y - v) / (y - x)

theorem finish_eq (scalars : List Fn) (hn : scalars.Nodup) (xs : List Fn) (f : Fn → Fn) :
    finish scalars ((xs.map f).zip xs) = .ok (xs.map fun x => f x * (denom x scalars)⁻¹) := by
  induction xs with
  | nil => rfl
  | cons x xs ih =>
    rw [List.map_cons, List.zip_cons_cons, finish]
    rw [if_neg (inv_ne_zero (denom_ne_zero x scalars hn)), ih]
    rfl

/-- The coefficients computed for distinct nodes. -/
theorem atValue_eq (v : Fn) (samples : List NodeIndex) (hne : samples ≠ []) (hn : samples.Nodup) :
    atValue v samples = .ok ((samples.map Scalar.fromNodeIndex).map
      (lcoeff (samples.map Scalar.fromNodeIndex).toFinset v)) := by
  have hl : samples.length ≠ 0 := by simpa using hne
  rw [atValue, if_neg hl]
  split_ifs with h1 h2
  · obtain ⟨i, rfl⟩ := List.length_eq_one_iff.1 h1
    simp [lcoeff]
  · exfalso
    have := (hasDuplicates_eq samples []).2 ⟨hn, by simp⟩
    rw [this] at h2
    cases h2
  · have hnd : (samples.map Scalar.fromNodeIndex).Nodup := hn.map fromNodeIndex_injective
    have := numerator_eq v (samples.map Scalar.fromNodeIndex) [] hnd
    simp only [List.map_nil, List.prod_nil, List.nil_append] at this
    simp only [this]
    rw [finish_eq _ hnd]
    congr 1
    refine List.map_congr_left fun x _ => ?_
    rw [denom_eq _ _ hnd, lcoeff, Finset.prod_div_distrib, div_eq_mul_inv]

theorem atValue_err (v : Fn) (samples : List NodeIndex) (h : samples = [] ∨ ¬ samples.Nodup) :
    ∃ e, atValue v samples = .err e := by
  rcases h with rfl | h
  · exact ⟨_, rfl⟩
  · rw [atValue]
    split_ifs with h0 h1 h2
    · exact ⟨_, rfl⟩
    · exfalso
      obtain ⟨i, rfl⟩ := List.length_eq_one_iff.1 h1
      exact h (by simp)
    · exact ⟨_, rfl⟩
    · exfalso
      rw [Bool.not_eq_true, hasDuplicates_eq] at h2
      exact h h2.1

/-- Lagrange interpolation over a node set. -/
theorem sum_lcoeff (s : Finset Fn) (v : Fn) (f : Fn[X]) (hf : f.degree < s.card) :
    ∑ x ∈ s, lcoeff s v x * f.eval x = f.eval v := by
  have h := Lagrange.eq_interpolate (s := s) (v := id) (f := f) (fun _ _ _ _ h => h) hf
  conv_rhs => rw [h]
  rw [Lagrange.interpolate_apply, eval_finsetSum]
  refine Finset.sum_congr rfl fun x hx => ?_
  rw [eval_mul, eval_C, id, mul_comm, lcoeff, Lagrange.basis, eval_prod]
  congr 1
  refine Finset.prod_congr rfl fun y hy => ?_
  have hne : y ≠ x := Finset.ne_of_mem_erase hy
  have h1 : y - x ≠ 0 := sub_ne_zero.2 hne
  have h2 : x - y ≠ 0 := sub_ne_zero.2 (Ne.symm hne)
  rw [Lagrange.basisDivisor]
  simp only [id, eval_mul, eval_C, eval_sub, eval_X]
  field_simp
  ring

theorem foldl_zip_add {α : Type} [AddCommMonoid α] {β γ : Type} (g : β → γ → α) (l : List β) (y : List γ) (a : α) :
    (l.zip y).foldl (fun r cs => r + g cs.1 cs.2) a = a + (List.zipWith g l y).sum := by
  induction l generalizing y a with
  | nil => simp
  | cons b l ih =>
    cases y with
    | nil => simp
    | cons c y => rw [List.zip_cons_cons, List.foldl_cons, ih, List.zipWith_cons_cons, List.sum_cons, add_assoc]

theorem interpolateScalar_eq {l y : List Fn} (hl : y.length = l.length) (hne : l ≠ []) :
    interpolateScalar l y = .ok (List.zipWith (fun c s => s * c) l y).sum := by
  rw [interpolateScalar, if_neg (by simpa using hl), if_neg (by simpa using hne)]
  rw [foldl_zip_add (fun c s => s * c), zero_add]

theorem interpolatePoint_eq {l : List Fn} {y : List Pt} (hl : y.length = l.length) (hne : l ≠ []) :
    interpolatePoint l y = .ok (List.zipWith (fun (c : Fn) (s : Pt) => c • s) l y).sum := by
  rw [interpolatePoint, if_neg (by simpa using hl), if_neg (by simpa using hne)]
  rw [foldl_zip_add (fun c s => Point.scalarMul s c), zero_add]
  rfl

end Lagr

end Verif
