import Verif.Model.LagrEqual
import Verif.Props.Poly

/-!
Property C153: Lagrange coefficients do not depend on the order of the nodes, and `Equal` compares them.
-/

set_option autoImplicit false

namespace Verif

open Polynomial

/-- C153: `Equal` gives 1 for equal lists of coefficients and 0 for others, and never fails. -/
theorem C153_equal (l l' : List Fn) : Lagr.equal l l' = .ok (if l = l' then 1 else 0) := by
  have loop : ∀ l l' : List Fn, l.length = l'.length → Lagr.equalLoop l l' = .ok (if l = l' then 1 else 0) := by
    intro l
    induction l with
    | nil => intro l' h; rw [List.eq_nil_of_length_eq_zero h.symm]; rfl
    | cons a l ih =>
      intro l' h
      cases l' with
      | nil => simp at h
      | cons b l' =>
        rw [Lagr.equalLoop, ih l' (by simpa using h)]
        by_cases hab : a = b
        · simp [hab]
        · simp [hab]
  rw [Lagr.equal]
  by_cases h : l.length = l'.length
  · rw [if_neg (not_not.2 h), loop l l' h]
  · rw [if_pos h, if_neg fun e => h (by rw [e])]

/-- C153: with the nodes in another order, `AtValue` succeeds if it did before, and every node has the same coefficient. -/
theorem C153_order (v : Fn) (samples samples' : List NodeIndex) (hp : samples.Perm samples') (l : List Fn)
    (h : Lagr.atValue v samples = .ok l) :
    ∃ l', Lagr.atValue v samples' = .ok l' ∧ (samples.zip l).Perm (samples'.zip l') := by
  have hc : samples ≠ [] ∧ samples.Nodup := by
    by_contra hcon
    rw [not_and_or, not_not] at hcon
    obtain ⟨e, he⟩ := Lagr.atValue_err v samples hcon
    rw [he] at h; cases h
  have hc' : samples' ≠ [] ∧ samples'.Nodup :=
    ⟨fun e => hc.1 (by rw [e] at hp; exact hp.eq_nil), hp.nodup_iff.1 hc.2⟩
  rw [Lagr.atValue_eq v samples hc.1 hc.2, Res.ok.injEq] at h
  refine ⟨_, Lagr.atValue_eq v samples' hc'.1 hc'.2, ?_⟩
  have hS : (samples'.map Scalar.fromNodeIndex).toFinset = (samples.map Scalar.fromNodeIndex).toFinset :=
    List.toFinset_eq_of_perm _ _ (hp.map _).symm
  rw [← h, hS, List.map_map, List.map_map]
  have hz : ∀ (s : List NodeIndex) (f : NodeIndex → Fn), s.zip (s.map f) = s.map fun i => (i, f i) := by
    intro s f
    rw [List.zip_map_right]
    induction s with
    | nil => rfl
    | cons a s ih => simp [ih]
  rw [hz, hz]
  exact hp.map _

/-- C153: samples given in another order interpolate to the same value, scalars and points. -/
theorem C153_interpolation (v : Fn) (samples samples' : List NodeIndex) (l l' : List Fn)
    (h : Lagr.atValue v samples = .ok l) (h' : Lagr.atValue v samples' = .ok l') :
    (∀ y y' : List Fn, y.length = samples.length → y'.length = samples'.length →
      (samples.zip y).Perm (samples'.zip y') → Lagr.interpolateScalar l y = Lagr.interpolateScalar l' y') ∧
    (∀ y y' : List Pt, y.length = samples.length → y'.length = samples'.length →
      (samples.zip y).Perm (samples'.zip y') → Lagr.interpolatePoint l y = Lagr.interpolatePoint l' y') := by
  have hc : ∀ (s : List NodeIndex) (l : List Fn), Lagr.atValue v s = .ok l → s ≠ [] ∧ s.Nodup ∧
      l = s.map fun i => Lagr.lcoeff (s.map Scalar.fromNodeIndex).toFinset v (Scalar.fromNodeIndex i) := by
    intro s l h
    have hc : s ≠ [] ∧ s.Nodup := by
      by_contra hcon
      rw [not_and_or, not_not] at hcon
      obtain ⟨e, he⟩ := Lagr.atValue_err v s hcon
      rw [he] at h; cases h
    rw [Lagr.atValue_eq v s hc.1 hc.2, Res.ok.injEq] at h
    exact ⟨hc.1, hc.2, by rw [← h, List.map_map]; rfl⟩
  obtain ⟨a1, a2, a3⟩ := hc samples l h
  obtain ⟨b1, b2, b3⟩ := hc samples' l' h'
  have hfst : ∀ {β : Type} (y y' : List β), y.length = samples.length → y'.length = samples'.length →
      (samples.zip y).Perm (samples'.zip y') → samples.Perm samples' := by
    intro β y y' hy hy' hp
    have := hp.map Prod.fst
    rwa [List.map_fst_zip (by omega), List.map_fst_zip (by omega)] at this
  have hzip : ∀ {β γ : Type} (s : List NodeIndex) (f : NodeIndex → Fn) (y : List β) (k : Fn → β → γ),
      y.length = s.length → List.zipWith k (s.map f) y = (s.zip y).map fun p => k (f p.1) p.2 := by
    intro β γ s f y k hy
    rw [List.zipWith_map_left, List.zip, List.map_zipWith]
  have hl : l.length = samples.length := by rw [a3, List.length_map]
  have hl' : l'.length = samples'.length := by rw [b3, List.length_map]
  have hne : l ≠ [] := by rw [a3]; simpa using a1
  have hne' : l' ≠ [] := by rw [b3]; simpa using b1
  constructor
  · intro y y' hy hy' hp
    have hS : (samples'.map Scalar.fromNodeIndex).toFinset = (samples.map Scalar.fromNodeIndex).toFinset :=
      List.toFinset_eq_of_perm _ _ ((hfst y y' hy hy' hp).map _).symm
    rw [Lagr.interpolateScalar_eq (by omega) hne, Lagr.interpolateScalar_eq (by omega) hne', a3, b3, hS,
      hzip _ _ _ _ hy, hzip _ _ _ _ hy', (hp.map _).sum_eq]
  · intro y y' hy hy' hp
    have hS : (samples'.map Scalar.fromNodeIndex).toFinset = (samples.map Scalar.fromNodeIndex).toFinset :=
      List.toFinset_eq_of_perm _ _ ((hfst y y' hy hy' hp).map _).symm
    rw [Lagr.interpolatePoint_eq (by omega) hne, Lagr.interpolatePoint_eq (by omega) hne', a3, b3, hS,
      hzip _ _ _ _ hy, hzip _ _ _ _ hy', (hp.map _).sum_eq]

/-- C153: with two nodes or more, coefficients for different values are different. -/
theorem C153_value (v v' : Fn) (samples : List NodeIndex) (hlen : 2 ≤ samples.length) (l : List Fn)
    (h : Lagr.atValue v samples = .ok l) (h' : Lagr.atValue v' samples = .ok l) : v = v' := by
  have hc : samples ≠ [] ∧ samples.Nodup := by
    by_contra hcon
    rw [not_and_or, not_not] at hcon
    obtain ⟨e, he⟩ := Lagr.atValue_err v samples hcon
    rw [he] at h; cases h
  have key : ∀ v, Lagr.atValue v samples = .ok l →
      Lagr.interpolateScalar l (samples.map fun i => Poly.evaluateAt [0, 1] (Scalar.fromNodeIndex i)) =
        .ok (Poly.evaluateAt [0, 1] v) := by
    intro v h
    obtain ⟨l', hl', -, hf⟩ := C36_lagrange_interpolation v samples hc.1 hc.2
    rw [h, Res.ok.injEq] at hl'
    subst hl'
    exact (hf [0, 1] (by simpa using hlen)).1
  have e := (key v h).symm.trans (key v' h')
  rw [Res.ok.injEq, Poly.evaluateAt_eq, Poly.evaluateAt_eq] at e
  simpa [toPoly] using e

/-- Three nodes in two orders. -/
example : Lagr.atValue 0 [0, 2, 1] = .ok [3, 1, -3] ∧ Lagr.atValue 0 [1, 0, 2] = .ok [-3, 3, 1] ∧
    Lagr.equal [3, 1, -3] [-3, 3, 1] = .ok 0 ∧ Lagr.equal [3, 1] [3, 1] = .ok 1 := by decide +kernel

end Verif
