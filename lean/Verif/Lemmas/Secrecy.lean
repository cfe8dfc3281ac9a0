import Verif.Props.Poly
import Verif.Props.Randomness
import Verif.Spec.Secrecy

/-!
For C129: with Pedersen commitments every change of the value polynomial can be made up for by one change of the mask.
-/

set_option autoImplicit false

namespace Verif.Dealings

open Mega Polynomial
open Point (H)

/-- The mask that makes up for changing the values from `v` to `v'`. -/
theorem exists_mask {t : Nat} {v m v' : List Fn} (hv : v.length = t) (hm : m.length = t) (hv' : v'.length = t) :
    ∃ m' : List Fn, m'.length = t ∧
      List.zipWith (fun v m : Fn => v • G + m • H) v' m' = List.zipWith (fun v m : Fn => v • G + m • H) v m ∧
      ∀ x, (toPoly v').eval x = (toPoly v).eval x → (toPoly m').eval x = (toPoly m).eval x := by
  obtain ⟨a, ha⟩ := exists_smul_eq H_ne_zero G
  have hd : (toPoly m + C a * (toPoly v - toPoly v')).degree < t := by
    have h1 : (toPoly m).degree < t := hm ▸ degree_toPoly_lt m
    have h2 : (toPoly v - toPoly v').degree < t := by
      refine lt_of_le_of_lt (degree_sub_le _ _) (max_lt ?_ ?_)
      · exact hv ▸ degree_toPoly_lt v
      · exact hv' ▸ degree_toPoly_lt v'
    refine lt_of_le_of_lt (degree_add_le _ _) (max_lt h1 (lt_of_le_of_lt ?_ h2))
    rw [← smul_eq_C_mul]
    exact degree_smul_le _ _
  refine ⟨coeffList (toPoly m + C a * (toPoly v - toPoly v')) t, by simp, ?_, fun x hx => ?_⟩
  · refine List.ext_getElem (by simp [hv, hm, hv']) fun i h1 h2 => ?_
    have hi : i < t := by simp [hv'] at h1; omega
    have hc : ∀ l : List Fn, ∀ h : l.length = t, Poly.coeff l i = l[i]'(h ▸ hi) := fun l h => by
      rw [Poly.coeff, dif_pos]
    simp only [List.getElem_zipWith, coeffList, List.getElem_map, List.getElem_range, coeff_add, coeff_C_mul, coeff_sub,
      coeff_toPoly]
    rw [hc v hv, hc m hm, hc v' hv']
    generalize v[i]'(hv ▸ hi) = p
    generalize v'[i]'(hv' ▸ hi) = p'
    generalize m[i]'(hm ▸ hi) = q
    have : (p - p') • G = (a * (p - p')) • H := by rw [mul_comm, mul_smul, ← ha]
    calc p' • G + (q + a * (p - p')) • H = p' • G + q • H + (a * (p - p')) • H := by module
      _ = p' • G + q • H + (p - p') • G := by rw [this]
      _ = p • G + q • H := by module
  · rw [toPoly_coeffList hd, eval_add, eval_mul, eval_sub, hx, sub_self, mul_zero, add_zero]

/-- The mask is determined by the values and the commitment. -/
theorem mask_unique {t : Nat} {v m m' : List Fn} (hv : v.length = t) (hm : m.length = t) (hm' : m'.length = t)
    (h : List.zipWith (fun v m : Fn => v • G + m • H) v m = List.zipWith (fun v m : Fn => v • G + m • H) v m') :
    m = m' := by
  refine List.ext_getElem (by omega) fun i h1 h2 => ?_
  have := List.getElem_of_eq h (i := i) (by simp [hv, hm]; omega)
  simp only [List.getElem_zipWith, add_right_inj] at this
  exact (smul_left_inj H_ne_zero).1 this

theorem head?_eq_coeff {l : List Fn} {t : Nat} (h : l.length = t) (ht : 0 < t) (s : Fn) :
    l.head? = some s ↔ Poly.coeff l 0 = s := by
  cases l with
  | nil => simp at h; omega
  | cons a l => simp [Poly.coeff]

/-- The values of explanations are the sharings that C38 is about. -/
theorem image_explanations {t : Nat} {points : List Pt} {seen : List (NodeIndex × Fn × Fn)} {s₀ : Fn}
    (ht : 0 < t) (h : (Explanations t points seen s₀).Nonempty) (s : Fn) :
    Prod.fst '' Explanations t points seen s = Sharings t (seen.map fun o => (o.1, o.2.1)) s ∧
      Set.InjOn Prod.fst (Explanations t points seen s) := by
  obtain ⟨⟨v, m⟩, hv, hm, hp, hs, -⟩ := h
  constructor
  · ext l
    constructor
    · rintro ⟨⟨v', m'⟩, ⟨h1, h2, h3, h4, h5⟩, rfl⟩
      refine ⟨h1, fun o ho => ?_, (head?_eq_coeff h1 ht s).1 h5⟩
      obtain ⟨o', ho', rfl⟩ := List.mem_map.1 ho
      rw [Poly.evaluateAt_eq]
      exact (h4 o' ho').1
    · rintro ⟨h1, h2, h3⟩
      obtain ⟨m', k1, k2, k3⟩ := exists_mask hv hm h1
      refine ⟨(l, m'), ⟨h1, k1, k2.trans hp, fun o ho => ?_, (head?_eq_coeff h1 ht s).2 h3⟩, rfl⟩
      have h4 : (toPoly l).eval (place o.1) = o.2.1 := by
        have := h2 (o.1, o.2.1) (List.mem_map.2 ⟨o, ho, rfl⟩)
        rwa [Poly.evaluateAt_eq] at this
      exact ⟨h4, (k3 _ (h4.trans (hs o ho).1.symm)).trans (hs o ho).2⟩
  · rintro ⟨v1, m1⟩ ⟨h1, h2, h3, -⟩ ⟨v2, m2⟩ ⟨k1, k2, k3, -⟩ e
    obtain rfl : v1 = v2 := e
    exact Prod.ext rfl (mask_unique h1 h2 k2 (h3.trans k3.symm))

end Verif.Dealings
