import Verif.Spec.Cheating
import Verif.Props.Agreement

/-!
Properties C162, C163: dealers that cheat do not change secrets, or they give away the discrete logarithm of the second generator.
-/

set_option autoImplicit false

namespace Verif.Dealings

open Mega Polynomial
open Point (H)

theorem valueAtNode_pairs {v m : List Fn} (h : m.length = v.length) (i : NodeIndex) :
    valueAtNode (List.zipWith (fun v m : Fn => v • G + m • H) v m) i =
      (toPoly v).eval (place i) • G + (toPoly m).eval (place i) • H := by
  have e : List.zipWith (fun v m : Fn => v • G + m • H) v m = (v.zip m).map fun q => Point.pedersen q.1 q.2 := by
    rw [List.zip, List.map_zipWith]
    rfl
  have h1 := Commitment.evalLoop_pedersen i (v.zip m)
  rw [Commitment.evalLoop_eq, Poly.evaluateAt_eq, Poly.evaluateAt_eq, List.map_fst_zip h.ge, List.map_snd_zip h.le] at h1
  rw [e, h1]
  rfl

theorem sum_smul_map {A : Type} (l : List A) (a : A → Fn) (Q : Pt) : (l.map fun i => a i • Q).sum = (l.map a).sum • Q := by
  induction l with
  | nil => exact (zero_smul Fn Q).symm
  | cons x l ih => rw [List.map_cons, List.sum_cons, ih, List.map_cons, List.sum_cons, add_smul]

theorem sum_add_map {A M : Type} [AddCommMonoid M] (l : List A) (a b : A → M) :
    (l.map fun i => a i + b i).sum = (l.map a).sum + (l.map b).sum := by
  induction l with
  | nil => simp
  | cons x l ih => simp only [List.map_cons, List.sum_cons, ih]; abel

theorem interpolated_eq {dealers : List NodeIndex} {w : NodeIndex → Fn} (h : Lagr.atZero dealers = .ok (dealers.map w))
    (y : NodeIndex → Fn) : interpolated dealers y = (dealers.map fun i => w i * y i).sum := by
  rw [interpolated, h]
  simp only
  rw [List.zipWith_map, List.zipWith_self]

/-- Two representations to the bases `G` and `H` with different first exponents give the logarithm. -/
theorem log_of_two {a b c d : Fn} (h : a • G + b • H = c • G + d • H) : a = c ∨ H = ((c - a) / (b - d)) • G := by
  by_cases e : b = d
  · subst e
    exact Or.inl ((smul_left_inj G_ne_zero).1 (add_right_cancel h))
  · refine Or.inr ?_
    have hne : b - d ≠ 0 := sub_ne_zero.2 e
    have h1 : (b - d) • H = (c - a) • G := by
      rw [sub_smul, sub_smul, sub_eq_sub_iff_add_eq_add, add_comm _ (a • G), h]
    rw [div_eq_inv_mul, mul_smul, ← h1, smul_smul, inv_mul_cancel₀ hne, one_smul]

theorem getD_zero_head {l : List Pt} {p : Pt} (h : l.head? = some p) : l.getD 0 0 = p := by
  rw [List.getD_eq_getElem?_getD, ← List.head?_eq_getElem?, h]
  rfl

theorem degree_mul_toPoly_lt {l r : List Fn} {k : Nat} (hl : l ≠ []) (hr : r ≠ []) (h : l.length + r.length ≤ k + 1) :
    (toPoly l * toPoly r).degree < k := by
  have h1 := List.length_pos_iff.2 hl
  have h2 := List.length_pos_iff.2 hr
  have h3 := degree_toPoly_lt l
  have h4 := degree_toPoly_lt r
  by_cases hz : toPoly l * toPoly r = 0
  · rw [hz, degree_zero]; exact WithBot.bot_lt_coe _
  · have hz1 := left_ne_zero_of_mul hz
    have hz2 := right_ne_zero_of_mul hz
    rw [degree_eq_natDegree hz1] at h3
    rw [degree_eq_natDegree hz2] at h4
    rw [degree_eq_natDegree hz, natDegree_mul hz1 hz2]
    have h3 : (toPoly l).natDegree < l.length := by exact_mod_cast h3
    have h4 : (toPoly r).natDegree < r.length := by exact_mod_cast h4
    have : (toPoly l).natDegree + (toPoly r).natDegree < k := by omega
    exact_mod_cast this

theorem coeff_zero_eq (l : List Fn) : (toPoly l).eval 0 = Poly.coeff l 0 := by
  rw [← coeff_zero_eq_eval_zero, coeff_toPoly]

theorem head_simple {f : List Fn} {p : Pt} (h : (f.map fun v : Fn => v • G).head? = some p) : p = Poly.coeff f 0 • G := by
  cases f with
  | nil => cases h
  | cons a f => cases h; rfl

theorem head_pairs {f g : List Fn} {p : Pt} (h : (List.zipWith (fun v m : Fn => v • G + m • H) f g).head? = some p) :
    p = Poly.coeff f 0 • G + Poly.coeff g 0 • H := by
  cases f with
  | nil => cases h
  | cons a f =>
    cases g with
    | nil => cases h
    | cons b g => cases h; rfl

theorem commits_of_accepted {P : Prim} {ds : DealingMap} {op : Op} {t : Int} {receivers : Int} {ad : Bytes}
    (hn : (ds.map Prod.fst).Nodup) (hacc : ∀ x ∈ ds, publiclyVerify P x.2 K256 op t x.1 receivers ad = .ok ()) :
    ∃ cm : NodeIndex → Commitment, Commits ds cm ∧ ∀ x ∈ ds, ((cm x.1).points.length : Int) = t ∧
      ∃ c c0, (cm x.1).points.head? = some c0 ∧ ProofAccepted P x.1 ad (cm x.1).kind c c0 x.2.proof op := by
  have hex : ∀ j, ∃ c : Commitment, ∀ x ∈ ds, x.1 = j → x.2.commitment = some c := by
    intro j
    by_cases hj : ∃ x ∈ ds, x.1 = j
    · obtain ⟨x, hx, rfl⟩ := hj
      obtain ⟨-, cm, c, c0, h1, -⟩ := (C57_accepted_iff ..).1 (hacc x hx)
      refine ⟨cm, fun y hy e => ?_⟩
      have : y = x := List.inj_on_of_nodup_map hn hy hx e
      rw [this, h1]
    · exact ⟨⟨.simple, []⟩, fun x hx e => absurd ⟨x, hx, e⟩ hj⟩
  choose cm hcm using hex
  refine ⟨cm, fun x hx => hcm x.1 x hx rfl, fun x hx => ?_⟩
  obtain ⟨-, cm', c, c0, h1, -, h3, h4, -, -, h5⟩ := (C57_accepted_iff ..).1 (hacc x hx)
  rw [hcm x.1 x hx rfl] at h1
  obtain rfl := Option.some.inj h1
  exact ⟨h3, _, c0, h4, h5⟩

end Verif.Dealings

namespace Verif

open Dealings Mega Polynomial
open Point (H)

/-- C162, products: whoever made the dealings, if they are publicly verified and have been combined to a transcript, then the shared
value is the product of the two shared values, or the polynomials and the dealers' answers give the discrete logarithm of `H`. -/
theorem C162_product (P : Prim) (t : Int) (ds : DealingMap) (L R T : Com) (receivers : Int) (ad : Bytes)
    (a : NodeIndex → Fn) (h : ProductOf P t receivers ad L R T ds a)
    (l r m f g : List Fn) (hl : l ≠ []) (hr : r ≠ []) (hm : m.length = r.length)
    (hL : L.c.points = l.map fun v : Fn => v • G) (hR : R.c.points = List.zipWith (fun v m : Fn => v • G + m • H) r m)
    (hf : T.c.points = List.zipWith (fun v m : Fn => v • G + m • H) f g) :
    Poly.coeff f 0 = Poly.coeff l 0 * Poly.coeff r 0 ∨
      H = productLog (ds.map Prod.fst) l r m f g a • G := by
  obtain ⟨hsort, hacc, hT, ha⟩ := h
  have hn := OMap.nodup_keys hsort
  obtain ⟨cm, hc, hcm⟩ := commits_of_accepted hn hacc
  obtain ⟨w, hs⟩ := newTranscript_shape hc hn hT
  obtain ⟨-, hdne, hw, hsum⟩ := hs.interp (by simp)
  have hcount : l.length + r.length ≤ ds.length + 1 := by
    by_contra hlt
    have h := (C61_rejections_partial t ds cm hc).2.2.2.1 L R (Or.inr (Or.inr (by
      rw [hL, hR, List.length_map, List.length_zipWith, hm, min_self]; omega)))
    rw [hT] at h
    cases h
  have ht : 0 < t := by
    obtain ⟨x, hx⟩ := List.exists_mem_of_ne_nil _ hdne
    obtain ⟨h1, -, c0, h2, -⟩ := hcm x hx
    cases hp : (cm x.1).points with
    | nil => rw [hp] at h2; cases h2
    | cons a b => rw [hp, List.length_cons] at h1; omega
  have hhead := head_linCombPts w (ds.map Prod.fst) (fun i => (cm i).points) (t := t.toNat) (by omega)
  have hpts : T.c.points = linCombPts w (ds.map Prod.fst) (fun i => (cm i).points) t.toNat := by rw [hs.com]
  rw [← hpts, hf] at hhead
  have h0 := head_pairs hhead
  have hterm : ∀ i ∈ ds.map Prod.fst, w i • (cm i).points.getD 0 0 =
      (w i * (toPoly l * toPoly r).eval (place i)) • G +
        (w i * ((toPoly l).eval (place i) * (toPoly m).eval (place i) + a i)) • H := by
    intro i hi
    obtain ⟨x, hx, rfl⟩ := List.mem_map.1 hi
    obtain ⟨cm', c0, pf, pf', h1, h2, -, hfk, hax⟩ := ha x hx
    obtain rfl := Option.some.inj ((hc x hx).symm.trans h1)
    obtain ⟨e1, e2, e3⟩ := (C48_extraction pf.challenge pf'.challenge hfk.differ).2.2 _ _ _ _ _ _ _ hfk.first hfk.second
    rw [hL, valueAtNode_exponents] at e1
    have e1 := (smul_left_inj G_ne_zero).1 e1
    rw [hR, valueAtNode_pairs hm, ← e1] at e2
    rw [getD_zero_head h2, e2, eval_mul, hax, ProductFork.mask]
    module
  rw [List.map_congr_left hterm, sum_add_map, sum_smul_map, sum_smul_map] at h0
  have hdeg : (toPoly l * toPoly r).degree < ds.length := degree_mul_toPoly_lt hl hr hcount
  rw [hsum _ hdeg, eval_mul, coeff_zero_eq, coeff_zero_eq, ← interpolated_eq hw fun j => (toPoly l).eval (place j) * (toPoly m).eval (place j) + a j] at h0
  rcases log_of_two h0.symm with h | h
  · exact Or.inl h
  · exact Or.inr h

/-- C162, resharing of masked shares. -/
theorem C162_reshare_masked (P : Prim) (t : Int) (ds : DealingMap) (p1 T : Com) (receivers : Int) (ad : Bytes)
    (a : NodeIndex → Fn) (h : ReshareOf P t receivers ad p1 T ds a)
    (v m f : List Fn) (hm : m.length = v.length)
    (hp : p1.c.points = List.zipWith (fun v m : Fn => v • G + m • H) v m) (hf : T.c.points = f.map fun v : Fn => v • G) :
    Poly.coeff f 0 = Poly.coeff v 0 ∨ H = reshareLog (ds.map Prod.fst) v m f a • G := by
  obtain ⟨hsort, hacc, hT, ha⟩ := h
  have hn := OMap.nodup_keys hsort
  obtain ⟨cm, hc, hcm⟩ := commits_of_accepted hn hacc
  obtain ⟨w, hs⟩ := newTranscript_shape hc hn hT
  obtain ⟨-, hdne, hw, hsum⟩ := hs.interp (by simp)
  have hcount : v.length ≤ ds.length := by
    by_contra hlt
    have h := (C61_rejections_partial t ds cm hc).2.1 p1 (Or.inr (by
      rw [hp, List.length_zipWith, hm, min_self]; omega))
    rw [hT] at h
    cases h
  have ht : 0 < t := by
    obtain ⟨x, hx⟩ := List.exists_mem_of_ne_nil _ hdne
    obtain ⟨h1, -, c0, h2, -⟩ := hcm x hx
    cases hp : (cm x.1).points with
    | nil => rw [hp] at h2; cases h2
    | cons a b => rw [hp, List.length_cons] at h1; omega
  have hhead := head_linCombPts w (ds.map Prod.fst) (fun i => (cm i).points) (t := t.toNat) (by omega)
  have hpts : T.c.points = linCombPts w (ds.map Prod.fst) (fun i => (cm i).points) t.toNat := by rw [hs.com]
  rw [← hpts, hf] at hhead
  have h0 := head_simple hhead
  have hterm : ∀ i ∈ ds.map Prod.fst, w i • (cm i).points.getD 0 0 =
      ((w i * (toPoly v).eval (place i)) • G + (w i * (toPoly m).eval (place i)) • H) + (w i * a i) • (-H) := by
    intro i hi
    obtain ⟨x, hx, rfl⟩ := List.mem_map.1 hi
    obtain ⟨cm', c0, pf, pf', h1, h2, -, hfk, hax⟩ := ha x hx
    obtain rfl := Option.some.inj ((hc x hx).symm.trans h1)
    have e1 := (C48_extraction pf.challenge pf'.challenge hfk.differ).2.1 _ _ _ _ hfk.first
    rw [hp, valueAtNode_pairs hm, ← EqFork.mask, ← hax, sub_eq_iff_eq_add'] at e1
    rw [getD_zero_head h2, eq_sub_of_add_eq e1.symm]
    module
  rw [List.map_congr_left hterm, sum_add_map, sum_add_map, sum_smul_map, sum_smul_map, sum_smul_map, ← interpolated_eq hw a,
    hsum _ (lt_of_lt_of_le (degree_toPoly_lt v) (by exact_mod_cast hcount)),
    hsum _ (lt_of_lt_of_le (degree_toPoly_lt m) (by rw [hm]; exact_mod_cast hcount)), coeff_zero_eq, coeff_zero_eq] at h0
  have h0 : Poly.coeff v 0 • G + (Poly.coeff m 0 - interpolated (ds.map Prod.fst) a) • H = Poly.coeff f 0 • G + (0 : Fn) • H := by
    rw [zero_smul Fn H, add_zero, ← h0]
    module
  rcases log_of_two h0 with h | h
  · exact Or.inl h.symm
  · rw [sub_zero] at h
    exact Or.inr h

/-- C162, resharing of shares without mask: nothing can go wrong. -/
theorem C162_reshare_unmasked (t : Int) (ds : DealingMap) (p1 T : Com) (hT : newTranscript t ds (.reshareUnmasked p1) = .ok (some T))
    (v f : List Fn) (hp : p1.c.points = v.map fun v : Fn => v • G) (hf : T.c.points = f.map fun v : Fn => v • G) :
    Poly.coeff f 0 = Poly.coeff v 0 := by
  obtain ⟨pk, h1, h2⟩ := C59_unmasked_keeps_key t ds p1 (some T) hT
  have h1 := Commitment.constantTerm_head.1 h1
  have h2 := Commitment.constantTerm_head.1 h2
  rw [hp] at h1
  rw [hf] at h2
  exact (smul_left_inj G_ne_zero).1 ((head_simple h2).symm.trans (head_simple h1))

namespace Dealings

/-- Numbers that two answers give exist for all accepted dealings: what is assumed of `a` is that it is known, not that it exists. -/
theorem answers_exist {P : Prim} {t receivers : Int} {ad : Bytes} {L R : Com} {ds : DealingMap} (hsort : OMap.Sorted BitVec.toInt ds)
    (hacc : ∀ x ∈ ds, publiclyVerify P x.2 K256 (.unmaskedTimesMasked L R) t x.1 receivers ad = .ok ()) :
    ∃ a : NodeIndex → Fn, ∀ x ∈ ds, ProductAnswers L R x.1 x.2 (a x.1) := by
  have hn := OMap.nodup_keys hsort
  have hex : ∀ j, ∃ a : Fn, ∀ x ∈ ds, x.1 = j → ProductAnswers L R x.1 x.2 a := by
    intro j
    by_cases hj : ∃ x ∈ ds, x.1 = j
    · obtain ⟨x, hx, rfl⟩ := hj
      obtain ⟨-, cm, c, c0, h1, -, -, h4, -, -, -, -, -, -, -, -, pf, h5, -⟩ := (C57_accepted_iff ..).1 (hacc x hx)
      obtain ⟨l, hl⟩ := exists_smul_eq G_ne_zero (valueAtNode L.c.points x.1)
      obtain ⟨w, hw⟩ := exists_smul_eq H_ne_zero (c0 - l • valueAtNode R.c.points x.1)
      have hw := sub_eq_iff_eq_add'.1 hw
      refine ⟨ProductFork.mask pf ⟨pf.challenge + 1, pf.response1 + l, pf.response2 + w⟩, fun y hy e => ?_⟩
      obtain rfl : y = x := List.inj_on_of_nodup_map hn hy hx e
      refine ⟨cm, c0, pf, _, h1, h4, by rw [Dealing.productProof, h5], ⟨by simp, ?_, ?_⟩, rfl⟩
      · rw [hl]
        module
      · rw [hw]
        module
    · exact ⟨0, fun x hx e => absurd ⟨x, hx, e⟩ hj⟩
  choose a ha using hex
  exact ⟨a, fun x hx => ha x.1 x hx rfl⟩

/-- Product transcripts exist: two factors, three dealers. -/
theorem productOf_exists (w1 w2 : Wrap) (l0 l1 r0 r1 m0 m1 : Fn) : ∃ (ds : DealingMap) (a : NodeIndex → Fn) (f g : List Fn),
    ProductOf zeroPrim 2 3 [7] ⟨w1, ⟨.simple, [l0, l1].map fun v : Fn => v • G⟩⟩
      ⟨w2, ⟨.pedersen, List.zipWith (fun v m : Fn => v • G + m • H) [r0, r1] [m0, m1]⟩⟩
      ⟨.interpolation, ⟨.pedersen, List.zipWith (fun v m : Fn => v • G + m • H) f g⟩⟩ ds a ∧ f.length = 2 ∧ g.length = 2 := by
  obtain ⟨d, hs, hd⟩ := dealings_exist fun i => .unmaskedTimesMasked ((toPoly [l0, l1]).eval (place i))
    ((toPoly [r0, r1]).eval (place i)) ((toPoly [m0, m1]).eval (place i))
  obtain ⟨f, g, hf, hg, -, h, -⟩ := C60_product zeroPrim 2 [0, 1, 2] d (fun _ => ⟨[]⟩) [3, 4, 5] [7] [l0, l1] [r0, r1] [m0, m1]
    w1 w2 (by omega) hs l0 r0 rfl rfl rfl (by simp) hd
  have hacc : ∀ x ∈ mapOf [0, 1, 2] d, publiclyVerify zeroPrim x.2 K256 (.unmaskedTimesMasked
      ⟨w1, ⟨.simple, [l0, l1].map fun v : Fn => v • G⟩⟩
      ⟨w2, ⟨.pedersen, List.zipWith (fun v m : Fn => v • G + m • H) [r0, r1] [m0, m1]⟩⟩) 2 x.1 3 [7] = .ok () := by
    intro x hx
    obtain ⟨i, hi, rfl⟩ := List.mem_map.1 hx
    exact (C54_honest_dealings_verify zeroPrim (.unmaskedTimesMasked ((toPoly [l0, l1]).eval (place i))
      ((toPoly [r0, r1]).eval (place i)) ((toPoly [m0, m1]).eval (place i))) (.unmaskedTimesMasked
        ⟨w1, ⟨.simple, [l0, l1].map fun v : Fn => v • G⟩⟩
        ⟨w2, ⟨.pedersen, List.zipWith (fun v m : Fn => v • G + m • H) [r0, r1] [m0, m1]⟩⟩) ⟨[]⟩ 2 [3, 4, 5] i [7] (d i)
      ⟨rfl, by simp, valueAtNode_exponents _ _, rfl, by simp, valueAtNode_pairs (v := [r0, r1]) (m := [m0, m1]) rfl _⟩ (hd i hi)).1
  obtain ⟨a, ha⟩ := answers_exist hs hacc
  exact ⟨_, a, f, g, ⟨hs, hacc, h, ha⟩, by omega, by omega⟩

/-- The same for resharing a masked secret. -/
theorem reshareOf_exists (w : Wrap) (v0 v1 m0 m1 : Fn) : ∃ (ds : DealingMap) (a : NodeIndex → Fn) (f : List Fn),
    ReshareOf zeroPrim 2 3 [7] ⟨w, ⟨.pedersen, List.zipWith (fun v m : Fn => v • G + m • H) [v0, v1] [m0, m1]⟩⟩
      ⟨.interpolation, ⟨.simple, f.map fun v : Fn => v • G⟩⟩ ds a ∧ f.length = 2 := by
  obtain ⟨d, hs, hd⟩ := dealings_exist fun i => .reshareMasked ((toPoly [v0, v1]).eval (place i)) ((toPoly [m0, m1]).eval (place i))
  obtain ⟨f, hf, -, h, -⟩ := C59_reshare_masked zeroPrim 2 [0, 1, 2] d (fun _ => ⟨[]⟩) [3, 4, 5] [7] [v0, v1] [m0, m1] w (by omega) hs
    (by simp) rfl (by simp) hd
  set p1 : Com := ⟨w, ⟨.pedersen, List.zipWith (fun v m : Fn => v • G + m • H) [v0, v1] [m0, m1]⟩⟩
  have hacc : ∀ x ∈ mapOf [0, 1, 2] d, publiclyVerify zeroPrim x.2 K256 (.reshareMasked p1) 2 x.1 3 [7] = .ok () := by
    intro x hx
    obtain ⟨i, hi, rfl⟩ := List.mem_map.1 hx
    exact (C54_honest_dealings_verify zeroPrim (.reshareMasked ((toPoly [v0, v1]).eval (place i)) ((toPoly [m0, m1]).eval (place i)))
      (.reshareMasked p1) ⟨[]⟩ 2 [3, 4, 5] i [7] (d i)
      ⟨by simp [p1], valueAtNode_pairs (v := [v0, v1]) (m := [m0, m1]) rfl _⟩ (hd i hi)).1
  have hn := OMap.nodup_keys hs
  have hex : ∀ j, ∃ a : Fn, ∀ x ∈ mapOf [0, 1, 2] d, x.1 = j → EqAnswers p1 x.1 x.2 a := by
    intro j
    by_cases hj : ∃ x ∈ mapOf [0, 1, 2] d, x.1 = j
    · obtain ⟨x, hx, rfl⟩ := hj
      obtain ⟨-, cm, c, c0, h1, -, -, h4, -, -, -, -, -, pf, h5, -⟩ := (C57_accepted_iff ..).1 (hacc x hx)
      obtain ⟨z, hz⟩ := exists_smul_eq H_ne_zero (valueAtNode p1.c.points x.1 - c0)
      refine ⟨EqFork.mask pf ⟨pf.challenge + 1, pf.response + z⟩, fun y hy e => ?_⟩
      obtain rfl : y = x := List.inj_on_of_nodup_map hn hy hx e
      refine ⟨cm, c0, pf, _, h1, h4, by rw [Dealing.eqProof, h5], ⟨by simp, ?_⟩, rfl⟩
      rw [hz]
      module
    · exact ⟨0, fun x hx e => absurd ⟨x, hx, e⟩ hj⟩
  choose a ha using hex
  exact ⟨_, a, f, ⟨hs, hacc, h, fun x hx => ha x.1 x hx rfl⟩, by omega⟩

end Dealings

namespace Dealings

theorem through_eq {k : Nat} {nodes : List NodeIndex} (hn : nodes.Nodup) (hk : k ≤ nodes.length) {y : NodeIndex → Fn} {f : List Fn}
    (hl : f.length = k) (h : ∀ i ∈ nodes, y i = (toPoly f).eval (place i)) : through k nodes y = f := by
  have hnd : (nodes.take k).Nodup := hn.sublist (List.take_sublist _ _)
  have hcard : (nodes.take k).toFinset.card = k := by rw [List.toFinset_card_of_nodup hnd, List.length_take, min_eq_left hk]
  have hinj : Set.InjOn place ((nodes.take k).toFinset : Set NodeIndex) := fun a _ b _ e => Lagr.fromNodeIndex_injective e
  have e : toPoly f = Lagrange.interpolate (nodes.take k).toFinset place y :=
    Lagrange.eq_interpolate_of_eval_eq y hinj (by rw [hcard, ← hl]; exact degree_toPoly_lt f) fun i hi =>
      (h i (List.mem_of_mem_take (List.mem_toFinset.1 hi))).symm
  have hd : (Lagrange.interpolate (nodes.take k).toFinset place y).degree < k := by
    rw [← e, ← hl]; exact degree_toPoly_lt f
  refine toPoly_inj (by rw [through, length_coeffList, hl]) ?_
  rw [through, toPoly_coeffList hd, e]

end Dealings

end Verif
