import Verif.Props.Ceremony
import Verif.Spec.Presig

/-!
Property C191: the whole protocol (generation of key and nonces, presignatures, signing) gives a group one short of the threshold nothing but
what an ECDSA oracle gives.
-/

set_option autoImplicit false

namespace Verif.KeyGen

open Dealings Sign Polynomial
open Point (H)

variable {k M R Q N : Nat} {B : List NodeIndex}

/-- What the honest dealers of a product draw, from what the other program draws. -/
noncomputable def toProduct (B : List NodeIndex) (η : Fn) (c : Fin (Q + 1) → Fn) (y : Coins k Q 0) : ProductDrawn k Q where
  tails r i := polyOf B (c r) (y.values r) i.succ
  masks r := polyOf B (y.points r - c r * η) (y.masks r)

/-- The other way. -/
noncomputable def ofProduct (B : List NodeIndex) (η : Fn) (c : Fin (Q + 1) → Fn) (ω : ProductDrawn k Q) : Coins k Q 0 where
  points r := (toPoly (List.ofFn (ω.masks r))).eval 0 + c r * η
  values r := heldOf B (ω.deals c r)
  masks r := heldOf B (List.ofFn (ω.masks r))
  later r := r.elim0

theorem eval_ofFn_list {t : Nat} {β : Type} (l : List β) (f : Fin t → Fn) (g : β → Fin t → Fn) (x : Fn) :
    (toPoly (List.ofFn fun c => f c + (l.map fun b => g b c).sum)).eval x =
      (toPoly (List.ofFn f)).eval x + (l.map fun b => (toPoly (List.ofFn (g b))).eval x).sum := by
  simp only [eval_ofFn, add_mul, Finset.sum_add_distrib]
  congr 1
  induction l with
  | nil => simp
  | cons b l ih =>
    simp only [List.map_cons, List.sum_cons, add_mul, Finset.sum_add_distrib]
    rw [ih]

theorem eval_ofFn_mul {t : Nat} (w : Fn) (f : Fin t → Fn) (x : Fn) :
    (toPoly (List.ofFn fun c => w * f c)).eval x = w * (toPoly (List.ofFn f)).eval x := by
  simp only [eval_ofFn, mul_assoc, Finset.mul_sum]

theorem eval_ofFn_sum {t : Nat} {ι : Type} [Fintype ι] (f : ι → Fin t → Fn) (x : Fn) :
    (toPoly (List.ofFn fun c => ∑ r, f r c)).eval x = ∑ r, (toPoly (List.ofFn (f r))).eval x := by
  simp only [eval_ofFn, Finset.sum_mul]
  rw [Finset.sum_comm]

theorem ofFn_getD {q : List Fn} (hq : q.length = k + 1) : (List.ofFn fun c : Fin (k + 1) => q.getD c 0) = q := by
  refine List.ext_getElem (by simp [hq]) fun i h1 h2 => ?_
  rw [List.getElem_ofFn, List.getD_eq_getElem?_getD, List.getElem?_eq_getElem h2]
  rfl

section product

variable (nodes : Fin (Q + 1) → NodeIndex) (deals : ProductDealt k)

theorem eval_productPoly (at' : NodeIndex → Fn) (ω : ProductDrawn k Q) (x : Fn) : (toPoly (productPoly nodes deals at' ω)).eval x =
    ∑ r, weightAtZero (productDealers nodes deals) (nodes r) * (toPoly (ω.deals (fun r => at' (nodes r)) r)).eval x +
      (deals.map fun z => weightAtZero (productDealers nodes deals) z.1 * (toPoly (at' z.1 :: List.ofFn z.2.1)).eval x).sum := by
  rw [productPoly, eval_ofFn_list, eval_ofFn_sum]
  congr 1
  · refine Finset.sum_congr rfl fun r _ => ?_
    rw [eval_ofFn_mul, ofFn_getD (by simp [ProductDrawn.deals])]
  · congr 1
    refine List.map_congr_left fun z _ => ?_
    rw [eval_ofFn_mul, ofFn_getD (by simp)]

theorem eval_productMask (ω : ProductDrawn k Q) (x : Fn) : (toPoly (productMask nodes deals ω)).eval x =
    ∑ r, weightAtZero (productDealers nodes deals) (nodes r) * (toPoly (List.ofFn (ω.masks r))).eval x +
      (deals.map fun z => weightAtZero (productDealers nodes deals) z.1 * (toPoly (List.ofFn z.2.2)).eval x).sum := by
  rw [productMask, eval_ofFn_list, eval_ofFn_sum]
  congr 1
  · exact Finset.sum_congr rfl fun r _ => eval_ofFn_mul ..
  · congr 1
    exact List.map_congr_left fun z _ => eval_ofFn_mul ..

variable (hB : B.Nodup) (hpos : ∀ j ∈ B, 0 ≤ j.toInt) (hl : B.length = k) {η : Fn} (hη : G = η • H)

include hB hpos hl

theorem deals_toProduct (c : Fin (Q + 1) → Fn) (y : Coins k Q 0) (r : Fin (Q + 1)) :
    (toProduct B η c y).deals c r = through (k + 1) B (c r) (given B (y.values r)) := cons_tail hB hpos hl _ _

include hη in
theorem shown_toProduct (c : Fin (Q + 1) → Fn) (y : Coins k Q 0) : (toProduct B η c y).shown B c = y.first B := by
  simp only [ProductDrawn.shown, Coins.first, First.mk.injEq, deals_toProduct hB hpos hl]
  constructor
  · funext r
    rw [show (toProduct B η c y).masks r = polyOf B (y.points r - c r * η) (y.masks r) from rfl, ofFn_polyOf, zipWith_through,
      commit_zero hη _ _ _ rfl]
  · funext r j
    rw [show (toProduct B η c y).masks r = polyOf B (y.points r - c r * η) (y.masks r) from rfl, ofFn_polyOf,
      forGroup_through hB hpos hl, forGroup_through hB hpos hl]

/-- What is drawn for a product is, one to one, what the other program draws, whatever the constant terms. -/
noncomputable def productEquiv (η : Fn) (c : Fin (Q + 1) → Fn) : Coins k Q 0 ≃ ProductDrawn k Q where
  toFun := toProduct B η c
  invFun := ofProduct B η c
  left_inv y := by
    obtain ⟨p, v, m, q⟩ := y
    have hm : ∀ r, List.ofFn ((toProduct B η c ⟨p, v, m, q⟩).masks r) = through (k + 1) B (p r - c r * η) (given B (m r)) :=
      fun r => ofFn_polyOf _ _
    simp only [ofProduct, Coins.mk.injEq, deals_toProduct hB hpos hl, hm]
    refine ⟨funext fun r => ?_, funext fun r => heldOf_through hB hpos hl _ _, funext fun r => heldOf_through hB hpos hl _ _,
      funext fun r => r.elim0⟩
    rw [(through_spec hB hpos (by omega) _ _).1]
    ring
  right_inv ω := by
    obtain ⟨t, m⟩ := ω
    simp only [toProduct, ofProduct, ProductDrawn.mk.injEq, add_sub_cancel_right]
    exact ⟨funext fun r => tail_cons hB hpos hl _ _, funext fun r => polyOf_heldOf hB hpos hl _⟩

/-- The product: its constant term is that of the polynomial behind it. -/
theorem productPoly_eq {at' due : NodeIndex → Fn} {F : Fn[X]} (hF : ∀ i, at' i = F.eval (place i))
    (hn : (productDealers nodes deals).Nodup) (hne : productDealers nodes deals ≠ [])
    (hd : F.degree < (productDealers nodes deals).length) (hg : ∀ x ∈ deals, at' x.1 = due x.1) (ω : ProductDrawn k Q) :
    productPoly nodes deals at' ω = through (k + 1) B (F.eval 0) (productShare nodes deals due (ω.shown B fun r => at' (nodes r))) := by
  refine eq_through hB hpos (by omega) (by simp [productPoly]) ?_ fun j hj => ?_
  · rw [← weights_sum hne hn hd, eval_productPoly]
    generalize weightAtZero (productDealers nodes deals) = w
    rw [productDealers, List.map_append, List.sum_append, List.map_ofFn, List.sum_ofFn, List.map_map]
    congr 1
    · refine Finset.sum_congr rfl fun r _ => ?_
      simp [ProductDrawn.deals, toPoly_cons, hF]
    · congr 1
      refine List.map_congr_left fun z _ => ?_
      simp [Function.comp, toPoly_cons, hF]
  · rw [eval_productPoly, productShare]
    congr 1
    · refine Finset.sum_congr rfl fun r _ => ?_
      simp only [ProductDrawn.shown, forGroup, if_pos hj]
    · congr 1
      exact List.map_congr_left fun z hz => by rw [hg z hz]

/-- Its mask. -/
theorem productMask_eq {at' due : NodeIndex → Fn} {F : Fn[X]} (hF : ∀ i, at' i = F.eval (place i))
    (hn : (productDealers nodes deals).Nodup) (hne : productDealers nodes deals ≠ [])
    (hd : F.degree < (productDealers nodes deals).length) (hg : ∀ x ∈ deals, at' x.1 = due x.1) (y : Coins k Q 0) :
    productMask nodes deals (toProduct B η (fun r => at' (nodes r)) y) =
      through (k + 1) B (productPoint nodes deals due η y.points - F.eval 0 * η)
        (productMaskShare nodes deals ((toProduct B η (fun r => at' (nodes r)) y).shown B fun r => at' (nodes r))) := by
  refine eq_through hB hpos (by omega) (by simp [productMask]) ?_ fun j hj => ?_
  · rw [← weights_sum hne hn hd, eval_productMask, productPoint]
    generalize weightAtZero (productDealers nodes deals) = w
    rw [productDealers, List.map_append, List.sum_append, List.map_ofFn, List.sum_ofFn, List.map_map]
    have h1 : ∀ r, (toPoly (List.ofFn ((toProduct B η (fun r => at' (nodes r)) y).masks r))).eval 0 = y.points r - at' (nodes r) * η :=
      fun r => eval_polyOf hB hpos hl _ _
    have h2 : ∀ l : ProductDealt k, (∀ x ∈ l, at' x.1 = due x.1) →
        (l.map fun x => w x.1 * (x.2.2 0 + due x.1 * η)).sum =
          (l.map fun x => w x.1 * (toPoly (List.ofFn x.2.2)).eval 0).sum +
            (l.map ((fun i => w i * F.eval (place i)) ∘ Prod.fst)).sum * η := by
      intro l hl'
      induction l with
      | nil => simp
      | cons x l ih =>
        simp only [List.map_cons, List.sum_cons, Function.comp]
        rw [ih fun z hz => hl' z (List.mem_cons_of_mem _ hz), ← hl' x List.mem_cons_self, hF, eval_zero_ofFn]
        ring
    rw [h2 deals hg]
    have h4 : ∑ r, w (nodes r) * (toPoly (List.ofFn ((toProduct B η (fun r => at' (nodes r)) y).masks r))).eval 0 =
        ∑ r, w (nodes r) * y.points r - (∑ r, w (nodes r) * F.eval (place (nodes r))) * η := by
      rw [Finset.sum_mul, ← Finset.sum_sub_distrib]
      refine Finset.sum_congr rfl fun r _ => ?_
      rw [h1, hF]
      ring
    rw [h4]
    simp only [Function.comp]
    ring
  · rw [eval_productMask, productMaskShare]
    congr 1
    refine Finset.sum_congr rfl fun r _ => ?_
    simp only [ProductDrawn.shown, forGroup, if_pos hj]

end product

section lambda

variable (o om : Fin (k + 1) → Fn) (hB : B.Nodup) (hpos : ∀ j ∈ B, 0 ≤ j.toInt) (hl : B.length = k) {η : Fn} (hη : G = η • H)

include hB hpos hl

include hη in
/-- The mask of `λ`. -/
theorem lambdaMask_eq (nodes : Fin R → NodeIndex) (y : (Fin M → Fn) × (Fn × Coins k M R)) :
    (List.ofFn fun c => ∑ d, (toDrawn nodes (fun _ => o) B η y).masks d c + om c) =
      through (k + 1) B (∑ d, y.2.2.points d + o 0 * η + om 0 - y.2.1 * η)
        fun j => ∑ d, ((y.2.2.first B).openings d j).2 + (toPoly (List.ofFn om)).eval (place j) := by
  have he : ∀ x, (toPoly (List.ofFn fun c => ∑ d, (toDrawn nodes (fun _ => o) B η y).masks d c + om c)).eval x =
      ∑ d, (toPoly (List.ofFn ((toDrawn nodes (fun _ => o) B η y).masks d))).eval x + (toPoly (List.ofFn om)).eval x := fun x => by
    simp only [eval_ofFn, add_mul, Finset.sum_add_distrib, Finset.sum_mul]
    rw [Finset.sum_comm]
  refine eq_through hB hpos (by omega) (by simp) ?_ fun j hj => ?_
  · rw [he, eval_zero_ofFn]
    have hm : ∀ d, (toPoly (List.ofFn ((toDrawn nodes (fun _ => o) B η y).masks d))).eval 0 =
        y.2.2.points d - (Fin.cons (y.2.1 - ∑ d, y.1 d - o 0) y.1 : Fin (M + 1) → Fn) d * η := fun d => eval_polyOf hB hpos hl _ _
    simp only [hm, Finset.sum_sub_distrib, ← Finset.sum_mul]
    rw [Fin.sum_univ_succ (f := (Fin.cons (y.2.1 - ∑ d, y.1 d - o 0) y.1 : Fin (M + 1) → Fn))]
    simp only [Fin.cons_zero, Fin.cons_succ]
    ring
  · rw [he, ← first_toDrawn nodes (fun _ => o) hB hpos hl hη y]
    simp only [Drawn.first, forGroup, if_pos hj]

/-- `λ`. -/
theorem lambdaPoly_eq (ω : Drawn k M R) : ω.secret B (fun _ => o) = through (k + 1) B (ω.key B fun _ => o) (groupShare (fun _ => o) (ω.first B)) :=
  secret_eq _ hB hpos hl ω

end lambda

/-- What is drawn for all `λ`. -/
noncomputable def toLambdas (B : List NodeIndex) (η : Fn) (o : (Fin N → First M) → Fin N → Fin (k + 1) → Fn)
    (y : Fin N → (Fin M → Fn) × (Fn × Coins k M 0)) (i : Fin N) : Drawn k M 0 :=
  toDrawn Fin.elim0 (fun _ => o (fun i => (y i).2.2.first B) i) B η (y i)

section all

variable (hB : B.Nodup) (hpos : ∀ j ∈ B, 0 ≤ j.toInt) (hl : B.length = k) {η : Fn} (hη : G = η • H)

include hB hpos hl

include hη in
theorem views_toLambdas (o : (Fin N → First M) → Fin N → Fin (k + 1) → Fn) (y : Fin N → (Fin M → Fn) × (Fn × Coins k M 0)) :
    lambdaViews B (toLambdas B η o y) = fun i => (y i).2.2.first B :=
  funext fun i => first_toDrawn Fin.elim0 _ hB hpos hl hη (y i)

/-- One to one. -/
noncomputable def lambdasEquiv (hη : G = η • H) (o : (Fin N → First M) → Fin N → Fin (k + 1) → Fn) :
    (Fin N → (Fin M → Fn) × (Fn × Coins k M 0)) ≃ (Fin N → Drawn k M 0) where
  toFun := toLambdas B η o
  invFun ω i := ofDrawn Fin.elim0 (fun _ => o (lambdaViews B ω) i) B η (ω i)
  left_inv y := by
    funext i
    dsimp only
    rw [views_toLambdas hB hpos hl hη]
    exact (drawnEquiv Fin.elim0 (fun _ => o (fun i => (y i).2.2.first B) i) hB hpos hl hη).left_inv (y i)
  right_inv ω := by
    funext i
    have h : (fun i => (ofDrawn Fin.elim0 (fun _ => o (lambdaViews B ω) i) B η (ω i)).2.2.first B) = lambdaViews B ω :=
      funext fun i => first_ofDrawn Fin.elim0 _ hB hpos hl hη (ω i)
    simp only [toLambdas, h]
    exact (drawnEquiv Fin.elim0 (fun _ => o (lambdaViews B ω) i) hB hpos hl hη).right_inv (ω i)

variable (nodes : Fin (Q + 1) → NodeIndex) (W : Meddling k M R Q N) (l : List (Outcome M R))

/-- What is drawn for all products. -/
noncomputable def toProducts (η : Fn) (lam : Fin N → Drawn k M 0) (c : Fin N → Coins k Q 0 × Coins k Q 0) (i : Fin N) :
    ProductDrawn k Q × ProductDrawn k Q :=
  (toProduct B η (fun r => klAt B W l lam i (nodes r)) (c i).1, toProduct B η (fun r => xlAt B W l lam i (nodes r)) (c i).2)

/-- One to one. -/
noncomputable def productsEquiv (η : Fn) (lam : Fin N → Drawn k M 0) :
    (Fin N → Coins k Q 0 × Coins k Q 0) ≃ (Fin N → ProductDrawn k Q × ProductDrawn k Q) :=
  Equiv.piCongrRight fun i => Equiv.prodCongr (productEquiv hB hpos hl η fun r => klAt B W l lam i (nodes r))
    (productEquiv hB hpos hl η fun r => xlAt B W l lam i (nodes r))

/-- The coins of the presignatures. -/
def coinsOf (y : Fin N → (Fin M → Fn) × (Fn × Coins k M 0)) (c : Fin N → Coins k Q 0 × Coins k Q 0) (i : Fin N) : PresigCoins k M Q :=
  ⟨(y i).2.2, (c i).1, (c i).2⟩

include hη in
theorem presigViews_eq (y : Fin N → (Fin M → Fn) × (Fn × Coins k M 0)) (c : Fin N → Coins k Q 0 × Coins k Q 0) :
    let lam := toLambdas B η (fun v => W.adds v (l.map Outcome.view)) y
    presigViews B nodes W l lam (toProducts (B := B) nodes W l η lam c) = fun i => (coinsOf y c i).shown B := by
  intro lam
  funext i
  simp only [presigViews, toProducts, shown_toProduct hB hpos hl hη, PresigCoins.shown, coinsOf]
  rw [views_toLambdas hB hpos hl hη]

include hη in
/-- All polynomials of the presignatures are those of the game of C186. -/
theorem presigSecrets_eq (ho : ProductsInOrder B nodes W) (y : Fin N → (Fin M → Fn) × (Fn × Coins k M 0))
    (c : Fin N → Coins k Q 0 × Coins k Q 0) (i : Fin N) :
    let lam := toLambdas B η (fun v => W.adds v (l.map Outcome.view)) y
    let m := madeFrom B nodes W l η (coinsOf y c) fun i => (y i).2.1
    presigSecrets B nodes W l lam (toProducts (B := B) nodes W l η lam c) i =
      secretsOf (k + 1) B (nth l 0).shares (heldFrom nodes W l (fun i => (coinsOf y c i).shown B) i) (nth l 0).secret (nth l (i + 1)).secret
        (blindsEquiv η (nth l 0).secret (fun i => (nth l (i + 1)).secret)
          (fun i => (y i).2.1, fun i => ((m i).lambda, (m i).kl, (m i).xl)) i) := by
  intro lam m
  have hv := presigViews_eq hB hpos hl hη nodes W l y c
  have hlv : lambdaViews B lam = fun i => (y i).2.2.first B := views_toLambdas hB hpos hl hη _ y
  have hkey : ∀ i, (lam i).key B (fun _ => W.adds (lambdaViews B lam) (l.map Outcome.view) i) = (y i).2.1 := fun i => by
    rw [hlv]; exact key_toDrawn Fin.elim0 _ hB hpos hl hη (y i)
  have hlam : lambdaPoly B W l lam i = through (k + 1) B (y i).2.1 (lambdaShare W l (fun i => (coinsOf y c i).shown B) i) := by
    rw [lambdaPoly, lambdaPoly_eq _ hB hpos hl, hkey]
    have : (lam i).first B = (y i).2.2.first B := congrFun hlv i
    rw [this, hlv]
    rfl
  have hsp := fun (a : Fn) (f : NodeIndex → Fn) => through_spec (t := k + 1) (B := B) hB hpos (by omega) a f
  have hlam0 : (toPoly (lambdaPoly B W l lam i)).eval 0 = (y i).2.1 := by rw [hlam, (hsp _ _).1]
  have hdeg : ∀ o : Outcome M R, (toPoly (o.poly B k) * toPoly (lambdaPoly B W l lam i)).degree < ((2 * k + 1 : ℕ) : WithBot ℕ) := by
    intro o
    have h1 : toPoly (o.poly B k) ∈ degreeLT Fn (k + 1) := by
      rw [mem_degreeLT]
      have := degree_toPoly_lt (o.poly B k)
      rwa [Outcome.poly, length_through] at this
    have h2 : toPoly (lambdaPoly B W l lam i) ∈ degreeLT Fn (k + 1) := by
      rw [mem_degreeLT, hlam]
      have := degree_toPoly_lt (through (k + 1) B (y i).2.1 (lambdaShare W l (fun i => (coinsOf y c i).shown B) i))
      rwa [length_through] at this
    rw [mem_degreeLT, degree_lt_iff_coeff_zero] at h1 h2
    rw [degree_lt_iff_coeff_zero]
    intro d hd
    rw [coeff_mul]
    refine Finset.sum_eq_zero fun x hx => ?_
    rw [Finset.mem_antidiagonal] at hx
    rcases Nat.lt_or_ge x.1 (k + 1) with h | h
    · rw [h2 x.2 (by omega), mul_zero]
    · rw [h1 x.1 h, zero_mul]
  have hnd : ∀ deals : ProductDealt k, (deals.map Prod.fst).Nodup → (∀ x ∈ deals, x.1 ∈ B) → (productDealers nodes deals).Nodup := by
    intro deals h1 h2
    rw [productDealers, List.nodup_append]
    refine ⟨List.nodup_ofFn.2 ho.honest, h1, ?_⟩
    rintro a ha b hb rfl
    obtain ⟨r, rfl⟩ := (List.mem_ofFn' _ _).1 ha
    obtain ⟨x, hx, e⟩ := List.mem_map.1 hb
    exact ho.apart r (e ▸ h2 x hx)
  have hlen : ∀ deals : ProductDealt k, (productDealers nodes deals).length = Q + 1 + deals.length := fun deals => by simp [productDealers]; omega
  have hne : ∀ deals : ProductDealt k, productDealers nodes deals ≠ [] := fun deals h => by
    have := hlen deals
    rw [h, List.length_nil] at this
    omega
  have hd : ∀ (o : Outcome M R) (deals : ProductDealt k), 2 * k ≤ Q + deals.length →
      (toPoly (o.poly B k) * toPoly (lambdaPoly B W l lam i)).degree < (productDealers nodes deals).length := fun o deals h =>
    lt_of_lt_of_le (hdeg o) (by rw [hlen]; exact_mod_cast (by omega : 2 * k + 1 ≤ Q + 1 + deals.length))
  have hat : ∀ (o : Outcome M R), ∀ j ∈ B, (toPoly (o.poly B k)).eval (place j) * (toPoly (lambdaPoly B W l lam i)).eval (place j) =
      o.shares j * lambdaShare W l (fun i => (coinsOf y c i).shown B) i j := fun o j hj => by
    rw [hlam, (hsp _ _).2 j hj, Outcome.poly, (hsp _ _).2 j hj]
  obtain ⟨k1, k2, k3⟩ := ho.kl (fun i => (coinsOf y c i).shown B) (l.map Outcome.view) i
  obtain ⟨x1, x2, x3⟩ := ho.xl (fun i => (coinsOf y c i).shown B) (l.map Outcome.view) i
  have hF : ∀ (o : Outcome M R) (j : NodeIndex), (toPoly (o.poly B k)).eval (place j) * (toPoly (lambdaPoly B W l lam i)).eval (place j) =
      (toPoly (o.poly B k) * toPoly (lambdaPoly B W l lam i)).eval (place j) := fun o j => (eval_mul ..).symm
  have hF0 : ∀ o : Outcome M R, (toPoly (o.poly B k) * toPoly (lambdaPoly B W l lam i)).eval 0 = o.secret * (y i).2.1 := fun o => by
    rw [eval_mul, hlam0, Outcome.poly, (hsp _ _).1]
  have hkl := productPoly_eq nodes _ hB hpos hl (at' := klAt B W l lam i) (due := klDue W l (fun i => (coinsOf y c i).shown B) i)
    (hF (nth l (i + 1))) (hnd _ k1 k2) (hne _) (hd (nth l (i + 1)) _ k3)
    (fun x hx => hat (nth l (i + 1)) x.1 (k2 x hx)) (toProducts (B := B) nodes W l η lam c i).1
  have hxl := productPoly_eq nodes _ hB hpos hl (at' := xlAt B W l lam i) (due := xlDue W l (fun i => (coinsOf y c i).shown B) i)
    (hF (nth l 0)) (hnd _ x1 x2) (hne _) (hd (nth l 0) _ x3)
    (fun x hx => hat (nth l 0) x.1 (x2 x hx)) (toProducts (B := B) nodes W l η lam c i).2
  have hklm := productMask_eq nodes _ hB hpos hl (η := η) (at' := klAt B W l lam i)
    (due := klDue W l (fun i => (coinsOf y c i).shown B) i) (hF (nth l (i + 1))) (hnd _ k1 k2) (hne _) (hd (nth l (i + 1)) _ k3)
    (fun x hx => hat (nth l (i + 1)) x.1 (k2 x hx)) (c i).1
  have hxlm := productMask_eq nodes _ hB hpos hl (η := η) (at' := xlAt B W l lam i)
    (due := xlDue W l (fun i => (coinsOf y c i).shown B) i) (hF (nth l 0)) (hnd _ x1 x2) (hne _) (hd (nth l 0) _ x3)
    (fun x hx => hat (nth l 0) x.1 (x2 x hx)) (c i).2
  have hs1 : (toProduct B η (fun r => klAt B W l lam i (nodes r)) (c i).1).shown B (fun r => klAt B W l lam i (nodes r)) = (c i).1.first B :=
    shown_toProduct hB hpos hl hη _ _
  have hs2 : (toProduct B η (fun r => xlAt B W l lam i (nodes r)) (c i).2).shown B (fun r => xlAt B W l lam i (nodes r)) = (c i).2.first B :=
    shown_toProduct hB hpos hl hη _ _
  have hlm := lambdaMask_eq (R := 0) (W.adds (lambdaViews B lam) (l.map Outcome.view) i) (W.addsMask (lambdaViews B lam) (l.map Outcome.view) i)
    hB hpos hl hη Fin.elim0 (y i)
  rw [hF0] at hkl hxl hklm hxlm
  simp only [toProducts] at hkl hxl
  rw [hs1] at hkl hklm
  rw [hs2] at hxl hxlm
  have hm : (List.ofFn fun c => ∑ d, (lam i).masks d c + W.addsMask (lambdaViews B lam) (l.map Outcome.view) i c) =
      through (k + 1) B ((m i).lambda - (y i).2.1 * η) (heldFrom nodes W l (fun i => (coinsOf y c i).shown B) i).seen.lambdaMask := by
    rw [hlv] at hlm ⊢
    exact hlm
  simp only [presigSecrets, secretsOf]
  rw [hv]
  simp only [toProducts]
  rw [hkl, hxl, hklm, hxlm, hm, hlam]
  rfl

variable {α : Type} (P : Prim) (A : Attacker M R Q N α)

include hη in
theorem protocol_eq (ho : ProductsInOrder B nodes W) (y : Fin N → (Fin M → Fn) × (Fn × Coins k M 0))
    (c : Fin N → Coins k Q 0 × Coins k Q 0) :
    let lam := toLambdas B η (fun v => W.adds v (l.map Outcome.view)) y
    let m := madeFrom B nodes W l η (coinsOf y c) fun i => (y i).2.1
    protocol B nodes W P A l lam (toProducts (B := B) nodes W l η lam c) =
      attackNodes P (k + 1) B (nth l 0).shares (heldFrom nodes W l fun i => (coinsOf y c i).shown B) (nth l 0).secret
        (fun i => (nth l (i + 1)).secret) (A (l.map Outcome.view) fun i => (coinsOf y c i).shown B)
        (blindsEquiv η (nth l 0).secret (fun i => (nth l (i + 1)).secret)
          (fun i => (y i).2.1, fun i => ((m i).lambda, (m i).kl, (m i).xl))) := by
  intro lam m
  have hv := presigViews_eq hB hpos hl hη nodes W l y c
  have hS : presigSecrets B nodes W l lam (toProducts (B := B) nodes W l η lam c) = _ :=
    funext fun i => presigSecrets_eq hB hpos hl hη nodes W l ho y c i
  rw [protocol, hS, hv]
  rfl

end all

instance : Finite (ProductDrawn k Q) :=
  Finite.of_injective (fun c => (c.tails, c.masks)) fun a b h => by
    obtain ⟨a1, a2⟩ := a
    obtain ⟨b1, b2⟩ := b
    simp only [Prod.mk.injEq] at h
    obtain ⟨rfl, rfl⟩ := h
    rfl

instance : Finite (PresigCoins k M Q) :=
  Finite.of_injective (fun c => (c.lambda, c.kl, c.xl)) fun a b h => by
    obtain ⟨a1, a2, a3⟩ := a
    obtain ⟨b1, b2, b3⟩ := b
    simp only [Prod.mk.injEq] at h
    obtain ⟨rfl, rfl, rfl⟩ := h
    rfl

/-- What is drawn, in another order. -/
def orderEquiv (k M Q N : Nat) : ((Fin N → Fn) × (Fin N → PresigCoins k M Q)) × (Fin N → Fin M → Fn) ≃
    (Fin N → (Fin M → Fn) × (Fn × Coins k M 0)) × (Fin N → Coins k Q 0 × Coins k Q 0) where
  toFun u := (fun i => (u.2 i, u.1.1 i, (u.1.2 i).lambda), fun i => ((u.1.2 i).kl, (u.1.2 i).xl))
  invFun z := ((fun i => (z.1 i).2.1, coinsOf z.1 z.2), fun i => (z.1 i).1)
  left_inv _ := rfl
  right_inv _ := rfl

/-- Everything that is drawn after the generations. -/
noncomputable def drawEquiv (hB : B.Nodup) (hpos : ∀ j ∈ B, 0 ≤ j.toInt) (hl : B.length = k) {η : Fn} (hη : G = η • H)
    (nodes : Fin (Q + 1) → NodeIndex) (W : Meddling k M R Q N) (L : (Fin N → First M) → List (Outcome M R)) :
    ((Fin N → Fn) × (Fin N → PresigCoins k M Q)) × (Fin N → Fin M → Fn) ≃
      (Fin N → Drawn k M 0) × (Fin N → ProductDrawn k Q × ProductDrawn k Q) :=
  (orderEquiv k M Q N).trans (Equiv.prodShear (lambdasEquiv hB hpos hl hη fun v => W.adds v ((L v).map Outcome.view)) fun z =>
    productsEquiv hB hpos hl nodes W (L fun i => (z i).2.2.first B) η (toLambdas B η (fun v => W.adds v ((L v).map Outcome.view)) z))

theorem drawEquiv_apply (hB : B.Nodup) (hpos : ∀ j ∈ B, 0 ≤ j.toInt) (hl : B.length = k) {η : Fn} (hη : G = η • H)
    (nodes : Fin (Q + 1) → NodeIndex) (W : Meddling k M R Q N) (L : (Fin N → First M) → List (Outcome M R))
    (u : ((Fin N → Fn) × (Fin N → PresigCoins k M Q)) × (Fin N → Fin M → Fn)) : drawEquiv hB hpos hl hη nodes W L u =
      (toLambdas B η (fun v => W.adds v ((L v).map Outcome.view)) (orderEquiv k M Q N u).1,
        toProducts (B := B) nodes W (L fun i => ((orderEquiv k M Q N u).1 i).2.2.first B) η
          (toLambdas B η (fun v => W.adds v ((L v).map Outcome.view)) (orderEquiv k M Q N u).1) (orderEquiv k M Q N u).2) := rfl

theorem share_both {X Y Z V : Type} [Finite X] [Finite Y] [Finite Z] [Finite V] {p : X → Z → Prop} {q : Y → Z → Prop} {r : Y → V → Prop}
    (h : ∀ z, Oracle.share (fun x => p x z) = Oracle.share (fun y => q y z)) (h' : ∀ y, Oracle.share (q y) = Oracle.share (r y)) :
    Oracle.share (fun u : X × Z => p u.1 u.2) = Oracle.share (fun u : Y × V => r u.1 u.2) :=
  (share_congr_fst h).trans (share_congr_snd h')

theorem share_game {X F C E : Type} [Finite F] [Finite C] [Finite E] [Nonempty E] (e : (F × C) × E ≃ X) (q : X → Prop) (g g' : F → C → Prop)
    (h : ∀ f c hid, q (e ((f, c), hid)) ↔ g f c) (h' : ∀ c, Nat.card {f // g f c} = Nat.card {f // g' f c}) :
    Oracle.share q = Oracle.share (fun u : F × C => g' u.1 u.2) := by
  rw [← Oracle.share_equiv e]
  have : (fun a => q (e a)) = fun a : (F × C) × E => (fun u : F × C => g u.1 u.2) a.1 := funext fun a => propext (h _ _ _)
  rw [this, Oracle.share_fst (fun u : F × C => g u.1 u.2)]
  exact share_congr_fst fun c => by rw [Oracle.share, Oracle.share, h']

section game

variable (hB : B.Nodup) (hpos : ∀ j ∈ B, 0 ≤ j.toInt) (hl : B.length = k) (η : Fn) (hη : G = η • H) (nodes : Fin (Q + 1) → NodeIndex)
  (W : Meddling k M R Q N) (ho : ProductsInOrder B nodes W) {α : Type} (P : Prim) (A : Attacker M R Q N α)

include hB hpos hl hη ho

/-- Presignatures and signing, once the public points are given. -/
theorem share_protocol (L : (Fin N → First M) → List (Outcome M R)) (x0 : Fn) (k0 : Fin N → Fn)
    (hx : ∀ v, (nth (L v) 0).secret = x0) (hk : ∀ v (i : Fin N), (nth (L v) (i + 1)).secret = k0 i)
    (p : List (Fin N × Request) × α → Prop) :
    Oracle.share (fun u : (Fin N → Drawn k M 0) × (Fin N → ProductDrawn k Q × ProductDrawn k Q) =>
      p (protocol B nodes W P A (L (lambdaViews B u.1)) u.1 u.2)) =
    Oracle.share (fun u : (Fin N → Fn) × (Fin N → PresigCoins k M Q) =>
      p (protocolOracle B nodes W P A η (x0 • G) (fun i => k0 i • G) (ecdsaOracle x0 k0) (L fun i => (u.2 i).lambda.first B) u.1 u.2)) := by
  have h1 : ∀ f c hid, p (protocol B nodes W P A (L (lambdaViews B (drawEquiv hB hpos hl hη nodes W L ((f, c), hid)).1))
        (drawEquiv hB hpos hl hη nodes W L ((f, c), hid)).1 (drawEquiv hB hpos hl hη nodes W L ((f, c), hid)).2) ↔
      p (attackNodes P (k + 1) B (nth (L fun i => (c i).lambda.first B) 0).shares
        (heldFrom nodes W (L fun i => (c i).lambda.first B) fun i => (c i).shown B) x0 k0
        (A ((L fun i => (c i).lambda.first B).map Outcome.view) fun i => (c i).shown B)
        (blindsEquiv η x0 k0 (f, fun i => ((madeFrom B nodes W (L fun i => (c i).lambda.first B) η c 0 i).lambda,
          (madeFrom B nodes W (L fun i => (c i).lambda.first B) η c 0 i).kl,
          (madeFrom B nodes W (L fun i => (c i).lambda.first B) η c 0 i).xl)))) := by
    intro f c hid
    rw [drawEquiv_apply]
    dsimp only
    rw [views_toLambdas hB hpos hl hη]
    have h := protocol_eq hB hpos hl hη nodes W (L fun i => (c i).lambda.first B) P A ho (orderEquiv k M Q N ((f, c), hid)).1
      (orderEquiv k M Q N ((f, c), hid)).2
    have hk' : (fun i : Fin N => (nth (L fun i => (c i).lambda.first B) (i + 1)).secret) = k0 := funext fun i => hk _ i
    dsimp only at h
    rw [hx, hk'] at h
    exact iff_of_eq (congrArg p h)
  have h2 : ∀ c : Fin N → PresigCoins k M Q, _ := fun c =>
    card_attack P (k + 1) B hB hpos (by omega) N α (nth (L fun i => (c i).lambda.first B) 0).shares
      (heldFrom nodes W (L fun i => (c i).lambda.first B) fun i => (c i).shown B) η hη x0 k0
      (A ((L fun i => (c i).lambda.first B).map Outcome.view) fun i => (c i).shown B) p
      (fun i => ((madeFrom B nodes W (L fun i => (c i).lambda.first B) η c 0 i).lambda,
          (madeFrom B nodes W (L fun i => (c i).lambda.first B) η c 0 i).kl,
          (madeFrom B nodes W (L fun i => (c i).lambda.first B) η c 0 i).xl))
  exact share_game (drawEquiv hB hpos hl hη nodes W L) _ _ _ h1 h2

/-- C191: a program attacks with the knowledge of a group one short of the threshold everything: a key and `N` nonces are generated, `N` random
masked `λ`, the products `κλ` and `xλ`, and then nodes sign.  Whatever one asks of the public key and of the result, it is so for the same
share of all choices of the honest nodes as of all choices of a key, `N` nonces, and of coins, when the same program is given what is made up
from the public points and one ECDSA signature for each request. -/
theorem C191_same (keyNodes : Fin R → NodeIndex) (p : Pt → List (Fin N × Request) × α → Prop) :
    Oracle.share (fun u : (Fin (N + 1) → Drawn k M R) × (Fin N → Drawn k M 0) × (Fin N → ProductDrawn k Q × ProductDrawn k Q) =>
      let l := generate B keyNodes (W.keys (lambdaViews B u.2.1)) (List.ofFn u.1)
      p ((nth l 0).secret • G) (protocol B nodes W P A l u.2.1 u.2.2)) =
    Oracle.share (fun u : (Fin (N + 1) → Fn × Coins k M R) × (Fin N → Fn) × (Fin N → PresigCoins k M Q) =>
      p ((u.1 0).1 • G) (protocolOracle B nodes W P A η ((u.1 0).1 • G) (fun i => (u.1 i.succ).1 • G)
        (ecdsaOracle (u.1 0).1 fun i => (u.1 i.succ).1)
        (makeUp B keyNodes (W.keys fun i => (u.2.2 i).lambda.first B) (List.ofFn u.1)) u.2.1 u.2.2)) := by
  have h1 : ∀ z : (Fin N → Drawn k M 0) × (Fin N → ProductDrawn k Q × ProductDrawn k Q), _ := fun z =>
    C190_generations (M := M) keyNodes (W.keys (lambdaViews B z.1)) hB hpos hl (N + 1) fun l =>
      p ((nth l 0).secret • G) (protocol B nodes W P A l z.1 z.2)
  have h2 : ∀ y : Fin (N + 1) → Fn × Coins k M R,
      Oracle.share (fun z : (Fin N → Drawn k M 0) × (Fin N → ProductDrawn k Q × ProductDrawn k Q) =>
        p ((nth (makeUp B keyNodes (W.keys (lambdaViews B z.1)) (List.ofFn y)) 0).secret • G)
          (protocol B nodes W P A (makeUp B keyNodes (W.keys (lambdaViews B z.1)) (List.ofFn y)) z.1 z.2)) = _ := fun y => by
    have e0 : ∀ v, (nth (makeUp B keyNodes (W.keys v) (List.ofFn y)) 0).secret = (y 0).1 := fun v => secret_makeUp keyNodes (W.keys v) y 0
    have e1 : ∀ v (i : Fin N), (nth (makeUp B keyNodes (W.keys v) (List.ofFn y)) (i + 1)).secret = (y i.succ).1 := fun v i =>
      secret_makeUp keyNodes (W.keys v) y i.succ
    simp only [e0]
    exact share_protocol hB hpos hl η hη nodes W ho P A (fun v => makeUp B keyNodes (W.keys v) (List.ofFn y)) (y 0).1
      (fun i => (y i.succ).1) e0 e1 (p ((y 0).1 • G))
  exact share_both h1 h2

/-- C191, forging: the group forges a signature for the same share of all choices as the program forges one, under a random key and with no
other help than `N` ECDSA signatures with random nonces. -/
theorem C191_forgery (keyNodes : Fin R → NodeIndex) (A : Attacker M R Q N Forgery) :
    Oracle.share (fun u : (Fin (N + 1) → Drawn k M R) × (Fin N → Drawn k M 0) × (Fin N → ProductDrawn k Q × ProductDrawn k Q) =>
      let l := generate B keyNodes (W.keys (lambdaViews B u.2.1)) (List.ofFn u.1)
      Forged P ((nth l 0).secret • G) (protocol B nodes W P A l u.2.1 u.2.2)) =
    Oracle.share (fun u : (Fin (N + 1) → Fn × Coins k M R) × (Fin N → Fn) × (Fin N → PresigCoins k M Q) =>
      Forged P ((u.1 0).1 • G) (protocolOracle B nodes W P A η ((u.1 0).1 • G) (fun i => (u.1 i.succ).1 • G)
        (ecdsaOracle (u.1 0).1 fun i => (u.1 i.succ).1)
        (makeUp B keyNodes (W.keys fun i => (u.2.2 i).lambda.first B) (List.ofFn u.1)) u.2.1 u.2.2)) :=
  C191_same hB hpos hl η hη nodes W ho P A keyNodes (Forged P)

end game

/-- C191, the products: it is what `NewTranscriptInternal` makes of the dealings. -/
theorem C191_transcript (nodes : Fin (Q + 1) → NodeIndex) (deals : ProductDealt k) (at' : NodeIndex → Fn) (ω : ProductDrawn k Q)
    (hn : (productDealers nodes deals).Nodup) (he : 2 * k ≤ Q + deals.length) (ds : DealingMap) (cm : NodeIndex → Commitment)
    (hc : Commits ds cm) (hd : (ds.map Prod.fst).Perm (productDealers nodes deals))
    (hh : ∀ r, cm (nodes r) = ⟨.pedersen, (ω.shown B fun r => at' (nodes r)).commitments r⟩)
    (hg : ∀ x ∈ deals, cm x.1 =
      ⟨.pedersen, List.zipWith (fun v m : Fn => v • G + m • H) (at' x.1 :: List.ofFn x.2.1) (List.ofFn x.2.2)⟩)
    (left right : Com) (hl : left.c.kind = .simple) (hll : left.c.points.length = k + 1) (hr : right.c.kind = .pedersen)
    (hrl : right.c.points.length = k + 1) :
    newTranscript ((k + 1 : Nat) : Int) ds (.unmaskedTimesMasked left right) = .ok (some ⟨.interpolation, ⟨.pedersen,
      List.zipWith (fun v m : Fn => v • G + m • H) (productPoly nodes deals at' ω) (productMask nodes deals ω)⟩⟩) := by
  have hlen : ds.length = Q + 1 + deals.length := by
    have := hd.length_eq
    simp only [List.length_map, productDealers, List.length_append, List.length_ofFn] at this
    exact this
  have hmem : ∀ i, i ∈ ds.map Prod.fst → (cm i).points.length = k + 1 := by
    intro i hi
    have := hd.mem_iff.1 hi
    rw [productDealers, List.mem_append, List.mem_ofFn', List.mem_map] at this
    rcases this with ⟨r, rfl⟩ | ⟨x, hx, rfl⟩
    · rw [hh]; simp [ProductDrawn.shown, ProductDrawn.deals]
    · rw [hg x hx]; simp
  refine ((C188_exactly (k + 1) (by omega) ds cm hc (hd.nodup_iff.2 hn) (.unmaskedTimesMasked left right) (by simp)).1 _).2
    ⟨⟨fun x hx => hmem _ (List.mem_map_of_mem hx), ?_, hl, hr, ?_⟩, ?_⟩
  · rintro rfl
    simp at hlen
    omega
  · omega
  simp only [combinedOf, Op.dealingKind, productPoly, productMask]
  congr 3
  refine List.ext_getElem (by simp) fun c h1 h2 => ?_
  have hck : c < k + 1 := by simpa using h2
  simp only [List.getElem_map, List.getElem_range, List.getElem_zipWith, List.getElem_ofFn]
  rw [combinedPoint_eq]
  simp only [Op.weight, funext (weightAtZero_perm hd)]
  rw [(hd.map _).sum_eq]
  suffices h : ∀ w : NodeIndex → Fn, ((productDealers nodes deals).map fun i => w i • (cm i).points.getD c 0).sum =
      (∑ r, w (nodes r) * (ω.deals (fun r => at' (nodes r)) r).getD c 0 +
        (deals.map fun x => w x.1 * (at' x.1 :: List.ofFn x.2.1).getD c 0).sum) • G +
      (∑ r, w (nodes r) * ω.masks r ⟨c, hck⟩ + (deals.map fun x => w x.1 * x.2.2 ⟨c, hck⟩).sum) • H from (h _).symm
  intro w
  rw [productDealers, List.map_append, List.sum_append, List.map_ofFn, List.sum_ofFn, List.map_map]
  have hget : ∀ (a : Fn) (f : Fin k → Fn) (g : Fin (k + 1) → Fn),
      (List.zipWith (fun v m : Fn => v • G + m • H) (a :: List.ofFn f) (List.ofFn g)).getD c 0 =
        (a :: List.ofFn f).getD c 0 • G + g ⟨c, hck⟩ • H := fun a f g => by
    rw [List.getD_eq_getElem?_getD, List.getElem?_eq_getElem (by simp; omega), Option.getD_some, List.getElem_zipWith,
      List.getD_eq_getElem?_getD, List.getElem?_eq_getElem (by simp; omega), Option.getD_some]
    simp only [List.getElem_ofFn]
  have e1 : ∀ r, (cm (nodes r)).points.getD c 0 = (ω.deals (fun r => at' (nodes r)) r).getD c 0 • G + ω.masks r ⟨c, hck⟩ • H := fun r => by
    rw [hh]; exact hget _ _ _
  have e2 : (deals.map ((fun i => w i • (cm i).points.getD c 0) ∘ Prod.fst)) =
      deals.map fun x => w x.1 • ((at' x.1 :: List.ofFn x.2.1).getD c 0 • G + x.2.2 ⟨c, hck⟩ • H) :=
    List.map_congr_left fun x hx => by rw [Function.comp, hg x hx, ← hget]
  have e3 : ∀ l : ProductDealt k, (l.map fun x => w x.1 • ((at' x.1 :: List.ofFn x.2.1).getD c 0 • G + x.2.2 ⟨c, hck⟩ • H)).sum =
      (l.map fun x => w x.1 * (at' x.1 :: List.ofFn x.2.1).getD c 0).sum • G + (l.map fun x => w x.1 * x.2.2 ⟨c, hck⟩).sum • H := by
    intro l
    induction l with
    | nil => simp only [List.map_nil, List.sum_nil]; rw [zero_smul Fn G, zero_smul Fn H, add_zero]
    | cons x l ih => simp only [List.map_cons, List.sum_cons]; rw [ih, add_smul, add_smul, smul_add, smul_smul, smul_smul]; abel
  simp only [Function.comp_apply, e1]
  rw [e2, e3, add_smul, add_smul, Finset.sum_smul, Finset.sum_smul]
  simp only [smul_add, smul_smul, Finset.sum_add_distrib]
  abel

/-- C191, what is made: the constant terms of the products are the products of those of `κ`, respectively the key, and `λ`. -/
theorem C191_products (hB : B.Nodup) (hpos : ∀ j ∈ B, 0 ≤ j.toInt) (hl : B.length = k) (nodes : Fin (Q + 1) → NodeIndex)
    (W : Meddling k M R Q N) (ho : ProductsInOrder B nodes W) (l : List (Outcome M R)) (lam : Fin N → Drawn k M 0)
    (pr : Fin N → ProductDrawn k Q × ProductDrawn k Q) (i : Fin N) : let S := presigSecrets B nodes W l lam pr i
    (toPoly S.kl).eval 0 = (toPoly S.kappa).eval 0 * (toPoly S.lambda).eval 0 ∧
    (toPoly S.xl).eval 0 = (toPoly S.x).eval 0 * (toPoly S.lambda).eval 0 ∧
    (toPoly S.kappa).eval 0 = (nth l (i + 1)).secret ∧ (toPoly S.x).eval 0 = (nth l 0).secret := by
  obtain ⟨η, hη⟩ : ∃ η : Fn, G = η • H := exists_smul_eq H_ne_zero G
  obtain ⟨y, rfl⟩ := (lambdasEquiv hB hpos hl hη fun v => W.adds v (l.map Outcome.view)).surjective lam
  obtain ⟨c, rfl⟩ := (productsEquiv hB hpos hl nodes W l η
    (lambdasEquiv hB hpos hl hη (fun v => W.adds v (l.map Outcome.view)) y)).surjective pr
  have h := presigSecrets_eq hB hpos hl hη nodes W l ho y c i
  intro S
  have h' : S = _ := h
  have hsp := fun (a : Fn) (f : NodeIndex → Fn) => (through_spec (t := k + 1) (B := B) hB hpos (by omega) a f).1
  rw [h']
  simp only [secretsOf, hsp]
  trivial

/-- Meddling with threshold 2: node 3 does in the generations what `echo` does, adds to `λ` what it was sent, and deals in the products with a
coefficient it was sent. -/
def echoes : Meddling 1 1 2 1 1 where
  keys _ := echo
  adds f _ i _ := ((f i).openings 0 3).1
  addsMask f _ i _ := ((f i).openings 1 3).2
  klDeals v _ i := [(3, fun _ => ((v i).kl.openings 0 3).1, fun _ => ((v i).lambda.openings 0 3).2)]
  xlDeals v _ i := [(3, fun _ => ((v i).xl.openings 1 3).1, fun _ => ((v i).kl.openings 0 3).2)]

/-- The hypotheses can be met: nodes 0 and 1 are honest, node 3 is not, a key and one nonce are generated, one presignature is made, and one
signature. -/
example (P : Prim) : ProductsInOrder [3] ![0, 1] echoes ∧ ∃ η : Fn, G = η • H ∧
    ∀ A : Attacker 1 2 1 1 (Option Fn), A = (fun _ _ _ _ => .sign 0 ⟨[], [5], []⟩ fun a =>
      .stop (a.bind fun f => match f 0 with | .ok ⟨some (.pedersen v _), _⟩ => some v | _ => none)) →
    (∀ l lam pr, (protocol [3] ![0, 1] echoes P A l lam pr).1 = [(0, ⟨[], [5], []⟩)]) ∧
    ∀ v, Oracle.share (fun u : (Fin 2 → Drawn 1 1 2) × (Fin 1 → Drawn 1 1 0) × (Fin 1 → ProductDrawn 1 1 × ProductDrawn 1 1) =>
        (protocol [3] ![0, 1] echoes P A (generate [3] ![0, 1] (echoes.keys (lambdaViews [3] u.2.1)) (List.ofFn u.1)) u.2.1 u.2.2).2 = v) =
      Oracle.share (fun u : (Fin 2 → Fn × Coins 1 1 2) × (Fin 1 → Fn) × (Fin 1 → PresigCoins 1 1 1) =>
        (protocolOracle [3] ![0, 1] echoes P A η ((u.1 0).1 • G) (fun i => (u.1 i.succ).1 • G)
          (ecdsaOracle (u.1 0).1 fun i => (u.1 i.succ).1)
          (makeUp [3] ![0, 1] (echoes.keys fun i => (u.2.2 i).lambda.first [3]) (List.ofFn u.1)) u.2.1 u.2.2).2 = v) := by
  have ho : ProductsInOrder [3] ![0, 1] echoes := ⟨by decide, by decide, by simp [echoes], by simp [echoes]⟩
  refine ⟨ho, ?_⟩
  obtain ⟨η, hη⟩ := exists_smul_eq H_ne_zero G
  refine ⟨η, hη, ?_⟩
  rintro A rfl
  refine ⟨fun l lam pr => ?_, fun v => ?_⟩
  · simp [protocol, attackWith, Attack.run]
  · exact C191_same (k := 1) (M := 1) (R := 2) (Q := 1) (N := 1) (B := [3]) (by simp) (by simp) rfl η hη ![0, 1] echoes ho P _ ![0, 1]
      fun _ r => r.2 = v

end Verif.KeyGen
