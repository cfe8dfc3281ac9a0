import Verif.Props.SignGame
import Verif.Props.TranscriptExact
import Verif.Lemmas.Hybrid
import Verif.Spec.KeyGen

/-!
Property C189: of the generation of a key, a group one short of the threshold sees nothing but the public key.
-/

set_option autoImplicit false

namespace Verif.KeyGen

open Dealings Sign Polynomial
open Point (H)

theorem valueAt_map (q : List Fn) (x : Fn) : valueAt (q.map fun v : Fn => v • G) x = (toPoly q).eval x • G := by
  rw [valueAt_range (t := q.length) _ _ (by simp), toPoly, eval_finsetSum, Finset.sum_smul,
    ← Fin.sum_univ_eq_sum_range (fun j => x ^ j • (q.map fun v : Fn => v • G).getD j 0)]
  refine Finset.sum_congr rfl fun j _ => ?_
  have : (q.map fun v : Fn => v • G).getD (j : Nat) 0 = q[j] • G := by
    simp [List.getD_eq_getElem?_getD]
  rw [this, smul_smul, eval_mul, eval_C, eval_pow, eval_X, mul_comm]

theorem eval_ofFn {t : Nat} (f : Fin t → Fn) (x : Fn) : (toPoly (List.ofFn f)).eval x = ∑ c, f c * x ^ (c : Nat) := by
  rw [toPoly, eval_finsetSum]
  rw [← Fin.sum_congr' (fun c : Fin t => f c * x ^ (c : Nat)) (List.length_ofFn (f := f))]
  refine Finset.sum_congr rfl fun c _ => ?_
  rw [eval_mul, eval_C, eval_pow, eval_X]
  congr 1
  exact List.getElem_ofFn ..

variable {k M R : Nat} {B : List NodeIndex}

theorem through_congr {t : Nat} {a : Fn} {f g : NodeIndex → Fn} (h : ∀ j ∈ B, f j = g j) : through t B a f = through t B a g := by
  rw [through, through]
  refine List.map_congr_left fun c _ => ?_
  congr 2
  exact List.map_congr_left fun j hj => by rw [h j hj]

theorem given_of_notMem (hl : B.length = k) (s : Fin k → Fn) {j : NodeIndex} (hj : j ∉ B) : given B s j = 0 := by
  rw [given, List.idxOf_of_notMem hj, List.getD_eq_getElem?_getD, List.getElem?_eq_none (by simp [hl])]
  rfl

theorem given_get (hB : B.Nodup) (hl : B.length = k) (s : Fin k → Fn) (i : Fin k) : given B s (B[(i : Nat)]'(by omega)) = s i := by
  rw [given, hB.idxOf_getElem]
  simp [List.getD_eq_getElem?_getD]

section equiv

variable (B)

/-- The polynomial with value `a` at 0 and the given values for the group. -/
noncomputable def polyOf (a : Fn) (s : Fin k → Fn) : Fin (k + 1) → Fn := fun c => (through (k + 1) B a (given B s)).getD c 0

/-- The values of a polynomial for the group. -/
noncomputable def heldOf (q : List Fn) : Fin k → Fn := fun i => (toPoly q).eval (place (B.getD i 0))

variable {B}

theorem ofFn_polyOf (a : Fn) (s : Fin k → Fn) : List.ofFn (polyOf B a s) = through (k + 1) B a (given B s) := by
  refine List.ext_getElem (by simp [length_through]) fun i h1 h2 => ?_
  rw [List.getElem_ofFn, polyOf, List.getD_eq_getElem?_getD, List.getElem?_eq_getElem h2]
  rfl

variable (hB : B.Nodup) (hpos : ∀ j ∈ B, 0 ≤ j.toInt) (hl : B.length = k)

include hB hl in
theorem given_heldOf (q : List Fn) : given B (heldOf (k := k) B q) = forGroup B q := by
  funext j
  rw [forGroup]
  split_ifs with hj
  · obtain ⟨i, hi, rfl⟩ := List.getElem_of_mem hj
    rw [given_get hB hl _ ⟨i, by omega⟩, heldOf]
    simp [List.getD_eq_getElem?_getD, List.getElem?_eq_getElem hi]
  · exact given_of_notMem hl _ hj

include hB hpos hl

theorem heldOf_through (a : Fn) (s : Fin k → Fn) : heldOf B (through (k + 1) B a (given B s)) = s := by
  funext i
  have hi : (i : Nat) < B.length := by omega
  rw [heldOf, List.getD_eq_getElem?_getD, List.getElem?_eq_getElem hi, Option.getD_some,
    (through_spec hB hpos (by omega) a _).2 _ (List.getElem_mem hi), given_get hB hl]

theorem through_heldOf {q : List Fn} (hq : q.length = k + 1) : through (k + 1) B ((toPoly q).eval 0) (given B (heldOf (k := k) B q)) = q := by
  refine (eq_through hB hpos (by omega) hq rfl fun j hj => ?_).symm
  rw [given_heldOf hB hl, forGroup, if_pos hj]

theorem polyOf_heldOf (f : Fin (k + 1) → Fn) : polyOf B ((toPoly (List.ofFn f)).eval 0) (heldOf B (List.ofFn f)) = f := by
  have := (ofFn_polyOf ((toPoly (List.ofFn f)).eval 0) (heldOf (k := k) B (List.ofFn f))).trans
    (through_heldOf hB hpos hl (q := List.ofFn f) (by simp))
  exact List.ofFn_injective this

theorem eval_polyOf (a : Fn) (s : Fin k → Fn) : (toPoly (List.ofFn (polyOf B a s))).eval 0 = a := by
  rw [ofFn_polyOf, (through_spec hB hpos (by omega) a _).1]

theorem polyOf_zero (a : Fn) (s : Fin k → Fn) : polyOf B a s 0 = a := by
  have := eval_polyOf hB hpos hl a s
  rw [eval_ofFn, Fin.sum_univ_succ] at this
  simpa using this

theorem forGroup_through (a : Fn) (s : Fin k → Fn) : forGroup B (through (k + 1) B a (given B s)) = given B s := by
  rw [← given_heldOf hB hl, heldOf_through hB hpos hl]

theorem cons_tail (a : Fn) (s : Fin k → Fn) : a :: List.ofFn (fun c : Fin k => polyOf B a s c.succ) = through (k + 1) B a (given B s) := by
  rw [← ofFn_polyOf, List.ofFn_succ, polyOf_zero hB hpos hl]

theorem tail_cons (a : Fn) (c : Fin k → Fn) : (fun i : Fin k => polyOf B a (heldOf B (a :: List.ofFn c)) i.succ) = c := by
  have h := polyOf_heldOf hB hpos hl (Fin.cons a c)
  have h0 : List.ofFn (Fin.cons a c : Fin (k + 1) → Fn) = a :: List.ofFn c := by simp [List.ofFn_succ]
  have h1 : (toPoly (a :: List.ofFn c)).eval 0 = a := by simp [toPoly_cons]
  rw [h0, h1] at h
  funext i
  rw [h]
  rfl

end equiv

variable (nodes : Fin R → NodeIndex) (others : First M → Fin (k + 1) → Fn)

/-- What is drawn by the honest nodes, from what is drawn by the program that makes things up, the key, and the values at 0 that all
polynomials but one share with others. -/
noncomputable def toDrawn (B : List NodeIndex) (η : Fn) (y : (Fin M → Fn) × (Fn × Coins k M R)) : Drawn k M R :=
  let c := y.2.2
  let a : Fin (M + 1) → Fn := Fin.cons (y.2.1 - ∑ d, y.1 d - others (c.first B) 0) y.1
  { values := fun d => polyOf B (a d) (c.values d)
    masks := fun d => polyOf B (c.points d - a d * η) (c.masks d)
    tails := fun r i => polyOf B ((toPoly (through (k + 1) B y.2.1 (groupShare others (c.first B)))).eval (place (nodes r))) (c.later r) i.succ }

/-- The other way. -/
noncomputable def ofDrawn (B : List NodeIndex) (η : Fn) (ω : Drawn k M R) : (Fin M → Fn) × (Fn × Coins k M R) :=
  (fun d => (toPoly (List.ofFn (ω.values d.succ))).eval 0, ω.key B others,
    { points := fun d => (toPoly (List.ofFn (ω.masks d))).eval 0 + (toPoly (List.ofFn (ω.values d))).eval 0 * η
      values := fun d => heldOf B (List.ofFn (ω.values d))
      masks := fun d => heldOf B (List.ofFn (ω.masks d))
      later := fun r => heldOf B (ω.reshared B nodes others r) })

section main

variable (hB : B.Nodup) (hpos : ∀ j ∈ B, 0 ≤ j.toInt) (hl : B.length = k) {η : Fn} (hη : G = η • H)

include hB hpos hl

include hη in
theorem first_toDrawn (y : (Fin M → Fn) × (Fn × Coins k M R)) : (toDrawn nodes others B η y).first B = y.2.2.first B := by
  simp only [Drawn.first, Coins.first, toDrawn, First.mk.injEq]
  constructor
  · funext d
    rw [ofFn_polyOf, ofFn_polyOf, zipWith_through, commit_zero hη _ _ _ rfl]
  · funext d j
    rw [ofFn_polyOf, ofFn_polyOf, forGroup_through hB hpos hl, forGroup_through hB hpos hl]

include hη in
theorem first_ofDrawn (ω : Drawn k M R) : (ofDrawn nodes others B η ω).2.2.first B = ω.first B := by
  simp only [Drawn.first, Coins.first, ofDrawn, First.mk.injEq]
  constructor
  · funext d
    have e : ∀ a b : Fn, (b + a * η) • H = a • G + b • H := fun a b => (commit_zero hη a b _ (by ring)).symm
    rw [e, ← zipWith_through, through_heldOf hB hpos hl (by simp), through_heldOf hB hpos hl (by simp)]
  · funext d j
    rw [given_heldOf hB hl, given_heldOf hB hl]

omit hB hpos hl in
theorem eval_secret (ω : Drawn k M R) (x : Fn) : (toPoly (ω.secret B others)).eval x =
    ∑ d, (toPoly (List.ofFn (ω.values d))).eval x + (toPoly (List.ofFn (others (ω.first B)))).eval x := by
  simp only [Drawn.secret, eval_ofFn, add_mul, Finset.sum_add_distrib, Finset.sum_mul]
  rw [Finset.sum_comm]

theorem secret_eq (ω : Drawn k M R) : ω.secret B others = through (k + 1) B (ω.key B others) (groupShare others (ω.first B)) := by
  refine eq_through hB hpos (by omega) (by simp [Drawn.secret]) rfl fun j hj => ?_
  rw [eval_secret, groupShare]
  simp only [Drawn.first, forGroup, if_pos hj]

omit hB hpos hl in
theorem eval_zero_ofFn {t : Nat} (f : Fin (t + 1) → Fn) : (toPoly (List.ofFn f)).eval 0 = f 0 := by
  rw [eval_ofFn, Fin.sum_univ_succ]
  simp

include hη in
theorem key_toDrawn (y : (Fin M → Fn) × (Fn × Coins k M R)) : (toDrawn nodes others B η y).key B others = y.2.1 := by
  rw [Drawn.key, eval_secret, first_toDrawn nodes others hB hpos hl hη, eval_zero_ofFn]
  have : ∀ d, (toPoly (List.ofFn ((toDrawn nodes others B η y).values d))).eval 0 =
      (Fin.cons (y.2.1 - ∑ d, y.1 d - others (y.2.2.first B) 0) y.1 : Fin (M + 1) → Fn) d := fun d => eval_polyOf hB hpos hl _ _
  simp only [this, Fin.sum_univ_succ, Fin.cons_zero, Fin.cons_succ]
  ring

include hη in
theorem reshared_toDrawn (y : (Fin M → Fn) × (Fn × Coins k M R)) (r : Fin R) : (toDrawn nodes others B η y).reshared B nodes others r =
    through (k + 1) B ((toPoly (through (k + 1) B y.2.1 (groupShare others (y.2.2.first B)))).eval (place (nodes r))) (given B (y.2.2.later r)) := by
  rw [Drawn.reshared, secret_eq others hB hpos hl, key_toDrawn nodes others hB hpos hl hη, first_toDrawn nodes others hB hpos hl hη]
  exact cons_tail hB hpos hl _ _

omit hB hpos hl in
theorem Drawn.ext_fields {a b : Drawn k M R} (h1 : a.values = b.values) (h2 : a.masks = b.masks) (h3 : a.tails = b.tails) : a = b := by
  obtain ⟨a1, a2, a3⟩ := a
  obtain ⟨b1, b2, b3⟩ := b
  obtain rfl : a1 = b1 := h1
  obtain rfl : a2 = b2 := h2
  obtain rfl : a3 = b3 := h3
  rfl

/-- What is drawn is, one to one, what the other program draws, the key, and the other values at 0. -/
noncomputable def drawnEquiv (hη : G = η • H) : (Fin M → Fn) × (Fn × Coins k M R) ≃ Drawn k M R where
  toFun := toDrawn nodes others B η
  invFun := ofDrawn nodes others B η
  left_inv y := by
    obtain ⟨h, x, c⟩ := y
    have h0 := key_toDrawn nodes others hB hpos hl hη (h, x, c)
    have hr := reshared_toDrawn nodes others hB hpos hl hη (h, x, c)
    have he : ∀ d, (toPoly (List.ofFn ((toDrawn nodes others B η (h, x, c)).values d))).eval 0 =
      (Fin.cons (x - ∑ d, h d - others (c.first B) 0) h : Fin (M + 1) → Fn) d := fun d => eval_polyOf hB hpos hl _ _
    have hm : ∀ d, (toPoly (List.ofFn ((toDrawn nodes others B η (h, x, c)).masks d))).eval 0 =
      c.points d - (Fin.cons (x - ∑ d, h d - others (c.first B) 0) h : Fin (M + 1) → Fn) d * η := fun d => eval_polyOf hB hpos hl _ _
    rw [ofDrawn, h0]
    refine Prod.ext (funext fun d => ?_) (Prod.ext rfl ?_)
    · simp only [he, Fin.cons_succ]
    · obtain ⟨cp, cv, cm, cl⟩ := c
      simp only [Coins.mk.injEq]
      refine ⟨funext fun d => ?_, funext fun d => ?_, funext fun d => ?_, funext fun r => ?_⟩
      · rw [he, hm]; ring
      · exact (congrArg (heldOf B) (ofFn_polyOf _ _)).trans (heldOf_through hB hpos hl _ _)
      · exact (congrArg (heldOf B) (ofFn_polyOf _ _)).trans (heldOf_through hB hpos hl _ _)
      · rw [hr]; exact heldOf_through hB hpos hl _ _
  right_inv ω := by
    have hf := first_ofDrawn nodes others hB hpos hl hη ω
    have ha : (Fin.cons ((ofDrawn nodes others B η ω).2.1 - ∑ d, (ofDrawn nodes others B η ω).1 d -
        others ((ofDrawn nodes others B η ω).2.2.first B) 0) (ofDrawn nodes others B η ω).1 : Fin (M + 1) → Fn) =
        fun d => (toPoly (List.ofFn (ω.values d))).eval 0 := by
      funext d
      refine Fin.cases ?_ (fun d => rfl) d
      rw [hf, Fin.cons_zero]
      simp only [ofDrawn, Drawn.key, eval_secret, eval_zero_ofFn, Fin.sum_univ_succ]
      ring
    refine Drawn.ext_fields (funext fun d => ?_) (funext fun d => ?_) (funext fun r => ?_)
    · exact (congrArg (fun a => polyOf B a (heldOf B (List.ofFn (ω.values d)))) (congrFun ha d)).trans (polyOf_heldOf hB hpos hl _)
    · refine (congrArg (fun a => polyOf B ((ofDrawn nodes others B η ω).2.2.points d - a * η) (heldOf B (List.ofFn (ω.masks d))))
        (congrFun ha d)).trans ?_
      simp only [ofDrawn, add_sub_cancel_right]
      exact polyOf_heldOf hB hpos hl _
    · have h1 : through (k + 1) B (ofDrawn nodes others B η ω).2.1 (groupShare others ((ofDrawn nodes others B η ω).2.2.first B)) =
          ω.secret B others := by
        rw [hf]; exact (secret_eq others hB hpos hl ω).symm
      have h2 : (toDrawn nodes others B η (ofDrawn nodes others B η ω)).tails r = fun i : Fin k =>
          polyOf B ((toPoly (ω.secret B others)).eval (place (nodes r))) (heldOf B (ω.reshared B nodes others r)) i.succ := by
        rw [← h1]; rfl
      rw [h2]
      exact tail_cons hB hpos hl _ _

instance : Finite (Drawn k M R) :=
  Finite.of_injective (fun ω => (ω.values, ω.masks, ω.tails)) fun a b h => by
    obtain ⟨a1, a2, a3⟩ := a
    obtain ⟨b1, b2, b3⟩ := b
    simp only [Prod.mk.injEq] at h
    obtain ⟨rfl, rfl, rfl⟩ := h
    rfl

instance : Finite (Coins k M R) :=
  Finite.of_injective (fun c => (c.points, c.values, c.masks, c.later)) fun a b h => by
    obtain ⟨a1, a2, a3, a4⟩ := a
    obtain ⟨b1, b2, b3, b4⟩ := b
    simp only [Prod.mk.injEq] at h
    obtain ⟨rfl, rfl, rfl, rfl⟩ := h
    rfl

include hη in
theorem shown_toDrawn (y : (Fin M → Fn) × (Fn × Coins k M R)) :
    (toDrawn nodes others B η y).shown B nodes others = y.2.2.made B nodes others (y.2.1 • G) := by
  simp only [Drawn.shown, Coins.made, Shown.mk.injEq]
  refine ⟨first_toDrawn nodes others hB hpos hl hη y, funext fun r => ?_, funext fun r => ?_⟩
  · rw [reshared_toDrawn nodes others hB hpos hl hη, map_through, ← map_through y.2.1, valueAt_map]
  · rw [reshared_toDrawn nodes others hB hpos hl hη, forGroup_through hB hpos hl]

end main

/-- C189, the view: whatever one asks of what the group sees and of the key, it is so for the same share of all the honest nodes' choices as of
all choices of a key and of the coins of the program that makes the view up from the public key.  The others choose what they add after they
have seen the honest dealings. -/
theorem C189_same (hB : B.Nodup) (hpos : ∀ j ∈ B, 0 ≤ j.toInt) (hl : B.length = k) (p : Shown M R → Fn → Prop) :
    Oracle.share (fun ω : Drawn k M R => p (ω.shown B nodes others) (ω.key B others)) =
      Oracle.share (fun y : Fn × Coins k M R => p (y.2.made B nodes others (y.1 • G)) y.1) := by
  obtain ⟨η, hη⟩ : ∃ η : Fn, G = η • H := exists_smul_eq H_ne_zero G
  rw [← Oracle.share_equiv (drawnEquiv nodes others hB hpos hl hη)]
  rw [← Oracle.share_fst (β := Fin M → Fn) fun y : Fn × Coins k M R => p (y.2.made B nodes others (y.1 • G)) y.1,
    ← Oracle.share_equiv (Equiv.prodComm (Fin M → Fn) (Fn × Coins k M R))]
  congr 1
  funext y
  change p ((toDrawn nodes others B η y).shown B nodes others) ((toDrawn nodes others B η y).key B others) = _
  rw [shown_toDrawn nodes others hB hpos hl hη, key_toDrawn nodes others hB hpos hl hη]
  rfl

variable (dealt : Shown M R → Dealt k)

theorem weights_sum {samples : List NodeIndex} (hne : samples ≠ []) (hn : samples.Nodup) {f : Fn[X]} (hf : f.degree < samples.length) :
    (samples.map fun i => weightAtZero samples i * f.eval (place i)).sum = f.eval 0 := by
  obtain ⟨w, hw, hs⟩ := Lagr.weights 0 samples hne hn
  have h := (atZero_weights samples hne hn).symm.trans hw
  rw [Res.ok.injEq, List.map_inj_left] at h
  rw [← hs f hf]
  congr 1
  exact List.map_congr_left fun i hi => by rw [h i hi]

theorem groupShare_eq (ω : Drawn k M R) {j : NodeIndex} (hj : j ∈ B) :
    groupShare others (ω.first B) j = (toPoly (ω.secret B others)).eval (place j) := by
  rw [eval_secret, groupShare]
  simp only [Drawn.first, forGroup, if_pos hj]

theorem sum_ofFn_getD {q : List Fn} (hq : q.length = k + 1) (x : Fn) : ∑ c : Fin (k + 1), q.getD c 0 * x ^ (c : Nat) = (toPoly q).eval x := by
  rw [← eval_ofFn]
  congr 2
  refine List.ext_getElem (by simp [hq]) fun i h1 h2 => ?_
  rw [List.getElem_ofFn, List.getD_eq_getElem?_getD, List.getElem?_eq_getElem h2]
  rfl

theorem eval_keyPoly (ω : Drawn k M R) (x : Fn) : (toPoly (ω.keyPoly B nodes others dealt)).eval x =
    ∑ r, weightAtZero (dealers nodes dealt (ω.shown B nodes others)) (nodes r) * (toPoly (ω.reshared B nodes others r)).eval x +
      ((dealt (ω.shown B nodes others)).map fun z => weightAtZero (dealers nodes dealt (ω.shown B nodes others)) z.1 *
        (toPoly (groupDeals others (ω.shown B nodes others) z)).eval x).sum := by
  rw [Drawn.keyPoly]
  simp only [eval_ofFn, add_mul, Finset.sum_add_distrib]
  congr 1
  · simp only [Finset.sum_mul]
    rw [Finset.sum_comm]
    refine Finset.sum_congr rfl fun r _ => ?_
    simp only [mul_assoc]
    rw [← Finset.mul_sum, sum_ofFn_getD (by simp [Drawn.reshared])]
  · generalize dealers nodes dealt (ω.shown B nodes others) = D
    induction dealt (ω.shown B nodes others) with
    | nil => simp
    | cons z l ih =>
      simp only [List.map_cons, List.sum_cons, add_mul, Finset.sum_add_distrib]
      rw [ih]
      congr 1
      simp only [mul_assoc]
      rw [← Finset.mul_sum, sum_ofFn_getD (by simp [groupDeals])]

theorem nodup_dealers {B : List NodeIndex} (ho : InOrder B nodes dealt) (v : Shown M R) : (dealers nodes dealt v).Nodup := by
  rw [dealers, List.nodup_append]
  refine ⟨List.nodup_ofFn.2 ho.honest, ho.distinct v, ?_⟩
  rintro a ha b hb rfl
  obtain ⟨r, rfl⟩ := (List.mem_ofFn' _ _).1 ha
  obtain ⟨x, hx, e⟩ := List.mem_map.1 hb
  exact ho.apart r (e ▸ ho.group v x hx)

/-- C189, the key: resharing leaves the key as it is, and the shares of the group are those it computes from what it sees, so that for the group
the polynomial is the one through the key and values that it knows. -/
theorem C189_key (hB : B.Nodup) (hpos : ∀ j ∈ B, 0 ≤ j.toInt) (hl : B.length = k) (ho : InOrder B nodes dealt) (ω : Drawn k M R) :
    ω.keyPoly B nodes others dealt = through (k + 1) B (ω.key B others) (keyShares nodes others dealt (ω.shown B nodes others)) := by
  refine eq_through hB hpos (by omega) (by simp [Drawn.keyPoly]) ?_ fun j hj => ?_
  · have hne : dealers nodes dealt (ω.shown B nodes others) ≠ [] := by
      intro h
      have h1 := congrArg List.length h
      have h2 := ho.enough (ω.shown B nodes others)
      rw [dealers, List.length_append, List.length_ofFn, List.length_map, List.length_nil] at h1
      omega
    have hd : (toPoly (ω.secret B others)).degree < (dealers nodes dealt (ω.shown B nodes others)).length := by
      refine lt_of_lt_of_le (degree_toPoly_lt _) ?_
      have h2 := ho.enough (ω.shown B nodes others)
      simp only [Drawn.secret, List.length_ofFn, dealers, List.length_append, List.length_map]
      exact_mod_cast h2
    have h := weights_sum hne (nodup_dealers nodes dealt ho _) hd
    rw [Drawn.key, ← h, eval_keyPoly]
    generalize hw : weightAtZero (dealers nodes dealt (ω.shown B nodes others)) = w
    rw [dealers, List.map_append, List.sum_append, List.map_ofFn, List.sum_ofFn, List.map_map]
    congr 1
    · refine Finset.sum_congr rfl fun r _ => ?_
      simp [Drawn.reshared, toPoly_cons]
    · congr 1
      refine List.map_congr_left fun z hz => ?_
      simp only [Function.comp, groupDeals, toPoly_cons]
      rw [show (ω.shown B nodes others).first = ω.first B from rfl, groupShare_eq others ω (ho.group _ z hz)]
      simp
  · rw [eval_keyPoly, keyShares]
    congr 1
    refine Finset.sum_congr rfl fun r _ => ?_
    simp only [Drawn.shown, forGroup, if_pos hj]

theorem weightAtZero_perm {l l' : List NodeIndex} (h : l.Perm l') (i : NodeIndex) : weightAtZero l i = weightAtZero l' i := by
  rw [weightAtZero, weightAtZero]
  exact ((h.filter _).map _).prod_eq

/-- C189, the transcript: it is what `NewTranscriptInternal` makes of the dealings of the second round, and the group can compute it from the
public key and what it sees. -/
theorem C189_transcript (hB : B.Nodup) (hpos : ∀ j ∈ B, 0 ≤ j.toInt) (hl : B.length = k) (ho : InOrder B nodes dealt) (ω : Drawn k M R)
    (ds : DealingMap) (cm : NodeIndex → Commitment) (hc : Commits ds cm)
    (hd : (ds.map Prod.fst).Perm (dealers nodes dealt (ω.shown B nodes others)))
    (hh : ∀ r, cm (nodes r) = ⟨.simple, (ω.shown B nodes others).commitments r⟩)
    (hg : ∀ x ∈ dealt (ω.shown B nodes others), cm x.1 = ⟨.simple, (groupDeals others (ω.shown B nodes others) x).map fun v : Fn => v • G⟩)
    (p : Com) (hp : p.c.kind = .pedersen) (hpl : p.c.points.length = k + 1) :
    newTranscript ((k + 1 : Nat) : Int) ds (.reshareMasked p) = .ok (some ⟨.interpolation, ⟨.simple,
      throughPts (k + 1) B (ω.key B others • G) fun j => keyShares nodes others dealt (ω.shown B nodes others) j • G⟩⟩) := by
  have hn : (ds.map Prod.fst).Nodup := hd.nodup_iff.2 (nodup_dealers nodes dealt ho _)
  have hlen : ds.length = R + (dealt (ω.shown B nodes others)).length := by
    have := hd.length_eq
    simpa [dealers] using this
  have hmem : ∀ i, i ∈ ds.map Prod.fst → (cm i).points.length = k + 1 := by
    intro i hi
    have := hd.mem_iff.1 hi
    rw [dealers, List.mem_append, List.mem_ofFn', List.mem_map] at this
    rcases this with ⟨r, rfl⟩ | ⟨x, hx, rfl⟩
    · rw [hh]; simp [Drawn.shown, Drawn.reshared]
    · rw [hg x hx]; simp [groupDeals]
  refine ((C188_exactly (k + 1) (by omega) ds cm hc hn (.reshareMasked p) (by simp)).1 _).2 ⟨⟨fun x hx => hmem _ (List.mem_map_of_mem hx),
    ?_, hp, ?_⟩, ?_⟩
  · rintro rfl
    have := ho.enough (ω.shown B nodes others)
    simp at hlen
    omega
  · have := ho.enough (ω.shown B nodes others)
    omega
  · rw [← map_through, ← C189_key nodes others dealt hB hpos hl ho]
    simp only [combinedOf, Op.dealingKind, Drawn.keyPoly, List.map_ofFn]
    congr 3
    refine List.ext_getElem (by simp) fun c h1 h2 => ?_
    simp only [List.getElem_map, List.getElem_range, List.getElem_ofFn, Function.comp]
    rw [combinedPoint_eq]
    simp only [Op.weight, funext (weightAtZero_perm hd)]
    have hsum := (hd.map fun i => weightAtZero (dealers nodes dealt (ω.shown B nodes others)) i • (cm i).points.getD c 0).sum_eq
    rw [hsum]
    generalize weightAtZero (dealers nodes dealt (ω.shown B nodes others)) = w
    have hget : ∀ (q : List Fn), (q.map fun v : Fn => v • G).getD c 0 = q.getD c 0 • G := fun q => by
      simp only [List.getD_eq_getElem?_getD, List.getElem?_map]
      cases q[c]? with
      | none => exact (zero_smul Fn G).symm
      | some a => rfl
    rw [dealers, List.map_append, List.sum_append, List.map_ofFn, List.sum_ofFn, List.map_map, add_smul, Finset.sum_smul]
    congr 1
    · refine Finset.sum_congr rfl fun r _ => ?_
      simp only [Function.comp, hh, Drawn.shown, hget, smul_smul]
    · have : ∀ (l : Dealt k), (∀ x ∈ l, cm x.1 = ⟨.simple, (groupDeals others (ω.shown B nodes others) x).map fun v : Fn => v • G⟩) →
          (l.map ((fun i => w i • (cm i).points.getD c 0) ∘ Prod.fst)).sum =
            (l.map fun x => w x.1 * (groupDeals others (ω.shown B nodes others) x).getD c 0).sum • G := by
        intro l
        induction l with
        | nil => intro _; exact (zero_smul Fn G).symm
        | cons x l ih =>
          intro h
          simp only [List.map_cons, List.sum_cons, Function.comp]
          rw [add_smul, ← ih fun y hy => h y (List.mem_cons_of_mem _ hy), h x List.mem_cons_self]
          simp only [hget, smul_smul]
      exact (this _ hg).symm

theorem getD_zipWith (f g : Fin (k + 1) → Fn) (c : Fin (k + 1)) :
    (List.zipWith (fun v m : Fn => v • G + m • H) (List.ofFn f) (List.ofFn g)).getD c 0 = f c • G + g c • H := by
  rw [List.getD_eq_getElem?_getD, List.getElem?_eq_getElem (by simp; omega), Option.getD_some, List.getElem_zipWith]
  simp only [List.getElem_ofFn]

/-- C189, the first round: what `NewTranscriptInternal` makes of the honest dealings and those of others, whose polynomials add up to
`others`, is the commitment to the secret polynomial. -/
theorem C189_random (ω : Drawn k M R) (first : Fin (M + 1) → NodeIndex) (added : List (NodeIndex × (Fin (k + 1) → Fn) × (Fin (k + 1) → Fn)))
    (ds : DealingMap) (cm : NodeIndex → Commitment) (hc : Commits ds cm) (hn : (ds.map Prod.fst).Nodup)
    (hd : (ds.map Prod.fst).Perm (List.ofFn first ++ added.map Prod.fst))
    (hh : ∀ d, cm (first d) = ⟨.pedersen, (ω.first B).commitments d⟩)
    (hg : ∀ x ∈ added, cm x.1 = ⟨.pedersen, List.zipWith (fun v m : Fn => v • G + m • H) (List.ofFn x.2.1) (List.ofFn x.2.2)⟩)
    (hs : ∀ c, others (ω.first B) c = (added.map fun x => x.2.1 c).sum) :
    newTranscript ((k + 1 : Nat) : Int) ds .random = .ok (some ⟨.summation, ⟨.pedersen,
      List.zipWith (fun v m : Fn => v • G + m • H) (ω.secret B others)
        (List.ofFn fun c => ∑ d, ω.masks d c + (added.map fun x => x.2.2 c).sum)⟩⟩) := by
  have hmem : ∀ i, i ∈ ds.map Prod.fst → (cm i).points.length = k + 1 ∧ (cm i).kind = .pedersen := by
    intro i hi
    have := hd.mem_iff.1 hi
    rw [List.mem_append, List.mem_ofFn', List.mem_map] at this
    rcases this with ⟨r, rfl⟩ | ⟨x, hx, rfl⟩
    · rw [hh]; simp [Drawn.first]
    · rw [hg x hx]; simp
  refine ((C188_exactly (k + 1) (by omega) ds cm hc hn .random (by simp)).1 _).2 ⟨⟨fun x hx => (hmem _ (List.mem_map_of_mem hx)).1,
    fun x hx => (hmem _ (List.mem_map_of_mem hx)).2⟩, ?_⟩
  simp only [combinedOf, Op.dealingKind, Drawn.secret]
  congr 3
  refine List.ext_getElem (by simp) fun c h1 h2 => ?_
  have hck : c < k + 1 := by simpa using h2
  simp only [List.getElem_map, List.getElem_range, List.getElem_zipWith, List.getElem_ofFn]
  rw [combinedPoint_eq, (hd.map _).sum_eq, List.map_append, List.sum_append, List.map_ofFn, List.sum_ofFn, List.map_map]
  simp only [Op.weight, one_smul]
  have e1 : ∀ d, (cm (first d)).points.getD c 0 = ω.values d ⟨c, hck⟩ • G + ω.masks d ⟨c, hck⟩ • H := fun d => by
    rw [hh]; exact getD_zipWith (ω.values d) (ω.masks d) ⟨c, hck⟩
  have e2 : (added.map ((fun i => (cm i).points.getD c 0) ∘ Prod.fst)) = added.map fun x => x.2.1 ⟨c, hck⟩ • G + x.2.2 ⟨c, hck⟩ • H :=
    List.map_congr_left fun x hx => by rw [Function.comp, hg x hx]; exact getD_zipWith x.2.1 x.2.2 ⟨c, hck⟩
  simp only [Function.comp_apply, e1]
  rw [e2]
  have e3 : ∀ l : List (NodeIndex × (Fin (k + 1) → Fn) × (Fin (k + 1) → Fn)),
      (l.map fun x => x.2.1 ⟨c, hck⟩ • G + x.2.2 ⟨c, hck⟩ • H).sum =
        (l.map fun x => x.2.1 ⟨c, hck⟩).sum • G + (l.map fun x => x.2.2 ⟨c, hck⟩).sum • H := by
    intro l
    induction l with
    | nil => simp only [List.map_nil, List.sum_nil]; rw [zero_smul Fn G, zero_smul Fn H, add_zero]
    | cons x l ih => simp only [List.map_cons, List.sum_cons]; rw [ih, add_smul, add_smul]; abel
  rw [e3, show others _ ⟨c, hck⟩ = _ from hs ⟨c, hck⟩, add_smul, add_smul, Finset.sum_smul, Finset.sum_smul, Finset.sum_add_distrib]
  abel

/-- The hypotheses can be met: with threshold 2, nodes 0 and 1 deal and reshare, node 3 sees it and answers the dealings of the first round with the
values it was sent.  Of the key it knows nothing: for every value of the key the share is the same. -/
example (v : Fn) : InOrder (M := 1) (k := 1) [3] ![0, 1] (fun _ => []) ∧
    Oracle.share (fun ω : Drawn 1 1 2 => ω.key [3] (fun f _ => (f.openings 0 3).1) = v) = 1 / n := by
  refine ⟨⟨by decide, by decide, by simp, by simp, by simp⟩, ?_⟩
  refine (C189_same (k := 1) (M := 1) (R := 2) (B := [3]) ![0, 1] (fun f _ => (f.openings 0 3).1) (by simp) (by simp) rfl
    (fun _ x => x = v)).trans ?_
  have : Nonempty (Coins 1 1 2) := ⟨⟨0, 0, 0, 0⟩⟩
  rw [Oracle.share_fst (β := Coins 1 1 2) fun x => x = v, Oracle.share, Nat.card_eq_fintype_card (α := Fn), ZMod.card]
  simp

end Verif.KeyGen
