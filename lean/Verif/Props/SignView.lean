import Verif.Props.Feldman
import Verif.Props.Reuse
import Verif.Spec.SignView

/-!
Property C149: to a group one short of the threshold, signing shows nothing but the signature.
-/

set_option autoImplicit false

namespace Verif.Sign

open Dealings Mega Zk Complaints Polynomial
open Point (H)

section through

variable {t : Nat} {B : List NodeIndex}

theorem length_through (a : Fn) (f : NodeIndex → Fn) : (through t B a f).length = t := by simp [through]

/-- Lagrange's formula is about the polynomial with the given values. -/
theorem through_spec (hB : B.Nodup) (hpos : ∀ j ∈ B, 0 ≤ j.toInt) (hlt : B.length + 1 = t) (a : Fn) (f : NodeIndex → Fn) :
    (toPoly (through t B a f)).eval 0 = a ∧ ∀ j ∈ B, (toPoly (through t B a f)).eval (place j) = f j := by
  have hn : (B.map place).Nodup := hB.map place_injective
  have h0 : (0 : Fn) ∉ (B.map place).toFinset := by
    rw [List.mem_toFinset, List.mem_map]
    rintro ⟨j, hj, e⟩
    exact place_ne_zero (hpos j hj) e
  have hcard : (places B).card = t := by
    rw [places, Finset.card_insert_of_notMem h0, List.toFinset_card_of_nodup hn, List.length_map, hlt]
  set r : Fn → Fn := fun x => if x = 0 then a else f (Function.invFun place x) with hr
  have hr0 : r 0 = a := if_pos rfl
  have hrj : ∀ j ∈ B, r (place j) = f j := fun j hj => by
    rw [hr]; simp only [if_neg (place_ne_zero (hpos j hj)), Function.leftInverse_invFun place_injective j]
  have hdeg : (Lagrange.interpolate (places B) id r).degree < t := by
    rw [← hcard]; exact Lagrange.degree_interpolate_lt r Function.injective_id.injOn
  have heq : through t B a f = coeffList (Lagrange.interpolate (places B) id r) t := by
    refine List.map_congr_left fun k _ => ?_
    rw [Lagrange.interpolate_apply, finsetSum_coeff]
    simp only [coeff_C_mul, weight]
    conv_rhs => rw [places]
    rw [Finset.sum_insert h0, hr0, ← places]
    congr 1
    rw [List.sum_toFinset _ hn, List.map_map]
    congr 1
    exact List.map_congr_left fun j hj => by simp only [Function.comp_apply]; rw [hrj j hj]
  rw [heq, toPoly_coeffList hdeg]
  have hnode : ∀ x ∈ places B, (Lagrange.interpolate (places B) id r).eval x = r x := fun x hx =>
    Lagrange.eval_interpolate_at_node r Function.injective_id.injOn hx
  refine ⟨by rw [hnode 0 (Finset.mem_insert_self _ _), hr0], fun j hj => ?_⟩
  rw [hnode _ (Finset.mem_insert_of_mem (List.mem_toFinset.2 (List.mem_map_of_mem hj))), hrj j hj]

/-- There is only one such polynomial. -/
theorem eq_through (hB : B.Nodup) (hpos : ∀ j ∈ B, 0 ≤ j.toInt) (hlt : B.length + 1 = t) {q : List Fn} (hq : q.length = t)
    {a : Fn} {f : NodeIndex → Fn} (ha : (toPoly q).eval 0 = a) (hf : ∀ j ∈ B, (toPoly q).eval (place j) = f j) :
    q = through t B a f := by
  obtain ⟨h1, h2⟩ := through_spec hB hpos hlt a f
  refine toPoly_inj (by rw [hq, length_through]) ?_
  have hn : (0 :: B.map place).Nodup := by
    rw [List.nodup_cons]
    refine ⟨fun h => ?_, hB.map place_injective⟩
    obtain ⟨j, hj, e⟩ := List.mem_map.1 h
    exact place_ne_zero (hpos j hj) e
  have hl : (0 :: B.map place).length = t := by simp [hlt]
  refine Poly.eq_of_agree hn ?_ ?_ fun x hx => ?_
  · rw [hl, ← hq]; exact degree_toPoly_lt q
  · rw [hl]
    have := degree_toPoly_lt (through t B a f)
    rwa [length_through] at this
  · rcases List.mem_cons.1 hx with rfl | hx
    · rw [ha, h1]
    · obtain ⟨j, hj, rfl⟩ := List.mem_map.1 hx
      rw [hf j hj, h2 j hj]

theorem sum_mul_smul (w f : NodeIndex → Fn) (A : Pt) (l : List NodeIndex) :
    (l.map fun j => f j * w j).sum • A = (l.map fun j => w j • (f j • A)).sum := by
  induction l with
  | nil => exact zero_smul Fn A
  | cons j l ih => simp only [List.map_cons, List.sum_cons]; rw [add_smul, ih, smul_smul, mul_comm]

/-- Commitments to polynomials through given values. -/
theorem zipWith_through (a b : Fn) (f g : NodeIndex → Fn) :
    List.zipWith (fun v m : Fn => v • G + m • H) (through t B a f) (through t B b g) =
      throughPts t B (a • G + b • H) fun j => f j • G + g j • H := by
  rw [through, through, List.zipWith_map, List.zipWith_self, throughPts]
  refine List.map_congr_left fun k _ => ?_
  rw [add_smul, add_smul, sum_mul_smul, sum_mul_smul]
  have : (B.map fun j => weight B (place j) k • (f j • G + g j • H)) =
      B.map fun j => weight B (place j) k • (f j • G) + weight B (place j) k • (g j • H) :=
    List.map_congr_left fun j _ => smul_add _ _ _
  rw [this, sum_map_add, smul_add, smul_smul, smul_smul, mul_comm a, mul_comm b]
  abel

/-- Linear combinations. -/
theorem eval_through (hB : B.Nodup) (hpos : ∀ j ∈ B, 0 ≤ j.toInt) (hlt : B.length + 1 = t) (p q : List Fn)
    (hp : p.length = t) (hq : q.length = t) (c e : Fn) (x : Fn) :
    Poly.evaluateAt (through t B (c * (toPoly p).eval 0 + e * (toPoly q).eval 0)
      fun j => c * (toPoly p).eval (place j) + e * (toPoly q).eval (place j)) x = c * (toPoly p).eval x + e * (toPoly q).eval x := by
  have hd : (C c * toPoly p + C e * toPoly q).degree < t := by
    refine lt_of_le_of_lt (degree_add_le _ _) (max_lt ?_ ?_)
    · refine lt_of_le_of_lt ?_ (hp ▸ degree_toPoly_lt p)
      rw [degree_mul]; exact (add_le_add degree_C_le le_rfl).trans (zero_add _).le
    · refine lt_of_le_of_lt ?_ (hq ▸ degree_toPoly_lt q)
      rw [degree_mul]; exact (add_le_add degree_C_le le_rfl).trans (zero_add _).le
  have h := eq_through (q := coeffList (C c * toPoly p + C e * toPoly q) t) hB hpos hlt (length_coeffList _ _)
    (a := c * (toPoly p).eval 0 + e * (toPoly q).eval 0)
    (f := fun j => c * (toPoly p).eval (place j) + e * (toPoly q).eval (place j))
    (by rw [toPoly_coeffList hd]; simp) (fun j _ => by rw [toPoly_coeffList hd]; simp)
  rw [← h, Poly.evaluateAt_eq, toPoly_coeffList hd]
  simp

theorem head_of_eval {q : List Fn} {a : Fn} (hl : 0 < q.length) (h : (toPoly q).eval 0 = a) : q.head? = some a := by
  cases q with
  | nil => simp at hl
  | cons c l =>
    rw [← h, eval_zero_toPoly (f := c :: l) rfl]
    rfl

end through

/-- The number behind an accepted signature. -/
theorem fullS_spec {P : Prim} {sig : Signature} {path : List Key.Index} {m rn : Bytes} {keyT presigT : Option Com} {x k : Fn}
    (hx : constantTerm keyT = .ok (x • G)) (hk : preSigOf presigT = .ok (k • G))
    (h : sig.verify P path m rn keyT presigT = .ok ()) : ∃ d, deriveRho P m rn path keyT presigT = .ok d ∧ d.rho ≠ 0 ∧
      k + d.randomizer ≠ 0 ∧ fullS sig (beVal m : Fn) (d.keyTweak • G + x • G) d.randomizedPresig * (k + d.randomizer) =
        (beVal m : Fn) + d.rho * (d.keyTweak + x) := by
  obtain ⟨d, ε, hd, hε, hr, hs, he⟩ := nonce_equation hx hk h
  obtain ⟨-, -, hm, d', pk, hd', hpk, hrho, hlow, hne, -⟩ := (verify_iff ..).1 h
  rw [hd] at hd'
  obtain rfl := Res.ok.inj hd'
  rw [hx] at hpk
  obtain rfl := Res.ok.inj hpk
  obtain ⟨pre, pk', c, h1, -, -, -, h5, -⟩ := deriveRho_ok hd
  rw [hk] at h1
  obtain rfl := Res.ok.inj h1
  have eL : ((beVal m : Fn) / sig.s) • G + (sig.r / sig.s) • (d.keyTweak • G + x • G) =
      (((beVal m : Fn) + sig.r * (d.keyTweak + x)) / sig.s) • G := by
    rw [← add_smul, smul_smul, ← add_smul]
    congr 1
    ring
  have eR : d.randomizedPresig = (k + d.randomizer) • G := by rw [h5, add_smul]
  rw [eL] at hne
  have hy : ((beVal m : Fn) + sig.r * (d.keyTweak + x)) / sig.s ≠ 0 := by
    intro h0
    exact hne (by rw [h0]; exact zero_smul Fn G)
  rw [mul_div_assoc] at he
  refine ⟨d, hd, hrho ▸ hr, ?_, ?_⟩
  · rw [he]
    rcases hε with rfl | rfl
    · simpa using hy
    · rw [neg_one_mul]; exact neg_ne_zero.2 hy
  · rw [fullS, eL, eR]
    rw [← hrho]
    have hcancel : sig.s * (((beVal m : Fn) + sig.r * (d.keyTweak + x)) / sig.s) = (beVal m : Fn) + sig.r * (d.keyTweak + x) :=
      mul_div_cancel₀ _ hs
    by_cases hc : (((beVal m : Fn) + sig.r * (d.keyTweak + x)) / sig.s) • G = (k + d.randomizer) • G
    · rw [if_pos hc, ← (smul_left_inj G_ne_zero).1 hc, hcancel]
    · rw [if_neg hc]
      rcases hε with rfl | rfl
      · exact absurd (by rw [he, one_mul]) hc
      · rw [he, neg_one_mul, neg_mul_neg, hcancel]

theorem Secrets.ext' {S T : Secrets} (h1 : S.x = T.x) (h2 : S.kappa = T.kappa) (h3 : S.lambda = T.lambda) (h4 : S.kl = T.kl)
    (h5 : S.xl = T.xl) (h6 : S.lambdaMask = T.lambdaMask) (h7 : S.klMask = T.klMask) (h8 : S.xlMask = T.xlMask) : S = T := by
  cases S; cases T; simp only [Secrets.mk.injEq]; exact ⟨h1, h2, h3, h4, h5, h6, h7, h8⟩

end Verif.Sign

namespace Verif

open Dealings Mega Zk Complaints Sign Polynomial
open Point (H)

/-- C149: for a given key and nonce, message, and openings of a group one short of the threshold, the possible secrets correspond
one to one to four scalars, such that what signing shows is what is made up from these scalars, public values, the openings of the
group and the signature. -/
theorem C149_only_the_signature (P : Prim) (path : List Key.Index) (m rn : Bytes) (x kappa : List Fn) (x0 k0 : Fn)
    (hx : x.head? = some x0) (hk : kappa.head? = some k0) (t : Nat) (B : List NodeIndex) (hB : B.Nodup)
    (hpos : ∀ j ∈ B, 0 ≤ j.toInt) (hlt : B.length + 1 = t) (v : Seen) (sig : Signature)
    (hsig : sig.verify P path m rn (unmasked x) (unmasked kappa) = .ok ()) :
    ∃ (d : Derived) (coins : Secrets → Coins), deriveRho P m rn path (unmasked x) (unmasked kappa) = .ok d ∧
      Set.BijOn coins (Possible x kappa x0 k0 t B v) Set.univ ∧
      ∀ S ∈ Possible x kappa x0 k0 t B v,
        viewOf P path m rn S = simulate t B v (beVal m : Fn) d (x0 • G) sig (coins S) := by
  obtain ⟨d, hd, hrho, hK, hfull⟩ := fullS_spec (constantTerm_unmasked hx).1 (constantTerm_unmasked hk).2 hsig
  have hm : m.length ≤ 64 := ((verify_iff ..).1 hsig).2.2.1
  obtain ⟨η, hη⟩ := exists_smul_eq H_ne_zero G
  set e : Fn := (beVal m : Fn) with he
  set θ : Fn := e + d.rho * d.keyTweak with hθ
  set s := fullS sig e (d.keyTweak • G + x0 • G) d.randomizedPresig with hs
  have hs' : s * (k0 + d.randomizer) = θ + d.rho * x0 := by rw [hfull, hθ]; ring
  clear_value s
  set at0 : List Fn → Fn := fun q => (toPoly q).eval 0 with hat0
  set coins : Secrets → Coins := fun S => ⟨(k0 + d.randomizer) * at0 S.lambda, at0 S.lambda * η + at0 S.lambdaMask,
    θ * at0 S.lambdaMask + d.rho * at0 S.xlMask, d.randomizer * at0 S.lambdaMask + at0 S.klMask⟩ with hcoins
  have htpos : 0 < t := by omega
  -- the form of possible secrets
  have hform : ∀ S ∈ Possible x kappa x0 k0 t B v,
      S.lambda = through t B (at0 S.lambda) v.lambda ∧ S.lambdaMask = through t B (at0 S.lambdaMask) v.lambdaMask ∧
      S.kl = through t B (k0 * at0 S.lambda) v.kl ∧ S.klMask = through t B (at0 S.klMask) v.klMask ∧
      S.xl = through t B (x0 * at0 S.lambda) v.xl ∧ S.xlMask = through t B (at0 S.xlMask) v.xlMask := by
    rintro S ⟨-, -, ⟨l0, hc⟩, ⟨l1, l2, l3, l4, l5, l6⟩, ho⟩
    have e1 : at0 S.lambda = l0 := eval_zero_toPoly hc.hl
    refine ⟨eq_through hB hpos hlt l1 rfl fun j hj => (ho j hj).1, eq_through hB hpos hlt l2 rfl fun j hj => (ho j hj).2.1,
      eq_through hB hpos hlt l3 ?_ fun j hj => (ho j hj).2.2.1, eq_through hB hpos hlt l4 rfl fun j hj => (ho j hj).2.2.2.1,
      eq_through hB hpos hlt l5 ?_ fun j hj => (ho j hj).2.2.2.2.1, eq_through hB hpos hlt l6 rfl fun j hj => (ho j hj).2.2.2.2.2⟩
    · rw [e1]; exact eval_zero_toPoly hc.hkl
    · rw [e1]; exact eval_zero_toPoly hc.hxl
  refine ⟨d, coins, hd, ⟨fun _ _ => Set.mem_univ _, ?_, ?_⟩, ?_⟩
  · -- one to one
    intro S hS T hT hST
    obtain ⟨f1, f2, f3, f4, f5, f6⟩ := hform S hS
    obtain ⟨g1, g2, g3, g4, g5, g6⟩ := hform T hT
    obtain ⟨c1, c2, c3, c4⟩ := Coins.mk.inj hST
    have d1 : at0 S.lambda = at0 T.lambda := mul_left_cancel₀ hK c1
    have d2 : at0 S.lambdaMask = at0 T.lambdaMask := by rw [d1] at c2; exact add_left_cancel c2
    have d3 : at0 S.xlMask = at0 T.xlMask := by rw [d2] at c3; exact mul_left_cancel₀ hrho (add_left_cancel c3)
    have d4 : at0 S.klMask = at0 T.klMask := by rw [d2] at c4; exact add_left_cancel c4
    exact Secrets.ext' (hS.1.trans hT.1.symm) (hS.2.1.trans hT.2.1.symm) (by rw [f1, g1, d1]) (by rw [f3, g3, d1])
      (by rw [f5, g5, d1]) (by rw [f2, g2, d2]) (by rw [f4, g4, d4]) (by rw [f6, g6, d3])
  · -- onto
    rintro ⟨a, u, nu, mu⟩ -
    set l0 := a / (k0 + d.randomizer) with hl0
    set m0 := u - l0 * η with hm0
    have hspec := fun (a : Fn) (f : NodeIndex → Fn) => through_spec (t := t) (B := B) hB hpos hlt a f
    have hhead : ∀ (a : Fn) (f : NodeIndex → Fn), (through t B a f).head? = some a := fun a f =>
      head_of_eval (by rw [length_through]; exact htpos) (hspec a f).1
    refine ⟨⟨x, kappa, through t B l0 v.lambda, through t B (k0 * l0) v.kl, through t B (x0 * l0) v.xl,
      through t B m0 v.lambdaMask, through t B (mu - d.randomizer * m0) v.klMask,
      through t B ((nu - θ * m0) / d.rho) v.xlMask⟩, ⟨rfl, rfl, ⟨l0, ⟨hx, hk, hhead _ _, hhead _ _, hhead _ _, ?_, ?_, ?_⟩⟩, ?_⟩, ?_⟩
    · exact (length_through _ _).le
    · exact (length_through _ _).le
    · exact (length_through _ _).le
    · refine ⟨⟨length_through _ _, length_through _ _, length_through _ _, length_through _ _, length_through _ _,
        length_through _ _⟩, fun j hj => ⟨(hspec _ _).2 j hj, (hspec _ _).2 j hj, (hspec _ _).2 j hj, (hspec _ _).2 j hj,
        (hspec _ _).2 j hj, (hspec _ _).2 j hj⟩⟩
    · rw [hcoins]
      simp only [hat0, (hspec _ _).1]
      congr 1
      · rw [hl0, mul_div_cancel₀ _ hK]
      · rw [hm0]; ring
      · rw [mul_div_cancel₀ _ hrho]; ring
      · ring
  · -- the view
    intro S hS
    obtain ⟨f1, f2, f3, f4, f5, f6⟩ := hform S hS
    obtain ⟨hSx, hSk, ⟨l0, hc⟩, ⟨l1, l2, l3, l4, l5, l6⟩, ho⟩ := hS
    have eK : at0 S.kl = k0 * at0 S.lambda := by
      rw [hat0]; simp only; rw [eval_zero_toPoly hc.hkl, eval_zero_toPoly hc.hl]
    have eX : at0 S.xl = x0 * at0 S.lambda := by
      rw [hat0]; simp only; rw [eval_zero_toPoly hc.hxl, eval_zero_toPoly hc.hl]
    have eL : (coins S).u • H = at0 S.lambda • G + at0 S.lambdaMask • H := by
      rw [hcoins]; simp only; rw [add_smul, mul_smul, ← hη]
    have hthrough : ∀ (a : Fn) (f g : NodeIndex → Fn), (∀ j ∈ B, f j = g j) → through t B a f = through t B a g := by
      intro a f g h
      refine List.map_congr_left fun k _ => ?_
      congr 2
      exact List.map_congr_left fun j hj => by rw [h j hj]
    rw [viewOf, simulate, View.mk.injEq]
    refine ⟨?_, ?_, ?_, ?_⟩
    · conv_lhs => rw [f1, f2]
      rw [zipWith_through, eL]
    · conv_lhs => rw [f3, f4]
      rw [zipWith_through, eL]
      congr 1
      rw [hcoins]; simp only
      module
    · conv_lhs => rw [f5, f6]
      rw [zipWith_through, eL]
      congr 1
      rw [← hs, hcoins]; simp only
      rw [← mul_assoc, hs', ← hθ]
      have : d.rho • ((x0 * at0 S.lambda) • G + at0 S.xlMask • H) =
          ((θ + d.rho * x0) * at0 S.lambda) • G + (θ * at0 S.lambdaMask + d.rho * at0 S.xlMask) • H -
            θ • (at0 S.lambda • G + at0 S.lambdaMask • H) := by module
      rw [← this, smul_smul, inv_mul_cancel₀ hrho, one_smul]
    · funext i
      rw [hSx, hSk, share, share, share, new_eq hd hm, ← he, ← hθ, ← hs]
      have n1 := eval_through hB hpos hlt S.lambda S.xl l1 l5 θ d.rho (place i)
      have n2 := eval_through hB hpos hlt S.lambdaMask S.xlMask l2 l6 θ d.rho (place i)
      have n3 := eval_through hB hpos hlt S.lambda S.kl l1 l3 d.randomizer 1 (place i)
      have n4 := eval_through hB hpos hlt S.lambdaMask S.klMask l2 l4 d.randomizer 1 (place i)
      simp only [one_mul] at n3 n4
      rw [hthrough _ _ (fun j => θ * v.lambda j + d.rho * v.xl j) fun j hj => by rw [(ho j hj).1, (ho j hj).2.2.2.2.1]] at n1
      rw [hthrough _ _ (fun j => θ * v.lambdaMask j + d.rho * v.xlMask j)
        fun j hj => by rw [(ho j hj).2.1, (ho j hj).2.2.2.2.2]] at n2
      rw [hthrough _ _ (fun j => d.randomizer * v.lambda j + v.kl j) fun j hj => by rw [(ho j hj).1, (ho j hj).2.2.1]] at n3
      rw [hthrough _ _ (fun j => d.randomizer * v.lambdaMask j + v.klMask j)
        fun j hj => by rw [(ho j hj).2.1, (ho j hj).2.2.2.1]] at n4
      rw [← n1, ← n2, ← n3, ← n4]
      have k1 : θ * (toPoly S.lambda).eval 0 + d.rho * (toPoly S.xl).eval 0 = s * (coins S).a := by
        have : (toPoly S.xl).eval 0 = x0 * at0 S.lambda := eX
        rw [this, hcoins]; simp only; rw [← mul_assoc s, hs', hat0]; ring
      have k2 : d.randomizer * (toPoly S.lambda).eval 0 + (toPoly S.kl).eval 0 = (coins S).a := by
        have : (toPoly S.kl).eval 0 = k0 * at0 S.lambda := eK
        rw [this, hcoins]; simp only [hat0]; ring
      rw [k1, k2]

/-- The hypotheses are met by the key 6, nonce 1, threshold 2, the message hash 5, its signature and one node: the secrets of
`exSecrets` are among the possible ones. -/
example : ∃ (sig : Signature) (v : Seen),
    sig.verify zeroPrim [] [5] [] (unmasked exSecrets.x) (unmasked exSecrets.kappa) = .ok () ∧
    exSecrets ∈ Possible exSecrets.x exSecrets.kappa 6 1 2 [3] v := by
  obtain ⟨-, -, -, h⟩ := exSignature [5] (by simp) (by decide +kernel)
  exact ⟨_, ⟨fun j => (toPoly exSecrets.lambda).eval (place j), fun j => (toPoly exSecrets.lambdaMask).eval (place j),
    fun j => (toPoly exSecrets.kl).eval (place j), fun j => (toPoly exSecrets.klMask).eval (place j),
    fun j => (toPoly exSecrets.xl).eval (place j), fun j => (toPoly exSecrets.xlMask).eval (place j)⟩, h, rfl, rfl,
    ⟨1, exSecrets_consistent⟩, ⟨rfl, rfl, rfl, rfl, rfl, rfl⟩, fun j _ => ⟨rfl, rfl, rfl, rfl, rfl, rfl⟩⟩

end Verif
