import Verif.Props.Rogue
import Verif.Props.Transcript
import Verif.Props.Dealings
import Verif.Props.Sign

/-! C204: the index whose share would be the secret. -/

set_option autoImplicit false

namespace Verif

open Mega Zk Dealings Polynomial

namespace Dealings

theorem place_minus_one : place (-1) = 0 := by decide +kernel

theorem place_eq_zero {i : NodeIndex} : place i = 0 ↔ i = -1 := by
  rw [← place_minus_one]
  exact Lagr.fromNodeIndex_injective.eq_iff

theorem weightAtZero_own (dealers : List NodeIndex) : weightAtZero dealers (-1) = 1 := by
  rw [weightAtZero]
  refine List.prod_eq_one fun x hx => ?_
  obtain ⟨j, hj, rfl⟩ := List.mem_map.1 hx
  rw [List.mem_filter, decide_eq_true_eq] at hj
  rw [place_minus_one, sub_zero]
  exact div_self fun h => hj.2 (place_eq_zero.1 h)

theorem weightAtZero_other {dealers : List NodeIndex} (h : -1 ∈ dealers) {i : NodeIndex} (hi : i ≠ -1) : weightAtZero dealers i = 0 := by
  rw [weightAtZero, List.prod_eq_zero_iff, List.mem_map]
  refine ⟨-1, List.mem_filter.2 ⟨h, by simpa using hi.symm⟩, ?_⟩
  rw [place_minus_one, zero_div]

theorem weightAtZero_without {dealers : List NodeIndex} (h : -1 ∉ dealers) (i : NodeIndex) : weightAtZero dealers i ≠ 0 := by
  rw [weightAtZero, Ne, List.prod_eq_zero_iff, List.mem_map]
  rintro ⟨l, hl, e⟩
  rw [List.mem_filter, decide_eq_true_eq] at hl
  rcases div_eq_zero_iff.1 e with e | e
  · exact h (place_eq_zero.1 e ▸ hl.1)
  · exact hl.2 (Lagr.fromNodeIndex_injective (sub_eq_zero.1 e))

end Dealings

/-- C204 is false: the index -1 is not refused.  Commitments evaluated there give their constant term; what `ReconstructShareFromOpenings`
returns for it, from right openings of a dealing without mask, is the secret that was dealt; and if one of the dealers of a resharing or a product
has this index, then the transcript has the points of this dealer's commitment, whatever all the others dealt. -/
theorem C204_false :
    (∀ c : Commitment, c.points ≠ [] → c.evaluateAt (-1) = c.constantTerm) ∧
    (∀ (d : Dealing) (s : Fn) (q : List Fn) (openers : List NodeIndex),
      d.commitment = some ⟨.simple, (s :: q).map fun v : Fn => v • G⟩ → openers.Nodup → q.length < openers.length →
      reconstructShare d (openers.map fun j => (j, .simple ((toPoly (s :: q)).eval (place j)))) (-1) = .ok (.simple s)) ∧
    ∀ (t : Nat) (ds : DealingMap) (cm : NodeIndex → Commitment) (op : Op) (T : Com), 0 < t → Commits ds cm → (ds.map Prod.fst).Nodup →
      op ≠ .other → op ≠ .random → -1 ∈ ds.map Prod.fst → newTranscript t ds op = .ok (some T) → T.c.points = (cm (-1)).points := by
  refine ⟨fun c hc => ?_, fun d s q openers hd hn hl => ?_, fun t ds cm op T ht hcm hn hop hop' hm hT => ?_⟩
  · rw [Commitment.evaluateAt_value hc, valueAtNode, place_minus_one]
    obtain ⟨kind, points⟩ := c
    cases points with
    | nil => exact absurd rfl hc
    | cons a l => rw [valueAt_zero (p := a) rfl]; rfl
  · obtain ⟨res, h1, -, h3, -⟩ := C64_reconstruction d _ hd (by simp) openers
      (fun j => .simple ((toPoly (s :: q)).eval (place j))) hn (by simpa using hl)
      (fun j _ => ⟨rfl, KeyGen.valueAt_map _ _⟩) (-1)
    rw [h1, ← h3 rfl (.simple s) ⟨rfl, by rw [valueAtNode, place_minus_one, List.map_cons, valueAt_zero rfl]⟩]
  · obtain ⟨hal, hT⟩ := ((C188_exactly t ht ds cm hcm hn op hop).1 (some T)).1 hT
    cases hT
    obtain ⟨x, hx, hx1⟩ := List.mem_map.1 hm
    have hlen : (cm (-1)).points.length = t := hx1 ▸ hal.1 x hx
    refine List.ext_getElem (by rw [hlen]; simp [combinedOf]) fun j hj hj' => ?_
    have hw : ∀ i, op.weight (ds.map Prod.fst) i = weightAtZero (ds.map Prod.fst) i := by
      cases op with
      | random => exact absurd rfl hop'
      | _ => exact fun _ => rfl
    have hs : combinedPoint op ds cm j = (cm (-1)).points.getD j 0 := by
      have e : (ds.map fun x => op.weight (ds.map Prod.fst) x.1 • (cm x.1).points.getD j 0) =
          (ds.map Prod.fst).map fun i => weightAtZero (ds.map Prod.fst) i • (cm i).points.getD j 0 := by
        rw [List.map_map]
        exact List.map_congr_left fun x _ => by rw [hw]; rfl
      rw [combinedPoint, e, ← List.sum_toFinset _ hn, Finset.sum_eq_single (-1)]
      · rw [weightAtZero_own, one_smul]
      · intro b _ hb
        rw [weightAtZero_other hm hb]
        exact zero_smul Fn ((cm b).points.getD j 0)
      · intro h; exact absurd (List.mem_toFinset.2 hm) h
    simp only [combinedOf, List.getElem_map, List.getElem_range, hs]
    rw [List.getD_eq_getElem?_getD, List.getElem?_eq_getElem hj', Option.getD_some]

/-- C204 is false, verification: dealings for the index -1 are verified like all others; who knows openings of the constant terms of the operands,
i.e. the secrets, makes dealings for it that pass public verification, and private verification by all recipients. -/
theorem C204_false_verified (P : Prim) (seed : Seed) (t : Int) (keys : List Fn) (ad : Bytes) (d : Dealing) :
    let Passes (op : Op) : Prop := publiclyVerify P d K256 op t (-1) keys.length ad = .ok () ∧
      ∀ (i : NodeIndex) (k : Fn), 0 ≤ i.toInt → keys[i.toInt.toNat]? = some k → privateVerify P d K256 k (Point.mulByG k) ad (-1) i = .ok ()
    (∀ (s m : Fn) (p : Com), p.c.points.head? = some (s • G + m • Point.H) →
      new P (.reshareMasked s m) seed t (keys.map Point.mulByG) (-1) ad = .ok d → Passes (.reshareMasked p)) ∧
    (∀ (s : Fn) (p : Com), p.c.kind = .simple → p.c.points.head? = some (s • G) →
      new P (.reshareUnmasked s) seed t (keys.map Point.mulByG) (-1) ad = .ok d → Passes (.reshareUnmasked p)) ∧
    ∀ (l r m : Fn) (left right : Com), left.c.kind = .simple → left.c.points.head? = some (l • G) → right.c.kind = .pedersen →
      right.c.points.head? = some (r • G + m • Point.H) →
      new P (.unmaskedTimesMasked l r m) seed t (keys.map Point.mulByG) (-1) ad = .ok d → Passes (.unmaskedTimesMasked left right) := by
  have at0 : ∀ {pts : List Pt} {Q : Pt}, pts.head? = some Q → pts ≠ [] ∧ valueAtNode pts (-1) = Q := fun h =>
    ⟨by rintro rfl; simp at h, by rw [valueAtNode, place_minus_one, valueAt_zero h]⟩
  exact ⟨fun s m p hp h => C54_honest_dealings_verify P (.reshareMasked s m) _ seed t keys (-1) ad d (at0 hp) h,
    fun s p hk hp h => C54_honest_dealings_verify P (.reshareUnmasked s) _ seed t keys (-1) ad d ⟨hk, at0 hp⟩ h,
    fun l r m left right hl hlp hr hrp h => C54_honest_dealings_verify P (.unmaskedTimesMasked l r m) _ seed t keys (-1) ad d
      ⟨hl, (at0 hlp).1, (at0 hlp).2, hr, at0 hrp⟩ h⟩

/-- Such a dealing exists. -/
example : ∃ d, publiclyVerify zeroPrim d K256 (.reshareUnmasked ⟨.interpolation, ⟨.simple, [(6 : Fn) • G, G]⟩⟩) 2 (-1) 3 [] = .ok () := by
  obtain ⟨d, hd⟩ := dealing_exists (.reshareUnmasked 6) ⟨[]⟩ 2 ([7, 8, 9].map Point.mulByG) (-1) [] (by omega) (by simp)
  exact ⟨d, ((C204_false_verified zeroPrim ⟨[]⟩ 2 [7, 8, 9] [] d).2.1 6 _ rfl rfl hd).1⟩

/-- C204 is false, signing: if one of the signers has the index -1, then the signature is made from this signer's share alone, whatever the
shares of all the others are. -/
theorem C204_false_signing (P : Prim) (path : List Key.Index) (hashedMsg randomness : Bytes) (keyT presigT : Option Com) (t : Int)
    (ht : 0 < t) (signers : List NodeIndex) (hc : t ≤ signers.length) (hn : signers.Nodup) (d : Sign.Derived)
    (hd : Sign.deriveRho P hashedMsg randomness path keyT presigT = .ok d) (sh : NodeIndex → Sign.SigShare) (nv nm dv dm : NodeIndex → Fn)
    (hsh : ∀ i ∈ signers, sh i = ⟨some (.pedersen (nv i) (nm i)), some (.pedersen (dv i) (dm i))⟩) (hm : -1 ∈ signers) :
    Sign.combine P path hashedMsg randomness keyT presigT t (signers.map fun i => (i, sh i)) =
      .ok ⟨d.rho, Sign.lowOf (nv (-1) / dv (-1))⟩ := by
  obtain ⟨w, hw, h⟩ := Sign.combine_eq hd ht hc hn sh nv nm dv dm hsh
  have key : ∀ v : NodeIndex → Fn, (signers.map fun i => w i * v i).sum = v (-1) := by
    intro v
    have hinj : Set.InjOn place (signers.toFinset : Set NodeIndex) := Lagr.fromNodeIndex_injective.injOn
    have hdeg : (Lagrange.interpolate signers.toFinset place v).degree < signers.length := by
      have := Lagrange.degree_interpolate_lt v hinj
      rwa [List.toFinset_card_of_nodup hn] at this
    have hv : ∀ i ∈ signers, (Lagrange.interpolate signers.toFinset place v).eval (place i) = v i := fun i hi =>
      Lagrange.eval_interpolate_at_node v hinj (List.mem_toFinset.2 hi)
    have e := hw _ hdeg
    rw [← place_minus_one, hv _ hm] at e
    rw [← e]
    exact congrArg List.sum (List.map_congr_left fun i hi => by rw [hv i hi])
  rw [h, key, key, div_eq_mul_inv]

/-- Signers -1 and 5; what the second one contributes does not matter. -/
example (a b : Fn) : Sign.combine zeroPrim [] [5] [] (Sign.unmasked Sign.exSecrets.x) (Sign.unmasked Sign.exSecrets.kappa) 2
    [(-1, ⟨some (.pedersen 6 0), some (.pedersen 2 0)⟩), (5, ⟨some (.pedersen a 0), some (.pedersen b 0)⟩)] =
      .ok ⟨(Gx : Fn), Sign.lowOf 3⟩ := by
  have h := C204_false_signing zeroPrim [] [5] [] _ _ 2 (by omega) [-1, 5] (by simp) (by decide) _
    (Sign.zeroPrim_deriveRho [5] [] (show Sign.exSecrets.x.head? = some 6 from rfl) (show Sign.exSecrets.kappa.head? = some 1 from rfl))
    (fun i => if i = -1 then ⟨some (.pedersen 6 0), some (.pedersen 2 0)⟩ else ⟨some (.pedersen a 0), some (.pedersen b 0)⟩)
    (fun i => if i = -1 then 6 else a) (fun _ => 0) (fun i => if i = -1 then 2 else b) (fun _ => 0)
    (fun i _ => by split_ifs <;> rfl) (by simp)
  have h3 : (6 : Fn) / 2 = 3 := by rw [div_eq_iff (by decide +kernel)]; norm_num
  rw [if_pos rfl, if_pos rfl, h3] at h
  exact h

/-- C204, the part that holds: for every other index, and a threshold of two or more, all secrets are possible for any share; and if no dealer has
the index -1, then every dealing counts: a transcript does not stay the same when one of its dealings is replaced by one with other points.
Missing: the index -1 (`C204_false`). -/
theorem C204_others_partial :
    (∀ (i : NodeIndex) (t : Nat) (s v : Fn), i ≠ -1 → 2 ≤ t →
      ∃ q : List Fn, q.length = t ∧ q.head? = some s ∧ (toPoly q).eval (place i) = v) ∧
    ∀ (t : Nat) (ds ds' : DealingMap) (cm : NodeIndex → Commitment) (op : Op) (T T' : Com) (j : NodeIndex) (c' : Commitment), 0 < t →
      Commits ds cm → Commits ds' (Function.update cm j c') → ds'.map Prod.fst = ds.map Prod.fst → (ds.map Prod.fst).Nodup → op ≠ .other →
      -1 ∉ ds.map Prod.fst → j ∈ ds.map Prod.fst → (cm j).points ≠ c'.points →
      newTranscript t ds op = .ok (some T) → newTranscript t ds' op = .ok (some T') → T.c.points ≠ T'.c.points := by
  refine ⟨fun i t s v hi ht => ?_, fun t ds ds' cm op T T' j c' ht hcm hcm' hk hn hop hm hj hne hT hT' heq => hne ?_⟩
  · have hp : place i ≠ 0 := fun h => hi (place_eq_zero.1 h)
    refine ⟨s :: (v - s) / place i :: List.replicate (t - 2) 0, by simp; omega, rfl, ?_⟩
    have hz : ∀ k : Nat, toPoly (List.replicate k (0 : Fn)) = 0 := by
      intro k
      induction k with
      | zero => rfl
      | succ k ih => rw [List.replicate_succ, toPoly_cons, ih]; simp
    rw [toPoly_cons, toPoly_cons, hz]
    simp
    field_simp
    ring
  · obtain ⟨hal, hT⟩ := ((C188_exactly t ht ds cm hcm hn op hop).1 (some T)).1 hT
    obtain ⟨hal', hT'⟩ := ((C188_exactly t ht ds' _ hcm' (hk ▸ hn) op hop).1 (some T')).1 hT'
    cases hT
    cases hT'
    have l1 : (cm j).points.length = t := by
      obtain ⟨x, hx, rfl⟩ := List.mem_map.1 hj
      exact hal.1 x hx
    have l2 : c'.points.length = t := by
      rw [← hk] at hj
      obtain ⟨x, hx, rfl⟩ := List.mem_map.1 hj
      simpa using hal'.1 x hx
    have hw : op.weight (ds.map Prod.fst) j ≠ 0 := by
      cases op with
      | random => exact one_ne_zero
      | _ => exact weightAtZero_without hm j
    refine List.ext_getElem (l1.trans l2.symm) fun k h1 h2 => ?_
    have hkt : k < t := l1 ▸ h1
    have e : combinedPoint op ds cm k = combinedPoint op ds' (Function.update cm j c') k := by
      have := congrArg (fun l : List Pt => l.getD k 0) heq
      simpa [combinedOf, List.getD_eq_getElem?_getD, hkt] using this
    have form : ∀ (d : DealingMap) (f : NodeIndex → Commitment), d.map Prod.fst = ds.map Prod.fst →
        combinedPoint op d f k = ∑ i ∈ (ds.map Prod.fst).toFinset, op.weight (ds.map Prod.fst) i • (f i).points.getD k 0 := by
      intro d f hd
      rw [List.sum_toFinset _ hn, combinedPoint, ← hd, List.map_map]
      rfl
    rw [form ds cm rfl, form ds' _ hk, ← Finset.add_sum_erase _ _ (List.mem_toFinset.2 hj),
      ← Finset.add_sum_erase _ _ (List.mem_toFinset.2 hj), Function.update_self] at e
    have hrest : ∑ i ∈ (ds.map Prod.fst).toFinset.erase j, op.weight (ds.map Prod.fst) i • (Function.update cm j c' i).points.getD k 0 =
        ∑ i ∈ (ds.map Prod.fst).toFinset.erase j, op.weight (ds.map Prod.fst) i • (cm i).points.getD k 0 :=
      Finset.sum_congr rfl fun i hi => by rw [Function.update_of_ne (Finset.ne_of_mem_erase hi)]
    rw [hrest] at e
    have e' := smul_right_injective Pt hw (add_right_cancel e)
    rwa [List.getD_eq_getElem?_getD, List.getD_eq_getElem?_getD, List.getElem?_eq_getElem h1, List.getElem?_eq_getElem h2] at e'

/-- Three dealers, one of them with the index -1, reshare a secret; the transcript is the dealing of that one.  Without it, both others count. -/
example : let d (v : Fn) : Dealing := ⟨none, some ⟨.simple, [v • G, v • G]⟩, none⟩
    let op : Op := .reshareMasked ⟨.summation, ⟨.pedersen, [G, G]⟩⟩
    (∃ T, newTranscript 2 [(-1, d 2), (0, d 3), (4, d 5)] op = .ok (some T) ∧ T.c.points = [(2 : Fn) • G, (2 : Fn) • G]) ∧
    ∃ T T', newTranscript 2 [(0, d 3), (4, d 5)] op = .ok (some T) ∧ newTranscript 2 [(0, d 3), (4, d 6)] op = .ok (some T') ∧
      T.c.points ≠ T'.c.points := by
  intro d op
  have made : ∀ (ds : DealingMap) (f : NodeIndex → Fn), (∀ x ∈ ds, x.2 = d (f x.1)) → (ds.map Prod.fst).Nodup → 2 ≤ ds.length →
      ∃ T, newTranscript (2 : Nat) ds op = .ok (some T) := fun ds f hf hn hl =>
    ⟨_, ((C188_exactly 2 (by omega) ds (fun i => ⟨.simple, [f i • G, f i • G]⟩) (fun x hx => by rw [hf x hx]) hn op (by simp [op])).1 _).2
      ⟨⟨fun _ _ => rfl, by rintro rfl; simp at hl, rfl, hl⟩, rfl⟩⟩
  let f : NodeIndex → Fn := fun i => if i = -1 then 2 else if i = 0 then 3 else 5
  constructor
  · have hf : ∀ x ∈ [((-1 : NodeIndex), d 2), (0, d 3), (4, d 5)], x.2 = d (f x.1) := by simp [f]
    obtain ⟨T, hT⟩ := made _ f hf (by decide) (by simp)
    refine ⟨T, hT, ?_⟩
    rw [C204_false.2.2 2 _ (fun i => ⟨.simple, [f i • G, f i • G]⟩) op T (by omega) (fun x hx => by rw [hf x hx]) (by decide) (by simp [op])
      (by simp [op]) (by simp) hT]
    rfl
  · have hf : ∀ x ∈ [((0 : NodeIndex), d 3), (4, d 5)], x.2 = d (f x.1) := by simp [f]
    have hf' : ∀ x ∈ [((0 : NodeIndex), d 3), (4, d 6)], x.2 = d (Function.update f 4 6 x.1) := by simp [f]
    obtain ⟨T, hT⟩ := made _ f hf (by decide) (by simp)
    obtain ⟨T', hT'⟩ := made _ _ hf' (by decide) (by simp)
    refine ⟨T, T', hT, hT', C204_others_partial.2 2 [(0, d 3), (4, d 5)] [(0, d 3), (4, d 6)] (fun i => ⟨.simple, [f i • G, f i • G]⟩) op T T' 4
      ⟨.simple, [(6 : Fn) • G, (6 : Fn) • G]⟩ (by omega) (fun x hx => by rw [hf x hx]) (fun x hx => ?_) rfl (by decide) (by simp [op])
      (by decide) (by simp) (fun h => ?_) hT hT'⟩
    · rw [hf' x hx]
      by_cases h4 : x.1 = 4
      · simp [h4, d]
      · rw [Function.update_of_ne h4, Function.update_of_ne h4]
    · have h6 : (5 : Fn) • G = (6 : Fn) • G := (List.cons.inj h).1
      have := (smul_left_inj G_ne_zero).1 h6
      revert this
      decide +kernel

end Verif
