import Verif.Props.Feldman
import Verif.Props.CheatingSign
import Verif.Spec.Renewal

/-!
Property C174: what signers that cheat can do.
-/

set_option autoImplicit false

namespace Verif

open Sign Dealings Mega Polynomial
open Point (H)

namespace Sign

/-- The numerator that the signer `j` has to send so that the numerators add up to `v`, the other signers' being `nv`. -/
noncomputable def fitting (signers : List NodeIndex) (j : NodeIndex) (nv : NodeIndex → Fn) (v : Fn) : Fn :=
  (v - ((signers.erase j).map fun i => sumWeight signers i * nv i).sum) / sumWeight signers j

/-- The number that is the discrete logarithm of `H` if two different openings belong to the same commitment (0 for other kinds of
openings). -/
def logOf : Option Opening → Option Opening → Fn
  | some (.pedersen v m), some (.pedersen v' m') => (v - v') / (m' - m)
  | _, _ => 0

/-- A share that opens the right combinations of the commitments to `λ`, `κλ` and `xλ`: what `Share.Verify` should check (C102). -/
def OpensCombinations (sh : SigShare) (d : Derived) (e : Fn) (l kl xl : Commitment) (i : NodeIndex) : Prop :=
  ∃ nv nm dv dm, sh = ⟨some (.pedersen nv nm), some (.pedersen dv dm)⟩ ∧
    nv • G + nm • H = (e + d.rho * d.keyTweak) • valueAtNode l.points i + d.rho • valueAtNode xl.points i ∧
    dv • G + dm • H = d.randomizer • valueAtNode l.points i + valueAtNode kl.points i

theorem sumWeight_eq {signers : List NodeIndex} (hn : signers.Nodup) {w : NodeIndex → Fn}
    (hw : ∀ f : Fn[X], f.degree < signers.length → (signers.map fun i => w i * f.eval (place i)).sum = f.eval 0)
    {j : NodeIndex} (hj : j ∈ signers) : w j = sumWeight signers j := by
  set f : Fn[X] := ((signers.erase j).map fun i => (X - C (place i)) * C (place j - place i)⁻¹).prod with hf
  have ev : ∀ y : Fn, f.eval y = ((signers.erase j).map fun i => (y - place i) / (place j - place i)).prod := by
    intro y
    rw [hf, eval_list_prod, List.map_map]
    congr 1
    refine List.map_congr_left fun i _ => ?_
    simp [div_eq_mul_inv]
  have hdeg : f.degree < signers.length := by
    have h1 : ∀ l : List NodeIndex,
        ((l.map fun i => (X - C (place i)) * C (place j - place i)⁻¹).prod).degree ≤ ((l.length : ℕ) : WithBot ℕ) := by
      intro l
      induction l with
      | nil => simp
      | cons a l ih =>
        rw [List.map_cons, List.prod_cons]
        refine (degree_mul_le _ _).trans ?_
        have h2 : ((X - C (place a)) * C (place j - place a)⁻¹).degree ≤ 1 := by
          refine (degree_mul_le _ _).trans ?_
          rw [degree_X_sub_C]
          exact (add_le_add_right degree_C_le 1).trans (by simp)
        refine (add_le_add h2 ih).trans ?_
        rw [List.length_cons, Nat.cast_add, add_comm]
        rfl
    refine (h1 _).trans_lt ?_
    rw [List.length_erase_of_mem hj]
    have := List.length_pos_of_mem hj
    exact_mod_cast Nat.sub_lt this Nat.one_pos
  have h := hw f hdeg
  rw [((List.perm_cons_erase hj).map _).sum_eq, List.map_cons, List.sum_cons] at h
  have hz : ((signers.erase j).map fun i => w i * f.eval (place i)).sum = 0 := by
    refine List.sum_eq_zero fun x hx => ?_
    obtain ⟨i, hi, rfl⟩ := List.mem_map.1 hx
    rw [ev, List.prod_eq_zero, mul_zero]
    exact List.mem_map.2 ⟨i, hi, by simp⟩
  have h1 : f.eval (place j) = 1 := by
    rw [ev]
    refine List.prod_eq_one fun x hx => ?_
    obtain ⟨i, hi, rfl⟩ := List.mem_map.1 hx
    refine div_self (sub_ne_zero.2 fun e => ?_)
    rw [hn.mem_erase_iff] at hi
    exact hi.1 (place_injective e).symm
  rw [hz, h1, mul_one, add_zero] at h
  rw [h, ev, sumWeight]

theorem sumWeight_ne_zero {signers : List NodeIndex} (hn : signers.Nodup) {j : NodeIndex}
    (hpos : ∀ i ∈ signers, i ≠ j → 0 ≤ i.toInt) : sumWeight signers j ≠ 0 := by
  rw [sumWeight]
  refine List.prod_ne_zero fun h0 => ?_
  obtain ⟨i, hi, e⟩ := List.mem_map.1 h0
  rw [hn.mem_erase_iff] at hi
  rcases div_eq_zero_iff.1 e with e | e
  · rw [zero_sub, neg_eq_zero] at e
    exact place_ne_zero (hpos i hi.2 hi.1) e
  · exact hi.1 (place_injective (sub_eq_zero.1 e)).symm

theorem fitting_sum {signers : List NodeIndex} (hn : signers.Nodup) {w : NodeIndex → Fn}
    (hw : ∀ f : Fn[X], f.degree < signers.length → (signers.map fun i => w i * f.eval (place i)).sum = f.eval 0)
    {j : NodeIndex} (hj : j ∈ signers) (hpos : ∀ i ∈ signers, i ≠ j → 0 ≤ i.toInt) (nv : NodeIndex → Fn) (v : Fn) :
    (signers.map fun i => w i * if i = j then fitting signers j nv v else nv i).sum = v := by
  rw [((List.perm_cons_erase hj).map _).sum_eq, List.map_cons, List.sum_cons, if_pos rfl, sumWeight_eq hn hw hj]
  have e : ((signers.erase j).map fun i => w i * if i = j then fitting signers j nv v else nv i) =
      (signers.erase j).map fun i => sumWeight signers i * nv i := by
    refine List.map_congr_left fun i hi => ?_
    rw [if_neg (hn.mem_erase_iff.1 hi).1, sumWeight_eq hn hw (List.mem_of_mem_erase hi)]
  rw [e, fitting, mul_div_cancel₀ _ (sumWeight_ne_zero hn hpos)]
  ring

end Sign

/-- C174: a signer that knows the others' shares chooses the value `s` that combination returns, and `Share.Verify` accepts the share
that does it. -/
theorem C174_one_signer_decides (P : Prim) (path : List Key.Index) (hashedMsg randomness : Bytes) (keyT presigT : Option Com)
    (t : Nat) (ht : 0 < t) (signers : List NodeIndex) (hc : t ≤ signers.length) (hn : signers.Nodup) (d : Derived)
    (hd : deriveRho P hashedMsg randomness path keyT presigT = .ok d) (sh : NodeIndex → SigShare) (nv nm dv dm : NodeIndex → Fn)
    (hsh : ∀ i ∈ signers, sh i = ⟨some (.pedersen (nv i) (nm i)), some (.pedersen (dv i) (dm i))⟩)
    (j : NodeIndex) (hj : j ∈ signers) (hpos : ∀ i ∈ signers, i ≠ j → 0 ≤ i.toInt) (s m m' : Fn) :
    let bad : SigShare := ⟨some (.pedersen (fitting signers j nv s) m), some (.pedersen (fitting signers j dv 1) m')⟩
    combine P path hashedMsg randomness keyT presigT t (signers.map fun i => (i, if i = j then bad else sh i)) =
      .ok ⟨d.rho, lowOf s⟩ ∧
    ∀ l kl xl : Com, l.c.points ≠ [] → kl.c.points ≠ [] → xl.c.points ≠ [] → hashedMsg.length ≤ 64 →
      bad.verify P path hashedMsg randomness j keyT presigT (some l) (some kl) (some xl) = .ok () := by
  intro bad
  refine ⟨?_, fun l kl xl h1 h2 h3 hm => C69_false P path hashedMsg randomness keyT presigT l kl xl h1 h2 h3 d hd hm j _ _ _ _⟩
  obtain ⟨w, hw, e⟩ := combine_eq (threshold := t) hd (by exact_mod_cast ht) (by exact_mod_cast hc) hn
    (fun i => if i = j then bad else sh i)
    (fun i => if i = j then fitting signers j nv s else nv i) (fun i => if i = j then m else nm i)
    (fun i => if i = j then fitting signers j dv 1 else dv i) (fun i => if i = j then m' else dm i) (by
      intro i hi
      by_cases h : i = j
      · simp only [if_pos h, bad]
      · simp only [if_neg h, hsh i hi])
  rw [e, fitting_sum hn hw hj hpos, fitting_sum hn hw hj hpos, inv_one, mul_one]

/-- C174: but whatever shares have been combined, what passes `Verify` is what honest shares combine to. -/
theorem C174_only_the_right_one_passes (P : Prim) (path : List Key.Index) (hashedMsg randomness : Bytes) (S : Secrets) (t : Nat)
    (x0 k0 l0 : Fn) (hS : S.Consistent t x0 k0 l0) (signers : List NodeIndex) (ht : 0 < t) (hc : t ≤ signers.length)
    (hn : signers.Nodup) (sh : NodeIndex → SigShare) (hsh : HonestShares P path hashedMsg randomness S signers sh)
    (hl : l0 ≠ 0) (sig : Signature)
    (hv : sig.verify P path hashedMsg randomness (unmasked S.x) (unmasked S.kappa) = .ok ()) :
    combine P path hashedMsg randomness (unmasked S.x) (unmasked S.kappa) t (signers.map fun i => (i, sh i)) = .ok sig := by
  obtain ⟨sig', tw, rnd, c, h1, -, h3, h4, h5, h6⟩ := C68_threshold_signature P path hashedMsg randomness S t x0 k0 l0 hS signers ht
    hc hn sh hsh
  obtain ⟨hr, hs, hm, d, pk, hd, hpk, hrho, hlow, hne, hx⟩ := (verify_iff ..).1 hv
  rw [h3] at hd
  obtain rfl := Res.ok.inj hd
  have hr' : sig'.r ≠ 0 := by rw [← show sig.r = sig'.r from hrho]; exact hr
  have hs' : sig'.s ≠ 0 := by
    rw [h4 hl, lowOf_ne_zero]
    rw [(constantTerm_unmasked hS.hx).1] at hpk
    obtain rfl := Res.ok.inj hpk
    refine div_ne_zero (fun e => hne ?_) fun e => hr' ?_
    · rw [hrho]
      calc _ = (((beVal hashedMsg : Fn) + sig'.r * (x0 + tw)) / sig.s) • G := by
            simp only [div_eq_mul_inv]; module
        _ = 0 := by rw [e, zero_div, zero_smul Fn G]
    · rw [h5, e, zero_smul Fn G]
      rfl
  rw [h1, C105_unique_signature _ _ _ _ _ _ _ _ (h6 hr' hs').1 hv]

/-- C174: and if combiners checked that shares open the right combinations of the commitments, then all shares they take combine to
the signature of honest shares, or one of the numbers computed from the shares taken and the honest ones is the discrete logarithm of
`H`. -/
theorem C174_if_checked (P : Prim) (path : List Key.Index) (hashedMsg randomness : Bytes) (S : Secrets) (t : Nat)
    (signers : List NodeIndex) (sh : NodeIndex → SigShare) (hsh : HonestShares P path hashedMsg randomness S signers sh)
    (l kl xl : Commitment) (ho : ∀ i ∈ signers, ∃ ol okl oxl, share S.lambda S.lambdaMask i = some ol ∧ Opens l i ol ∧
      share S.kl S.klMask i = some okl ∧ Opens kl i okl ∧ share S.xl S.xlMask i = some oxl ∧ Opens xl i oxl)
    (d : Derived) (hd : deriveRho P hashedMsg randomness path (unmasked S.x) (unmasked S.kappa) = .ok d)
    (hm : hashedMsg.length ≤ 64) (taken : NodeIndex → SigShare)
    (hch : ∀ i ∈ signers, OpensCombinations (taken i) d (beVal hashedMsg : Fn) l kl xl i) :
    combine P path hashedMsg randomness (unmasked S.x) (unmasked S.kappa) t (signers.map fun i => (i, taken i)) =
      combine P path hashedMsg randomness (unmasked S.x) (unmasked S.kappa) t (signers.map fun i => (i, sh i)) ∨
    ∃ i ∈ signers, H = logOf (taken i).sigmaNumerator (sh i).sigmaNumerator • G ∨
      H = logOf (taken i).sigmaDenominator (sh i).sigmaDenominator • G := by
  by_cases hall : ∀ i ∈ signers, taken i = sh i
  · left
    have e : (signers.map fun i => (i, taken i)) = signers.map fun i => (i, sh i) :=
      List.map_congr_left fun i hi => by rw [hall i hi]
    rw [e]
  right
  simp only [not_forall] at hall
  obtain ⟨i, hi, hne⟩ := hall
  refine ⟨i, hi, ?_⟩
  obtain ⟨nv, nm, dv, dm, e1, h1, h2⟩ := hch i hi
  obtain ⟨ol, okl, oxl, a1, b1, a2, b2, a3, b3⟩ := ho i hi
  obtain rfl := Option.some.inj a1
  obtain rfl := Option.some.inj a2
  obtain rfl := Option.some.inj a3
  obtain ⟨nv', nm', dv', dm', e2, h3, h4⟩ := C102_share_opens_commitments P path hashedMsg randomness (unmasked S.x)
    (unmasked S.kappa) l kl xl i _ _ _ _ _ _ b1 b2 b3 d hd hm
  have e3 := hsh i hi
  rw [share, share, share, e2] at e3
  rw [e1, ← Res.ok.inj e3]
  rw [e1, ← Res.ok.inj e3] at hne
  by_cases h5 : (nv, nm) = (nv', nm')
  · right
    refine (C15_pedersen_binding dv dm dv' dm' (fun h6 => hne ?_) (h2.trans h4.symm)).2
    rw [Prod.mk.injEq] at h5 h6
    rw [h5.1, h5.2, h6.1, h6.2]
  · left
    exact (C15_pedersen_binding nv nm nv' nm' h5 (h1.trans h3.symm)).2

/-- The hypotheses of C174 are met: the signer 2 makes three signers, the others being honest, sign with `s = 1`. -/
example : ∃ (sh : NodeIndex → SigShare) (bad : SigShare), HonestShares zeroPrim [] [5] [] exSecrets [0, 2, 7] sh ∧
    combine zeroPrim [] [5] [] (unmasked exSecrets.x) (unmasked exSecrets.kappa) 2 [(0, sh 0), (2, bad), (7, sh 7)] =
      .ok ⟨(Gx : Fn), 1⟩ := by
  obtain ⟨sh, hsh⟩ := honest_exist exSecrets rfl rfl [5] [] (by simp) [0, 2, 7]
  have hd := zeroPrim_deriveRho [5] [] (x := exSecrets.x) (k := exSecrets.kappa) (x0 := 6) rfl rfl
  have h := (C174_one_signer_decides zeroPrim [] [5] [] (unmasked exSecrets.x) (unmasked exSecrets.kappa) 2 (by omega) [0, 2, 7]
    (by simp) (by decide) _ hd sh _ _ _ _ (fun i hi => by
      have e := hsh i hi
      rw [share, share, share, new_eq hd (by simp)] at e
      exact (Res.ok.inj e).symm) 2 (by simp)
    (by simp only [List.mem_cons, List.not_mem_nil, or_false]; rintro i (rfl | rfl | rfl) - <;> decide) 1 0 0).1
  have e1 : lowOf 1 = 1 := by decide +kernel
  rw [e1] at h
  exact ⟨sh, _, hsh, h⟩

/-- There are shares as in C174 that open the right combinations, for instance the honest ones. -/
example : ∃ (l kl xl : Commitment) (sh : NodeIndex → SigShare), HonestShares zeroPrim [] [5] [] exSecrets [0, 2, 7] sh ∧
    (∀ i ∈ ([0, 2, 7] : List NodeIndex), ∃ ol okl oxl, share exSecrets.lambda exSecrets.lambdaMask i = some ol ∧ Opens l i ol ∧
      share exSecrets.kl exSecrets.klMask i = some okl ∧ Opens kl i okl ∧ share exSecrets.xl exSecrets.xlMask i = some oxl ∧
      Opens xl i oxl) ∧
    ∀ i ∈ ([0, 2, 7] : List NodeIndex), OpensCombinations (sh i) ⟨(Gx : Fn), 0, 0, G⟩ (beVal [5] : Fn) l kl xl i := by
  obtain ⟨sh, hsh⟩ := honest_exist exSecrets rfl rfl [5] [] (by simp) [0, 2, 7]
  have hd := zeroPrim_deriveRho [5] [] (x := exSecrets.x) (k := exSecrets.kappa) (x0 := 6) rfl rfl
  have hl := fun i => valueAtNode_pairs (v := exSecrets.lambda) (m := exSecrets.lambdaMask) rfl i
  have hk := fun i => valueAtNode_pairs (v := exSecrets.kl) (m := exSecrets.klMask) rfl i
  have hx := fun i => valueAtNode_pairs (v := exSecrets.xl) (m := exSecrets.xlMask) rfl i
  refine ⟨⟨.pedersen, _⟩, ⟨.pedersen, _⟩, ⟨.pedersen, _⟩, sh, hsh,
    fun i _ => ⟨_, _, _, rfl, ⟨rfl, hl i⟩, rfl, ⟨rfl, hk i⟩, rfl, ⟨rfl, hx i⟩⟩, fun i hi => ?_⟩
  obtain ⟨nv, nm, dv, dm, e, h1, h2⟩ := C102_share_opens_commitments zeroPrim [] [5] [] (unmasked exSecrets.x)
    (unmasked exSecrets.kappa) ⟨.pedersen, _⟩ ⟨.pedersen, _⟩ ⟨.pedersen, _⟩ i _ _ _ _ _ _ ⟨rfl, hl i⟩ ⟨rfl, hk i⟩ ⟨rfl, hx i⟩ _ hd
    (by simp)
  have e' := hsh i hi
  rw [share, share, share, e] at e'
  exact ⟨nv, nm, dv, dm, (Res.ok.inj e').symm, h1, h2⟩

end Verif
