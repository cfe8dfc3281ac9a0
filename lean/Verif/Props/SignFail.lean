import Verif.Props.SignGame
import Verif.Props.ComplaintOracle
import Verif.Props.Field
import Verif.Spec.SignFail

/-!
Property C187: how often honest signing fails.
-/

set_option autoImplicit false

namespace Verif.Sign

open Dealings Mega Zk Complaints Polynomial
open Point (H)

/-- The number `r` belonging to a nonce. -/
def rOf (k : Fn) : Fn := ((Point.affineX (k • G)).val : Fn)

theorem noSignature_iff (x k e : Fn) : NoSignature x k e ↔ k = 0 ∨ rOf k = 0 ∨ e + rOf k * x = 0 := by
  rw [NoSignature, ecdsaSign_eq]
  by_cases hk : k = 0
  · simp [hk]
  · rw [if_neg hk]
    constructor
    · intro h
      rcases h _ _ rfl with h | h
      · exact .inr (.inl h)
      · rcases div_eq_zero_iff.1 h with h | h
        · exact .inr (.inr h)
        · exact absurd h hk
    · intro h r s e'
      obtain ⟨rfl, rfl⟩ := Prod.mk.inj (Option.some.inj e')
      rcases h with h | h | h
      · exact absurd h hk
      · exact .inl h
      · exact .inr (div_eq_zero_iff.2 (.inl h))

/-- At most two nonces have a given x coordinate. -/
theorem nonces_x (a : Fp) : ∃ k : Fn, {k : Fn | k ≠ 0 ∧ Point.affineX (k • G) = a} ⊆ {k, -k} := by
  by_cases h : ∃ k : Fn, k ≠ 0 ∧ Point.affineX (k • G) = a
  · obtain ⟨k, hk, ha⟩ := h
    refine ⟨k, ?_⟩
    rintro l ⟨hl, hla⟩
    rcases (affineX_eq_iff (smul_ne_zero hl G_ne_zero) (smul_ne_zero hk G_ne_zero)).1 (hla.trans ha.symm) with h | h
    · exact .inl (smul_left_injective Fn G_ne_zero h)
    · right
      rw [← neg_smul] at h
      exact smul_left_injective Fn G_ne_zero h
  · refine ⟨0, ?_⟩
    rintro l ⟨hl, hla⟩
    exact absurd ⟨l, hl, hla⟩ h

/-- Which field elements are a given scalar when reduced. -/
theorem val_eq_cases (a : Fp) (v : Fn) (h : ((a.val : Nat) : Fn) = v) : a = (v.val : Fp) ∨ a = ((v.val + n : Nat) : Fp) := by
  have hp : p < 2 * n := by decide +kernel
  have ha := a.val_lt
  have hv : a.val % n = v.val := by
    rw [← h, ZMod.val_natCast]
  have e : a = ((a.val : Nat) : Fp) := (ZMod.natCast_zmod_val a).symm
  by_cases hlt : a.val < n
  · left
    rw [e, ← hv, Nat.mod_eq_of_lt hlt]
  · right
    have : a.val % n = a.val - n := by
      rw [Nat.mod_eq_sub_mod (by omega), Nat.mod_eq_of_lt (by omega)]
    have e2 : v.val + n = a.val := by omega
    rw [e2]
    exact e

theorem nonces_r (v : Fn) : {k : Fn | k ≠ 0 ∧ rOf k = v}.ncard ≤ 4 := by
  obtain ⟨a, ha⟩ := nonces_x (v.val : Fp)
  obtain ⟨b, hb⟩ := nonces_x ((v.val + n : Nat) : Fp)
  have hsub : {k : Fn | k ≠ 0 ∧ rOf k = v} ⊆ ({a, -a} ∪ {b, -b} : Set Fn) := by
    rintro k ⟨hk, hr⟩
    rcases val_eq_cases _ v hr with h | h
    · exact .inl (ha ⟨hk, h⟩)
    · exact .inr (hb ⟨hk, h⟩)
  have h1 : ({a, -a} : Set Fn).ncard ≤ 2 := by
    have := Set.ncard_insert_le a {-a}
    rwa [Set.ncard_singleton] at this
  have h2 : ({b, -b} : Set Fn).ncard ≤ 2 := by
    have := Set.ncard_insert_le b {-b}
    rwa [Set.ncard_singleton] at this
  have h3 := Set.ncard_union_le ({a, -a} : Set Fn) {b, -b}
  have h4 := Set.ncard_le_ncard hsub (Set.toFinite _)
  omega

theorem seven_not_square : ¬ IsSquare (7 : Fp) := by
  rintro ⟨b, hb⟩
  have hc : ((64828261740814840065360381756190772627110652128289340260788836867053167272156 : Fp) * 64828261740814840065360381756190772627110652128289340260788836867053167272156 : Fp) = -7 := by decide +kernel
  have h := (C142_sqrt (7 : Fp)).2.2.2.2.2.1 ⟨(C142_sqrt 7).1.2 ⟨b, hb.symm⟩, (C142_sqrt (-7)).1.2 ⟨_, hc⟩⟩
  exact absurd h (by decide +kernel)

/-- The nonces without `r` are zero and two others. -/
theorem nonces_zero : ∃ k : Fn, k ≠ 0 ∧ ∀ l : Fn, (l = 0 ∨ rOf l = 0) ↔ l = 0 ∨ l = k ∨ l = -k := by
  have hon : OnCurve ((n : Nat) : Fp) ((69186903114498750860896505739646488798970448350379198433587849548453839594014 : Nat) : Fp) :=
    onCurve_of_nat (by decide +kernel)
  obtain ⟨k, hk⟩ := exists_smul_eq G_ne_zero (Pt.mk _ _ hon)
  have hx : Point.affineX (k • G) = ((n : Nat) : Fp) := by rw [← hk]; rfl
  have hk0 : k ≠ 0 := by
    rintro rfl
    rw [show ((0 : Fn) • G : Pt) = 0 from zero_smul Fn G] at hk
    cases hk
  have hr : rOf k = 0 := by
    rw [rOf, hx, ZMod.val_natCast, Nat.mod_eq_of_lt (by decide +kernel)]
    exact ZMod.natCast_self n
  refine ⟨k, hk0, fun l => ⟨fun h => ?_, fun h => ?_⟩⟩
  · by_cases hl : l = 0
    · exact .inl hl
    right
    have hl' := h.resolve_left hl
    have hlG : l • G ≠ 0 := smul_ne_zero hl G_ne_zero
    have hlx : Point.affineX (l • G) = ((n : Nat) : Fp) := by
      rcases val_eq_cases _ _ hl' with h | h
      · exfalso
        rw [ZMod.val_zero, Nat.cast_zero] at h
        generalize l • G = Q at h hlG
        induction Q using Point.pt_cases with
        | h0 => exact hlG rfl
        | h1 x y hxy =>
          have hx0 : x = 0 := h
          subst hx0
          refine seven_not_square ⟨y, ?_⟩
          have : y ^ 2 = (0 : Fp) ^ 3 + 7 := hxy
          rw [← sq, this]
          ring
      · rw [h, ZMod.val_zero, zero_add]
    rcases (affineX_eq_iff hlG (smul_ne_zero hk0 G_ne_zero)).1 (hlx.trans hx.symm) with h | h
    · exact .inl (smul_left_injective Fn G_ne_zero h)
    · rw [← neg_smul] at h
      exact .inr (smul_left_injective Fn G_ne_zero h)
  · rcases h with h | rfl | rfl
    · exact .inl h
    · exact .inr hr
    · right
      rw [rOf, neg_smul, affineX_neg]
      exact hr

end Verif.Sign

namespace Verif

open Dealings Mega Zk Complaints Sign Oracle Polynomial
open Point (H)

/-- C187, nonces: unless both the hash and the key are zero, at least three and at most seven nonces have no signature; exactly three if
the hash is zero.  If both are zero there is never a signature. -/
theorem C187_nonces (x e : Fn) : (¬ (e = 0 ∧ x = 0) → 3 ≤ {k | NoSignature x k e}.ncard ∧ {k | NoSignature x k e}.ncard ≤ 7) ∧
    (e = 0 → x ≠ 0 → {k | NoSignature x k e}.ncard = 3) ∧ (e = 0 → x = 0 → ∀ k, NoSignature x k e) := by
  obtain ⟨k, hk, hz⟩ := nonces_zero
  have hzero : {l : Fn | l = 0 ∨ rOf l = 0}.ncard = 3 := by
    have : {l : Fn | l = 0 ∨ rOf l = 0} = {0, k, -k} := Set.ext fun l => hz l
    rw [this]
    refine Set.ncard_eq_three.2 ⟨0, k, -k, hk.symm, (neg_ne_zero.2 hk).symm, fun h => ?_, rfl⟩
    have h2 : (2 : Fn) * k = 0 := by rw [two_mul]; nth_rw 1 [h]; exact neg_add_cancel k
    rcases mul_eq_zero.1 h2 with h2 | h2
    · exact absurd h2 (by decide +kernel)
    · exact hk h2
  have hsub : {l : Fn | l = 0 ∨ rOf l = 0} ⊆ {k | NoSignature x k e} := fun l hl => (noSignature_iff x l e).2 (by
    rcases hl with h | h
    · exact .inl h
    · exact .inr (.inl h))
  refine ⟨fun hne => ⟨hzero ▸ Set.ncard_le_ncard hsub (Set.toFinite _), ?_⟩, fun he hx => ?_, fun he hx k => ?_⟩
  · have h1 : {k | NoSignature x k e} ⊆ {l : Fn | l = 0 ∨ rOf l = 0} ∪ {l : Fn | l ≠ 0 ∧ rOf l = -e / x} := by
      intro l hl
      by_cases hl0 : l = 0
      · exact .inl (.inl hl0)
      rcases (noSignature_iff x l e).1 hl with h | h | h
      · exact .inl (.inl h)
      · exact .inl (.inr h)
      · right
        refine ⟨hl0, ?_⟩
        have hx : x ≠ 0 := by
          rintro rfl
          rw [mul_zero, add_zero] at h
          exact hne ⟨h, rfl⟩
        rw [eq_div_iff hx]
        exact eq_neg_of_add_eq_zero_right h
    have h2 := Set.ncard_le_ncard h1 (Set.toFinite _)
    have h3 := Set.ncard_union_le {l : Fn | l = 0 ∨ rOf l = 0} {l : Fn | l ≠ 0 ∧ rOf l = -e / x}
    have h4 := nonces_r (-e / x)
    omega
  · rw [← hzero]
    congr 1
    refine Set.Subset.antisymm (fun l hl => ?_) hsub
    rcases (noSignature_iff x l e).1 hl with h | h | h
    · exact .inl h
    · exact .inr h
    · rw [he, zero_add] at h
      exact .inr ((mul_eq_zero.1 h).resolve_right hx)
  · rw [noSignature_iff, he, hx]
    exact .inr (.inr (by ring))

/-- C187, the code: honest shares combine to a signature that `Verify` accepts exactly if the blinding is not zero and there is a signature for
key, nonce and message by SEC 1; otherwise `Verify` returns an error. -/
theorem C187_exactly (P : Prim) (path : List Key.Index) (hashedMsg randomness : Bytes) (S : Secrets) (t : Nat)
    (x0 k0 l0 : Fn) (hS : S.Consistent t x0 k0 l0) (signers : List NodeIndex) (ht : 0 < t) (hc : t ≤ signers.length)
    (hn : signers.Nodup) (sh : NodeIndex → SigShare) (hsh : HonestShares P path hashedMsg randomness S signers sh) :
    ∃ (sig : Signature) (tweak rnd : Fn) (c : Bytes),
      combine P path hashedMsg randomness (unmasked S.x) (unmasked S.kappa) t (signers.map fun i => (i, sh i)) = .ok sig ∧
      Key.deriveTweak P path (x0 • G) = .ok (tweak, c) ∧
      (rhoTranscript randomness hashedMsg (k0 • G) tweak).outputScalar P = .ok rnd ∧
      (sig.verify P path hashedMsg randomness (unmasked S.x) (unmasked S.kappa) = .ok () ↔
        l0 ≠ 0 ∧ ¬ NoSignature (x0 + tweak) (k0 + rnd) (beVal hashedMsg : Fn)) ∧
      (sig.verify P path hashedMsg randomness (unmasked S.x) (unmasked S.kappa) ≠ .ok () →
        (sig.verify P path hashedMsg randomness (unmasked S.x) (unmasked S.kappa)).isErr = true) := by
  obtain ⟨hm, d, hd, e⟩ := combine_honest hS ht hc hn hsh
  obtain ⟨sig, tweak, rnd, c, h1, h2, h3, h4, h5, h6⟩ := C68_threshold_signature P path hashedMsg randomness S t x0 k0 l0 hS signers ht hc hn sh hsh
  obtain ⟨pre, pk, c', g1, g2, g3, g4, -⟩ := deriveRho_ok h3
  rw [(constantTerm_unmasked hS.hk).2] at g1
  rw [(constantTerm_unmasked hS.hx).1] at g2
  obtain rfl := Res.ok.inj g1
  obtain rfl := Res.ok.inj g2
  have hs : sig.s = 0 ↔ l0 = 0 ∨ ((beVal hashedMsg : Fn) + sig.r * (x0 + tweak)) / (k0 + rnd) = 0 := by
    by_cases hl : l0 = 0
    · have : sig.s = 0 := by
        rw [e] at h1
        rw [← Res.ok.inj h1, hl]
        simp [lowOf]
      simp [hl, this]
    · rw [h4 hl]
      simp only [hl, false_or]
      exact not_iff_not.1 lowOf_ne_zero
  have hno : NoSignature (x0 + tweak) (k0 + rnd) (beVal hashedMsg : Fn) ↔
      sig.r = 0 ∨ ((beVal hashedMsg : Fn) + sig.r * (x0 + tweak)) / (k0 + rnd) = 0 := by
    have hr : rOf (k0 + rnd) = sig.r := h5.symm
    rw [noSignature_iff, hr, div_eq_zero_iff]
    exact or_rotate
  have hiff : sig.verify P path hashedMsg randomness (unmasked S.x) (unmasked S.kappa) = .ok () ↔ sig.r ≠ 0 ∧ sig.s ≠ 0 := by
    constructor
    · intro h
      obtain ⟨hr, hs, -⟩ := (verify_iff ..).1 h
      exact ⟨hr, hs⟩
    · exact fun h => (h6 h.1 h.2).1
  refine ⟨sig, tweak, rnd, c', h1, g3, g4, ?_, fun h => ?_⟩
  · rw [hiff, Ne, Ne, hs, hno]
    exact (and_congr_right fun _ => not_or).trans and_left_comm |>.trans (and_congr_right fun _ => not_or.symm)
  · have h0 : sig.r = 0 ∨ sig.s = 0 := by
      by_contra hh
      rw [not_or] at hh
      exact h (hiff.2 hh)
    rw [Signature.verify, if_pos h0]
    rfl

/-- C187, the oracle model: a program that puts at most `q` questions finds a message, a path and randomness without a signature with
probability at most `7 * (q + 1) / n`, even if it knows the key and the nonce. -/
theorem C187_oracle (D : Finset Question) (x k : Fn) (tweak : List Key.Index → Fn) (g : Alg D Fn Request) (q : Nat) (hq : g.AtMost q) :
    share (fun O => (g.run O).Proper x tweak ∧ (g.run O).Fails x k tweak O) ≤ 7 * ((q + 1) / n) := by
  have hf : ∀ x e : Fn, ∃ f : Nat → Fn, ¬ (e = 0 ∧ x = 0) → ∀ l, NoSignature x l e → ∃ j < 7, l = f j := by
    intro x e
    by_cases hne : e = 0 ∧ x = 0
    · exact ⟨fun _ => 0, fun h => absurd hne h⟩
    have h7 := ((C187_nonces x e).1 hne).2
    have hfin : {k | NoSignature x k e}.Finite := Set.toFinite _
    refine ⟨fun j => hfin.toFinset.toList.getD j 0, fun _ l hl => ?_⟩
    obtain ⟨j, hj, e'⟩ := List.getElem_of_mem (Finset.mem_toList.2 (hfin.mem_toFinset.2 hl))
    refine ⟨j, ?_, ?_⟩
    · rw [Finset.length_toList, ← Set.ncard_eq_toFinset_card _ hfin] at hj
      omega
    · simp only [List.getD, List.getElem?_eq_getElem hj, e', Option.getD_some]
  choose f hf using hf
  have h := share_exists_le (fun j O => Succeeds g
      (fun r => if r.hashedMsg.length ≤ 64 then within D (rhoTranscript r.randomness r.hashedMsg (k • G) (tweak r.path)) else none)
      (fun r a => k + a = f (x + tweak r.path) (beVal r.hashedMsg : Fn) j) O) ((q + 1) / n) (fun j => by
    refine (share_le g _ _ q hq ?_).trans_eq (by rw [card_Fn])
    intro r r' d a a' hd hd' ha ha'
    split_ifs at hd with hl
    split_ifs at hd' with hl'
    rw [rhoTranscript_eq] at hd hd'
    have hp := (perm_of_within hd hd').2
    have hn := (RoCall.accepted_spec (rhoCalls r'.randomness r'.hashedMsg (k • G) (tweak r'.path))).2
    obtain ⟨m1, m2, m3, m4⟩ := mem_rho (randomness := r.randomness) (hashedMsg := r.hashedMsg) (preSig := k • G) (keyTweak := tweak r.path)
    obtain ⟨n1, n2, n3, n4⟩ := mem_rho (randomness := r'.randomness) (hashedMsg := r'.hashedMsg) (preSig := k • G) (keyTweak := tweak r'.path)
    have e1 : tweak r.path = tweak r'.path := scalarCall_inj (Zk.call_eq_of_perm hp hn m2 n2 rfl)
    have e2 : r.hashedMsg = r'.hashedMsg := by
      have := Zk.call_eq_of_perm hp hn (m4 (by omega)) (n4 (by omega)) rfl
      simpa only [byteCall, RoCall.mk.injEq, true_and] using this
    rw [e1, e2, ← ha'] at ha
    exact add_left_cancel ha) 7
  refine le_trans (share_mono ?_) (h.trans_eq (by norm_num))
  rintro O ⟨⟨hl, hne⟩, a, ha, hno⟩
  obtain ⟨j, hj, e⟩ := hf _ _ hne _ hno
  exact ⟨j, hj, a, (if_pos hl).trans ha, e⟩

/-- C187, the link to the code: with the code's hash function as oracle, what fails is what fails in the code: the combined signature of honest
shares is refused (`D` any set of questions with the one that is asked). -/
theorem C187_code (P : Prim) (D : Finset Question) (q : Request) (S : Secrets) (t : Nat) (x0 k0 l0 : Fn) (hS : S.Consistent t x0 k0 l0)
    (hl0 : l0 ≠ 0) (signers : List NodeIndex) (ht : 0 < t) (hc : t ≤ signers.length) (hn : signers.Nodup) (sh : NodeIndex → SigShare)
    (hsh : HonestShares P q.path q.hashedMsg q.randomness S signers sh) (tweak : List Key.Index → Fn) (c : Bytes)
    (htw : Key.deriveTweak P q.path (x0 • G) = .ok (tweak q.path, c))
    (hD : ∀ x, question (rhoTranscript q.randomness q.hashedMsg (k0 • G) (tweak q.path)) = some x → x ∈ D) :
    ∃ sig, combine P q.path q.hashedMsg q.randomness (unmasked S.x) (unmasked S.kappa) t (signers.map fun i => (i, sh i)) = .ok sig ∧
      (q.Fails x0 k0 tweak (fun d : D => codeOracle P d.1) ↔
        (sig.verify P q.path q.hashedMsg q.randomness (unmasked S.x) (unmasked S.kappa)).isErr = true) := by
  obtain ⟨sig, tw, rnd, c', h1, h2, h3, h4, h5⟩ :=
    C187_exactly P q.path q.hashedMsg q.randomness S t x0 k0 l0 hS signers ht hc hn sh hsh
  obtain rfl : tweak q.path = tw := congrArg Prod.fst (Res.ok.inj (htw.symm.trans h2))
  refine ⟨sig, h1, ?_⟩
  have hacc : Accepted (fun d : D => codeOracle P d.1) (rhoTranscript q.randomness q.hashedMsg (k0 • G) (tweak q.path)) rnd := by
    rw [rhoTranscript_eq] at h3 hD ⊢
    exact (accepted_code P D _ _ (List.ne_nil_of_mem mem_rho.1) hD rnd).1 h3
  obtain ⟨a, ha, hr⟩ := hacc
  have hF : q.Fails x0 k0 tweak (fun d : D => codeOracle P d.1) ↔ NoSignature (x0 + tweak q.path) (k0 + rnd) (beVal q.hashedMsg : Fn) := by
    constructor
    · rintro ⟨a', ha', h⟩
      obtain rfl := Option.some.inj (ha'.symm.trans ha)
      rwa [hr] at h
    · exact fun h => ⟨a, ha, by rw [hr]; exact h⟩
  rw [hF]
  constructor
  · exact fun h => h5 fun hv => (h4.1 hv).2 h
  · intro h
    by_contra hno
    rw [h4.2 ⟨hl0, hno⟩] at h
    cases h

/-- The number `-6 * Gx`. -/
def Sign.badMsg : Bytes :=
  [37, 137, 153, 6, 36, 211, 153, 245, 254, 61, 176, 125, 40, 213, 189, 210, 32, 100, 169, 144, 251, 4, 235, 155, 35, 200, 19, 131, 230, 210, 54, 51]

/-- Honest shares for a message for which the combined signature is refused, as `e + r * x = 0`. -/
example : ∃ sh sig, HonestShares zeroPrim [] badMsg [] exSecrets [0, 2, 7] sh ∧
    combine zeroPrim [] badMsg [] (unmasked exSecrets.x) (unmasked exSecrets.kappa) 2 ([0, 2, 7].map fun i => (i, sh i)) = .ok sig ∧
    (sig.verify zeroPrim [] badMsg [] (unmasked exSecrets.x) (unmasked exSecrets.kappa)).isErr = true ∧
    Request.Proper 6 (fun _ => 0) ⟨[], badMsg, []⟩ := by
  obtain ⟨sh, hsh⟩ := honest_exist exSecrets rfl rfl badMsg [] (by decide) [0, 2, 7]
  obtain ⟨sig, tw, rnd, c, h1, h2, h3, h4, h5⟩ := C187_exactly zeroPrim [] badMsg [] exSecrets 2 6 1 1
    exSecrets_consistent [0, 2, 7] (by omega) (by simp) (by decide) sh hsh
  rw [zeroPrim_rho] at h3
  obtain rfl := Res.ok.inj h3
  obtain rfl : (0 : Fn) = tw := congrArg Prod.fst (Res.ok.inj h2)
  refine ⟨sh, sig, hsh, h1, h5 fun h => (h4.1 h).2 ?_, by decide, fun h => absurd h.1 (by decide +kernel)⟩
  rw [noSignature_iff]
  right; right
  have : rOf (1 + 0) = (Gx : Fn) := by
    rw [rOf, add_zero, one_smul]
    rfl
  rw [this]
  decide +kernel

/-- A program that puts one question. -/
example (D : Finset Question) (d : D) : share (fun O => ((Alg.ask d fun a => Alg.done (⟨[], Scalar.serialize a, []⟩ : Request)).run O).Proper 6 (fun _ => 0) ∧
    ((Alg.ask d fun a => Alg.done (⟨[], Scalar.serialize a, []⟩ : Request)).run O).Fails 6 1 (fun _ => 0) O) ≤ 7 * ((1 + 1) / n) := by
  have := C187_oracle D 6 1 (fun _ => 0) (Alg.ask d fun a => Alg.done (⟨[], Scalar.serialize a, []⟩ : Request)) 1 (fun _ => trivial)
  simpa using this

end Verif
