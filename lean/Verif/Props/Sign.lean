import Verif.Lemmas.Sign

/-! Theorems about signing. -/

set_option autoImplicit false

namespace Verif

open Mega Zk Dealings RoCall Polynomial Sign

/-! ### C96: the derived public key -/

/-- `DerivePublicKey` of a serialised key returns the serialised key plus tweak, and the chain key, of `DeriveTweak`: the end
of the chain of BIP32 steps. -/
theorem C96_derived_public_key (P : Prim) (path : List Key.Index) (pk : Pt) :
    (∃ c Q, derivePublicKey P (Point.serialize pk) path = .ok (Point.serialize Q, c) ∧
      path.foldl (Bip32.step P) (pk, List.replicate 32 0) = (Q, c)) ∨
    derivePublicKey P (Point.serialize pk) path = .diverge := by
  rcases C30_no_failure P path pk with ⟨t, c, h⟩ | h
  · refine Or.inl ⟨c, t • G + pk, derivePublicKey_serialize h, ?_⟩
    rw [C29_derived_key_is_tweaked P path pk t c h, add_comm]
    rfl
  · right
    simp only [derivePublicKey, Point.deserialize_serialize, Res.ok_bind, Point.ofRaw?_raw, h, Res.diverge_bind]

/-! ### C68, C71: threshold signatures -/

/-- What at least `t` honest shares combine to, given the derived values. -/
theorem Sign.combine_honest {P : Prim} {path : List Key.Index} {hashedMsg randomness : Bytes} {S : Secrets} {t : Nat}
    {x0 k0 l0 : Fn} (hS : S.Consistent t x0 k0 l0) {signers : List NodeIndex} (ht : 0 < t) (hc : t ≤ signers.length)
    (hn : signers.Nodup) {sh : NodeIndex → SigShare} (hsh : HonestShares P path hashedMsg randomness S signers sh) :
    hashedMsg.length ≤ 64 ∧ ∃ d, deriveRho P hashedMsg randomness path (unmasked S.x) (unmasked S.kappa) = .ok d ∧
      combine P path hashedMsg randomness (unmasked S.x) (unmasked S.kappa) t (signers.map fun i => (i, sh i)) =
        .ok ⟨d.rho, lowOf (((beVal hashedMsg : Fn) + d.rho * (d.keyTweak + x0)) * l0 * ((d.randomizer + k0) * l0)⁻¹)⟩ := by
  obtain ⟨i0, hi0⟩ : ∃ i, i ∈ signers := by
    cases signers with
    | nil => simp at hc; omega
    | cons a l => exact ⟨a, by simp⟩
  obtain ⟨hm, d, hd⟩ := new_ok (hsh i0 hi0)
  refine ⟨hm, d, hd, ?_⟩
  obtain ⟨w, hw, e⟩ := combine_eq (threshold := t) hd (by omega) (by omega) hn sh
    (fun i => ((beVal hashedMsg : Fn) + d.rho * d.keyTweak) * (toPoly S.lambda).eval (place i) + d.rho * (toPoly S.xl).eval (place i))
    (fun i => ((beVal hashedMsg : Fn) + d.rho * d.keyTweak) * (toPoly S.lambdaMask).eval (place i) + d.rho * (toPoly S.xlMask).eval (place i))
    (fun i => d.randomizer * (toPoly S.lambda).eval (place i) + (toPoly S.kl).eval (place i))
    (fun i => d.randomizer * (toPoly S.lambdaMask).eval (place i) + (toPoly S.klMask).eval (place i))
    (fun i hi => by
      have h := hsh i hi
      rw [share, share, share, new_eq hd hm] at h
      exact (Res.ok.inj h).symm)
  have hdeg : ∀ f : List Fn, f.length ≤ t → (toPoly f).degree < signers.length := fun f hf =>
    lt_of_lt_of_le (degree_toPoly_lt f) (by exact_mod_cast le_trans hf hc)
  have e2 : (signers.map fun i => w i * (d.randomizer * (toPoly S.lambda).eval (place i) + (toPoly S.kl).eval (place i))).sum =
      (d.randomizer + k0) * l0 := by
    have := sum_linear w (fun i => (toPoly S.lambda).eval (place i)) (fun i => (toPoly S.kl).eval (place i)) d.randomizer 1 signers
    simp only [one_mul] at this
    rw [this, hw _ (hdeg _ hS.lenl), hw _ (hdeg _ hS.lenkl), eval_zero_toPoly hS.hl, eval_zero_toPoly hS.hkl]
    ring
  rw [e, e2, sum_linear, hw _ (hdeg _ hS.lenl), hw _ (hdeg _ hS.lenxl), eval_zero_toPoly hS.hl, eval_zero_toPoly hS.hxl]
  congr 4
  ring

/-- At least `t` honest shares combine to a signature `(r, s)`, which, unless `r` or `s` is zero, passes `Verify` and is an ECDSA
signature under the public key that `DerivePublicKey` returns; the private key being the shared key plus the tweak, and the nonce
the shared nonce plus the randomiser, `s` is what ECDSA prescribes, made low. -/
theorem C68_threshold_signature (P : Prim) (path : List Key.Index) (hashedMsg randomness : Bytes) (S : Secrets) (t : Nat)
    (x0 k0 l0 : Fn) (hS : S.Consistent t x0 k0 l0) (signers : List NodeIndex) (ht : 0 < t) (hc : t ≤ signers.length)
    (hn : signers.Nodup) (sh : NodeIndex → SigShare) (hsh : HonestShares P path hashedMsg randomness S signers sh) :
    ∃ (sig : Signature) (tweak rnd : Fn) (c : Bytes),
      combine P path hashedMsg randomness (unmasked S.x) (unmasked S.kappa) t (signers.map fun i => (i, sh i)) = .ok sig ∧
      derivePublicKey P (Point.serialize (x0 • G)) path = .ok (Point.serialize ((x0 + tweak) • G), c) ∧
      deriveRho P hashedMsg randomness path (unmasked S.x) (unmasked S.kappa) =
        .ok ⟨sig.r, tweak, rnd, (k0 + rnd) • G⟩ ∧
      (l0 ≠ 0 → sig.s = lowOf (((beVal hashedMsg : Fn) + sig.r * (x0 + tweak)) / (k0 + rnd))) ∧
      sig.r = ((Point.affineX ((k0 + rnd) • G)).val : Fn) ∧
      (sig.r ≠ 0 → sig.s ≠ 0 →
        sig.verify P path hashedMsg randomness (unmasked S.x) (unmasked S.kappa) = .ok () ∧
        EcdsaValid ((x0 + tweak) • G) (beVal hashedMsg : Fn) sig.r sig.s) := by
  obtain ⟨hm, d, hd, e⟩ := combine_honest hS ht hc hn hsh
  obtain ⟨pre, pk, c, h1, h2, h3, h4, h5, h6⟩ := deriveRho_ok hd
  rw [(constantTerm_unmasked hS.hk).2] at h1
  have h2' := h2
  rw [(constantTerm_unmasked hS.hx).1] at h2
  obtain rfl := Res.ok.inj h1
  obtain rfl := Res.ok.inj h2
  set N : Fn := (beVal hashedMsg : Fn) + d.rho * (d.keyTweak + x0) with hN
  have hpre : d.randomizedPresig = (k0 + d.randomizer) • G := by rw [h5, add_smul]
  refine ⟨_, d.keyTweak, d.randomizer, c, e, ?_, ?_, ?_, ?_, ?_⟩
  · rw [derivePublicKey_serialize h3]
    congr 3
    module
  · rw [hd, ← hpre]
  · intro hl
    show lowOf (N * l0 * ((d.randomizer + k0) * l0)⁻¹) = _
    rw [← div_eq_mul_inv, mul_div_mul_right _ _ hl, hN, add_comm d.randomizer k0, add_comm d.keyTweak x0]
  · show d.rho = _
    rw [h6, hpre]
  · show d.rho ≠ 0 → lowOf (N * l0 * ((d.randomizer + k0) * l0)⁻¹) ≠ 0 → _
    intro hr hs
    set sg : Fn := N * l0 * ((d.randomizer + k0) * l0)⁻¹ with hsg
    have hs0 : sg ≠ 0 := lowOf_ne_zero.1 hs
    have hl0 : l0 ≠ 0 := by rintro rfl; exact hs0 (by rw [hsg]; simp)
    have hK : k0 + d.randomizer ≠ 0 := by
      intro h
      exact hs0 (by rw [hsg, add_comm d.randomizer k0, h]; simp)
    have hN0 : N ≠ 0 := by
      intro h
      exact hs0 (by rw [hsg, h]; simp)
    have hsgv : sg = N / (k0 + d.randomizer) := by
      rw [hsg, ← div_eq_mul_inv, mul_div_mul_right _ _ hl0, add_comm]
    have hrp : ∀ s : Fn, ((beVal hashedMsg : Fn) / s) • G + (d.rho / s) • (d.keyTweak • G + x0 • G) = (N / s) • G := by
      intro s
      rw [hN, add_div, mul_add, add_div, mul_div_right_comm, mul_div_right_comm]
      module
    have hval : N / lowOf sg = k0 + d.randomizer ∨ N / lowOf sg = -(k0 + d.randomizer) := by
      rcases lowOf_cases sg with h | h
      · left; rw [h, hsgv]; field_simp
      · right; rw [h, hsgv]; field_simp
    have hx : Point.affineX ((N / lowOf sg) • G) = Point.affineX d.randomizedPresig := by
      rw [hpre]
      rcases hval with h | h
      · rw [h]
      · rw [h, neg_smul, affineX_neg]
    have hne : (N / lowOf sg) • G ≠ 0 := by
      rw [Ne, smul_eq_zero_iff_left G_ne_zero]
      rcases hval with h | h <;> rw [h]
      · exact hK
      · exact neg_ne_zero.2 hK
    constructor
    · rw [verify_iff]
      refine ⟨hr, hs, hm, d, _, hd, h2', rfl, isHigh_lowOf sg, ?_, ?_⟩
      · show ((beVal hashedMsg : Fn) / lowOf sg) • G + (d.rho / lowOf sg) • (d.keyTweak • G + x0 • G) ≠ 0
        rw [hrp]; exact hne
      · show Point.affineX (((beVal hashedMsg : Fn) / lowOf sg) • G + (d.rho / lowOf sg) • (d.keyTweak • G + x0 • G)) = _
        rw [hrp]; exact hx
    · refine ⟨hr, hs, ?_⟩
      have e : ((beVal hashedMsg : Fn) / lowOf sg) • G + (d.rho / lowOf sg) • (x0 + d.keyTweak) • G = (N / lowOf sg) • G := by
        rw [← hrp]; module
      have key : ∀ R : Pt, R ≠ 0 → Point.affineX R = Point.affineX d.randomizedPresig →
          ∃ (x y : Fp) (h : OnCurve x y), R = Pt.mk x y h ∧ d.rho = (x.val : Fn) := by
        intro R hR hRx
        induction R using Point.pt_cases with
        | h0 => exact absurd rfl hR
        | h1 x y hxy => exact ⟨x, y, hxy, rfl, by rw [h6, ← hRx]; rfl⟩
      show ∃ (x y : Fp) (h : OnCurve x y),
        ((beVal hashedMsg : Fn) / lowOf sg) • G + (d.rho / lowOf sg) • (x0 + d.keyTweak) • G = Pt.mk x y h ∧ d.rho = (x.val : Fn)
      rw [e]
      exact key _ hne hx

/-- Any two large enough sets of honest shares combine to the same signature. -/
theorem C71_independent_of_signers (P : Prim) (path : List Key.Index) (hashedMsg randomness : Bytes) (S : Secrets) (t : Nat)
    (x0 k0 l0 : Fn) (hS : S.Consistent t x0 k0 l0) (ht : 0 < t) (signers signers' : List NodeIndex)
    (hc : t ≤ signers.length) (hc' : t ≤ signers'.length) (hn : signers.Nodup) (hn' : signers'.Nodup)
    (sh sh' : NodeIndex → SigShare) (hsh : HonestShares P path hashedMsg randomness S signers sh)
    (hsh' : HonestShares P path hashedMsg randomness S signers' sh') :
    ∃ sig, combine P path hashedMsg randomness (unmasked S.x) (unmasked S.kappa) t (signers.map fun i => (i, sh i)) = .ok sig ∧
      combine P path hashedMsg randomness (unmasked S.x) (unmasked S.kappa) t (signers'.map fun i => (i, sh' i)) = .ok sig := by
  obtain ⟨-, d, hd, e⟩ := combine_honest hS ht hc hn hsh
  obtain ⟨-, d', hd', e'⟩ := combine_honest hS ht hc' hn' hsh'
  rw [hd] at hd'
  obtain rfl := Res.ok.inj hd'
  exact ⟨_, e, e'⟩

/-! ### C70, C73, C105: what `Verify` accepts -/

/-- Combination only ever returns low values of `s`, and `Verify` accepts no high one: if it accepts `(r, s)`, it rejects
`(r, -s)` with an error. -/
theorem C70_low_s (P : Prim) (path : List Key.Index) (hashedMsg randomness : Bytes) (keyT presigT : Option Com) :
    (∀ (t : Int) (shares : ShareMap) (sig : Signature), combine P path hashedMsg randomness keyT presigT t shares = .ok sig →
      2 * sig.s.val ≤ n) ∧
    (∀ sig : Signature, sig.verify P path hashedMsg randomness keyT presigT = .ok () →
      2 * sig.s.val ≤ n ∧ ((⟨sig.r, -sig.s⟩ : Signature).verify P path hashedMsg randomness keyT presigT).isErr = true) := by
  have low : ∀ s : Fn, Scalar.isHigh s = false → 2 * s.val ≤ n := by
    intro s h
    have := (C16_high_low s).2.1
    rw [h] at this
    simpa using this
  refine ⟨fun t shares sig h => ?_, fun sig h => ?_⟩
  · obtain ⟨d, s, -, rfl⟩ := combine_ok h
    exact low _ (isHigh_lowOf s)
  · obtain ⟨hr, hs, hm, d, pk, hd, -, -, h1, -⟩ := (verify_iff ..).1 h
    refine ⟨low _ h1, ?_⟩
    have h2 : Scalar.isHigh (-sig.s) = true := by
      by_contra hh
      have := ((C16_high_low sig.s).2.2.1 hs).2 (by simpa using hh)
      rw [h1] at this
      cases this
    rw [Signature.verify, if_neg (by simp [hr, hs]), convertHash_eq hm, Res.ok_bind, hd, Res.ok_bind,
      if_pos (Or.inr h2)]
    rfl

/-- `Verify` accepts only ECDSA signatures on the message hash (as a number, reduced) under the key that `DerivePublicKey`
returns for the transcript's key, with `r` and `s` non-zero and `s` low. -/
theorem C73_only_ecdsa (P : Prim) (path : List Key.Index) (hashedMsg randomness : Bytes) (keyT presigT : Option Com)
    (sig : Signature) (h : sig.verify P path hashedMsg randomness keyT presigT = .ok ()) :
    ∃ (pk Q : Pt) (c : Bytes), constantTerm keyT = .ok pk ∧
      derivePublicKey P (Point.serialize pk) path = .ok (Point.serialize Q, c) ∧
      EcdsaValid Q (beVal hashedMsg : Fn) sig.r sig.s ∧ 2 * sig.s.val ≤ n := by
  have hlow := ((C70_low_s P path hashedMsg randomness keyT presigT).2 sig h).1
  obtain ⟨hr, hs, hm, d, pk, hd, hpk, hrho, -, hne, hx⟩ := (verify_iff ..).1 h
  obtain ⟨pre, pk', c, -, h2, h3, -, -, h6⟩ := deriveRho_ok hd
  rw [hpk] at h2
  obtain rfl := Res.ok.inj h2
  refine ⟨pk, d.keyTweak • G + pk, c, hpk, derivePublicKey_serialize h3, ⟨hr, hs, ?_⟩, hlow⟩
  have key : ∀ R : Pt, R ≠ 0 → Point.affineX R = Point.affineX d.randomizedPresig →
      ∃ (x y : Fp) (h : OnCurve x y), R = Pt.mk x y h ∧ sig.r = (x.val : Fn) := by
    intro R hR hRx
    induction R using Point.pt_cases with
    | h0 => exact absurd rfl hR
    | h1 x y hxy => exact ⟨x, y, hxy, rfl, by rw [hrho, h6, ← hRx]; rfl⟩
  exact key _ hne hx

/-- For given message, randomness, path and transcripts, `Verify` accepts at most one signature. -/
theorem C105_unique_signature (P : Prim) (path : List Key.Index) (hashedMsg randomness : Bytes) (keyT presigT : Option Com)
    (sig sig' : Signature) (h : sig.verify P path hashedMsg randomness keyT presigT = .ok ())
    (h' : sig'.verify P path hashedMsg randomness keyT presigT = .ok ()) : sig = sig' := by
  obtain ⟨hr, hs, hm, d, pk, hd, hpk, hrho, hlow, hne, hx⟩ := (verify_iff ..).1 h
  obtain ⟨hr', hs', -, d', pk', hd', hpk', hrho', hlow', hne', hx'⟩ := (verify_iff ..).1 h'
  rw [hd] at hd'
  obtain rfl := Res.ok.inj hd'
  rw [hpk] at hpk'
  obtain rfl := Res.ok.inj hpk'
  have hrr : sig.r = sig'.r := hrho.trans hrho'.symm
  set W : Pt := (beVal hashedMsg : Fn) • G + sig.r • (d.keyTweak • G + pk) with hW
  have e : ∀ s : Fn, ((beVal hashedMsg : Fn) / s) • G + (sig.r / s) • (d.keyTweak • G + pk) = s⁻¹ • W := by
    intro s; rw [hW, div_eq_mul_inv, div_eq_mul_inv]; module
  rw [e] at hne hx
  rw [← hrr, e] at hne' hx'
  have hW0 : W ≠ 0 := fun h0 => hne (by rw [h0, smul_zero])
  have hs_eq : sig.s = sig'.s := by
    rcases (affineX_eq_iff hne hne').1 (hx.trans hx'.symm) with h1 | h1
    · exact inv_injective ((smul_left_inj hW0).1 h1)
    · rw [← neg_smul, smul_left_inj hW0, ← inv_neg] at h1
      have h2 : sig.s = -sig'.s := inv_injective h1
      have h3 := (C16_high_low sig'.s).2.2.1 hs'
      rw [← h2, hlow] at h3
      have := h3.2 rfl
      rw [hlow'] at this
      cases this
  cases sig; cases sig'
  simp only [Signature.mk.injEq]
  exact ⟨hrr, hs_eq⟩

/-! ### C72: too few shares -/

/-- Fewer shares than the threshold are an error, whatever the other arguments. -/
theorem C72_too_few_shares (P : Prim) (path : List Key.Index) (hashedMsg randomness : Bytes) (keyT presigT : Option Com)
    (t : Int) (shares : ShareMap) (h : (shares.length : Int) < t) :
    (combine P path hashedMsg randomness keyT presigT t shares).isErr = true := by
  rw [combine, if_pos h]; rfl

/-! ### C69, C102: signature shares -/

/-- `Share.Verify` accepts every share that is not behind a pointer (and those of `SigShare.new` are not): whatever values it
holds. -/
theorem C69_false (P : Prim) (path : List Key.Index) (hashedMsg randomness : Bytes) (keyT presigT : Option Com)
    (l k x : Com) (hl : l.c.points ≠ []) (hk : k.c.points ≠ []) (hx : x.c.points ≠ []) (d : Derived)
    (hd : deriveRho P hashedMsg randomness path keyT presigT = .ok d) (hm : hashedMsg.length ≤ 64) (signer : NodeIndex)
    (v m v' m' : Fn) :
    SigShare.verify P ⟨some (.pedersen v m), some (.pedersen v' m')⟩ path hashedMsg randomness signer keyT presigT
      (some l) (some k) (some x) = .ok () := by
  have hev : ∀ c : Com, c.c.points ≠ [] → ∃ Q, transcriptEvaluateAt (some c) signer = .ok Q := by
    intro c hc
    obtain ⟨w, kd, pts⟩ := c
    cases pts with
    | nil => exact absurd rfl hc
    | cons a l => exact ⟨_, rfl⟩
  obtain ⟨L, hL⟩ := hev l hl
  obtain ⟨K, hK⟩ := hev k hk
  obtain ⟨X, hX⟩ := hev x hx
  rw [SigShare.verify, hd, Res.ok_bind, convertHash_eq hm, Res.ok_bind, hL, Res.ok_bind, hK, Res.ok_bind, hX]
  rfl

theorem Sign.checkPointer_ok {v m : Fn} {Q : Pt} (h : checkPointer (some (.pedersenPtr v m)) Q = .ok ()) :
    Q = v • G + m • Point.H := by
  by_contra hne
  rw [checkPointer] at h
  simp only [pedersenPointer] at h
  rw [if_neg (show ¬ Q = Point.pedersen v m from hne)] at h
  cases h

/-- C69, what `Share.Verify` does check: both openings of a share that holds pointers must open one and the same combination of
the commitments to `λ` and `κλ`.  Missing: shares holding values are not checked at all, and the right combinations (that with
`xλ` for the numerator, and the denominator's) are not used. -/
theorem C69_pointers_partial (P : Prim) (path : List Key.Index) (hashedMsg randomness : Bytes) (keyT presigT l k x : Option Com)
    (signer : NodeIndex) (v m v' m' : Fn)
    (h : SigShare.verify P ⟨some (.pedersenPtr v m), some (.pedersenPtr v' m')⟩ path hashedMsg randomness signer keyT presigT
      l k x = .ok ()) :
    ∃ d L K, deriveRho P hashedMsg randomness path keyT presigT = .ok d ∧ transcriptEvaluateAt l signer = .ok L ∧
      transcriptEvaluateAt k signer = .ok K ∧
      v • G + m • Point.H = ((beVal hashedMsg : Fn) + d.rho * d.keyTweak) • L + d.rho • K ∧
      v' • G + m' • Point.H = ((beVal hashedMsg : Fn) + d.rho * d.keyTweak) • L + d.rho • K := by
  rw [SigShare.verify] at h
  obtain ⟨d, hd, h⟩ := Res.bind_eq_ok.1 h
  obtain ⟨e, he, h⟩ := Res.bind_eq_ok.1 h
  obtain ⟨-, rfl⟩ := convertHash_ok he
  obtain ⟨L, hL, h⟩ := Res.bind_eq_ok.1 h
  obtain ⟨K, hK, h⟩ := Res.bind_eq_ok.1 h
  obtain ⟨X, hX, h⟩ := Res.bind_eq_ok.1 h
  obtain ⟨⟨⟩, h1, h2⟩ := Res.bind_eq_ok.1 h
  exact ⟨d, L, K, hd, hL, hK, (checkPointer_ok h1).symm, (checkPointer_ok h2).symm⟩

/-- The share made from openings of the three transcripts opens the two combinations of the public commitments. -/
theorem C102_share_opens_commitments (P : Prim) (path : List Key.Index) (hashedMsg randomness : Bytes)
    (keyT presigT : Option Com) (l k x : Commitment) (i : NodeIndex) (lv lm kv km xv xm : Fn)
    (hl : Opens l i (.pedersen lv lm)) (hk : Opens k i (.pedersen kv km)) (hx : Opens x i (.pedersen xv xm)) (d : Derived)
    (hd : deriveRho P hashedMsg randomness path keyT presigT = .ok d) (hm : hashedMsg.length ≤ 64) :
    ∃ nv nm dv dm, SigShare.new P path hashedMsg randomness keyT presigT (some (.pedersen lv lm)) (some (.pedersen kv km))
        (some (.pedersen xv xm)) = .ok ⟨some (.pedersen nv nm), some (.pedersen dv dm)⟩ ∧
      nv • G + nm • Point.H = ((beVal hashedMsg : Fn) + d.rho * d.keyTweak) • valueAtNode l.points i + d.rho • valueAtNode x.points i ∧
      dv • G + dm • Point.H = d.randomizer • valueAtNode l.points i + valueAtNode k.points i := by
  refine ⟨_, _, _, _, new_eq hd hm lv lm kv km xv xm, ?_, ?_⟩
  · rw [hl.2, hx.2]; module
  · rw [hl.2, hk.2]; module

/-! ### C97: invalid master keys -/

/-- `DerivePublicKey` takes strings that are no encoding of any point: it derives from the identity, so that the "derived key"
is a public multiple of the generator. -/
theorem C97_false (P : Prim) (path : List Key.Index) :
    (∀ Q : Pt, Point.serialize Q ≠ 2 :: toBE 32 5) ∧
    (∀ t c, Key.deriveTweak P path 0 = .ok (t, c) →
      derivePublicKey P (2 :: toBE 32 5) path = .ok (Point.serialize (t • G), c) ∧
      derivePublicKey P (List.replicate 33 0) path = .ok (Point.serialize (t • G), c)) ∧
    ∃ c, Key.deriveTweak P [] 0 = .ok (0, c) := by
  have h1 : Point.deserialize K256 (2 :: toBE 32 5) = .ok (some (Point.raw 0)) := by decide +kernel
  refine ⟨fun Q h => ?_, fun t c h => ⟨?_, ?_⟩, ⟨_, rfl⟩⟩
  · have h2 := Point.deserialize_serialize Q
    rw [h, h1] at h2
    have h3 := Point.raw_injective (Option.some.inj (Res.ok.inj h2))
    rw [← h3] at h
    exact absurd h (by decide +kernel)
  · rw [derivePublicKey_eq, h1]
    simp only [Res.ok_bind, Point.ofRaw?_raw]
    rw [derivePublicKey_serialize h, add_zero]
  · have h2 := derivePublicKey_serialize h
    rw [add_zero] at h2
    exact h2

/-- C97, the part that holds: a master key that is taken has 33 bytes, and unless it is all zero or its coordinate is on no
point of the curve, it is the encoding of a point (coordinates below the field prime) from which the key is derived. -/
theorem C97_master_key_partial (P : Prim) (path : List Key.Index) (b : Bytes) :
    (b.length ≠ 33 → (derivePublicKey P b path).isErr = true) ∧
    ∀ r, derivePublicKey P b path = .ok r → ∃ pk, derivePublicKey P (Point.serialize pk) path = .ok r ∧
      (pk ≠ 0 → beVal b.tail < p → b = Point.serialize pk) ∧
      (pk = 0 → b = List.replicate 33 0 ∨ ∀ y, ¬ OnCurve (beVal b.tail : Fp) y) := by
  obtain ⟨c1, c2, c3, c4⟩ := C05_canonical_decoding_partial b
  constructor
  · intro hb
    rw [derivePublicKey, Point.deserialize, if_pos (show b.length ≠ pointBytes K256 from hb)]
    rfl
  · intro r h
    rw [derivePublicKey_eq] at h
    obtain ⟨o, ho, h⟩ := Res.bind_eq_ok.1 h
    cases o with
    | none => exact absurd ho c2
    | some q =>
      obtain ⟨-, pk, rfl⟩ := c1 q ho
      simp only [Point.ofRaw?_raw] at h
      exact ⟨pk, h, fun h0 h1 => (c3 pk ho h0 h1).symm, c4 pk ho⟩

/-! ### C98: the randomiser is bound to its context -/

/-- C98, the part that holds: two derivations that differ in nonce, tweak or (at most 255 bytes long) in randomness or message
hash different inputs. -/
theorem C98_randomizer_binding_partial (rn m rn' m' : Bytes) (pre pre' : Pt) (tw tw' : Fn)
    (hne : ¬ (pre = pre' ∧ tw = tw' ∧ (rn.length ≤ 255 → rn'.length ≤ 255 → rn = rn') ∧
      (m.length ≤ 255 → m'.length ≤ 255 → m = m'))) :
    Ro.Disjoint (rhoTranscript rn m pre tw) (rhoTranscript rn' m' pre' tw') := by
  rw [rhoTranscript_eq, rhoTranscript_eq]
  apply Ro.disjoint_run
  rintro ⟨-, hp⟩
  have hn := (accepted_spec (rhoCalls rn' m' pre' tw')).2
  obtain ⟨m1, m2, m3, m4⟩ := mem_rho (randomness := rn) (hashedMsg := m) (preSig := pre) (keyTweak := tw)
  obtain ⟨n1, n2, n3, n4⟩ := mem_rho (randomness := rn') (hashedMsg := m') (preSig := pre') (keyTweak := tw')
  refine hne ⟨ptCall_inj (call_eq_of_perm hp hn m1 n1 rfl), scalarCall_inj (call_eq_of_perm hp hn m2 n2 rfl),
    fun h h' => ?_, fun h h' => ?_⟩
  · have := call_eq_of_perm hp hn (m3 h) (n3 h') rfl
    simpa only [byteCall, RoCall.mk.injEq, true_and] using this
  · have := call_eq_of_perm hp hn (m4 h) (n4 h') rfl
    simpa only [byteCall, RoCall.mk.injEq, true_and] using this

/-- C98 as stated is false: randomness of more than 255 bytes is left out, so all such values give the same nonce. -/
theorem C98_false (rn rn' : Bytes) (h : 255 < rn.length) (h' : 255 < rn'.length) (P : Prim) (m : Bytes) (path : List Key.Index)
    (keyT presigT : Option Com) : deriveRho P m rn path keyT presigT = deriveRho P m rn' path keyT presigT := by
  have key : ∀ a : Bytes, 255 < a.length → ∀ pre tw, accepted (rhoCalls a m pre tw) =
      ([byteCall "hashed_message" m, ptCall "pre_sig" pre, scalarCall "key_tweak" tw]).filter fun c => decide c.WellFormed := by
    intro a ha pre tw
    have hna : ¬ (byteCall "randomness" a).WellFormed := fun hw => by
      have := (byteCall_wf "randomness" a (by decide +kernel)).1 hw; omega
    rw [rhoCalls_accepted, rhoCalls, List.filter_cons_of_neg (by simpa using hna)]
  have e : ∀ pre tw, (rhoTranscript rn m pre tw).outputScalar P = (rhoTranscript rn' m pre tw).outputScalar P := by
    intro pre tw
    rw [rhoTranscript_eq, rhoTranscript_eq]
    refine (C24_outputs_depend_on_set _ _ _ ?_ P).2.2.1
    rw [key rn h, key rn' h']
  simp only [deriveRho, e]

/-! ### C100: message hashes as numbers -/

/-- C100, the part that holds: for hashes of at most 32 bytes the number is that of SEC 1. -/
theorem C100_hash_number_partial (m : Bytes) (h : m.length ≤ 32) : convertHashToInteger m = .ok (hashNumber m) := by
  rw [convertHash_eq (by omega), hashNumber, List.take_of_length_le h]

/-- C100 as stated is false: longer hashes are reduced as a whole instead of being cut to 32 bytes, so for SHA-512 the number is
another one. -/
theorem C100_false : ∃ m : Bytes, m.length = 64 ∧ ∃ e, convertHashToInteger m = .ok e ∧ e ≠ hashNumber m := by
  refine ⟨1 :: List.replicate 63 0, by simp, _, convertHash_eq (by simp), ?_⟩
  decide +kernel

/-! ### C101: no panics -/

/-- Hashes of more than 64 bytes make `Verify` (of a signature with non-zero values) and the making of shares panic. -/
theorem C101_false (P : Prim) (path : List Key.Index) (hashedMsg randomness : Bytes) (keyT presigT : Option Com)
    (h : 64 < hashedMsg.length) :
    (∀ sig : Signature, sig.r ≠ 0 → sig.s ≠ 0 → (sig.verify P path hashedMsg randomness keyT presigT).isPanic = true) ∧
    ∀ d l k x, deriveRho P hashedMsg randomness path keyT presigT = .ok d →
      (SigShare.new P path hashedMsg randomness keyT presigT l k x).isPanic = true := by
  obtain ⟨e, he⟩ := Res.isPanic_iff.1 ((C11_scalar_wide_reduction hashedMsg).2 h)
  have he' : convertHashToInteger hashedMsg = .panic e := he
  refine ⟨fun sig h1 h2 => ?_, fun d l k x hd => ?_⟩
  · rw [Signature.verify, if_neg (by simp [h1, h2]), he']; rfl
  · rw [SigShare.new, hd, Res.ok_bind, he']; rfl

/-- C101, the part that holds: once the derivation of the nonce succeeds, `Verify` on hashes of at most 64 bytes, and
combination with a non-negative threshold, return a result or an error. -/
theorem C101_total_partial (P : Prim) (path : List Key.Index) (hashedMsg randomness : Bytes) (keyT presigT : Option Com)
    (d : Derived) (hd : deriveRho P hashedMsg randomness path keyT presigT = .ok d) :
    (hashedMsg.length ≤ 64 → ∀ sig : Signature, sig.verify P path hashedMsg randomness keyT presigT = .ok () ∨
      (sig.verify P path hashedMsg randomness keyT presigT).isErr = true) ∧
    ∀ (t : Int) (shares : ShareMap), 0 ≤ t →
      (∃ sig, combine P path hashedMsg randomness keyT presigT t shares = .ok sig) ∨
      (combine P path hashedMsg randomness keyT presigT t shares).isErr = true := by
  constructor
  · intro hm sig
    obtain ⟨pre, pk, c, -, h2, -⟩ := deriveRho_ok hd
    rw [Signature.verify, convertHash_eq hm, Res.ok_bind, hd, Res.ok_bind, h2]
    simp only [Res.ok_bind]
    split_ifs <;> simp
  · intro t shares ht
    have at0 : ∀ xs : List NodeIndex, (∃ cs, cs ≠ [] ∧ Lagr.atZero xs = .ok cs) ∨ (Lagr.atZero xs).isErr = true := by
      intro xs
      by_cases he : (Lagr.atZero xs).isErr = true
      · exact Or.inr he
      · obtain ⟨l, hl, hne, -⟩ := (C37_lagrange_validation 0 xs).2 (by simpa [Lagr.atZero] using he)
        exact Or.inl ⟨l, hne, hl⟩
    have ip : ∀ cs ys : List Fn, cs ≠ [] → (∃ v, Lagr.interpolateScalar cs ys = .ok v) ∨
        (Lagr.interpolateScalar cs ys).isErr = true := by
      intro cs ys hne
      rw [Lagr.interpolateScalar]
      split_ifs with h1 h2
      · exact Or.inr rfl
      · exact absurd (List.length_eq_zero_iff.1 h2) hne
      · exact Or.inl ⟨_, rfl⟩
    rw [combine]
    by_cases hc : (shares.length : Int) < t
    · rw [if_pos hc]; exact Or.inr rfl
    rw [if_neg hc, hd, Res.ok_bind, if_neg (by omega)]
    obtain ⟨xs, nums, dens⟩ := scan 0 t [] [] [] shares
    simp only
    rcases at0 xs with ⟨cs, hne, e⟩ | e
    · rw [e, Res.ok_bind]
      rcases ip cs nums hne with ⟨v, e⟩ | e
      · rw [e, Res.ok_bind]
        rcases ip cs dens hne with ⟨v', e⟩ | e
        · rw [e, Res.ok_bind]; exact Or.inl ⟨_, rfl⟩
        · obtain ⟨s, e⟩ := Res.isErr_iff.1 e
          rw [e]; exact Or.inr rfl
      · obtain ⟨s, e⟩ := Res.isErr_iff.1 e
        rw [e]; exact Or.inr rfl
    · obtain ⟨s, e⟩ := Res.isErr_iff.1 e
      rw [e]; exact Or.inr rfl

/-! ### C104: unusable nonces -/

/-- If the blinded nonce is zero, combination of honest shares returns `s = 0` without an error. -/
theorem C104_false (P : Prim) (path : List Key.Index) (hashedMsg randomness : Bytes) (S : Secrets) (t : Nat)
    (x0 k0 l0 : Fn) (hS : S.Consistent t x0 k0 l0) (signers : List NodeIndex) (ht : 0 < t) (hc : t ≤ signers.length)
    (hn : signers.Nodup) (sh : NodeIndex → SigShare) (hsh : HonestShares P path hashedMsg randomness S signers sh)
    (d : Derived) (hd : deriveRho P hashedMsg randomness path (unmasked S.x) (unmasked S.kappa) = .ok d)
    (h0 : (k0 + d.randomizer) * l0 = 0) :
    combine P path hashedMsg randomness (unmasked S.x) (unmasked S.kappa) t (signers.map fun i => (i, sh i)) =
      .ok ⟨d.rho, 0⟩ := by
  obtain ⟨-, d', hd', e⟩ := combine_honest hS ht hc hn hsh
  rw [hd] at hd'
  obtain rfl := Res.ok.inj hd'
  rw [e, add_comm d.randomizer k0, h0, inv_zero, mul_zero]
  rfl

/-- C104, the part that holds: such a result does not pass `Verify`. -/
theorem C104_rejected_partial (P : Prim) (path : List Key.Index) (hashedMsg randomness : Bytes) (keyT presigT : Option Com)
    (sig : Signature) (h : sig.r = 0 ∨ sig.s = 0) :
    (sig.verify P path hashedMsg randomness keyT presigT).isErr = true := by
  rw [Signature.verify, if_pos h]; rfl

/-! ### A concrete instance -/

namespace Sign

/-- Key 6, nonce 1, blinding 1; threshold 2. -/
def exSecrets : Secrets := ⟨[6, 1], [1, 5], [1, 3], [1, 4], [6, 2], [7, 8], [9, 10], [11, 12]⟩

theorem exSecrets_consistent : exSecrets.Consistent 2 6 1 1 :=
  ⟨rfl, rfl, rfl, by simp [exSecrets], by simp [exSecrets], by simp [exSecrets], by simp [exSecrets], by simp [exSecrets]⟩

theorem zeroPrim_rho (randomness hashedMsg : Bytes) (pre : Pt) (tw : Fn) :
    (rhoTranscript randomness hashedMsg pre tw).outputScalar zeroPrim = .ok 0 := by
  obtain ⟨m, hm⟩ := Ro.form_ok_of_accepted (ds := ascii "ic-crypto-tecdsa-rerandomize-presig")
    (List.ne_nil_of_mem (mem_rho (randomness := randomness) (hashedMsg := hashedMsg) (preSig := pre) (keyTweak := tw)).1)
  rw [rhoTranscript_eq, Ro.outputScalar, Ro.outputScalars, hm, Res.ok_bind,
    show (1 : Int) = ((1 : Nat) : Int) from rfl, zeroPrim_hashToScalar 1 (by norm_num)]
  rfl

theorem zeroPrim_deriveRho (hashedMsg randomness : Bytes) {x k : List Fn} {x0 : Fn} (hx : x.head? = some x0)
    (hk : k.head? = some 1) :
    deriveRho zeroPrim hashedMsg randomness [] (unmasked x) (unmasked k) = .ok ⟨(Gx : Fn), 0, 0, G⟩ := by
  rw [deriveRho_eq (constantTerm_unmasked hk).2 (constantTerm_unmasked hx).1 rfl (zeroPrim_rho ..)]
  have : (1 : Fn) • G + (0 : Fn) • G = G := by module
  rw [this]
  congr 2

theorem honest_exist (S : Secrets) {x0 : Fn} (hx : S.x.head? = some x0) (hk : S.kappa.head? = some 1) (m rn : Bytes)
    (hm : m.length ≤ 64) (signers : List NodeIndex) : ∃ sh, HonestShares zeroPrim [] m rn S signers sh :=
  ⟨_, fun _ _ => new_eq (zeroPrim_deriveRho m rn hx hk) hm _ _ _ _ _ _⟩

end Sign

/-- The hypotheses of C68, C71 are met, with a signature whose two values are not zero. -/
example : ∃ sh sig, HonestShares zeroPrim [] [5] [] exSecrets [0, 2, 7] sh ∧
    combine zeroPrim [] [5] [] (unmasked exSecrets.x) (unmasked exSecrets.kappa) 2 ([0, 2, 7].map fun i => (i, sh i)) = .ok sig ∧
    sig.verify zeroPrim [] [5] [] (unmasked exSecrets.x) (unmasked exSecrets.kappa) = .ok () ∧
    EcdsaValid ((6 : Fn) • G) 5 sig.r sig.s := by
  obtain ⟨sh, hsh⟩ := honest_exist exSecrets rfl rfl [5] [] (by simp) [0, 2, 7]
  obtain ⟨sig, tw, rnd, c, h1, -, h3, h4, -, h5⟩ := C68_threshold_signature zeroPrim [] [5] [] exSecrets 2 6 1 1
    exSecrets_consistent [0, 2, 7] (by omega) (by simp) (by decide) sh hsh
  rw [zeroPrim_deriveRho [5] [] rfl rfl] at h3
  obtain ⟨e1, e2, e3, -⟩ := Derived.mk.inj (Res.ok.inj h3)
  subst e2 e3
  have hb : ((beVal [5] : Nat) : Fn) = 5 := by decide +kernel
  have hs := h4 (by simp)
  rw [← e1, hb] at hs
  have hr : sig.r ≠ 0 := by rw [← e1]; decide +kernel
  have hs0 : sig.s ≠ 0 := by
    rw [hs, lowOf_ne_zero, add_zero, add_zero, div_one]; decide +kernel
  obtain ⟨h6, h7⟩ := h5 hr hs0
  rw [hb, add_zero] at h7
  exact ⟨sh, sig, hsh, h1, h6, h7⟩

/-! ### C99: shares beyond the threshold -/

/-- Combination uses all shares it is given, not only `threshold` many: a bad share behind enough good ones spoils the
signature. -/
theorem C99_false : ∃ (S : Secrets) (sh : NodeIndex → SigShare) (bad : SigShare) (sig sig' : Signature),
    S.Consistent 1 6 1 1 ∧ HonestShares zeroPrim [] [5] [] S [0] sh ∧
    combine zeroPrim [] [5] [] (unmasked S.x) (unmasked S.kappa) 1 [(0, sh 0)] = .ok sig ∧
    sig.verify zeroPrim [] [5] [] (unmasked S.x) (unmasked S.kappa) = .ok () ∧
    combine zeroPrim [] [5] [] (unmasked S.x) (unmasked S.kappa) 1 [(0, sh 0), (1, bad)] = .ok sig' ∧
    sig'.verify zeroPrim [] [5] [] (unmasked S.x) (unmasked S.kappa) ≠ .ok () := by
  set S : Secrets := ⟨[6], [1], [1], [1], [6], [0], [0], [0]⟩ with hS
  have hcons : S.Consistent 1 6 1 1 :=
    ⟨rfl, rfl, rfl, by simp [hS], by simp [hS], by simp [hS], by simp [hS], by simp [hS]⟩
  obtain ⟨sh, hsh⟩ := honest_exist S rfl rfl [5] [] (by simp) [0]
  have hd := zeroPrim_deriveRho [5] [] (x := S.x) (k := S.kappa) (x0 := 6) rfl rfl
  obtain ⟨sig, tw, rnd, c, h1, -, h3, h4, -, h5⟩ := C68_threshold_signature zeroPrim [] [5] [] S 1 6 1 1
    hcons [0] (by omega) (by simp) (by decide) sh hsh
  rw [hd] at h3
  obtain ⟨e1, e2, e3, -⟩ := Derived.mk.inj (Res.ok.inj h3)
  subst e2 e3
  have hb : ((beVal [5] : Nat) : Fn) = 5 := by decide +kernel
  have hs := h4 (by simp)
  rw [← e1, hb, add_zero, add_zero, div_one] at hs
  have hr : sig.r ≠ 0 := by rw [← e1]; decide +kernel
  have hs0 : sig.s ≠ 0 := by rw [hs, lowOf_ne_zero]; decide +kernel
  have hv := (h5 hr hs0).1
  have h0 : sh 0 = ⟨some (.pedersen (5 + Gx * 6) 0), some (.pedersen 1 0)⟩ := by
    have h := hsh 0 (by simp)
    simp only [share] at h
    rw [new_eq hd (by simp), hb] at h
    rw [← Res.ok.inj h]
    simp [hS, toPoly_cons]
  obtain ⟨w, hw, hcomb⟩ := combine_eq (threshold := 1) (signers := [0, 1]) hd (by omega) (by simp) (by decide)
    (fun i => if i = 0 then sh 0 else ⟨some (.pedersen 0 0), some (.pedersen 1 0)⟩)
    (fun i => if i = 0 then 5 + Gx * 6 else 0) (fun _ => 0) (fun _ => 1) (fun _ => 0) (by
      intro i _
      by_cases hi : i = 0
      · simp only [if_pos hi, h0]
      · simp only [if_neg hi])
  have w1 := hw 1 (by simp)
  have w2 := hw X (by rw [degree_X]; decide)
  have p0 : place 0 = 1 := by decide +kernel
  have p1 : place 1 = 2 := by decide +kernel
  simp only [List.map_cons, List.map_nil, List.sum_cons, List.sum_nil, eval_one, eval_X, p0, p1, mul_one, add_zero] at w1 w2
  have hw0 : w 0 = 2 := by linear_combination 2 * w1 - w2
  have hw1 : w 1 = -1 := by linear_combination w2 - w1
  have h10 : (1 : NodeIndex) ≠ 0 := by decide
  simp only [List.map_cons, List.map_nil, List.sum_cons, List.sum_nil, mul_one, add_zero, if_true, if_neg h10, mul_zero, hw0,
    hw1] at hcomb
  refine ⟨S, sh, _, sig, _, hcons, hsh, h1, hv, hcomb, fun h => ?_⟩
  have := C105_unique_signature _ _ _ _ _ _ _ _ hv h
  have h2 := congrArg Signature.s this
  rw [hs] at h2
  revert h2
  decide +kernel

/-- C99, the part that holds: good shares beyond the threshold do not change the signature. -/
theorem C99_good_shares_partial (P : Prim) (path : List Key.Index) (hashedMsg randomness : Bytes) (S : Secrets) (t : Nat)
    (x0 k0 l0 : Fn) (hS : S.Consistent t x0 k0 l0) (ht : 0 < t) (signers more : List NodeIndex)
    (hc : t ≤ signers.length) (hn : (signers ++ more).Nodup) (sh : NodeIndex → SigShare)
    (hsh : HonestShares P path hashedMsg randomness S (signers ++ more) sh) :
    combine P path hashedMsg randomness (unmasked S.x) (unmasked S.kappa) t ((signers ++ more).map fun i => (i, sh i)) =
      combine P path hashedMsg randomness (unmasked S.x) (unmasked S.kappa) t (signers.map fun i => (i, sh i)) := by
  obtain ⟨sig, h1, h2⟩ := C71_independent_of_signers P path hashedMsg randomness S t x0 k0 l0 hS ht (signers ++ more) signers
    (by simp; omega) hc hn hn.of_append_left sh sh hsh fun i hi => hsh i (List.mem_append_left _ hi)
  rw [h1, h2]

/-- `Verify` does accept something (C70, C73, C105), and unusable nonces exist (C104). -/
example : ∃ sh, HonestShares zeroPrim [] [5] [] ⟨[6], [1], [0], [0], [0], [0], [0], [0]⟩ [3] sh ∧
    combine zeroPrim [] [5] [] (unmasked [6]) (unmasked [1]) 1 ([3].map fun i => (i, sh i)) = .ok ⟨(Gx : Fn), 0⟩ := by
  obtain ⟨sh, hsh⟩ := honest_exist ⟨[6], [1], [0], [0], [0], [0], [0], [0]⟩ rfl rfl [5] [] (by simp) [3]
  exact ⟨sh, hsh, C104_false zeroPrim [] [5] [] _ 1 6 1 0 ⟨rfl, rfl, rfl, by simp, by simp, by simp, by simp, by simp⟩ [3]
    (by omega) (by simp) (by decide) sh hsh _ (zeroPrim_deriveRho [5] [] rfl rfl) (by simp)⟩

/-- The hypotheses of C102 are met. -/
example : Opens ⟨.pedersen, [(1 : Fn) • G + (7 : Fn) • Point.H]⟩ 4 (.pedersen 1 7) ∧
    deriveRho zeroPrim [5] [] [] (unmasked [6]) (unmasked [1]) = .ok ⟨(Gx : Fn), 0, 0, G⟩ := by
  refine ⟨⟨rfl, ?_⟩, zeroPrim_deriveRho [5] [] rfl rfl⟩
  rw [valueAtNode, valueAt]
  refine (Fin.sum_univ_one (fun k : Fin 1 => place 4 ^ (k : ℕ) • ([(1 : Fn) • G + (7 : Fn) • Point.H] : List Pt)[k])).trans ?_
  simp

/-- Two derivations as in C98. -/
example : Ro.Disjoint (rhoTranscript [1] [5] G 0) (rhoTranscript [2] [5] G 0) :=
  C98_randomizer_binding_partial _ _ _ _ _ _ _ _ (by rintro ⟨-, -, h, -⟩; exact absurd (h (by simp) (by simp)) (by decide))

end Verif
