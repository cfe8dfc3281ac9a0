import Verif.Lemmas.Dealings

/-! C54–C57, C83–C86: dealings. -/

set_option autoImplicit false

namespace Verif

open Mega Zk Dealings

theorem Poly.evaluateAt_zero (p : List Fn) : Poly.evaluateAt p 0 = Poly.coeff p 0 := by
  rw [Poly.evaluateAt_eq, ← coeff_toPoly, Polynomial.coeff_zero_eq_eval_zero]

namespace Dealings

/-- Everything a returned dealing contains. -/
theorem new_spec {P : Prim} {shares : Shares} {seed : Seed} {t : Int} {keys : List Fn} {dealer : NodeIndex} {ad : Bytes}
    {d : Dealing} (h : new P shares seed t (keys.map Point.mulByG) dealer ad = .ok d) (hs : shares ≠ .other) :
    0 < t ∧ t ≤ keys.length ∧ ∃ (values mask : List Fn) (c : Cipher) (cm : Commitment),
      values.length = t.toNat ∧ mask.length = t.toNat ∧
      (∀ s, shares.secret = some s → Poly.evaluateAt values 0 = s) ∧
      cm = (if shares.hidden then ⟨.pedersen, List.zipWith Point.pedersen values mask⟩
        else ⟨.simple, values.map Point.mulByG⟩) ∧
      c.checkValidity P keys.length ad dealer = .ok () ∧
      (∀ curve, c.verifyIs (if shares.hidden then .pairs else .single) curve =
        if K256 ≠ curve then .err "curve mismatch" else .ok ()) ∧
      (∀ (i : NodeIndex) (k : Fn), 0 ≤ i.toInt → keys[i.toInt.toNat]? = some k →
        c.decryptAndCheck P cm ad dealer i k (Point.mulByG k) = .ok (if shares.hidden then
          .pedersen (Poly.evaluateAt values (Scalar.fromNodeIndex i)) (Poly.evaluateAt mask (Scalar.fromNodeIndex i))
          else .simple (Poly.evaluateAt values (Scalar.fromNodeIndex i)))) ∧
      d.commitment = some cm ∧ d.ciphertext = some c ∧
      (match shares with
        | .reshareMasked s m => ∃ pf ps, d.proof = some (.masked (some pf)) ∧ EqOpen.create P ps s m ad = .ok pf
        | .unmaskedTimesMasked l r m => ∃ pf ps, d.proof = some (.product (some pf)) ∧
            Product.create P ps l r m (l * r) (Poly.evaluateAt mask 0) ad = .ok pf
        | _ => d.proof = none) := by
  rw [new, List.length_map] at h
  split_ifs at h with h0
  push Not at h0
  obtain ⟨polySeed, -, h⟩ := Res.bind_eq_ok.1 h
  dsimp only at h
  obtain ⟨megaSeed, -, h⟩ := Res.bind_eq_ok.1 h
  cases shares with
  | random =>
    dsimp only at h
    obtain ⟨⟨values, r1⟩, hv, h⟩ := Res.bind_eq_ok.1 h
    dsimp only at h
    obtain ⟨⟨mask, r2⟩, hm, h⟩ := Res.bind_eq_ok.1 h
    dsimp only at h
    obtain ⟨⟨ct, cm⟩, hct, h⟩ := Res.bind_eq_ok.1 h
    cases h
    obtain ⟨hn, hvl⟩ := Poly.random_ok hv
    obtain ⟨-, hml⟩ := Poly.random_ok hm
    have hpos : 0 < t := by omega
    obtain ⟨rfl, hval, hdec⟩ := encryptAndCommitPair_spec hpos hvl hml hct
    exact ⟨hpos, h0.2, values, mask, .pair ct, _, hvl, hml, by simp [Shares.secret], rfl, hval, fun _ => rfl, hdec, rfl, rfl,
      rfl⟩
  | reshareUnmasked s1 =>
    dsimp only at h
    obtain ⟨⟨values, r1⟩, hv, h⟩ := Res.bind_eq_ok.1 h
    dsimp only at h
    obtain ⟨⟨ct, cm⟩, hct, h⟩ := Res.bind_eq_ok.1 h
    cases h
    obtain ⟨hpos, hvl, hc⟩ := Poly.randomWithConstant_ok hv
    obtain ⟨rfl, hval, hdec⟩ := encryptAndCommitSingle_spec hpos hvl hct
    refine ⟨hpos, h0.2, values, values, .single ct, _, hvl, hvl, ?_, rfl, hval, fun _ => rfl, hdec, rfl, rfl, rfl⟩
    rintro s ⟨⟩
    rw [Poly.evaluateAt_zero, hc]
  | reshareMasked s1 s2 =>
    dsimp only at h
    obtain ⟨⟨values, r1⟩, hv, h⟩ := Res.bind_eq_ok.1 h
    dsimp only at h
    obtain ⟨⟨ct, cm⟩, hct, h⟩ := Res.bind_eq_ok.1 h
    dsimp only at h
    obtain ⟨ps, -, h⟩ := Res.bind_eq_ok.1 h
    obtain ⟨pf, hpf, h⟩ := Res.bind_eq_ok.1 h
    cases h
    obtain ⟨hpos, hvl, hc⟩ := Poly.randomWithConstant_ok hv
    obtain ⟨rfl, hval, hdec⟩ := encryptAndCommitSingle_spec hpos hvl hct
    refine ⟨hpos, h0.2, values, values, .single ct, _, hvl, hvl, ?_, rfl, hval, fun _ => rfl, hdec, rfl, rfl, pf, ps, rfl, hpf⟩
    rintro s ⟨⟩
    rw [Poly.evaluateAt_zero, hc]
  | unmaskedTimesMasked l r m =>
    dsimp only at h
    obtain ⟨⟨pm, r0⟩, -, h⟩ := Res.bind_eq_ok.1 h
    dsimp only at h
    obtain ⟨⟨values, r1⟩, hv, h⟩ := Res.bind_eq_ok.1 h
    dsimp only at h
    obtain ⟨om, hom, h⟩ := Res.bind_eq_ok.1 h
    obtain ⟨⟨mask, r2⟩, hm, h⟩ := Res.bind_eq_ok.1 h
    rw [nonNil_eq_ok.1 hm] at hom
    dsimp only at h
    obtain ⟨⟨ct, cm⟩, hct, h⟩ := Res.bind_eq_ok.1 h
    dsimp only at h
    obtain ⟨ps, -, h⟩ := Res.bind_eq_ok.1 h
    obtain ⟨opf, hpf, h⟩ := Res.bind_eq_ok.1 h
    cases h
    have hm' : Poly.randomWithConstant pm t r1 = .ok (mask, r2) := by
      cases hc : Poly.randomWithConstant pm t r1 <;> rw [hc] at hom <;> simp [ignoreErr] at hom <;> simp [hom]
    obtain ⟨hpos, hvl, hc⟩ := Poly.randomWithConstant_ok hv
    obtain ⟨-, hml, hcm⟩ := Poly.randomWithConstant_ok hm'
    obtain ⟨rfl, hval, hdec⟩ := encryptAndCommitPair_spec hpos hvl hml hct
    have hpf' : ∃ pf, opf = some pf ∧ Product.create P ps l r m (l * r) pm ad = .ok pf := by
      rcases product_create_cases P ps l r m (l * r) pm ad with ⟨pf, e⟩ | e
      · rw [e] at hpf; cases hpf; exact ⟨pf, rfl, e⟩
      · rw [e] at hpf; cases hpf
    obtain ⟨pf, rfl, hpf2⟩ := hpf'
    refine ⟨hpos, h0.2, values, mask, .pair ct, _, hvl, hml, ?_, rfl, hval, fun _ => rfl, hdec, rfl, rfl, pf, ps, rfl, ?_⟩
    · rintro s ⟨⟩
      rw [Poly.evaluateAt_zero, hc]
    · rw [Poly.evaluateAt_zero, hcm]; exact hpf2
  | other => exact absurd rfl hs

end Dealings

/-! ### C54: honest dealings verify -/

/-- C54: a dealing returned for shares that open the operation's commitments at the dealer's index passes public
verification, and private verification for every recipient. -/
theorem C54_honest_dealings_verify (P : Prim) (shares : Shares) (op : Op) (seed : Seed) (t : Int) (keys : List Fn)
    (dealer : NodeIndex) (ad : Bytes) (d : Dealing) (hm : Matches dealer shares op)
    (h : new P shares seed t (keys.map Point.mulByG) dealer ad = .ok d) :
    publiclyVerify P d K256 op t dealer keys.length ad = .ok () ∧
    ∀ (i : NodeIndex) (k : Fn), 0 ≤ i.toInt → keys[i.toInt.toNat]? = some k →
      privateVerify P d K256 k (Point.mulByG k) ad dealer i = .ok () := by
  have hs : shares ≠ .other := by rintro rfl; cases op <;> exact hm
  obtain ⟨hpos, -, values, mask, c, cm, hvl, hml, hsec, hcm, hval, hvi, hdec, hdc, hdci, hpf⟩ := new_spec h hs
  have hv : values ≠ [] := by rintro rfl; simp at hvl; omega
  have hne : cm.points ≠ [] := by
    rw [hcm]
    split_ifs
    · show List.zipWith Point.pedersen values mask ≠ []
      intro e
      have := congrArg List.length e
      rw [List.length_zipWith, hvl, hml, List.length_nil] at this
      omega
    · simpa using hv
  have hlen : (cm.points.length : Int) = t := by
    rw [hcm]
    split_ifs
    · show ((List.zipWith Point.pedersen values mask).length : Int) = t
      simp; omega
    · show ((values.map Point.mulByG).length : Int) = t
      simp; omega
  have hct : cm.curveType = .ok K256 := by
    rw [Commitment.curveType]
    cases hp : cm.points with
    | nil => exact absurd hp hne
    | cons a l => rfl
  have hconst : cm.constantTerm = .ok (if shares.hidden then
      Point.pedersen (Poly.evaluateAt values 0) (Poly.evaluateAt mask 0) else Point.mulByG (Poly.evaluateAt values 0)) := by
    rw [hcm, Poly.evaluateAt_zero, Poly.evaluateAt_zero]
    cases values with
    | nil => exact absurd rfl hv
    | cons v vs => cases mask with
      | nil => simp at hml; omega
      | cons w ws => split_ifs <;> rfl
  have hkind : cm.kind = if shares.hidden then .pedersen else .simple := by rw [hcm]; split_ifs <;> rfl
  have hvis : ∀ k, k = cm.kind → cm.verifyIs k K256 = .ok () := fun k e =>
    (C76_verify_is cm hne k K256).1.2 ⟨rfl, e.symm⟩
  refine ⟨?_, fun i k hi hk => ?_⟩
  · simp only [publiclyVerify, hdc, hdci, nonNil, Res.ok_bind, hlen, hct, hval, ne_eq, not_true_eq_false, if_false]
    cases shares with
    | random =>
      cases op <;> simp only [Matches] at hm
      simp only at hpf
      simp only [hpf]
      rw [hvis .pedersen hkind.symm]
      exact hvi K256
    | reshareUnmasked s =>
      cases op with
      | reshareUnmasked p1 =>
        obtain ⟨hk1, hne1, he1'⟩ := hm
        have he1 : p1.c.evaluateAt dealer = .ok (Point.mulByG s) := by rw [Commitment.evaluateAt_value hne1, he1']; rfl
        simp only at hpf
        simp only [hpf]
        rw [hvis .simple hkind.symm, (C76_verify_is p1.c hne1 .simple K256).1.2 ⟨rfl, hk1⟩, Res.ok_bind, Res.ok_bind]
        have := hvi K256
        simp only [Shares.hidden, ne_eq, not_true_eq_false, if_false, Bool.false_eq_true] at this
        rw [this, Res.ok_bind, hk1]
        cases p1.wrap
        · simp only
          rw [he1, hconst, Res.ok_bind, Res.ok_bind, hsec s rfl]
          simp [Shares.hidden]
        · rfl
        · rfl
      | random => cases hm
      | reshareMasked p1 => cases hm
      | unmaskedTimesMasked l r => cases hm
      | other => cases hm
    | reshareMasked s m =>
      cases op with
      | reshareMasked p1 =>
        obtain ⟨pf, ps, hd, hcr⟩ := hpf
        have he1 : p1.c.evaluateAt dealer = .ok (Point.pedersen s m) := by
          rw [Commitment.evaluateAt_value hm.1, hm.2]; rfl
        simp only [hd, ProofVal.type, if_true]
        rw [hvis .simple hkind.symm, Res.ok_bind]
        have := hvi K256
        simp only [Shares.hidden, ne_eq, not_true_eq_false, if_false, Bool.false_eq_true] at this
        rw [this, Res.ok_bind]
        simp only [ProofVal.asMasked, nonNil, Res.ok_bind, he1, hconst, hsec s rfl]
        exact (C46_equal_openings_completeness P ps s m ad).1 pf hcr
      | random => cases hm
      | reshareUnmasked p1 => cases hm
      | unmaskedTimesMasked l r => cases hm
      | other => cases hm
    | unmaskedTimesMasked l r m =>
      cases op with
      | unmaskedTimesMasked L R =>
        obtain ⟨pf, ps, hd, hcr⟩ := hpf
        obtain ⟨hk1, hne1, he1', hk2, hne2, he2'⟩ := hm
        have he1 : L.c.evaluateAt dealer = .ok (Point.mulByG l) := by rw [Commitment.evaluateAt_value hne1, he1']; rfl
        have he2 : R.c.evaluateAt dealer = .ok (Point.pedersen r m) := by
          rw [Commitment.evaluateAt_value hne2, he2']; rfl
        simp only [hd, ProofVal.type, if_true, Res.ok_bind]
        rw [hvis .pedersen hkind.symm, Res.ok_bind]
        have := hvi K256
        simp only [Shares.hidden, ne_eq, not_true_eq_false, if_false, if_true] at this
        rw [this, Res.ok_bind, (C76_verify_is L.c hne1 .simple K256).1.2 ⟨rfl, hk1⟩,
          (C76_verify_is R.c hne2 .pedersen K256).1.2 ⟨rfl, hk2⟩]
        simp only [ProofVal.asProduct, nonNil, Res.ok_bind, he1, he2, hconst, hsec _ rfl]
        exact (C47_product_completeness P ps l r m (l * r) _ ad pf hcr).1 rfl
      | random => cases hm
      | reshareUnmasked p1 => cases hm
      | reshareMasked p1 => cases hm
      | other => cases hm
    | other => exact absurd rfl hs
  · simp only [privateVerify, hdc, hdci, nonNil, Res.ok_bind, hconst, hdec i k hi hk]
    rfl

/-- C54 is about dealings that exist: with the generator `zeroPrim` every kind of shares and every admissible threshold
gives one. -/
theorem dealing_exists (shares : Shares) (seed : Seed) (t : Int) (pks : List Pt) (dealer : NodeIndex) (ad : Bytes)
    (ht : 1 ≤ t) (hr : t ≤ pks.length) : ∃ d, new zeroPrim shares seed t pks dealer ad = .ok d := by
  have hne : pks ≠ [] := by rintro rfl; simp at hr; omega
  have hrand : ∀ m, ∃ cs, Poly.randomCoeffs ⟨fun _ => 0, m⟩ t.toNat = cs := fun m => ⟨_, rfl⟩
  have hsc : ∀ m, Scalar.random ⟨fun _ => 0, m⟩ = .ok (0, ⟨fun _ => 0, m + 32⟩) := fun m => by
    refine ((C21_random_scalar _).1 0 _).2 ⟨0, by simp, ?_, by simp⟩
    show beVal ((List.range 32).map fun _ => 0) = (0 : Fn).val
    decide +kernel
  have hco : ∀ (k m : Nat), ∃ cs m', Poly.randomCoeffs ⟨fun _ => 0, m⟩ k = .ok (cs, ⟨fun _ => 0, m'⟩) ∧ cs.length = k := by
    intro k
    induction k with
    | zero => exact fun m => ⟨[], m, rfl, rfl⟩
    | succ k ih =>
      intro m
      obtain ⟨cs, m', h, hl⟩ := ih (m + 32)
      exact ⟨0 :: cs, m', by simp only [Poly.randomCoeffs, hsc, Res.ok_bind, h], by simp [hl]⟩
  have hpr : ∀ m, ∃ cs m', Poly.random t ⟨fun _ => 0, m⟩ = .ok (cs, ⟨fun _ => 0, m'⟩) ∧ cs.length = t.toNat := by
    intro m; rw [Poly.random, if_neg (by omega)]; exact hco _ m
  have hpc : ∀ s m, ∃ cs m', Poly.randomWithConstant s t ⟨fun _ => 0, m⟩ = .ok (cs, ⟨fun _ => 0, m'⟩) ∧
      cs.length = t.toNat := by
    intro s m
    obtain ⟨cs, m', h, hl⟩ := hco (t.toNat - 1) m
    refine ⟨s :: cs, m', ?_, by simp [hl]; omega⟩
    rw [Poly.randomWithConstant, if_neg (by omega), if_neg (by omega), h]; rfl
  have hes : ∀ (poly : List Fn) (s : Seed), poly.length = t.toNat →
      ∃ x, encryptAndCommitSingle zeroPrim poly t pks dealer ad s = .ok x := by
    intro poly s hl
    obtain ⟨ct, h⟩ := (encrypt_nonvacuous s pks dealer ad hne).1 ((List.range pks.length).map fun idx =>
      Poly.evaluateAt poly (Scalar.fromNodeIndex (BitVec.ofNat 64 idx))) (by simp)
    rw [encryptAndCommitSingle, Commitment.createSimple_self hl (by omega), h]
    exact ⟨_, rfl⟩
  have hep : ∀ (v m : List Fn) (s : Seed), v.length = t.toNat → m.length = t.toNat →
      ∃ x, encryptAndCommitPair zeroPrim v m t pks dealer ad s = .ok x := by
    intro v m s hl hl'
    obtain ⟨ct, h⟩ := (encrypt_nonvacuous s pks dealer ad hne).2 ((List.range pks.length).map fun idx =>
      (Poly.evaluateAt v (Scalar.fromNodeIndex (BitVec.ofNat 64 idx)),
        Poly.evaluateAt m (Scalar.fromNodeIndex (BitVec.ofNat 64 idx)))) (by simp)
    rw [encryptAndCommitPair, Commitment.createPedersen_self hl hl' (by omega), h]
    exact ⟨_, rfl⟩
  rw [new, if_neg (by omega)]
  obtain ⟨ps, hps, -⟩ := C22_seed_derivation.2.2.1 zeroPrim seed polyDst
  obtain ⟨ms, hms, -⟩ := C22_seed_derivation.2.2.1 zeroPrim seed megaDst
  have hrng : ∀ s : Seed, s.rng zeroPrim = ⟨fun _ => 0, 0⟩ := fun s => rfl
  simp only [hps, hms, Res.ok_bind, hrng]
  cases shares with
  | random =>
    obtain ⟨v, m1, h1, hl1⟩ := hpr 0
    obtain ⟨w, m2, h2, hl2⟩ := hpr m1
    obtain ⟨x, hx⟩ := hep v w ms hl1 hl2
    simp only [h1, h2, hx, Res.ok_bind]; exact ⟨_, rfl⟩
  | reshareUnmasked s =>
    obtain ⟨v, m1, h1, hl1⟩ := hpc s 0
    obtain ⟨x, hx⟩ := hes v ms hl1
    simp only [h1, hx, Res.ok_bind]; exact ⟨_, rfl⟩
  | reshareMasked s m =>
    obtain ⟨v, m1, h1, hl1⟩ := hpc s 0
    obtain ⟨x, hx⟩ := hes v ms hl1
    obtain ⟨zs, hz, -⟩ := C22_seed_derivation.2.2.1 zeroPrim seed Zk.equalOpeningsDst
    obtain ⟨pf, hpf⟩ := (C46_equal_openings_completeness zeroPrim zs s m ad).2 _ _ (zeroPrim_random zs)
    simp only [h1, hx, hz, hpf, Res.ok_bind]; exact ⟨_, rfl⟩
  | unmaskedTimesMasked l r m =>
    obtain ⟨v, m1, h1, hl1⟩ := hpc (l * r) 32
    obtain ⟨w, m2, h2, hl2⟩ := hpc 0 m1
    obtain ⟨x, hx⟩ := hep v w ms hl1 hl2
    obtain ⟨zs, hz, -⟩ := C22_seed_derivation.2.2.1 zeroPrim seed Zk.productDst
    rcases Zk.product_create_cases zeroPrim zs l r m (l * r) 0 ad with ⟨pf, hpf⟩ | hpf
    · simp only [hsc, h1, h2, hx, hz, hpf, Res.ok_bind, ignoreErr, nonNil]; exact ⟨_, rfl⟩
    · exfalso
      rw [Product.create] at hpf
      obtain ⟨c, hc⟩ := prod_challenge_ok zeroPrim (Product.fromWitness l r m (l * r) 0)
        (Point.scalarMul (Product.fromWitness l r m (l * r) 0).g 0)
        (Point.mulPoints (Product.fromWitness l r m (l * r) 0).rhsCom 0 (Product.fromWitness l r m (l * r) 0).h 0) ad
      simp only [hrng, hsc, Res.ok_bind, hc] at hpf
      cases hpf
  | other => exact ⟨_, rfl⟩

example : ∃ d, new zeroPrim (.unmaskedTimesMasked 6 7 1) ⟨[]⟩ 2 ([3, 5, 8].map Point.mulByG) 4 [1, 2] = .ok d ∧
    publiclyVerify zeroPrim d K256 (.unmaskedTimesMasked ⟨.plain, ⟨.simple, [(6 : Fn) • G]⟩⟩
      ⟨.interpolation, ⟨.pedersen, [(7 : Fn) • G + (1 : Fn) • Point.H]⟩⟩) 2 4 3 [1, 2] = .ok () := by
  obtain ⟨d, hd⟩ := dealing_exists (.unmaskedTimesMasked 6 7 1) ⟨[]⟩ 2 ([3, 5, 8].map Point.mulByG) 4 [1, 2]
    (by norm_num) (by simp)
  refine ⟨d, hd, (C54_honest_dealings_verify zeroPrim (.unmaskedTimesMasked 6 7 1) (.unmaskedTimesMasked _ _) ⟨[]⟩ 2
    [3, 5, 8] 4 [1, 2] d ⟨rfl, by simp, ?_, rfl, by simp, ?_⟩ hd).1⟩
  · simp [valueAtNode, valueAt]
  · simp [valueAtNode, valueAt]

/-! ### C55: thresholds -/

/-- C55 is false: a negative threshold passes the check, and dealing then panics; and for shares of an unexpected
dynamic type nothing fails at all. -/
theorem C55_false (P : Prim) (seed : Seed) (pks : List Pt) (dealer : NodeIndex) (ad : Bytes) :
    (new P .random seed (-1) pks dealer ad).isPanic = true ∧
    new P .other seed (-1) pks dealer ad = .ok ⟨none, none, none⟩ := by
  obtain ⟨ps, hps, -⟩ := C22_seed_derivation.2.2.1 P seed polyDst
  obtain ⟨ms, hms, -⟩ := C22_seed_derivation.2.2.1 P seed megaDst
  have h0 : ¬ ((-1 : Int) = 0 ∨ (-1 : Int) > pks.length) := by omega
  constructor <;> rw [new, if_neg h0, hps, hms, Res.ok_bind, Res.ok_bind] <;> rfl

/-- C55, what holds: a threshold of zero or above the number of recipients is an error, a negative one never gives a
dealing, and every other threshold gives a dealing unless a sampling loop runs forever.  Missing: an error (instead of a
panic) for negative thresholds. -/
theorem C55_threshold_partial (P : Prim) (shares : Shares) (seed : Seed) (t : Int) (pks : List Pt) (dealer : NodeIndex)
    (ad : Bytes) :
    (t = 0 ∨ (pks.length : Int) < t → (new P shares seed t pks dealer ad).isErr = true) ∧
    (t < 0 → shares ≠ .other → ∀ d, new P shares seed t pks dealer ad ≠ .ok d) ∧
    (1 ≤ t → t ≤ pks.length →
      (∃ d, new P shares seed t pks dealer ad = .ok d) ∨ new P shares seed t pks dealer ad = .diverge) := by
  obtain ⟨ps, hps, -⟩ := C22_seed_derivation.2.2.1 P seed polyDst
  obtain ⟨ms, hms, -⟩ := C22_seed_derivation.2.2.1 P seed megaDst
  refine ⟨fun h => by rw [new, if_pos h]; rfl, fun h hs d hd => ?_, fun h h' => ?_⟩
  · have hc : ∀ s r, Poly.randomWithConstant s t r = .panic "makeslice: len out of range" := fun s r => by
      rw [Poly.randomWithConstant, if_neg (by omega), if_pos h]
    have hr : ∀ r, Poly.random t r = .panic "makeslice: len out of range" := fun r => by rw [Poly.random, if_pos h]
    rw [new, if_neg (by omega), hps, hms, Res.ok_bind, Res.ok_bind] at hd
    cases shares with
    | random => rw [hr] at hd; cases hd
    | reshareUnmasked s => simp only [hc] at hd; cases hd
    | reshareMasked s m => simp only [hc] at hd; cases hd
    | unmaskedTimesMasked l r m =>
      dsimp only at hd
      obtain ⟨⟨pm, r0⟩, -, hd⟩ := Res.bind_eq_ok.1 hd
      simp only [hc] at hd; cases hd
    | other => exact hs rfl
  · have hne : pks ≠ [] := by rintro rfl; simp at h'; omega
    rw [new, if_neg (by omega), hps, hms, Res.ok_bind, Res.ok_bind]
    cases shares with
    | random =>
      dsimp only
      rcases Poly.random_cases (by omega : 0 ≤ t) (ps.rng P) with ⟨v, r1, h1, hl1⟩ | h1
      · rw [h1, Res.ok_bind]
        dsimp only
        rcases Poly.random_cases (by omega : 0 ≤ t) r1 with ⟨w, r2, h2, hl2⟩ | h2
        · rw [h2, Res.ok_bind]
          dsimp only
          rcases encryptAndCommitPair_cases P dealer ad ms (by omega) hl1 hl2 hne with ⟨x, hx⟩ | hx
          · rw [hx]; exact Or.inl ⟨_, rfl⟩
          · rw [hx]; exact Or.inr rfl
        · rw [h2]; exact Or.inr rfl
      · rw [h1]; exact Or.inr rfl
    | reshareUnmasked s =>
      dsimp only
      rcases Poly.randomWithConstant_cases s (by omega : 0 < t) (ps.rng P) with ⟨v, r1, h1, hl1⟩ | h1
      · rw [h1, Res.ok_bind]
        dsimp only
        rcases encryptAndCommitSingle_cases P dealer ad ms (by omega) hl1 hne with ⟨x, hx⟩ | hx
        · rw [hx]; exact Or.inl ⟨_, rfl⟩
        · rw [hx]; exact Or.inr rfl
      · rw [h1]; exact Or.inr rfl
    | reshareMasked s m =>
      dsimp only
      rcases Poly.randomWithConstant_cases s (by omega : 0 < t) (ps.rng P) with ⟨v, r1, h1, hl1⟩ | h1
      · rw [h1, Res.ok_bind]
        dsimp only
        rcases encryptAndCommitSingle_cases P dealer ad ms (by omega) hl1 hne with ⟨x, hx⟩ | hx
        · obtain ⟨zs, hz, -⟩ := C22_seed_derivation.2.2.1 P seed Zk.equalOpeningsDst
          rw [hx, Res.ok_bind, hz, Res.ok_bind]
          rcases eqOpen_create_cases P zs s m ad with ⟨pf, hp⟩ | hp
          · rw [hp]; exact Or.inl ⟨_, rfl⟩
          · rw [hp]; exact Or.inr rfl
        · rw [hx]; exact Or.inr rfl
      · rw [h1]; exact Or.inr rfl
    | unmaskedTimesMasked l r m =>
      dsimp only
      have hsr := C21_random_scalar (ps.rng P)
      rcases h0 : Scalar.random (ps.rng P) with ⟨pm, r0⟩ | e | e | _
      · rw [Res.ok_bind]
        dsimp only
        rcases Poly.randomWithConstant_cases (l * r) (by omega : 0 < t) r0 with ⟨v, r1, h1, hl1⟩ | h1
        · rw [h1, Res.ok_bind]
          dsimp only
          rcases Poly.randomWithConstant_cases pm (by omega : 0 < t) r1 with ⟨w, r2, h2, hl2⟩ | h2
          · simp only [h2, ignoreErr, nonNil, Res.ok_bind]
            rcases encryptAndCommitPair_cases P dealer ad ms (by omega) hl1 hl2 hne with ⟨x, hx⟩ | hx
            · obtain ⟨zs, hz, -⟩ := C22_seed_derivation.2.2.1 P seed Zk.productDst
              rw [hx, Res.ok_bind, hz, Res.ok_bind]
              rcases product_create_cases P zs l r m (l * r) pm ad with ⟨pf, hp⟩ | hp
              · rw [hp]; exact Or.inl ⟨_, rfl⟩
              · rw [hp]; exact Or.inr rfl
            · rw [hx]; exact Or.inr rfl
          · rw [h2]; exact Or.inr rfl
        · rw [h1]; exact Or.inr rfl
      · rw [h0] at hsr; simp at hsr
      · rw [h0] at hsr; simp at hsr
      · exact Or.inr rfl
    | other => exact Or.inl ⟨_, rfl⟩

/-! ### C57: what is accepted -/

theorem Dealings.checkValidity_iff (P : Prim) (c : Cipher) (n : Int) (ad : Bytes) (dealer : NodeIndex) :
    c.checkValidity P n ad dealer = .ok () ↔ (c.size : Int) = n ∧ c.popAccepted P ad dealer := by
  cases c with
  | single m =>
    simp only [Cipher.checkValidity, Single.checkValidity, Cipher.size, Cipher.popAccepted]
    split_ifs with h
    · simp [h]
    · rw [not_not] at h; simp [h]
  | pair m =>
    simp only [Cipher.checkValidity, Pair.checkValidity, Cipher.size, Cipher.popAccepted]
    split_ifs with h
    · simp [h]
    · rw [not_not] at h; simp [h]

theorem Dealings.checkValidity_cases (P : Prim) (c : Cipher) (n : Int) (ad : Bytes) (dealer : NodeIndex) :
    c.checkValidity P n ad dealer = .ok () ∨ (c.checkValidity P n ad dealer).isErr = true := by
  cases c with
  | single m =>
    simp only [Cipher.checkValidity, Single.checkValidity]
    split_ifs
    · exact Or.inr rfl
    · exact verifyPop_cases ..
  | pair m =>
    simp only [Cipher.checkValidity, Pair.checkValidity]
    split_ifs
    · exact Or.inr rfl
    · exact verifyPop_cases ..

theorem Dealings.cipher_verifyIs (c : Cipher) (t : CType) :
    (c.verifyIs t K256 = .ok () ↔ (t = .pairs ↔ c.isPair = true)) ∧
    (c.verifyIs t K256 = .ok () ∨ (c.verifyIs t K256).isErr = true) := by
  cases c <;> cases t <;> simp [Cipher.verifyIs, Single.verifyIs, Pair.verifyIs, Cipher.isPair]

theorem Commitment.verifyIs_cases {c : Commitment} (h : c.points ≠ []) (k : Kind) :
    (c.verifyIs k K256 = .ok () ∧ c.kind = k) ∨ ((c.verifyIs k K256).isErr = true ∧ c.kind ≠ k) := by
  have := C76_verify_is c h k K256
  by_cases hk : c.kind = k
  · exact Or.inl ⟨this.1.2 ⟨rfl, hk⟩, hk⟩
  · exact Or.inr ⟨this.2.2 fun e => hk e.2, hk⟩

theorem Commitment.constantTerm_head {c : Commitment} {p : Pt} : c.constantTerm = .ok p ↔ c.points.head? = some p := by
  rw [Commitment.constantTerm]
  cases c.points <;> simp

theorem Dealings.accepted_only {P : Prim} {d : Dealing} {curve : CurveType} {op : Op} {t : Int} {dealer : NodeIndex}
    {receivers : Int} {ad : Bytes} (h : publiclyVerify P d curve op t dealer receivers ad = .ok ()) :
      curve = K256 ∧ ∃ cm c c0, d.commitment = some cm ∧ d.ciphertext = some c ∧
        (cm.points.length : Int) = t ∧ cm.points.head? = some c0 ∧
        (c.size : Int) = receivers ∧ c.popAccepted P ad dealer ∧
        ProofAccepted P dealer ad cm.kind c.isPair c0 d.proof op := by
  rw [publiclyVerify] at h
  obtain ⟨cm, hcm, h⟩ := Res.bind_eq_ok.1 h
  split_ifs at h with hl
  obtain ⟨ct, hct, h⟩ := Res.bind_eq_ok.1 h
  have hne : cm.points ≠ [] := by intro e; rw [Commitment.curveType, e] at hct; cases hct
  have hct' : ct = K256 := by
    rw [Commitment.curveType] at hct
    cases hp : cm.points with
    | nil => exact absurd hp hne
    | cons a l => rw [hp] at hct; cases hct; rfl
  split_ifs at h with hcu
  rw [hct', not_not] at hcu
  subst hcu
  obtain ⟨c, hc, h⟩ := Res.bind_eq_ok.1 h
  obtain ⟨⟨⟩, hv, h⟩ := Res.bind_eq_ok.1 h
  obtain ⟨hsz, hpop⟩ := (checkValidity_iff _ _ _ _ _).1 hv
  obtain ⟨c0, hc0⟩ : ∃ c0, cm.points.head? = some c0 := by
    cases hp : cm.points with
    | nil => exact absurd hp hne
    | cons a l => exact ⟨a, rfl⟩
  have hcst := Commitment.constantTerm_head.2 hc0
  refine ⟨rfl, cm, c, c0, nonNil_eq_ok.1 hcm, nonNil_eq_ok.1 hc, not_not.1 hl, hc0, hsz, hpop, ?_⟩
  have hkind : ∀ (c : Commitment) (k : Kind), c.verifyIs k K256 = .ok () → c.points ≠ [] ∧ c.kind = k := by
    intro c k hk
    have hn : c.points ≠ [] := by intro e; rw [Commitment.verifyIs, Commitment.curveType, e] at hk; cases hk
    exact ⟨hn, ((C76_verify_is c hn k K256).1.1 hk).2⟩
  cases op with
  | random =>
    dsimp only at h
    split at h
    next hp =>
      obtain ⟨⟨⟩, h1, h2⟩ := Res.bind_eq_ok.1 h
      exact ⟨(hkind _ _ h1).2, by simpa using (cipher_verifyIs c .pairs).1.1 h2, hp⟩
    · cases h
  | reshareMasked p1 =>
    dsimp only at h
    split at h
    · cases h
    next pf hp =>
      split_ifs at h with hty
      obtain ⟨⟨⟩, h1, h⟩ := Res.bind_eq_ok.1 h
      obtain ⟨⟨⟩, h2, h⟩ := Res.bind_eq_ok.1 h
      obtain ⟨pf', h3, h⟩ := Res.bind_eq_ok.1 h
      obtain ⟨a, h4, h⟩ := Res.bind_eq_ok.1 h
      rw [hcst, Res.ok_bind] at h
      have hn1 : p1.c.points ≠ [] := by intro e; rw [Commitment.evaluateAt, Commitment.curveType, e] at h4; cases h4
      rw [Commitment.evaluateAt_value hn1] at h4
      cases h4
      refine ⟨(hkind _ _ h1).2, by simpa using (cipher_verifyIs c .single).1.1 h2, hn1, pf', ?_, h⟩
      rw [hp]
      cases pf <;> simp [ProofVal.asMasked] at h3
      rw [nonNil_eq_ok.1 h3]
  | reshareUnmasked p1 =>
    dsimp only at h
    split at h
    next hp =>
      obtain ⟨⟨⟩, h1, h⟩ := Res.bind_eq_ok.1 h
      obtain ⟨⟨⟩, h2, h⟩ := Res.bind_eq_ok.1 h
      obtain ⟨⟨⟩, h3, h⟩ := Res.bind_eq_ok.1 h
      obtain ⟨hn1, hk1⟩ := hkind _ _ h2
      refine ⟨(hkind _ _ h1).2, by simpa using (cipher_verifyIs c .single).1.1 h3, hn1, hk1, hp, fun hw => ?_⟩
      rw [hw, hk1] at h
      dsimp only at h
      rw [Commitment.evaluateAt_value hn1, hcst, Res.ok_bind, Res.ok_bind] at h
      split_ifs at h with he
      exact (not_not.1 he).symm
    · cases h
  | unmaskedTimesMasked L R =>
    dsimp only at h
    obtain ⟨pf, hp, h⟩ := Res.bind_eq_ok.1 h
    split_ifs at h with hty
    obtain ⟨⟨⟩, h1, h⟩ := Res.bind_eq_ok.1 h
    obtain ⟨⟨⟩, h2, h⟩ := Res.bind_eq_ok.1 h
    obtain ⟨⟨⟩, h3, h⟩ := Res.bind_eq_ok.1 h
    obtain ⟨⟨⟩, h4, h⟩ := Res.bind_eq_ok.1 h
    obtain ⟨pf', h5, h⟩ := Res.bind_eq_ok.1 h
    obtain ⟨hn1, hk1⟩ := hkind _ _ h3
    obtain ⟨hn2, hk2⟩ := hkind _ _ h4
    rw [Commitment.evaluateAt_value hn1, Commitment.evaluateAt_value hn2, hcst, Res.ok_bind, Res.ok_bind, Res.ok_bind] at h
    refine ⟨(hkind _ _ h1).2, by simpa using (cipher_verifyIs c .pairs).1.1 h2, hn1, hn2, hk1, hk2, pf', ?_, h⟩
    rw [nonNil_eq_ok.1 hp]
    cases pf <;> simp [ProofVal.asProduct] at h5
    rw [nonNil_eq_ok.1 h5]
  | other => cases h

theorem Dealings.accepted_of (P : Prim) (d : Dealing) (curve : CurveType) (op : Op) (t : Int) (dealer : NodeIndex)
    (receivers : Int) (ad : Bytes) :
    (curve = K256 ∧ ∃ cm c c0, d.commitment = some cm ∧ d.ciphertext = some c ∧
        (cm.points.length : Int) = t ∧ cm.points.head? = some c0 ∧
        (c.size : Int) = receivers ∧ c.popAccepted P ad dealer ∧
        ProofAccepted P dealer ad cm.kind c.isPair c0 d.proof op) →
    publiclyVerify P d curve op t dealer receivers ad = .ok () := by
  rintro ⟨rfl, cm, c, c0, hcm, hc, hl, hc0, hsz, hpop, h⟩
  have hne : cm.points ≠ [] := by intro e; rw [e] at hc0; cases hc0
  have hct : cm.curveType = .ok K256 := by
    rw [Commitment.curveType]
    cases hp : cm.points with
    | nil => exact absurd hp hne
    | cons a l => rfl
  have hcst := Commitment.constantTerm_head.2 hc0
  have hkind : ∀ (c : Commitment) (k : Kind), c.points ≠ [] → c.kind = k → c.verifyIs k K256 = .ok () :=
    fun c k hn hk => (C76_verify_is c hn k K256).1.2 ⟨rfl, hk⟩
  have hv := (checkValidity_iff P c receivers ad dealer).2 ⟨hsz, hpop⟩
  simp only [publiclyVerify, hcm, hc, nonNil, Res.ok_bind, hl, hct, hv, ne_eq, not_true_eq_false, if_false]
  cases op with
  | random =>
    obtain ⟨h1, h2, h3⟩ := h
    rw [h3]
    dsimp only
    rw [hkind cm _ hne h1, Res.ok_bind]
    exact (cipher_verifyIs c .pairs).1.2 (by simpa using h2)
  | reshareMasked p1 =>
    obtain ⟨h1, h2, hn1, pf, h3, h4⟩ := h
    rw [h3]
    dsimp only
    simp only [ProofVal.type, if_true, ProofVal.asMasked, ProofVal.asProduct, nonNil]
    rw [hkind cm _ hne h1, Res.ok_bind, (cipher_verifyIs c .single).1.2 (by simpa using h2), Res.ok_bind,
      Res.ok_bind,
      Commitment.evaluateAt_value hn1, hcst, Res.ok_bind, Res.ok_bind]
    exact h4
  | reshareUnmasked p1 =>
    obtain ⟨h1, h2, hn1, hk1, h3, h4⟩ := h
    rw [h3]
    dsimp only
    rw [hkind cm _ hne h1, Res.ok_bind, hkind p1.c _ hn1 hk1, Res.ok_bind,
      (cipher_verifyIs c .single).1.2 (by simpa using h2), Res.ok_bind, hk1, Commitment.evaluateAt_value hn1, hcst]
    cases hw : p1.wrap with
    | plain => dsimp only; rw [Res.ok_bind, Res.ok_bind, ← h4 hw, if_neg (not_not.2 rfl)]
    | summation => rfl
    | interpolation => rfl
  | unmaskedTimesMasked L R =>
    obtain ⟨h1, h2, hn1, hn2, hk1, hk2, pf, h3, h4⟩ := h
    rw [h3]
    dsimp only [Res.ok_bind]
    simp only [ProofVal.type, if_true, ProofVal.asMasked, ProofVal.asProduct, nonNil]
    rw [hkind cm _ hne h1, Res.ok_bind, (cipher_verifyIs c .pairs).1.2 (by simpa using h2), Res.ok_bind,
      hkind L.c _ hn1 hk1, hkind R.c _ hn2 hk2, Commitment.evaluateAt_value hn1, Commitment.evaluateAt_value hn2, hcst]
    simp only [Res.ok_bind]
    exact h4
  | other => exact h.elim

/-- C57: exactly which dealings are accepted, for every dealing and operation. -/
theorem C57_accepted_iff (P : Prim) (d : Dealing) (curve : CurveType) (op : Op) (t : Int) (dealer : NodeIndex)
    (receivers : Int) (ad : Bytes) :
    publiclyVerify P d curve op t dealer receivers ad = .ok () ↔
      curve = K256 ∧ ∃ cm c c0, d.commitment = some cm ∧ d.ciphertext = some c ∧
        (cm.points.length : Int) = t ∧ cm.points.head? = some c0 ∧
        (c.size : Int) = receivers ∧ c.popAccepted P ad dealer ∧
        ProofAccepted P dealer ad cm.kind c.isPair c0 d.proof op :=
  ⟨accepted_only, accepted_of _ _ _ _ _ _ _ _⟩

/-! ### C56: malformed dealings -/

/-- C56 is false: an honest random dealing (which has no proof) makes the verification for a product operation panic, and
so does an empty commitment if the threshold is zero, and a proof of the right type whose embedded pointer is nil. -/
theorem C56_false :
    (∃ d, new zeroPrim .random ⟨[]⟩ 1 [Point.mulByG 3] 0 [] = .ok d ∧
      ∀ l r, (publiclyVerify zeroPrim d K256 (.unmaskedTimesMasked l r) 1 0 1 []).isPanic = true) ∧
    (∀ P c k op dealer n ad, (publiclyVerify P ⟨c, some ⟨k, []⟩, none⟩ K256 op 0 dealer n ad).isPanic = true) ∧
    (∃ d, new zeroPrim (.reshareMasked 1 2) ⟨[]⟩ 1 [Point.mulByG 3] 0 [] = .ok d ∧
      ∀ p1, (publiclyVerify zeroPrim { d with proof := some (.masked none) } K256 (.reshareMasked p1) 1 0 1 []).isPanic =
        true) := by
  refine ⟨?_, fun P c k op dealer n ad => rfl, ?_⟩
  · obtain ⟨d, hd⟩ := dealing_exists .random ⟨[]⟩ 1 [Point.mulByG 3] 0 [] (by norm_num) (by simp)
    refine ⟨d, hd, fun l r => ?_⟩
    have h := (C54_honest_dealings_verify zeroPrim .random .random ⟨[]⟩ 1 [3] 0 [] d trivial hd).1
    obtain ⟨-, cm, c, c0, hcm, hc, hl, hc0, hsz, hpop, -, -, hp⟩ := accepted_only h
    have hv := (checkValidity_iff zeroPrim c 1 [] 0).2 ⟨hsz, hpop⟩
    have hct : cm.curveType = .ok K256 := by
      rw [Commitment.curveType]
      cases hp : cm.points with
      | nil => rw [hp] at hc0; cases hc0
      | cons a l => rfl
    simp only [publiclyVerify, hcm, hc, nonNil, Res.ok_bind, hl, hct, hv, hp, ne_eq, not_true_eq_false, if_false,
      Res.panic_bind, Res.isPanic_panic]
  · obtain ⟨d, hd⟩ := dealing_exists (.reshareMasked 1 2) ⟨[]⟩ 1 [Point.mulByG 3] 0 [] (by norm_num) (by simp)
    refine ⟨d, hd, fun p1 => ?_⟩
    have h := (C54_honest_dealings_verify zeroPrim (.reshareMasked 1 2)
      (.reshareMasked ⟨.plain, ⟨.pedersen, [(1 : Fn) • G + (2 : Fn) • Point.H]⟩⟩) ⟨[]⟩ 1 [3] 0 [] d
      ⟨by simp, by simp [valueAtNode, valueAt]⟩ hd).1
    obtain ⟨-, cm, c, c0, hcm, hc, hl, hc0, hsz, hpop, hk, hpair, -⟩ := accepted_only h
    have hv := (checkValidity_iff zeroPrim c 1 [] 0).2 ⟨hsz, hpop⟩
    have hne : cm.points ≠ [] := by intro e; rw [e] at hc0; cases hc0
    have hct : cm.curveType = .ok K256 := by
      rw [Commitment.curveType]
      cases hp : cm.points with
      | nil => exact absurd hp hne
      | cons a l => rfl
    simp only [publiclyVerify, hcm, hc, nonNil, Res.ok_bind, hl, hct, hv, ne_eq, not_true_eq_false, if_false, if_true,
      Res.panic_bind, Res.isPanic_panic, ProofVal.type, ProofVal.asMasked,
      (C76_verify_is cm hne .simple K256).1.2 ⟨rfl, hk⟩, (cipher_verifyIs c .single).1.2 (by simpa using hpair)]

theorem Res.bind_ok_or_err {α β : Type} {r : Res α} {f : α → Res β} (h : (∃ a, r = .ok a) ∨ r.isErr = true)
    (hf : ∀ a, r = .ok a → (∃ b, f a = .ok b) ∨ (f a).isErr = true) : (∃ b, (r >>= f) = .ok b) ∨ (r >>= f).isErr = true := by
  rcases h with ⟨a, rfl⟩ | h
  · exact hf a rfl
  · obtain ⟨e, rfl⟩ := Res.isErr_iff.1 h; exact Or.inr rfl

/-- C56, what holds: with a non-nil ciphertext and commitment, a non-zero threshold or a non-empty commitment, non-empty
commitments in the operation, and a proof that is either absent (but not for a product) or of the form the code creates,
verification returns, with nil or an error; and by C57 it returns nil only for the kinds and sizes the operation
requires.  Missing: the inputs on which it panics. -/
theorem C56_no_panic_partial (P : Prim) (cm : Commitment) (c : Cipher) (proof : Option ProofVal) (curve : CurveType) (op : Op)
    (t : Int) (dealer : NodeIndex) (receivers : Int) (ad : Bytes) (ht : t ≠ 0 ∨ cm.points ≠ []) (hop : op.NonEmpty)
    (hpf : ∀ p, proof = some p → p.WellFormed) (hprod : proof = none → ∀ l r, op ≠ .unmaskedTimesMasked l r) :
    publiclyVerify P ⟨some c, some cm, proof⟩ curve op t dealer receivers ad = .ok () ∨
    (publiclyVerify P ⟨some c, some cm, proof⟩ curve op t dealer receivers ad).isErr = true := by
  suffices h : (∃ u, publiclyVerify P ⟨some c, some cm, proof⟩ curve op t dealer receivers ad = .ok u) ∨
      (publiclyVerify P ⟨some c, some cm, proof⟩ curve op t dealer receivers ad).isErr = true by
    rcases h with ⟨⟨⟩, h⟩ | h
    · exact Or.inl h
    · exact Or.inr h
  rw [publiclyVerify]
  dsimp only [nonNil]
  rw [Res.ok_bind]
  split_ifs with hl
  · exact Or.inr rfl
  rw [not_not] at hl
  have hne : cm.points ≠ [] := by
    rcases ht with h | h
    · rintro e; rw [e] at hl; exact h hl.symm
    · exact h
  have hct : cm.curveType = .ok K256 := by
    rw [Commitment.curveType]
    cases hp : cm.points with
    | nil => exact absurd hp hne
    | cons a l => rfl
  obtain ⟨c0, hc0⟩ : ∃ c0, cm.constantTerm = .ok c0 := by
    rw [Commitment.constantTerm]
    cases hp : cm.points with
    | nil => exact absurd hp hne
    | cons a l => exact ⟨a, rfl⟩
  rw [hct, Res.ok_bind]
  split_ifs with hcu
  · exact Or.inr rfl
  rw [not_not] at hcu
  subst hcu
  rw [Res.ok_bind]
  have hvis : ∀ (c : Commitment) (k : Kind), c.points ≠ [] → (∃ u, c.verifyIs k K256 = .ok u) ∨
      (c.verifyIs k K256).isErr = true := by
    intro c k hn
    rcases Commitment.verifyIs_cases hn k with h | h
    · exact Or.inl ⟨_, h.1⟩
    · exact Or.inr h.1
  have hcis : ∀ k, (∃ u, c.verifyIs k K256 = .ok u) ∨ (c.verifyIs k K256).isErr = true := fun k =>
    (cipher_verifyIs c k).2.imp (fun h => ⟨_, h⟩) id
  refine Res.bind_ok_or_err ((checkValidity_cases P c receivers ad dealer).imp (fun h => ⟨_, h⟩) id) fun _ _ => ?_
  cases op with
  | random =>
    cases proof with
    | none => exact Res.bind_ok_or_err (hvis cm _ hne) fun _ _ => hcis _
    | some p => exact Or.inr rfl
  | reshareMasked p1 =>
    cases proof with
    | none => exact Or.inr rfl
    | some p =>
      dsimp only
      rcases hpf p rfl with ⟨pf, rfl⟩ | ⟨pf, rfl⟩
      · rw [if_pos (by rfl)]
        refine Res.bind_ok_or_err (hvis cm _ hne) fun _ _ => Res.bind_ok_or_err (hcis _) fun _ _ => ?_
        rw [Commitment.evaluateAt_value hop, hc0]
        simp only [ProofVal.asMasked, nonNil, Res.ok_bind]
        exact (eqOpen_verify_cases ..).imp (fun h => ⟨_, h⟩) id
      · exact Or.inr rfl
  | reshareUnmasked p1 =>
    cases proof with
    | none =>
      refine Res.bind_ok_or_err (hvis cm _ hne) fun _ _ => Res.bind_ok_or_err (hvis p1.c _ hop) fun _ _ =>
        Res.bind_ok_or_err (hcis _) fun _ _ => ?_
      rw [Commitment.evaluateAt_value hop, hc0]
      simp only [Res.ok_bind]
      split
      · exact Or.inr rfl
      · split_ifs
        · exact Or.inr rfl
        · exact Or.inl ⟨_, rfl⟩
      · exact Or.inl ⟨_, rfl⟩
    | some p => exact Or.inr rfl
  | unmaskedTimesMasked l r =>
    cases proof with
    | none => exact absurd rfl (hprod rfl l r)
    | some p =>
      dsimp only [nonNil]
      rw [Res.ok_bind]
      rcases hpf p rfl with ⟨pf, rfl⟩ | ⟨pf, rfl⟩
      · exact Or.inr rfl
      · rw [if_pos (by rfl)]
        refine Res.bind_ok_or_err (hvis cm _ hne) fun _ _ => Res.bind_ok_or_err (hcis _) fun _ _ =>
          Res.bind_ok_or_err (hvis l.c _ hop.1) fun _ _ => Res.bind_ok_or_err (hvis r.c _ hop.2) fun _ _ => ?_
        rw [Commitment.evaluateAt_value hop.1, Commitment.evaluateAt_value hop.2, hc0]
        simp only [ProofVal.asProduct, nonNil, Res.ok_bind]
        exact (product_verify_cases ..).imp (fun h => ⟨_, h⟩) id
  | other => exact Or.inr rfl

example : (Op.unmaskedTimesMasked ⟨.plain, ⟨.simple, [G]⟩⟩ ⟨.summation, ⟨.pedersen, [G, G]⟩⟩).NonEmpty ∧
    (ProofVal.product (some ⟨1, 2, 3⟩)).WellFormed := ⟨⟨by simp, by simp⟩, Or.inr ⟨_, rfl⟩⟩

/-! ### C83: resharing an unmasked transcript -/

/-- C83 is false: when the previous commitment comes wrapped (as transcripts store it), the constant term is not compared,
and a dealing of another value (6 instead of 5) is accepted. -/
theorem C83_false : ∃ d, new zeroPrim (.reshareUnmasked 6) ⟨[]⟩ 1 [Point.mulByG 3] 0 [] = .ok d ∧
    publiclyVerify zeroPrim d K256 (.reshareUnmasked ⟨.interpolation, ⟨.simple, [(5 : Fn) • G]⟩⟩) 1 0 1 [] = .ok () ∧
    ∃ cm, d.commitment = some cm ∧ cm.points = [(6 : Fn) • G] ∧ (6 : Fn) • G ≠ valueAtNode [(5 : Fn) • G] 0 := by
  obtain ⟨d, hd⟩ := dealing_exists (.reshareUnmasked 6) ⟨[]⟩ 1 [Point.mulByG 3] 0 [] (by norm_num) (by simp)
  have h := (C54_honest_dealings_verify zeroPrim (.reshareUnmasked 6)
    (.reshareUnmasked ⟨.plain, ⟨.simple, [(6 : Fn) • G]⟩⟩) ⟨[]⟩ 1 [3] 0 [] d
    ⟨rfl, by simp, by simp [valueAtNode, valueAt]⟩ hd).1
  obtain ⟨-, cm, c, c0, hcm, hc, hl, hc0, hsz, hpop, h1, h2, -, -, h5, h6⟩ := accepted_only h
  refine ⟨d, hd, accepted_of _ _ _ _ _ _ _ _ ⟨rfl, cm, c, c0, hcm, hc, hl, hc0, hsz, hpop, h1, h2, by simp, rfl, h5,
    fun e => by cases e⟩, cm, hcm, ?_, ?_⟩
  · have hv : c0 = (6 : Fn) • G := by simpa [valueAtNode, valueAt] using h6 rfl
    rcases hp : cm.points with _ | ⟨a, _ | ⟨b, l⟩⟩
    · rw [hp] at hc0; cases hc0
    · rw [hp] at hc0; cases hc0; rw [hv]
    · rw [hp] at hl; simp at hl; omega
  · simp only [valueAtNode, valueAt, List.length_singleton, Finset.univ_unique, Fin.default_eq_zero, Finset.sum_singleton,
      Fin.val_zero, pow_zero, one_smul]
    intro e
    have : (6 : Fn) = 5 := smul_left_injective Fn G_ne_zero e
    exact absurd this (by decide +kernel)

/-- C83, what holds: if the previous commitment is a plain one (a clone, as the protocol driver passes it), the new
constant term is its value at the dealer. -/
theorem C83_reshare_unmasked_partial (P : Prim) (d : Dealing) (curve : CurveType) (prev : Commitment) (t : Int)
    (dealer : NodeIndex) (receivers : Int) (ad : Bytes)
    (h : publiclyVerify P d curve (.reshareUnmasked (Com.clone ⟨.plain, prev⟩)) t dealer receivers ad = .ok ()) :
    prev.kind = .simple ∧ ∃ cm, d.commitment = some cm ∧ cm.kind = .simple ∧
      cm.points.head? = some (valueAtNode prev.points dealer) := by
  obtain ⟨-, cm, c, c0, hcm, hc, hl, hc0, hsz, hpop, h1, h2, -, h4, h5, h6⟩ := accepted_only h
  exact ⟨h4, cm, hcm, h1, by rw [hc0, h6 rfl]; rfl⟩

/-! ### C84: private verification -/

/-- C84: `PrivateVerify` accepts exactly the dealings whose ciphertext for this recipient decrypts, with a valid proof of
possession, to an opening of the commitment at the recipient's index. -/
theorem C84_private_verify (P : Prim) (d : Dealing) (curve : CurveType) (k : Fn) (pk : Pt) (ad : Bytes)
    (dealer i : NodeIndex) :
    privateVerify P d curve k pk ad dealer i = .ok () ↔
      curve = K256 ∧ ∃ cm, d.commitment = some cm ∧ cm.points ≠ [] ∧
        ((∃ m s, d.ciphertext = some (.single m) ∧ cm.kind = .simple ∧ Single.decrypt P m ad dealer i k pk = .ok s ∧
            valueAtNode cm.points i = s • G) ∨
         (∃ m s r, d.ciphertext = some (.pair m) ∧ cm.kind = .pedersen ∧ Pair.decrypt P m ad dealer i k pk = .ok (s, r) ∧
            valueAtNode cm.points i = s • G + r • Point.H)) := by
  have hval : ∀ (cm : Commitment) (Q : Pt), cm.evaluateAt i = .ok Q ↔ cm.points ≠ [] ∧ valueAtNode cm.points i = Q := by
    intro cm Q
    by_cases hn : cm.points = []
    · constructor
      · intro h; have := Commitment.evaluateAt_nil hn i; rw [h] at this; cases this
      · exact fun h => absurd hn h.1
    · rw [Commitment.evaluateAt_value hn]; simp [hn]
  constructor
  · intro h
    rw [privateVerify] at h
    split_ifs at h with hc
    rw [ne_eq, not_not] at hc
    obtain ⟨cm, hcm, h⟩ := Res.bind_eq_ok.1 h
    obtain ⟨c0, hc0, h⟩ := Res.bind_eq_ok.1 h
    obtain ⟨c, hci, h⟩ := Res.bind_eq_ok.1 h
    obtain ⟨o, ho, h⟩ := Res.bind_eq_ok.1 h
    refine ⟨hc.symm, cm, nonNil_eq_ok.1 hcm, (fun e => by rw [Commitment.constantTerm, e] at hc0; cases hc0), ?_⟩
    rw [nonNil_eq_ok.1 hci]
    cases c with
    | single m =>
      obtain ⟨s, -, h1, h2, h3⟩ := ((C79_decrypt_and_check P cm ad dealer i k pk o).1 m).1 ho
      exact Or.inl ⟨m, s, rfl, h1, h2, ((hval _ _).1 h3).2⟩
    | pair m =>
      obtain ⟨s, r, -, h1, h2, h3⟩ := ((C79_decrypt_and_check P cm ad dealer i k pk o).2 m).1 ho
      exact Or.inr ⟨m, s, r, rfl, h1, h2, ((hval _ _).1 h3).2⟩
  · rintro ⟨rfl, cm, hcm, hne, h⟩
    obtain ⟨c0, hc0⟩ : ∃ c0, cm.constantTerm = .ok c0 := by
      rw [Commitment.constantTerm]
      cases hp : cm.points with
      | nil => exact absurd hp hne
      | cons a l => exact ⟨a, rfl⟩
    rcases h with ⟨m, s, hci, h1, h2, h3⟩ | ⟨m, s, r, hci, h1, h2, h3⟩
    · have := ((C79_decrypt_and_check P cm ad dealer i k pk (.simple s)).1 m).2 ⟨s, rfl, h1, h2, (hval _ _).2 ⟨hne, h3⟩⟩
      simp [privateVerify, hcm, hci, nonNil, hc0, Cipher.decryptAndCheck, this]
    · have := ((C79_decrypt_and_check P cm ad dealer i k pk (.pedersen s r)).2 m).2
        ⟨s, r, rfl, h1, h2, (hval _ _).2 ⟨hne, h3⟩⟩
      simp [privateVerify, hcm, hci, nonNil, hc0, Cipher.decryptAndCheck, this]

/-! ### C85: contents of a dealing -/

/-- C85: a returned dealing commits to a polynomial with exactly threshold-many coefficients whose constant term is the
value being dealt, and every recipient decrypts to its value (and that of the mask) at the recipient's place. -/
theorem C85_dealing_contents (P : Prim) (shares : Shares) (seed : Seed) (t : Int) (keys : List Fn) (dealer : NodeIndex)
    (ad : Bytes) (d : Dealing) (hs : shares ≠ .other)
    (h : new P shares seed t (keys.map Point.mulByG) dealer ad = .ok d) :
    ∃ (values mask : List Fn) (c : Cipher) (cm : Commitment), d.commitment = some cm ∧ d.ciphertext = some c ∧
      (values.length : Int) = t ∧ (mask.length : Int) = t ∧ (∀ s, shares.secret = some s → values.head? = some s) ∧
      c.size = keys.length ∧ c.isPair = shares.hidden ∧
      (if shares.hidden then cm.kind = .pedersen ∧ cm.points = List.zipWith (fun v m : Fn => v • G + m • Point.H) values mask
        else cm.kind = .simple ∧ cm.points = values.map fun v : Fn => v • G) ∧
      ∀ (i : NodeIndex) (k : Fn), 0 ≤ i.toInt → keys[i.toInt.toNat]? = some k →
        c.decryptAndCheck P cm ad dealer i k (k • G) = .ok
          (if shares.hidden then .pedersen ((toPoly values).eval (place i)) ((toPoly mask).eval (place i))
            else .simple ((toPoly values).eval (place i))) := by
  obtain ⟨hpos, -, values, mask, c, cm, hvl, hml, hsec, hcm, hval, hvi, hdec, hdc, hdci, -⟩ := new_spec h hs
  obtain ⟨hsz, -⟩ := (checkValidity_iff _ _ _ _ _).1 hval
  refine ⟨values, mask, c, cm, hdc, hdci, by omega, by omega, fun s e => ?_, by exact_mod_cast hsz, ?_, ?_, fun i k hi hk => ?_⟩
  · have := hsec s e
    rw [Poly.evaluateAt_zero] at this
    cases values with
    | nil => simp at hvl; omega
    | cons v vs => rw [← this]; rfl
  · have := hvi K256
    rw [if_neg (not_not.2 rfl)] at this
    have h2 := (cipher_verifyIs c _).1.1 this
    cases hh : shares.hidden <;> rw [hh] at h2 <;> simpa using h2
  · rw [hcm]
    split_ifs
    · exact ⟨rfl, rfl⟩
    · exact ⟨rfl, rfl⟩
  · have := hdec i k hi hk
    rw [Poly.evaluateAt_eq, Poly.evaluateAt_eq] at this
    exact this

/-! ### C86: shares from openings -/

/-- C86 is false: the shares obtained from a single unmasked opening are of a dynamic type that dealing creation does not
recognise, so that it returns a dealing whose fields are all nil, without an error. -/
theorem C86_false (P : Prim) (v : Fn) (seed : Seed) (t : Int) (pks : List Pt) (dealer : NodeIndex) (ad : Bytes)
    (ht : 1 ≤ t) (hr : t ≤ pks.length) : ∃ r, secretFrom (some (.simplePtr v)) none = .ok r ∧
      new P r.shares seed t pks dealer ad = .ok ⟨none, none, none⟩ := by
  obtain ⟨ps, hps, -⟩ := C22_seed_derivation.2.2.1 P seed polyDst
  obtain ⟨ms, hms, -⟩ := C22_seed_derivation.2.2.1 P seed megaDst
  refine ⟨_, rfl, ?_⟩
  rw [new, if_neg (by omega), hps, hms]
  rfl

/-- C86, what holds: the two other combinations give the shares of their operation, and inconsistent ones (given as
pointers, the first not nil) an error. -/
theorem C86_secret_from_partial :
    (∀ v m, ∃ r, secretFrom (some (.pedersenPtr v m)) none = .ok r ∧ r.shares = .reshareMasked v m) ∧
    (∀ l v m, ∃ r, secretFrom (some (.simplePtr l)) (some (.pedersenPtr v m)) = .ok r ∧
      r.shares = .unmaskedTimesMasked l v m) ∧
    (∀ l v, (secretFrom (some (.simplePtr l)) (some (.simplePtr v))).isErr = true) ∧
    (∀ v m o, (secretFrom (some (.pedersenPtr v m)) (some o)).isErr = true) :=
  ⟨fun _ _ => ⟨_, rfl, rfl⟩, fun _ _ _ => ⟨_, rfl, rfl⟩, fun _ _ => rfl, fun _ _ _ => rfl⟩

/-! ### C87: evaluating a commitment -/

/-- C87: `EvaluateAt` is the value of the polynomial in the group, for every non-empty commitment (an empty one panics). -/
theorem C87_commitment_evaluation (c : Commitment) (i : NodeIndex) :
    (c.points ≠ [] → c.evaluateAt i = .ok (∑ j : Fin c.points.length, (Scalar.fromNodeIndex i) ^ (j : ℕ) • c.points[j])) ∧
    (c.points = [] → (c.evaluateAt i).isPanic = true) :=
  ⟨fun h => Commitment.evaluateAt_value h i, fun h => Commitment.evaluateAt_nil h i⟩

end Verif
