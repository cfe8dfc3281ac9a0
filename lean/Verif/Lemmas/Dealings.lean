import Verif.Spec.Dealings
import Verif.Props.Mega
import Verif.Props.Commitment

/-! Lemmas about dealings. -/

set_option autoImplicit false

namespace Verif

open Mega Zk

theorem Poly.randomCoeffs_cases (k : Nat) (r : Rng) :
    (∃ cs r', Poly.randomCoeffs r k = .ok (cs, r') ∧ cs.length = k) ∨ Poly.randomCoeffs r k = .diverge := by
  induction k generalizing r with
  | zero => exact Or.inl ⟨[], r, rfl, rfl⟩
  | succ k ih =>
    have h := C21_random_scalar r
    rw [Poly.randomCoeffs]
    rcases hr : Scalar.random r with ⟨x, r1⟩ | e | e | _
    · rw [Res.ok_bind]
      dsimp only
      rcases ih r1 with ⟨cs, r', hc, hl⟩ | hc
      · rw [hc]; exact Or.inl ⟨_, _, rfl, by simp [hl]⟩
      · rw [hc]; exact Or.inr rfl
    · rw [hr] at h; simp at h
    · rw [hr] at h; simp at h
    · exact Or.inr rfl

theorem Poly.random_ok {num : Int} {r r' : Rng} {cs : List Fn} (h : Poly.random num r = .ok (cs, r')) :
    0 ≤ num ∧ cs.length = num.toNat := by
  rw [Poly.random] at h
  split_ifs at h with h0
  rcases Poly.randomCoeffs_cases num.toNat r with ⟨cs', r'', hc, hl⟩ | hc
  · rw [hc] at h; cases h; exact ⟨by omega, hl⟩
  · rw [hc] at h; cases h

theorem Poly.randomWithConstant_ok {s : Fn} {num : Int} {r r' : Rng} {cs : List Fn}
    (h : Poly.randomWithConstant s num r = .ok (cs, r')) :
    0 < num ∧ cs.length = num.toNat ∧ Poly.coeff cs 0 = s := by
  rw [Poly.randomWithConstant] at h
  split_ifs at h with h0 h1
  rcases Poly.randomCoeffs_cases (num.toNat - 1) r with ⟨cs', r'', hc, hl⟩ | hc
  · rw [hc, Res.ok_bind] at h; cases h
    exact ⟨by omega, by simp [hl]; omega, rfl⟩
  · rw [hc] at h; cases h

theorem Poly.random_cases {num : Int} (h : 0 ≤ num) (r : Rng) :
    (∃ cs r', Poly.random num r = .ok (cs, r') ∧ cs.length = num.toNat) ∨ Poly.random num r = .diverge := by
  rw [Poly.random, if_neg (by omega)]; exact Poly.randomCoeffs_cases _ r

theorem Poly.randomWithConstant_cases (s : Fn) {num : Int} (h : 0 < num) (r : Rng) :
    (∃ cs r', Poly.randomWithConstant s num r = .ok (cs, r') ∧ cs.length = num.toNat) ∨
      Poly.randomWithConstant s num r = .diverge := by
  rw [Poly.randomWithConstant, if_neg (by omega), if_neg (by omega)]
  rcases Poly.randomCoeffs_cases (num.toNat - 1) r with ⟨cs', r'', hc, hl⟩ | hc
  · rw [hc]; exact Or.inl ⟨_, _, rfl, by simp [hl]; omega⟩
  · rw [hc]; exact Or.inr rfl

theorem truncate_self (l : List Fn) : truncate l l.length = l := by
  refine List.ext_getElem (by simp [truncate]) fun i h1 h2 => ?_
  simp [truncate, Poly.coeff, h2]

namespace Commitment

theorem createSimple_self {poly : List Fn} {num : Int} (h : poly.length = num.toNat) (hn : 0 ≤ num) :
    createSimple poly num = .ok ⟨.simple, poly.map Point.mulByG⟩ := by
  have h1 : ¬ (Poly.nonZeroCoefficients poly : Int) > num := by
    have := nonZeroCoefficients_le poly
    omega
  have h2 : ∃ c, createSimple poly num = .ok c := by rw [createSimple, if_neg h1]; exact ⟨_, rfl⟩
  obtain ⟨c, hc⟩ := h2
  rw [hc, createSimple_eq_ok hc, ← h, truncate_self]

theorem map_coeff_pairs {v m : List Fn} (h : m.length = v.length) :
    ((List.range v.length).map fun i => (Poly.coeff v i, Poly.coeff m i)) = v.zip m := by
  refine List.ext_getElem (by simp [h]) fun i h1 h2 => ?_
  simp only [List.length_map, List.length_range] at h1
  simp [Poly.coeff, h1, h]

theorem zipWith_pedersen (v m : List Fn) :
    List.zipWith Point.pedersen v m = (v.zip m).map fun q => Point.pedersen q.1 q.2 := by
  rw [List.zip, List.map_zipWith]

theorem createPedersen_self {v m : List Fn} {num : Int} (h : v.length = num.toNat) (h' : m.length = num.toNat)
    (hn : 0 ≤ num) :
    createPedersen v m num = .ok ⟨.pedersen, List.zipWith Point.pedersen v m⟩ := by
  have h2 : ∃ c, createPedersen v m num = .ok c := by
    rw [createPedersen, if_neg]
    · exact ⟨_, rfl⟩
    · have := nonZeroCoefficients_le v
      have := nonZeroCoefficients_le m
      omega
  obtain ⟨c, hc⟩ := h2
  rw [hc, createPedersen_eq_ok hc, ← h, map_coeff_pairs (by omega), zipWith_pedersen]

theorem evaluateAt_simple {poly : List Fn} (h : poly ≠ []) (i : NodeIndex) :
    evaluateAt ⟨.simple, poly.map Point.mulByG⟩ i =
      .ok (Point.mulByG (Poly.evaluateAt poly (Scalar.fromNodeIndex i))) := by
  rw [evaluateAt_eq (by simpa using h), evalLoop_mulByG]

theorem evaluateAt_pedersen {v m : List Fn} (h : v ≠ []) (hl : m.length = v.length) (i : NodeIndex) :
    evaluateAt ⟨.pedersen, List.zipWith Point.pedersen v m⟩ i =
      .ok (Point.pedersen (Poly.evaluateAt v (Scalar.fromNodeIndex i)) (Poly.evaluateAt m (Scalar.fromNodeIndex i))) := by
  have e : List.zipWith Point.pedersen v m = (v.zip m).map fun q => Point.pedersen q.1 q.2 := by
    exact zipWith_pedersen v m
  rw [evaluateAt_eq, e, evalLoop_pedersen, List.map_fst_zip (by omega), List.map_snd_zip (by omega)]
  rw [e]
  cases v with
  | nil => exact absurd rfl h
  | cons a v => cases m with
    | nil => simp at hl
    | cons b m => simp

theorem evalLoop_eq (i : NodeIndex) (pts : List Pt) : evalLoop i pts = Dealings.valueAtNode pts i := by
  induction pts with
  | nil => rfl
  | cons p l ih =>
    rw [evalLoop, ih, C13_mul_by_node_index, Point.scalarMul, Dealings.valueAtNode, Dealings.valueAtNode, Dealings.valueAt,
      Dealings.valueAt]
    refine Eq.trans ?_ (Fin.sum_univ_succ (n := l.length) fun j => Dealings.place i ^ (j : ℕ) • (p :: l)[j]).symm
    rw [add_comm]
    congr 1
    · exact (one_smul Fn p).symm.trans (by rw [Fin.val_zero, pow_zero]; rfl)
    · rw [Finset.smul_sum]
      refine Finset.sum_congr rfl fun j _ => ?_
      rw [smul_smul, Fin.val_succ, pow_succ']
      rfl

theorem evaluateAt_value {c : Commitment} (h : c.points ≠ []) (i : NodeIndex) :
    c.evaluateAt i = .ok (Dealings.valueAtNode c.points i) := by rw [evaluateAt_eq h, evalLoop_eq]

end Commitment

namespace Dealings

theorem plaintext_at {τ : Type} (f : NodeIndex → τ) {n : Nat} {i : NodeIndex} (hi : 0 ≤ i.toInt) (hn : i.toInt.toNat < n) :
    ((List.range n).map fun idx => f (BitVec.ofNat 64 idx))[i.toInt.toNat]? = some (f i) := by
  rw [List.getElem?_map, List.getElem?_range hn, Option.map_some, ofNat_toInt hi]

theorem encryptAndCommitSingle_spec {P : Prim} {poly : List Fn} {num : Int} {keys : List Fn} {dealer : NodeIndex}
    {ad : Bytes} {seed : Seed} {ct : Ciphertext Fn} {cm : Commitment} (hnum : 0 < num) (hl : poly.length = num.toNat)
    (h : encryptAndCommitSingle P poly num (keys.map Point.mulByG) dealer ad seed = .ok (ct, cm)) :
    cm = ⟨.simple, poly.map Point.mulByG⟩ ∧ Single.checkValidity P ct keys.length ad dealer = .ok () ∧
    ∀ (i : NodeIndex) (k : Fn), 0 ≤ i.toInt → keys[i.toInt.toNat]? = some k →
      Single.decryptAndCheck P ct cm ad dealer i k (Point.mulByG k) =
        .ok (.simple (Poly.evaluateAt poly (Scalar.fromNodeIndex i))) := by
  rw [encryptAndCommitSingle] at h
  obtain ⟨ct', hct, h⟩ := Res.bind_eq_ok.1 h
  rw [Commitment.createSimple_self hl hnum.le, Res.ok_bind] at h
  cases h
  obtain ⟨hv, hd⟩ := C49_single_roundtrip P seed _ keys dealer ad ct hct
  refine ⟨rfl, hv, fun i k hi hk => ?_⟩
  have hlt : i.toInt.toNat < keys.length := (List.getElem?_eq_some_iff.1 hk).1
  have := hd i k _ hi hk (by
    rw [List.length_map]
    exact plaintext_at (fun i => Poly.evaluateAt poly (Scalar.fromNodeIndex i)) hi hlt)
  refine ((C79_decrypt_and_check P _ ad dealer i k _ _).1 ct).2 ⟨_, rfl, rfl, this, ?_⟩
  exact Commitment.evaluateAt_simple (by rintro rfl; simp at hl; omega) i

theorem encryptAndCommitPair_spec {P : Prim} {v m : List Fn} {num : Int} {keys : List Fn} {dealer : NodeIndex}
    {ad : Bytes} {seed : Seed} {ct : Ciphertext (Fn × Fn)} {cm : Commitment} (hnum : 0 < num)
    (hl : v.length = num.toNat) (hl' : m.length = num.toNat)
    (h : encryptAndCommitPair P v m num (keys.map Point.mulByG) dealer ad seed = .ok (ct, cm)) :
    cm = ⟨.pedersen, List.zipWith Point.pedersen v m⟩ ∧ Pair.checkValidity P ct keys.length ad dealer = .ok () ∧
    ∀ (i : NodeIndex) (k : Fn), 0 ≤ i.toInt → keys[i.toInt.toNat]? = some k →
      Pair.decryptAndCheck P ct cm ad dealer i k (Point.mulByG k) =
        .ok (.pedersen (Poly.evaluateAt v (Scalar.fromNodeIndex i)) (Poly.evaluateAt m (Scalar.fromNodeIndex i))) := by
  rw [encryptAndCommitPair] at h
  obtain ⟨ct', hct, h⟩ := Res.bind_eq_ok.1 h
  rw [Commitment.createPedersen_self hl hl' hnum.le, Res.ok_bind] at h
  cases h
  obtain ⟨hv, hd⟩ := C50_pair_roundtrip P seed _ keys dealer ad ct hct
  refine ⟨rfl, hv, fun i k hi hk => ?_⟩
  have hlt : i.toInt.toNat < keys.length := (List.getElem?_eq_some_iff.1 hk).1
  have := hd i k _ hi hk (by
    rw [List.length_map]
    exact plaintext_at (fun i => (Poly.evaluateAt v (Scalar.fromNodeIndex i), Poly.evaluateAt m (Scalar.fromNodeIndex i)))
      hi hlt)
  refine ((C79_decrypt_and_check P _ ad dealer i k _ _).2 ct).2 ⟨_, _, rfl, rfl, this, ?_⟩
  exact Commitment.evaluateAt_pedersen (by rintro rfl; simp at hl; omega) (by omega) i

theorem encryptAndCommitSingle_cases (P : Prim) {poly : List Fn} {num : Int} {pks : List Pt} (dealer : NodeIndex)
    (ad : Bytes) (seed : Seed) (hnum : 0 < num) (hl : poly.length = num.toNat) (hne : pks ≠ []) :
    (∃ x, encryptAndCommitSingle P poly num pks dealer ad seed = .ok x) ∨
      encryptAndCommitSingle P poly num pks dealer ad seed = .diverge := by
  rw [encryptAndCommitSingle, Commitment.createSimple_self hl hnum.le]
  rcases (C49_encrypt_returns P seed pks dealer ad hne ((List.range pks.length).map fun idx =>
    Poly.evaluateAt poly (Scalar.fromNodeIndex (BitVec.ofNat 64 idx))) (by simp)).1 with ⟨ct, h⟩ | h
  · rw [h]; exact Or.inl ⟨_, rfl⟩
  · rw [h]; exact Or.inr rfl

theorem encryptAndCommitPair_cases (P : Prim) {v m : List Fn} {num : Int} {pks : List Pt} (dealer : NodeIndex)
    (ad : Bytes) (seed : Seed) (hnum : 0 < num) (hl : v.length = num.toNat) (hl' : m.length = num.toNat)
    (hne : pks ≠ []) :
    (∃ x, encryptAndCommitPair P v m num pks dealer ad seed = .ok x) ∨
      encryptAndCommitPair P v m num pks dealer ad seed = .diverge := by
  rw [encryptAndCommitPair, Commitment.createPedersen_self hl hl' hnum.le]
  rcases (C50_encrypt_returns P seed pks dealer ad hne ((List.range pks.length).map fun idx =>
    (Poly.evaluateAt v (Scalar.fromNodeIndex (BitVec.ofNat 64 idx)),
      Poly.evaluateAt m (Scalar.fromNodeIndex (BitVec.ofNat 64 idx)))) (by simp)).1 with ⟨ct, h⟩ | h
  · rw [h]; exact Or.inl ⟨_, rfl⟩
  · rw [h]; exact Or.inr rfl

theorem nonNil_eq_ok {α : Type} {o : Option α} {a : α} : nonNil o = .ok a ↔ o = some a := by
  cases o <;> simp [nonNil]

end Dealings

/-- `Product.create` returns a proof or never returns. -/
theorem Zk.product_create_cases (P : Prim) (seed : Seed) (l r rm pr pm : Fn) (ad : Bytes) :
    (∃ pf, Product.create P seed l r rm pr pm ad = .ok pf) ∨ Product.create P seed l r rm pr pm ad = .diverge := by
  rw [Product.create]
  dsimp only
  have h := C21_random_scalar (seed.rng P)
  rcases hr : Scalar.random (seed.rng P) with ⟨x, r1⟩ | e | e | _
  · rw [Res.ok_bind]
    dsimp only
    have h' := C21_random_scalar r1
    rcases hr' : Scalar.random r1 with ⟨y, r2⟩ | e | e | _
    · rw [Res.ok_bind]
      dsimp only
      obtain ⟨c, hc⟩ := prod_challenge_ok P (Product.fromWitness l r rm pr pm)
        (Point.scalarMul (Product.fromWitness l r rm pr pm).g x)
        (Point.mulPoints (Product.fromWitness l r rm pr pm).rhsCom x (Product.fromWitness l r rm pr pm).h y) ad
      rw [hc]; exact Or.inl ⟨_, rfl⟩
    · rw [hr'] at h'; simp at h'
    · rw [hr'] at h'; simp at h'
    · exact Or.inr rfl
  · rw [hr] at h; simp at h
  · rw [hr] at h; simp at h
  · exact Or.inr rfl

theorem Zk.eqOpen_create_cases (P : Prim) (seed : Seed) (s m : Fn) (ad : Bytes) :
    (∃ pf, EqOpen.create P seed s m ad = .ok pf) ∨ EqOpen.create P seed s m ad = .diverge := by
  have h := C21_random_scalar (seed.rng P)
  rcases hr : Scalar.random (seed.rng P) with ⟨x, r1⟩ | e | e | _
  · exact Or.inl ((C46_equal_openings_completeness P seed s m ad).2 _ _ hr)
  · rw [hr] at h; simp at h
  · rw [hr] at h; simp at h
  · right; rw [EqOpen.create, hr]; rfl

theorem Zk.eqOpen_verify_cases (P : Prim) (pf : Zk.Proof) (a b : Pt) (ad : Bytes) :
    EqOpen.verify P pf a b ad = .ok () ∨ (EqOpen.verify P pf a b ad).isErr = true := by
  obtain ⟨c, hc⟩ := eq_challenge_ok P (EqOpen.fromCommitments a b)
    (EqOpen.recoverCommitments (EqOpen.fromCommitments a b) pf) ad
  rw [EqOpen.verify, hc, Res.ok_bind]
  split_ifs <;> simp

theorem Zk.product_verify_cases (P : Prim) (pf : Product.Proof) (L R M : Pt) (ad : Bytes) :
    Product.verify P pf L R M ad = .ok () ∨ (Product.verify P pf L R M ad).isErr = true := by
  obtain ⟨c, hc⟩ := prod_challenge_ok P (Product.fromCommitments L R M)
    (Product.recoverCommitment (Product.fromCommitments L R M) pf).1
    (Product.recoverCommitment (Product.fromCommitments L R M) pf).2 ad
  rw [Product.verify]
  dsimp only
  rw [hc, Res.ok_bind]
  split_ifs <;> simp

end Verif
