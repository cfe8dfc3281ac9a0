import Verif.Lemmas.Randomness
import Verif.Kat.Concrete

/-! C115: the random choices in a dealing are independent of each other. -/

set_option autoImplicit false

namespace Verif.Dealings

open Mega

/-- C115: whatever hash function is used, as long as the keys of the generators differ: for any choice of coefficients (the
first being the secret that is shared, if there is one), ephemeral secret and nonces there are key streams for which
`NewIDkgDealingInternal` makes exactly these choices.  So none of them is determined by, or even restricted by, the others. -/
theorem C115_free_choices (P : Prim) (shares : Shares) (hs : shares ≠ .other) (seed : Seed) (t : Int) (pks : List Pt)
    (dealer : NodeIndex) (ad : Bytes) (ht : 1 ≤ t) (ht' : t ≤ pks.length) (hk : KeysDiffer P seed shares) (ch : Choices)
    (hv : (ch.values.length : Int) = t) (hm : (ch.mask.length : Int) = t)
    (hsec : ∀ s, shares.secret = some s → ch.values.head? = some s) :
    ∃ streams : Bytes → Nat → UInt8, ∃ d,
      new { P with chacha20 := streams } shares seed t pks dealer ad = .ok d ∧ MadeWith shares ch d := by
  obtain ⟨values, mask, x, y, z1, z2⟩ := ch
  simp only at hv hm hsec
  have hne : pks ≠ [] := by rintro rfl; simp at ht'; omega
  -- the keys
  obtain ⟨ps, hps, kps⟩ := derive_key P seed polyDst
  obtain ⟨ms, hms, kms⟩ := derive_key P seed megaDst
  obtain ⟨m0, mask', rfl⟩ : ∃ m0 mask', mask = m0 :: mask' := by
    cases mask with
    | nil => simp at hm; omega
    | cons a l => exact ⟨a, l, rfl⟩
  -- a dealing of pairs, single values
  have pair : ∀ (P' : Prim) (ms s s' : Seed), ms.derive P' CType.pairs.ephemeralKeyDst = .ok s →
      ms.derive P' CType.pairs.popProofDst = .ok s' → P'.chacha20 s.value = streamOf [x] →
      P'.chacha20 s'.value = streamOf [y] →
      ∃ ct, encryptAndCommitPair P' values (m0 :: mask') t pks dealer ad ms =
        .ok (ct, ⟨.pedersen, List.zipWith Point.pedersen values (m0 :: mask')⟩) ∧ ct.ephemeralKey = x • G ∧
        ct.popProof.response = x * ct.popProof.challenge + y := by
    intro P' ms s s' h1 h2 h3 h4
    have hx : Scalar.random (s.rng P') = .ok (x, ⟨streamOf [x], 32⟩) := by
      rw [Seed.rng, h3]; exact random_streamOf [x] 0
    have hy : Scalar.random (s'.rng P') = .ok (y, ⟨streamOf [y], 32⟩) := by
      rw [Seed.rng, h4]; exact random_streamOf [y] 0
    obtain ⟨pub, c, cs, h⟩ := pair_encrypt_eq (ms := (List.range pks.length).map fun idx =>
      (Poly.evaluateAt values (Scalar.fromNodeIndex (BitVec.ofNat 64 idx)),
        Poly.evaluateAt (m0 :: mask') (Scalar.fromNodeIndex (BitVec.ofNat 64 idx)))) dealer ad hne (by simp) h1 h2 hx hy
    refine ⟨⟨x • G, pub, ⟨c, x * c + y⟩, cs⟩, ?_, rfl, rfl⟩
    · rw [encryptAndCommitPair, Commitment.createPedersen_self (by omega) (by omega) (by omega), h]
      rfl
  have single : ∀ (P' : Prim) (ms s s' : Seed), ms.derive P' CType.single.ephemeralKeyDst = .ok s →
      ms.derive P' CType.single.popProofDst = .ok s' → P'.chacha20 s.value = streamOf [x] →
      P'.chacha20 s'.value = streamOf [y] →
      ∃ ct, encryptAndCommitSingle P' values t pks dealer ad ms = .ok (ct, ⟨.simple, values.map Point.mulByG⟩) ∧
        ct.ephemeralKey = x • G ∧ ct.popProof.response = x * ct.popProof.challenge + y := by
    intro P' ms s s' h1 h2 h3 h4
    have hx : Scalar.random (s.rng P') = .ok (x, ⟨streamOf [x], 32⟩) := by
      rw [Seed.rng, h3]; exact random_streamOf [x] 0
    have hy : Scalar.random (s'.rng P') = .ok (y, ⟨streamOf [y], 32⟩) := by
      rw [Seed.rng, h4]; exact random_streamOf [y] 0
    obtain ⟨pub, c, cs, h⟩ := single_encrypt_eq (ms := (List.range pks.length).map fun idx =>
      Poly.evaluateAt values (Scalar.fromNodeIndex (BitVec.ofNat 64 idx))) dealer ad hne (by simp) h1 h2 hx hy
    refine ⟨⟨x • G, pub, ⟨c, x * c + y⟩, cs⟩, ?_, rfl, rfl⟩
    · rw [encryptAndCommitSingle, Commitment.createSimple_self (by omega) (by omega), h]
      rfl
  cases shares with
  | other => exact absurd rfl hs
  | random =>
    obtain ⟨es, hes, kes⟩ := derive_key P ms CType.pairs.ephemeralKeyDst
    obtain ⟨qs, hqs, kqs⟩ := derive_key P ms CType.pairs.popProofDst
    have hd : [ps.value, es.value, qs.value].Nodup := by
      have := hk
      rw [KeysDiffer] at this
      simp only [generators, List.map_cons, List.map_nil, keyAt, List.foldl_cons, List.foldl_nil, Option.bind_some] at this
      erw [kps, kms] at this
      simp only [Option.bind_some] at this
      erw [kes, kqs] at this
      simpa using this
    simp only [List.nodup_cons, List.mem_cons, List.not_mem_nil, or_false, not_or] at hd
    obtain ⟨⟨d1, d2⟩, d3, -⟩ := hd
    refine ⟨fun k => if k = ps.value then streamOf (values ++ ((m0 :: mask') ++ [])) else if k = es.value then streamOf [x]
      else streamOf [y], ?_⟩
    generalize hst : (fun k => if k = ps.value then streamOf (values ++ ((m0 :: mask') ++ [])) else
      if k = es.value then streamOf [x] else streamOf [y]) = st
    have sps : st ps.value = streamOf (values ++ ((m0 :: mask') ++ [])) := by rw [← hst]; simp
    have ses : st es.value = streamOf [x] := by rw [← hst]; simp [Ne.symm d1]
    have sqs : st qs.value = streamOf [y] := by rw [← hst]; simp [Ne.symm d2, Ne.symm d3]
    obtain ⟨ct, h, h1, h2⟩ := pair { P with chacha20 := st } ms es qs (by rw [derive_chacha, hes])
      (by rw [derive_chacha, hqs]) ses sqs
    have hr1 := poly_random_streamOf [] values ((m0 :: mask') ++ []) hv
    have hr2 := poly_random_streamOf values (m0 :: mask') [] hm
    simp only [List.nil_append, List.length_nil, Nat.mul_zero, Nat.zero_add] at hr1
    refine ⟨⟨some (.pair ct), some ⟨.pedersen, List.zipWith Point.pedersen values (m0 :: mask')⟩, none⟩, ?_, .pair ct, _, rfl, rfl, ?_, h1, h2, .inl rfl⟩
    · rw [new, if_neg (by omega), derive_chacha, hps, Res.ok_bind, derive_chacha, hms, Res.ok_bind]
      simp only [Seed.rng, sps, hr1, Res.ok_bind, hr2, h]
    · rfl
  | reshareUnmasked s =>
    obtain ⟨v0, values', rfl⟩ : ∃ v0 v', values = v0 :: v' := by
      cases values with
      | nil => simp at hv; omega
      | cons a l => exact ⟨a, l, rfl⟩
    have hsv : v0 = s := by simpa using hsec s rfl
    subst hsv
    obtain ⟨es, hes, kes⟩ := derive_key P ms CType.single.ephemeralKeyDst
    obtain ⟨qs, hqs, kqs⟩ := derive_key P ms CType.single.popProofDst
    have hd : [ps.value, es.value, qs.value].Nodup := by
      have := hk
      rw [KeysDiffer] at this
      simp only [generators, List.map_cons, List.map_nil, keyAt, List.foldl_cons, List.foldl_nil, Option.bind_some] at this
      erw [kps, kms] at this
      simp only [Option.bind_some] at this
      erw [kes, kqs] at this
      simpa using this
    simp only [List.nodup_cons, List.mem_cons, List.not_mem_nil, or_false, not_or] at hd
    obtain ⟨⟨d1, d2⟩, d3, -⟩ := hd
    refine ⟨fun k => if k = ps.value then streamOf (values' ++ []) else if k = es.value then streamOf [x]
      else streamOf [y], ?_⟩
    generalize hst : (fun k => if k = ps.value then streamOf (values' ++ []) else
      if k = es.value then streamOf [x] else streamOf [y]) = st
    have sps : st ps.value = streamOf (values' ++ []) := by rw [← hst]; simp
    have ses : st es.value = streamOf [x] := by rw [← hst]; simp [Ne.symm d1]
    have sqs : st qs.value = streamOf [y] := by rw [← hst]; simp [Ne.symm d2, Ne.symm d3]
    obtain ⟨ct, h, h1, h2⟩ := single { P with chacha20 := st } ms es qs (by rw [derive_chacha, hes])
      (by rw [derive_chacha, hqs]) ses sqs
    have hr1 := randomWithConstant_streamOf v0 [] values' [] hv
    simp only [List.nil_append, List.length_nil, Nat.mul_zero, Nat.zero_add] at hr1
    refine ⟨⟨some (.single ct), some ⟨.simple, (v0 :: values').map Point.mulByG⟩, none⟩, ?_, .single ct, _, rfl, rfl, ?_, h1, h2, .inr ⟨v0, rfl⟩⟩
    · rw [new, if_neg (by omega), derive_chacha, hps, Res.ok_bind, derive_chacha, hms, Res.ok_bind]
      simp only [Seed.rng, sps, hr1, Res.ok_bind, h]
    · rfl
  | reshareMasked s1 s2 =>
    obtain ⟨v0, values', rfl⟩ : ∃ v0 v', values = v0 :: v' := by
      cases values with
      | nil => simp at hv; omega
      | cons a l => exact ⟨a, l, rfl⟩
    have hsv : v0 = s1 := by simpa using hsec s1 rfl
    subst hsv
    obtain ⟨es, hes, kes⟩ := derive_key P ms CType.single.ephemeralKeyDst
    obtain ⟨qs, hqs, kqs⟩ := derive_key P ms CType.single.popProofDst
    obtain ⟨zs, hzs, kzs⟩ := derive_key P seed Zk.equalOpeningsDst
    have hd : [ps.value, es.value, qs.value, zs.value].Nodup := by
      have := hk
      rw [KeysDiffer] at this
      simp only [generators, List.map_cons, List.map_nil, keyAt, List.foldl_cons, List.foldl_nil, Option.bind_some] at this
      erw [kps, kms, kzs] at this
      simp only [Option.bind_some] at this
      erw [kes, kqs] at this
      simpa using this
    simp only [List.nodup_cons, List.mem_cons, List.not_mem_nil, or_false, not_or] at hd
    obtain ⟨⟨d1, d2, d3⟩, ⟨d4, d5⟩, d6, -⟩ := hd
    refine ⟨fun k => if k = ps.value then streamOf (values' ++ []) else if k = es.value then streamOf [x]
      else if k = qs.value then streamOf [y] else streamOf [z1], ?_⟩
    generalize hst : (fun k => if k = ps.value then streamOf (values' ++ []) else
      if k = es.value then streamOf [x] else if k = qs.value then streamOf [y] else streamOf [z1]) = st
    have sps : st ps.value = streamOf (values' ++ []) := by rw [← hst]; simp
    have ses : st es.value = streamOf [x] := by rw [← hst]; simp [Ne.symm d1]
    have sqs : st qs.value = streamOf [y] := by rw [← hst]; simp [Ne.symm d2, Ne.symm d4]
    have szs : st zs.value = streamOf [z1] := by rw [← hst]; simp [Ne.symm d3, Ne.symm d5, Ne.symm d6]
    obtain ⟨ct, h, h1, h2⟩ := single { P with chacha20 := st } ms es qs (by rw [derive_chacha, hes])
      (by rw [derive_chacha, hqs]) ses sqs
    have hr1 := randomWithConstant_streamOf v0 [] values' [] hv
    simp only [List.nil_append, List.length_nil, Nat.mul_zero, Nat.zero_add] at hr1
    have hz : Scalar.random ⟨streamOf [z1], 0⟩ = .ok (z1, ⟨streamOf [z1], 32⟩) := random_streamOf [z1] 0
    obtain ⟨c, hc⟩ := Zk.eq_challenge_ok { P with chacha20 := st } (Zk.EqOpen.fromWitness v0 s2)
      (Point.scalarMul (Zk.EqOpen.fromWitness v0 s2).h z1) ad
    have hpf : Zk.EqOpen.create { P with chacha20 := st } zs v0 s2 ad = .ok ⟨c, s2 * c + z1⟩ := by
      simp only [Zk.EqOpen.create, Seed.rng, szs, hz, Res.ok_bind, hc]
    refine ⟨⟨some (.single ct), some ⟨.simple, (v0 :: values').map Point.mulByG⟩, some (.masked (some ⟨c, s2 * c + z1⟩))⟩, ?_, .single ct, _, rfl, rfl, ?_, h1, h2,
      v0, s2, rfl, rfl⟩
    · rw [new, if_neg (by omega), derive_chacha, hps, Res.ok_bind, derive_chacha, hms, Res.ok_bind]
      simp only [Seed.rng, sps, hr1, Res.ok_bind, h, derive_chacha, hzs, hpf]
    · rfl
  | unmaskedTimesMasked l r rm =>
    obtain ⟨v0, values', rfl⟩ : ∃ v0 v', values = v0 :: v' := by
      cases values with
      | nil => simp at hv; omega
      | cons a l => exact ⟨a, l, rfl⟩
    have hsv : v0 = l * r := by simpa using hsec (l * r) rfl
    subst hsv
    obtain ⟨es, hes, kes⟩ := derive_key P ms CType.pairs.ephemeralKeyDst
    obtain ⟨qs, hqs, kqs⟩ := derive_key P ms CType.pairs.popProofDst
    obtain ⟨zs, hzs, kzs⟩ := derive_key P seed Zk.productDst
    have hd : [ps.value, es.value, qs.value, zs.value].Nodup := by
      have := hk
      rw [KeysDiffer] at this
      simp only [generators, List.map_cons, List.map_nil, keyAt, List.foldl_cons, List.foldl_nil, Option.bind_some] at this
      erw [kps, kms, kzs] at this
      simp only [Option.bind_some] at this
      erw [kes, kqs] at this
      simpa using this
    simp only [List.nodup_cons, List.mem_cons, List.not_mem_nil, or_false, not_or] at hd
    obtain ⟨⟨d1, d2, d3⟩, ⟨d4, d5⟩, d6, -⟩ := hd
    refine ⟨fun k => if k = ps.value then streamOf ([m0] ++ (values' ++ mask')) else if k = es.value then streamOf [x]
      else if k = qs.value then streamOf [y] else streamOf [z1, z2], ?_⟩
    generalize hst : (fun k => if k = ps.value then streamOf ([m0] ++ (values' ++ mask')) else
      if k = es.value then streamOf [x] else if k = qs.value then streamOf [y] else streamOf [z1, z2]) = st
    have sps : st ps.value = streamOf ([m0] ++ (values' ++ mask')) := by rw [← hst]; simp
    have ses : st es.value = streamOf [x] := by rw [← hst]; simp [Ne.symm d1]
    have sqs : st qs.value = streamOf [y] := by rw [← hst]; simp [Ne.symm d2, Ne.symm d4]
    have szs : st zs.value = streamOf [z1, z2] := by rw [← hst]; simp [Ne.symm d3, Ne.symm d5, Ne.symm d6]
    obtain ⟨ct, h, h1, h2⟩ := pair { P with chacha20 := st } ms es qs (by rw [derive_chacha, hes])
      (by rw [derive_chacha, hqs]) ses sqs
    have hr0 : Scalar.random ⟨streamOf ([m0] ++ (values' ++ mask')), 0⟩ =
        .ok (m0, ⟨streamOf ([m0] ++ (values' ++ mask')), 32 * [m0].length⟩) := random_streamOf _ 0
    have hr1 := randomWithConstant_streamOf (l * r) [m0] values' mask' hv
    have hr2 := randomWithConstant_streamOf m0 ([m0] ++ values') mask' [] hm
    rw [List.append_nil, List.append_assoc, List.length_append] at hr2
    have hz : Scalar.random ⟨streamOf [z1, z2], 0⟩ = .ok (z1, ⟨streamOf [z1, z2], 32 * 1⟩) := random_streamOf [z1, z2] 0
    have hz' : Scalar.random ⟨streamOf [z1, z2], 32 * 1⟩ = .ok (z2, ⟨streamOf [z1, z2], 64⟩) := random_streamOf [z1, z2] 1
    obtain ⟨c, hc⟩ := Zk.prod_challenge_ok { P with chacha20 := st } (Zk.Product.fromWitness l r rm (l * r) m0)
      (Point.scalarMul (Zk.Product.fromWitness l r rm (l * r) m0).g z1)
      (Point.mulPoints (Zk.Product.fromWitness l r rm (l * r) m0).rhsCom z1
        (Zk.Product.fromWitness l r rm (l * r) m0).h z2) ad
    have hpf : Zk.Product.create { P with chacha20 := st } zs l r rm (l * r) m0 ad =
        .ok ⟨c, l * c + z1, (m0 - l * rm) * c + z2⟩ := by
      simp only [Zk.Product.create, Seed.rng, szs, hz, Res.ok_bind, hz', hc]
    refine ⟨⟨some (.pair ct), some ⟨.pedersen, List.zipWith Point.pedersen (l * r :: values') (m0 :: mask')⟩, some (.product (some ⟨c, l * c + z1, (m0 - l * rm) * c + z2⟩))⟩, ?_, .pair ct, _, rfl,
      rfl, ?_, h1, h2, l, r, rm, rfl, rfl, rfl⟩
    · rw [new, if_neg (by omega), derive_chacha, hps, Res.ok_bind, derive_chacha, hms, Res.ok_bind]
      simp only [Seed.rng, sps, hr0, hr1, Res.ok_bind, hr2, ignoreErr, nonNil, h, derive_chacha, hzs, hpf]
    · rfl

/-! With SHA-256 and the all-zero seed the keys differ for every kind of dealing. -/

theorem keysDiffer_zero (shares : Shares) : KeysDiffer Kat.prim ⟨List.replicate 32 0⟩ shares := by
  cases shares <;> (unfold KeysDiffer generators; simp only [List.map]; decide +kernel)

/-- A dealing of the product 3·5 at threshold 2 among two nodes, with choices that coincide in part. -/
example : ∃ streams : Bytes → Nat → UInt8, ∃ d,
    new { Kat.prim with chacha20 := streams } (.unmaskedTimesMasked 3 5 7) ⟨List.replicate 32 0⟩ 2 [G, 2 • G] 1 [1, 2] = .ok d ∧
      MadeWith (.unmaskedTimesMasked 3 5 7) ⟨[3 * 5, 9], [4, 4], 11, 12, 11, 0⟩ d :=
  C115_free_choices _ _ (by simp) _ _ _ _ _ (by decide) (by decide) (keysDiffer_zero _) _ rfl rfl
    (by rintro s h; simpa [Shares.secret] using h)

end Verif.Dealings
