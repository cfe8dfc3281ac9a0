import Verif.Lemmas.Secrecy
import Verif.Props.Dealings
import Verif.Props.ZeroKnowledge

/-!
Property C129: masked dealings hide the secret from fewer than threshold-many recipients.
-/

set_option autoImplicit false

namespace Verif.Dealings

open Mega Polynomial
open Point (H)

/-- C129, counting: if fewer than `t` nodes compare what they know, a published commitment and their openings leave every
secret exactly as many explanations as every other. -/
theorem C129_equally_many (t : Nat) (points : List Pt) (seen : List (NodeIndex × Fn × Fn)) (s₀ : Fn)
    (hn : (seen.map Prod.fst).Nodup) (hpos : ∀ o ∈ seen, 0 ≤ o.1.toInt) (hlt : seen.length < t)
    (h : (Explanations t points seen s₀).Nonempty) :
    (∀ s s', (Explanations t points seen s).ncard = (Explanations t points seen s').ncard) ∧
    (∀ s, 0 < (Explanations t points seen s).ncard) ∧
    (seen.length + 1 = t → ∀ s, ∃! c, c ∈ Explanations t points seen s) := by
  have hc : ∀ s, (Explanations t points seen s).ncard = (Sharings t (seen.map fun o => (o.1, o.2.1)) s).ncard := fun s => by
    obtain ⟨h1, h2⟩ := image_explanations (by omega) h s
    rw [← h1, h2.ncard_image]
  obtain ⟨k1, k2, k3⟩ := C38_sharing_secrecy t (seen.map fun o => (o.1, o.2.1))
    (by rw [List.map_map]; exact hn)
    (fun o ho => by obtain ⟨o', ho', rfl⟩ := List.mem_map.1 ho; exact hpos o' ho') (by simpa using hlt)
  refine ⟨fun s s' => by rw [hc, hc, k1 s s'], fun s => by rw [hc]; exact k2 s, fun e s => ?_⟩
  obtain ⟨h1, h2⟩ := image_explanations (by omega) h s
  obtain ⟨l, hl, hu⟩ := k3 (by simpa using e) s
  rw [← h1] at hl
  obtain ⟨c, hc1, rfl⟩ := hl
  refine ⟨c, hc1, fun c' hc' => h2 hc' hc1 (hu _ ?_)⟩
  rw [← h1]
  exact ⟨c', hc', rfl⟩

/-- The ephemeral key and its proof depend on two of the key streams only. -/
theorem computeEphKeyAndPop_streams (P : Prim) (st : Bytes → Nat → UInt8) (ct : CType) (ms es qs : Seed) (ad : Bytes)
    (dealer : NodeIndex) (hes : ms.derive P ct.ephemeralKeyDst = .ok es) (hqs : ms.derive P ct.popProofDst = .ok qs)
    (ses : st es.value = P.chacha20 es.value) (sqs : st qs.value = P.chacha20 qs.value) :
    computeEphKeyAndPop (P.withStreams st) ct ms ad dealer = computeEphKeyAndPop P ct ms ad dealer := by
  have h1 : ms.derive (P.withStreams st) ct.ephemeralKeyDst = .ok es := by rw [Prim.withStreams, derive_chacha, hes]
  have h2 : ms.derive (P.withStreams st) ct.popProofDst = .ok qs := by rw [Prim.withStreams, derive_chacha, hqs]
  have h3 : Scalar.fromSeed (P.withStreams st) es = Scalar.fromSeed P es := by
    simp only [Scalar.fromSeed, Seed.rng, Prim.withStreams, ses]
  have h4 : ∀ x B, Zk.Dlog.create (P.withStreams st) qs x G B ad = Zk.Dlog.create P qs x G B ad := fun x B => by
    have : qs.rng (P.withStreams st) = qs.rng P := by simp only [Seed.rng, Prim.withStreams, sqs]
    simp only [Zk.Dlog.create, this]
    rfl
  have h5 : ∀ v, computePopBase (P.withStreams st) ct ad dealer v = computePopBase P ct ad dealer v := fun _ => rfl
  simp only [computeEphKeyAndPop, h1, h2, h3, h4, h5, hes, hqs, Res.ok_bind]

/-- Replacing the polynomials by ones with the same commitment changes a ciphertext only where the values differ. -/
theorem encryptAndCommitPair_change {P : Prim} {st : Bytes → Nat → UInt8} {v m v' m' : List Fn} {t : Int} {pks : List Pt}
    {dealer : NodeIndex} {ad : Bytes} {ms es qs : Seed} {ct : Ciphertext (Fn × Fn)} {cm : Commitment}
    (hes : ms.derive P CType.pairs.ephemeralKeyDst = .ok es) (hqs : ms.derive P CType.pairs.popProofDst = .ok qs)
    (ses : st es.value = P.chacha20 es.value) (sqs : st qs.value = P.chacha20 qs.value) (ht : 0 ≤ t)
    (hv : v.length = t.toNat) (hm : m.length = t.toNat) (hv' : v'.length = t.toNat) (hm' : m'.length = t.toNat)
    (hz : List.zipWith (fun v m : Fn => v • G + m • H) v' m' = List.zipWith (fun v m : Fn => v • G + m • H) v m)
    (h : encryptAndCommitPair P v m t pks dealer ad ms = .ok (ct, cm)) :
    ∃ ct', encryptAndCommitPair (P.withStreams st) v' m' t pks dealer ad ms = .ok (ct', cm) ∧
      ct'.ephemeralKey = ct.ephemeralKey ∧ ct'.popPublicKey = ct.popPublicKey ∧ ct'.popProof = ct.popProof ∧
      ct'.ctexts.length = ct.ctexts.length ∧
      ∀ j : NodeIndex, 0 ≤ j.toInt → (toPoly v').eval (place j) = (toPoly v).eval (place j) →
        (toPoly m').eval (place j) = (toPoly m).eval (place j) →
        ct'.ctexts[j.toInt.toNat]? = ct.ctexts[j.toInt.toNat]? := by
  rw [encryptAndCommitPair] at h
  obtain ⟨ct', hct, h⟩ := Res.bind_eq_ok.1 h
  rw [Commitment.createPedersen_self hv hm ht, Res.ok_bind] at h
  cases h
  rw [Pair.encrypt] at hct
  obtain ⟨⟨⟩, hc, hct⟩ := Res.bind_eq_ok.1 hct
  obtain ⟨hlen, hne⟩ := (checkPlaintexts_ok_iff _ _).1 hc
  obtain ⟨⟨beta, w, pub, pf⟩, he, hct⟩ := Res.bind_eq_ok.1 hct
  dsimp only at hct
  obtain ⟨cs, hcs, hct⟩ := Res.bind_eq_ok.1 hct
  cases hct
  obtain ⟨cs0, hcs0, hl, hent⟩ := Pair.encryptLoop_spec P dealer ad beta w 0 pks _ hlen
  rw [hcs] at hcs0
  cases hcs0
  obtain ⟨cs', hcs', hl', hent'⟩ := Pair.encryptLoop_spec (P.withStreams st) dealer ad beta w 0 pks
    ((List.range pks.length).map fun idx =>
    (Poly.evaluateAt v' (Scalar.fromNodeIndex (BitVec.ofNat 64 idx)),
      Poly.evaluateAt m' (Scalar.fromNodeIndex (BitVec.ofNat 64 idx)))) (by simp)
  have hzip : List.zipWith Point.pedersen v' m' = List.zipWith Point.pedersen v m := hz
  have hc' : checkPlaintexts ((List.range pks.length).map fun idx =>
    (Poly.evaluateAt v' (Scalar.fromNodeIndex (BitVec.ofNat 64 idx)),
      Poly.evaluateAt m' (Scalar.fromNodeIndex (BitVec.ofNat 64 idx)))) pks = .ok () := by
    refine (checkPlaintexts_ok_iff _ _).2 ⟨by simp, fun e => hne ?_⟩
    have h0 : pks.length = 0 := by simpa using congrArg List.length e
    rw [h0]; rfl
  refine ⟨⟨w, pub, pf, cs'⟩, ?_, rfl, rfl, rfl, hl'.trans hl.symm, fun j hj e1 e2 => ?_⟩
  · rw [encryptAndCommitPair, Commitment.createPedersen_self hv' hm' ht, hzip, Pair.encrypt, hc', Res.ok_bind,
      computeEphKeyAndPop_streams P st _ ms es qs ad dealer hes hqs ses sqs, he, Res.ok_bind]
    dsimp only
    rw [hcs']
    rfl
  · show cs'[j.toInt.toNat]? = cs[j.toInt.toNat]?
    by_cases hb : j.toInt.toNat < pks.length
    · have p1 := plaintext_at (fun i => (Poly.evaluateAt v (Scalar.fromNodeIndex i),
        Poly.evaluateAt m (Scalar.fromNodeIndex i))) hj hb
      have p2 := plaintext_at (fun i => (Poly.evaluateAt v' (Scalar.fromNodeIndex i),
        Poly.evaluateAt m' (Scalar.fromNodeIndex i))) hj hb
      obtain ⟨a, b, q1, q2⟩ := hent _ _ _ (List.getElem?_eq_getElem hb) p1
      obtain ⟨a', b', q1', q2'⟩ := hent' _ _ _ (List.getElem?_eq_getElem hb) p2
      have q : Res.ok [a', b'] = Res.ok [a, b] := q1'.symm.trans q1
      simp only [Res.ok.injEq, List.cons.injEq, and_true] at q
      obtain ⟨rfl, rfl⟩ := q
      have f1 : Poly.evaluateAt v' (Scalar.fromNodeIndex j) = Poly.evaluateAt v (Scalar.fromNodeIndex j) := by
        rw [Poly.evaluateAt_eq, Poly.evaluateAt_eq]; exact e1
      have f2 : Poly.evaluateAt m' (Scalar.fromNodeIndex j) = Poly.evaluateAt m (Scalar.fromNodeIndex j) := by
        rw [Poly.evaluateAt_eq, Poly.evaluateAt_eq]; exact e2
      rw [q2, q2', f1, f2]
    · rw [List.getElem?_eq_none (by omega), List.getElem?_eq_none (by omega)]

/-- A polynomial with the given first coefficient through the values of another at fewer than `t` nodes. -/
theorem exists_values {t : Nat} (v : List Fn) (B : List NodeIndex) (hB : B.Nodup) (hpos : ∀ j ∈ B, 0 ≤ j.toInt)
    (hlt : B.length < t) (s : Fn) :
    ∃ v' : List Fn, v'.length = t ∧ v'.head? = some s ∧ ∀ j ∈ B, (toPoly v').eval (place j) = (toPoly v).eval (place j) := by
  obtain ⟨-, h, -⟩ := C38_sharing_secrecy t (B.map fun j => (j, (toPoly v).eval (place j)))
    (by rw [List.map_map]; simpa [Function.comp_def] using hB)
    (fun o ho => by obtain ⟨j, hj, rfl⟩ := List.mem_map.1 ho; exact hpos j hj) (by simpa using hlt)
  obtain ⟨v', h1, h2, h3⟩ := Set.nonempty_of_ncard_ne_zero (h s).ne'
  refine ⟨v', h1, (head?_eq_coeff h1 (by omega) s).2 h3, fun j hj => ?_⟩
  have := h2 _ (List.mem_map.2 ⟨j, hj, rfl⟩)
  rwa [Poly.evaluateAt_eq] at this

/-- C129, random dealings: whatever the dealing, for every group of fewer than threshold-many recipients and every `s`, other
random choices give a dealing of `s` that looks the same to the group in every part: commitment, ephemeral key, proof of
possession, and their ciphertext entries. -/
theorem C129_random (P : Prim) (seed : Seed) (t : Int) (keys : List Fn) (dealer : NodeIndex) (ad : Bytes) (d : Dealing)
    (hk : KeysDiffer P seed .random) (h : new P .random seed t (keys.map Point.mulByG) dealer ad = .ok d)
    (B : List NodeIndex) (hB : B.Nodup) (hpos : ∀ j ∈ B, 0 ≤ j.toInt) (hlt : (B.length : Int) < t) (s : Fn) :
    ∃ streams d', new (P.withStreams streams) .random seed t (keys.map Point.mulByG) dealer ad = .ok d' ∧
      Alike B d d' ∧ SharesOut P d' t keys ad dealer s := by
  obtain ⟨ps, hps, kps⟩ := derive_key P seed polyDst
  obtain ⟨ms, hms, kms⟩ := derive_key P seed megaDst
  obtain ⟨es, hes, kes⟩ := derive_key P ms CType.pairs.ephemeralKeyDst
  obtain ⟨qs, hqs, kqs⟩ := derive_key P ms CType.pairs.popProofDst
  have hd : [ps.value, es.value, qs.value].Nodup := by
    have := hk
    rw [KeysDiffer] at this
    simp only [generators, List.map_cons, List.map_nil, keyAt, List.foldl_cons, List.foldl_nil, Option.bind_some] at this
    erw [kps, kms] at this
    simp only [Option.bind_some] at this
    erw [kes, kqs] at this
    simpa using this
  simp only [List.nodup_cons, List.mem_cons, List.not_mem_nil, or_false, not_or] at hd
  obtain ⟨⟨d1, d2⟩, d3, -⟩ := hd
  rw [new] at h
  by_cases h0 : t = 0 ∨ t > ((keys.map Point.mulByG).length : Int)
  · rw [if_pos h0] at h; cases h
  rw [if_neg h0, hps, Res.ok_bind, hms, Res.ok_bind] at h
  dsimp only at h
  obtain ⟨⟨values, r1⟩, hv, h⟩ := Res.bind_eq_ok.1 h
  dsimp only at h
  obtain ⟨⟨mask, r2⟩, hm, h⟩ := Res.bind_eq_ok.1 h
  dsimp only at h
  obtain ⟨⟨ct, cm⟩, hct, h⟩ := Res.bind_eq_ok.1 h
  cases h
  obtain ⟨hn, hvl⟩ := Poly.random_ok hv
  obtain ⟨-, hml⟩ := Poly.random_ok hm
  have ht : 0 < t := by omega
  obtain ⟨values', hvl', hhead, hval⟩ := exists_values (t := t.toNat) values B hB hpos (by omega) s
  obtain ⟨mask', hml', hz, hmask⟩ := exists_mask hvl hml hvl'
  have hr1 := poly_random_streamOf [] values' (mask' ++ []) (t := t) (by omega)
  have hr2 := poly_random_streamOf values' mask' [] (t := t) (by omega)
  simp only [List.nil_append, List.length_nil, Nat.mul_zero, Nat.zero_add] at hr1
  generalize hst : (fun k => if k = ps.value then streamOf (values' ++ (mask' ++ [])) else P.chacha20 k) = st
  have sps : st ps.value = streamOf (values' ++ (mask' ++ [])) := by rw [← hst]; simp
  have ses : st es.value = P.chacha20 es.value := by rw [← hst]; simp [Ne.symm d1]
  have sqs : st qs.value = P.chacha20 qs.value := by rw [← hst]; simp [Ne.symm d2]
  obtain ⟨ct', hct', c1, c2, c3, c4, c5⟩ := encryptAndCommitPair_change hes hqs ses sqs ht.le hvl hml hvl' hml' hz hct
  have hnew : new (P.withStreams st) .random seed t (keys.map Point.mulByG) dealer ad =
      .ok ⟨some (.pair ct'), some cm, none⟩ := by
    have e1 : seed.derive (P.withStreams st) polyDst = .ok ps := by rw [Prim.withStreams, derive_chacha, hps]
    have e2 : seed.derive (P.withStreams st) megaDst = .ok ms := by rw [Prim.withStreams, derive_chacha, hms]
    have e3 : ps.rng (P.withStreams st) = ⟨streamOf (values' ++ (mask' ++ [])), 0⟩ := by
      simp only [Seed.rng, Prim.withStreams, sps]
    rw [new, if_neg h0, e1, Res.ok_bind, e2, Res.ok_bind]
    simp only [e3, hr1, Res.ok_bind, hr2, hct']
  refine ⟨st, _, hnew, ⟨rfl, rfl, ct, ct', rfl, rfl, c1, c2, c3, c4, fun j hj => ?_⟩, values', mask', .pair ct', cm, rfl, rfl,
    by omega, by omega, hhead, fun i k hi hki => ?_⟩
  · exact c5 j (hpos j hj) (hval j hj) (hmask _ (hval j hj))
  · obtain ⟨-, -, hdec⟩ := encryptAndCommitPair_spec ht hvl' hml' hct'
    have := hdec i k hi hki
    rw [Poly.evaluateAt_eq, Poly.evaluateAt_eq] at this
    exact this

/-- C129, dealings of products: the factor that is not public can be any other with the same commitment, and the dealing,
including its proof, looks the same to every group of fewer than threshold-many recipients. -/
theorem C129_product (P : Prim) (l r rm r' rm' : Fn) (seed : Seed) (t : Int) (keys : List Fn) (dealer : NodeIndex) (ad : Bytes)
    (d : Dealing) (hk : KeysDiffer P seed (.unmaskedTimesMasked l r rm))
    (h : new P (.unmaskedTimesMasked l r rm) seed t (keys.map Point.mulByG) dealer ad = .ok d)
    (hr : r' • G + rm' • H = r • G + rm • H)
    (B : List NodeIndex) (hB : B.Nodup) (hpos : ∀ j ∈ B, 0 ≤ j.toInt) (hlt : (B.length : Int) < t) :
    ∃ streams d', new (P.withStreams streams) (.unmaskedTimesMasked l r' rm') seed t (keys.map Point.mulByG) dealer ad = .ok d' ∧
      Alike B d d' ∧ SharesOut P d' t keys ad dealer (l * r') := by
  obtain ⟨ps, hps, kps⟩ := derive_key P seed polyDst
  obtain ⟨ms, hms, kms⟩ := derive_key P seed megaDst
  obtain ⟨es, hes, kes⟩ := derive_key P ms CType.pairs.ephemeralKeyDst
  obtain ⟨qs, hqs, kqs⟩ := derive_key P ms CType.pairs.popProofDst
  obtain ⟨zs, hzs, kzs⟩ := derive_key P seed Zk.productDst
  have hd : [ps.value, es.value, qs.value, zs.value].Nodup := by
    have := hk
    rw [KeysDiffer] at this
    simp only [generators, List.map_cons, List.map_nil, keyAt, List.foldl_cons, List.foldl_nil, Option.bind_some] at this
    erw [kps, kms, kzs] at this
    simp only [Option.bind_some] at this
    erw [kes, kqs] at this
    simpa using this
  simp only [List.nodup_cons, List.mem_cons, List.not_mem_nil, or_false, not_or] at hd
  obtain ⟨⟨d1, d2, d3⟩, ⟨d4, d5⟩, d6, -⟩ := hd
  rw [new] at h
  by_cases h0 : t = 0 ∨ t > ((keys.map Point.mulByG).length : Int)
  · rw [if_pos h0] at h; cases h
  rw [if_neg h0, hps, Res.ok_bind, hms, Res.ok_bind] at h
  dsimp only at h
  obtain ⟨⟨pm, r0⟩, -, h⟩ := Res.bind_eq_ok.1 h
  dsimp only at h
  obtain ⟨⟨values, r1⟩, hv, h⟩ := Res.bind_eq_ok.1 h
  dsimp only at h
  obtain ⟨om, hom, h⟩ := Res.bind_eq_ok.1 h
  obtain ⟨⟨mask, r2⟩, hm, h⟩ := Res.bind_eq_ok.1 h
  rw [nonNil_eq_ok.1 hm] at hom
  have hmm : Poly.randomWithConstant pm t r1 = .ok (mask, r2) := by
    rcases hx : Poly.randomWithConstant pm t r1 with x | e | e | _ <;> rw [hx] at hom <;> simp [ignoreErr] at hom
    rw [hom]
  dsimp only at h
  obtain ⟨⟨ct, cm⟩, hct, h⟩ := Res.bind_eq_ok.1 h
  rw [hzs, Res.ok_bind] at h
  obtain ⟨opf, hpf, h⟩ := Res.bind_eq_ok.1 h
  cases h
  obtain ⟨pf, hpf', rfl⟩ : ∃ pf, Zk.Product.create P zs l r rm (l * r) pm ad = .ok pf ∧ opf = some pf := by
    rcases Zk.product_create_cases P zs l r rm (l * r) pm ad with ⟨pf, hx⟩ | hx <;> rw [hx] at hpf <;> simp [ignoreErr] at hpf
    exact ⟨pf, hx, hpf.symm⟩
  obtain ⟨ht, hvl, hvc⟩ := Poly.randomWithConstant_ok hv
  obtain ⟨-, hml, hmc⟩ := Poly.randomWithConstant_ok hmm
  obtain ⟨values', hvl', hhead, hval⟩ := exists_values (t := t.toNat) values B hB hpos (by omega) (l * r')
  obtain ⟨mask', hml', hz, hmask⟩ := exists_mask hvl hml hvl'
  obtain ⟨v0, vs, rfl⟩ : ∃ a l, values' = a :: l := List.exists_cons_of_ne_nil (by rintro rfl; simp at hvl'; omega)
  obtain ⟨m0, mks, rfl⟩ : ∃ a l, mask' = a :: l := List.exists_cons_of_ne_nil (by rintro rfl; simp at hml'; omega)
  obtain rfl : v0 = l * r' := by simpa using hhead
  have hp : (l * r') • G + m0 • H = (l * r) • G + pm • H := by
    cases values with
    | nil => simp at hvl; omega
    | cons a as =>
      cases mask with
      | nil => simp at hml; omega
      | cons b bs =>
        simp only [List.zipWith_cons_cons, List.cons.injEq] at hz
        have ea : a = l * r := by simpa [Poly.coeff] using hvc
        have eb : b = pm := by simpa [Poly.coeff] using hmc
        rw [hz.1, ea, eb]
  have hver : Zk.Product.verify P pf (l • G) (r' • G + rm' • H) ((l * r') • G + m0 • H) ad = .ok () := by
    rw [hr, hp]
    exact (C47_product_completeness _ _ _ _ _ _ _ _ _ hpf').1 rfl
  obtain ⟨n1, n2, hn⟩ := C128_product P l r' rm' m0 ad pf hver
  generalize hst : (fun k => if k = ps.value then streamOf ([m0] ++ (vs ++ mks)) else
      if k = zs.value then streamOf [n1, n2] else P.chacha20 k) = st
  have sps : st ps.value = streamOf ([m0] ++ (vs ++ mks)) := by rw [← hst]; simp
  have szs : st zs.value = streamOf [n1, n2] := by rw [← hst]; simp [Ne.symm d3]
  have ses : st es.value = P.chacha20 es.value := by rw [← hst]; simp [Ne.symm d1, d5]
  have sqs : st qs.value = P.chacha20 qs.value := by rw [← hst]; simp [Ne.symm d2, d6]
  have hr0 : Scalar.random ⟨streamOf ([m0] ++ (vs ++ mks)), 0⟩ =
      .ok (m0, ⟨streamOf ([m0] ++ (vs ++ mks)), 32 * [m0].length⟩) := random_streamOf _ 0
  have hr1 := randomWithConstant_streamOf (l * r') [m0] vs mks (t := t) (by omega)
  have hr2 := randomWithConstant_streamOf m0 ([m0] ++ vs) mks [] (t := t) (by omega)
  rw [List.append_nil, List.append_assoc, List.length_append] at hr2
  obtain ⟨ct', hct', c1, c2, c3, c4, c5⟩ := encryptAndCommitPair_change hes hqs ses sqs ht.le hvl hml hvl' hml' hz hct
  have hpf2 : Zk.Product.create (P.withStreams st) zs l r' rm' (l * r') m0 ad = .ok pf := by
    refine (hn st zs).2 ?_
    have e : zs.rng (P.withStreams st) = ⟨streamOf [n1, n2], 0⟩ := by simp only [Seed.rng, Prim.withStreams, szs]
    have h1 := random_streamOf [n1, n2] 0
    have h2 := random_streamOf [n1, n2] 1
    exact ⟨_, _, by rw [e]; exact h1, h2⟩
  have hnew : new (P.withStreams st) (.unmaskedTimesMasked l r' rm') seed t (keys.map Point.mulByG) dealer ad =
      .ok ⟨some (.pair ct'), some cm, some (.product (some pf))⟩ := by
    have e1 : seed.derive (P.withStreams st) polyDst = .ok ps := by rw [Prim.withStreams, derive_chacha, hps]
    have e2 : seed.derive (P.withStreams st) megaDst = .ok ms := by rw [Prim.withStreams, derive_chacha, hms]
    have e4 : seed.derive (P.withStreams st) Zk.productDst = .ok zs := by rw [Prim.withStreams, derive_chacha, hzs]
    have e3 : ps.rng (P.withStreams st) = ⟨streamOf ([m0] ++ (vs ++ mks)), 0⟩ := by
      simp only [Seed.rng, Prim.withStreams, sps]
    rw [new, if_neg h0, e1, Res.ok_bind, e2, Res.ok_bind]
    simp only [e3, hr0, hr1, Res.ok_bind, hr2, ignoreErr, nonNil, hct', e4, hpf2]
  refine ⟨st, _, hnew, ⟨rfl, rfl, ct, ct', rfl, rfl, c1, c2, c3, c4, fun j hj => ?_⟩, l * r' :: vs, m0 :: mks, .pair ct', cm, rfl, rfl,
    by omega, by omega, rfl, fun i k hi hki => ?_⟩
  · exact c5 j (hpos j hj) (hval j hj) (hmask _ (hval j hj))
  · obtain ⟨-, -, hdec⟩ := encryptAndCommitPair_spec ht hvl' hml' hct'
    have := hdec i k hi hki
    rw [Poly.evaluateAt_eq, Poly.evaluateAt_eq] at this
    exact this

/-- A dealing of a product at threshold 2 among two nodes, with SHA-256 and different keys: to node 0 it could as well be a
dealing of 3·8. -/
example : ∃ P : Prim, ∃ d, new P (.unmaskedTimesMasked 3 5 7) ⟨List.replicate 32 0⟩ 2 ([4, 6].map Point.mulByG) 1 [1] = .ok d ∧
    ∃ rm' streams d', new (P.withStreams streams) (.unmaskedTimesMasked 3 8 rm') ⟨List.replicate 32 0⟩ 2
      ([4, 6].map Point.mulByG) 1 [1] = .ok d' ∧ Alike [0] d d' ∧ SharesOut P d' 2 [4, 6] [1] 1 (3 * 8) := by
  obtain ⟨streams, d, hd, -⟩ := C115_free_choices Kat.prim (.unmaskedTimesMasked 3 5 7) (by simp) ⟨List.replicate 32 0⟩ 2
    ([4, 6].map Point.mulByG) 1 [1] (by decide) (by decide) (keysDiffer_zero _) ⟨[3 * 5, 9], [4, 4], 11, 12, 11, 0⟩ rfl rfl
    (by rintro s h; simpa [Shares.secret] using h)
  obtain ⟨rm', h', -⟩ := C15_pedersen_hiding ((5 : Fn) • G + (7 : Fn) • H) 8
  exact ⟨_, d, hd, rm', C129_product (Kat.prim.withStreams streams) 3 5 7 8 rm' _ 2 [4, 6] 1 [1] d (keysDiffer_zero (.unmaskedTimesMasked 3 5 7)) hd h' [0]
    (by simp) (by simp) (by decide)⟩

/-- A random dealing at threshold 2: to node 1 it could as well be a dealing of 0. -/
example : ∃ P : Prim, ∃ d, new P .random ⟨List.replicate 32 0⟩ 2 ([4, 6].map Point.mulByG) 1 [1] = .ok d ∧
    ∃ streams d', new (P.withStreams streams) .random ⟨List.replicate 32 0⟩ 2 ([4, 6].map Point.mulByG) 1 [1] = .ok d' ∧
      Alike [1] d d' ∧ SharesOut P d' 2 [4, 6] [1] 1 0 := by
  obtain ⟨streams, d, hd, -⟩ := C115_free_choices Kat.prim .random (by simp) ⟨List.replicate 32 0⟩ 2
    ([4, 6].map Point.mulByG) 1 [1] (by decide) (by decide) (keysDiffer_zero _) ⟨[17, 9], [4, 4], 11, 12, 11, 0⟩ rfl rfl
    (by rintro s h; simp [Shares.secret] at h)
  exact ⟨_, d, hd, C129_random (Kat.prim.withStreams streams) _ 2 [4, 6] 1 [1] d (keysDiffer_zero .random) hd [1] (by simp)
    (by simp) (by decide) 0⟩

/-- One node with opening (6, 15) out of a sharing with threshold 2 of the secret 1. -/
example : (Explanations 2 [(1 : Fn) • G + (7 : Fn) • H, (5 : Fn) • G + (8 : Fn) • H] [(0, 6, 15)] 1).Nonempty :=
  ⟨([1, 5], [7, 8]), rfl, rfl, rfl, by simp [toPoly, place]; norm_num, rfl⟩

end Verif.Dealings
