import Verif.Props.Dealings
import Verif.Props.Complaints
import Verif.Props.Protocol
import Verif.Props.ProtocolLive
import Verif.Spec.SeedReuse

/-!
C170: seeds must be used once and kept secret.  Proofs, ciphertexts, dealings and complaints take their randomness from a
seed alone and not from what is proved or encrypted, so that two of them made with one seed give the secrets away.
-/

set_option autoImplicit false

namespace Verif

open Zk Mega Dealings Complaints

namespace Zk

theorem common_eq {c c' x r : Fn} (h : c ≠ c') : common c c' (x * c + r) (x * c' + r) = x := by
  have : c - c' ≠ 0 := sub_ne_zero.2 h
  rw [common, div_eq_iff this]
  ring

theorem witness_eq {c x r : Fn} (h : c ≠ 0) : Proof.witness ⟨c, x * c + r⟩ r = x := by
  rw [Proof.witness, div_eq_iff h]
  ring

theorem Dlog.create_response {P : Prim} {seed : Seed} {x : Fn} {g h : Pt} {ad : Bytes} {p : Proof}
    (hp : Dlog.create P seed x g h ad = .ok p) :
    ∃ r rng, Scalar.random (seed.rng P) = .ok (r, rng) ∧ p = ⟨p.challenge, x * p.challenge + r⟩ := by
  rw [Dlog.create] at hp
  obtain ⟨⟨r, rng⟩, hr, hp⟩ := Res.bind_eq_ok.1 hp
  refine ⟨r, rng, hr, ?_⟩
  dsimp only at hp
  split at hp
  · cases hp; rfl
  all_goals cases hp

end Zk

/-- C170, proofs: two proofs made with the same seed and the same witness, whatever the instances and the associated data, give
the witness away unless their challenges agree. -/
theorem C170_proofs (P : Prim) (seed : Seed) :
    (∀ (x : Fn) (g h g' h' : Pt) (ad ad' : Bytes) (p q : Proof), Dlog.create P seed x g h ad = .ok p →
      Dlog.create P seed x g' h' ad' = .ok q → p.challenge ≠ q.challenge → p.common q = x) ∧
    (∀ (s s' m : Fn) (ad ad' : Bytes) (p q : Proof), EqOpen.create P seed s m ad = .ok p →
      EqOpen.create P seed s' m ad' = .ok q → p.challenge ≠ q.challenge → p.common q = m) ∧
    ∀ (l r rm r' rm' pr pm pr' pm' : Fn) (ad ad' : Bytes) (p q : Product.Proof),
      Product.create P seed l r rm pr pm ad = .ok p → Product.create P seed l r' rm' pr' pm' ad' = .ok q →
      p.challenge ≠ q.challenge → common p.challenge q.challenge p.response1 q.response1 = l := by
  refine ⟨fun x g h g' h' ad ad' p q hp hq hne => ?_, fun s s' m ad ad' p q hp hq hne => ?_,
    fun l r rm r' rm' pr pm pr' pm' ad ad' p q hp hq hne => ?_⟩
  · obtain ⟨r, rng, hr, ep⟩ := Dlog.create_response hp
    obtain ⟨r', rng', hr', eq⟩ := Dlog.create_response hq
    rw [hr] at hr'
    cases hr'
    rw [Proof.common, ep, eq]
    exact common_eq hne
  · rw [EqOpen.create] at hp hq
    obtain ⟨⟨r, rng⟩, hr, hp⟩ := Res.bind_eq_ok.1 hp
    rw [hr, Res.ok_bind] at hq
    obtain ⟨c, -, hp⟩ := Res.bind_eq_ok.1 hp
    obtain ⟨c', -, hq⟩ := Res.bind_eq_ok.1 hq
    cases hp
    cases hq
    exact common_eq hne
  · rw [Product.create] at hp hq
    obtain ⟨⟨r1, rng⟩, hr, hp⟩ := Res.bind_eq_ok.1 hp
    rw [hr, Res.ok_bind] at hq
    dsimp only at hp hq
    obtain ⟨⟨r2, rng'⟩, hr', hp⟩ := Res.bind_eq_ok.1 hp
    rw [hr', Res.ok_bind] at hq
    dsimp only at hp hq
    obtain ⟨c, -, hp⟩ := Res.bind_eq_ok.1 hp
    obtain ⟨c', -, hq⟩ := Res.bind_eq_ok.1 hq
    cases hp
    cases hq
    exact common_eq hne

namespace Mega

theorem eph_common {P : Prim} {t : CType} {seed : Seed} {ad ad' : Bytes} {d d' : NodeIndex} {b b' : Fn} {v v' w w' : Pt}
    {p q : Zk.Proof} (h : computeEphKeyAndPop P t seed ad d = .ok (b, v, w, p))
    (h' : computeEphKeyAndPop P t seed ad' d' = .ok (b', v', w', q)) (hne : p.challenge ≠ q.challenge) :
    p.common q = b ∧ v = b • G := by
  refine ⟨?_, (computeEphKeyAndPop_spec h).1⟩
  rw [computeEphKeyAndPop] at h h'
  obtain ⟨s, hs, h⟩ := Res.bind_eq_ok.1 h
  obtain ⟨x, hx, h⟩ := Res.bind_eq_ok.1 h
  rw [hs, Res.ok_bind, hx, Res.ok_bind] at h'
  dsimp only at h h'
  obtain ⟨B, -, h⟩ := Res.bind_eq_ok.1 h
  obtain ⟨B', -, h'⟩ := Res.bind_eq_ok.1 h'
  obtain ⟨s', hs', h⟩ := Res.bind_eq_ok.1 h
  rw [hs', Res.ok_bind] at h'
  obtain ⟨pf, hp, h⟩ := Res.bind_eq_ok.1 h
  obtain ⟨pf', hq, h'⟩ := Res.bind_eq_ok.1 h'
  cases h
  cases h'
  exact (C170_proofs P s').1 _ _ _ _ _ _ _ _ _ hp hq hne

theorem Single.encrypt_eph {P : Prim} {seed : Seed} {ms : List Fn} {pks : List Pt} {d : NodeIndex} {ad : Bytes} {c : Ciphertext Fn}
    (h : Single.encrypt P seed ms pks d ad = .ok c) : ms.length = pks.length ∧ ∃ b w,
      computeEphKeyAndPop P .single seed ad d = .ok (b, c.ephemeralKey, w, c.popProof) ∧
      Single.encryptLoop P d ad b c.ephemeralKey 0 pks ms = .ok c.ctexts := by
  rw [Single.encrypt] at h
  obtain ⟨⟨⟩, hc, h⟩ := Res.bind_eq_ok.1 h
  obtain ⟨⟨b, v, w, pf⟩, he, h⟩ := Res.bind_eq_ok.1 h
  dsimp only at h
  obtain ⟨cs, hcs, h⟩ := Res.bind_eq_ok.1 h
  cases h
  exact ⟨((checkPlaintexts_ok_iff _ _).1 hc).1, b, w, he, hcs⟩

theorem Pair.encrypt_eph {P : Prim} {seed : Seed} {ms : List (Fn × Fn)} {pks : List Pt} {d : NodeIndex} {ad : Bytes}
    {c : Ciphertext (Fn × Fn)} (h : Pair.encrypt P seed ms pks d ad = .ok c) : ms.length = pks.length ∧ ∃ b w,
      computeEphKeyAndPop P .pairs seed ad d = .ok (b, c.ephemeralKey, w, c.popProof) ∧
      Pair.encryptLoop P d ad b c.ephemeralKey 0 pks ms = .ok c.ctexts := by
  rw [Pair.encrypt] at h
  obtain ⟨⟨⟩, hc, h⟩ := Res.bind_eq_ok.1 h
  obtain ⟨⟨b, v, w, pf⟩, he, h⟩ := Res.bind_eq_ok.1 h
  dsimp only at h
  obtain ⟨cs, hcs, h⟩ := Res.bind_eq_ok.1 h
  cases h
  exact ⟨((checkPlaintexts_ok_iff _ _).1 hc).1, b, w, he, hcs⟩

end Mega

/-- C170, ciphertexts: two ciphertexts of one kind made with the same seed, whatever the plaintexts, recipients, dealers and
associated data, give all plaintexts away to everybody, unless their challenges agree. -/
theorem C170_encryption (P : Prim) (seed : Seed) (pks pks' : List Pt) (d d' : NodeIndex) (ad ad' : Bytes) :
    (∀ (ms ms' : List Fn) (c c' : Ciphertext Fn), Single.encrypt P seed ms pks d ad = .ok c →
      Single.encrypt P seed ms' pks' d' ad' = .ok c' → c.popProof.challenge ≠ c'.popProof.challenge →
      ∀ (i : NodeIndex) (pk : Pt) (m : Fn), 0 ≤ i.toInt → pks[i.toInt.toNat]? = some pk → ms[i.toInt.toNat]? = some m →
        Single.decryptFromSharedSecret P c ad d i pk (c.popProof.common c'.popProof • pk) = .ok m) ∧
    ∀ (ms ms' : List (Fn × Fn)) (c c' : Ciphertext (Fn × Fn)), Pair.encrypt P seed ms pks d ad = .ok c →
      Pair.encrypt P seed ms' pks' d' ad' = .ok c' → c.popProof.challenge ≠ c'.popProof.challenge →
      ∀ (i : NodeIndex) (pk : Pt) (m : Fn × Fn), 0 ≤ i.toInt → pks[i.toInt.toNat]? = some pk → ms[i.toInt.toNat]? = some m →
        Pair.decryptFromSharedSecret P c ad d i pk (c.popProof.common c'.popProof • pk) = .ok m := by
  refine ⟨fun ms ms' c c' h h' hne i pk m hi hpk hm => ?_, fun ms ms' c c' h h' hne i pk m hi hpk hm => ?_⟩
  · obtain ⟨hl, b, w, he, hcs⟩ := Single.encrypt_eph h
    obtain ⟨-, b', w', he', -⟩ := Single.encrypt_eph h'
    obtain ⟨hb, -⟩ := eph_common he he' hne
    obtain ⟨cs, hcs', hlen, hent⟩ := Single.encryptLoop_spec P d ad b c.ephemeralKey 0 pks ms hl
    rw [hcs] at hcs'
    cases hcs'
    obtain ⟨h0, hh, hcj⟩ := hent i.toInt.toNat pk m hpk hm
    rw [Nat.zero_add, ofNat_toInt hi] at hh
    have hlt := (List.getElem?_eq_some_iff.1 hcj).1
    have hidx : index c.ctexts i.toInt = .ok (h0 + m) := by
      have := index_ok hcj
      rwa [Int.toNat_of_nonneg hi] at this
    simp only [Single.decryptFromSharedSecret, hb, hh, hidx, index_zero, Res.ok_bind]
    rw [if_neg (by omega)]
    simp
  · obtain ⟨hl, b, w, he, hcs⟩ := Pair.encrypt_eph h
    obtain ⟨-, b', w', he', -⟩ := Pair.encrypt_eph h'
    obtain ⟨hb, -⟩ := eph_common he he' hne
    obtain ⟨cs, hcs', hlen, hent⟩ := Pair.encryptLoop_spec P d ad b c.ephemeralKey 0 pks ms hl
    rw [hcs] at hcs'
    cases hcs'
    obtain ⟨h0, h1, hh, hcj⟩ := hent i.toInt.toNat pk m hpk hm
    rw [Nat.zero_add, ofNat_toInt hi] at hh
    have hlt := (List.getElem?_eq_some_iff.1 hcj).1
    have hidx : index c.ctexts i.toInt = .ok (h0 + m.1, h1 + m.2) := by
      have := index_ok hcj
      rwa [Int.toNat_of_nonneg hi] at this
    simp only [Pair.decryptFromSharedSecret, hb, hh, hidx, index_zero, index_one, Res.ok_bind]
    rw [if_neg (by omega)]
    simp

namespace Dealings

theorem new_eph {P : Prim} {shares : Shares} {seed : Seed} {t : Int} {pks : List Pt} {dealer : NodeIndex} {ad : Bytes}
    {d : Dealing} (h : new P shares seed t pks dealer ad = .ok d) {c : Cipher} (hc : d.ciphertext = some c) :
    ∃ s b w, seed.derive P megaDst = .ok s ∧
      computeEphKeyAndPop P (if shares.hidden then .pairs else .single) s ad dealer = .ok (b, c.ephemeral, w, c.popProof) := by
  rw [new] at h
  split_ifs at h with h0
  obtain ⟨polySeed, -, h⟩ := Res.bind_eq_ok.1 h
  dsimp only at h
  obtain ⟨megaSeed, hms, h⟩ := Res.bind_eq_ok.1 h
  have single : ∀ {ct : Ciphertext Fn} {cm : Commitment} {values : List Fn},
      encryptAndCommitSingle P values t pks dealer ad megaSeed = .ok (ct, cm) →
      ∃ b w, computeEphKeyAndPop P .single megaSeed ad dealer = .ok (b, ct.ephemeralKey, w, ct.popProof) := by
    intro ct cm values hct
    rw [encryptAndCommitSingle] at hct
    obtain ⟨ct', he, hct⟩ := Res.bind_eq_ok.1 hct
    obtain ⟨cm', -, hct⟩ := Res.bind_eq_ok.1 hct
    cases hct
    obtain ⟨-, b, w, h1, -⟩ := Single.encrypt_eph he
    exact ⟨b, w, h1⟩
  have pair : ∀ {ct : Ciphertext (Fn × Fn)} {cm : Commitment} {values mask : List Fn},
      encryptAndCommitPair P values mask t pks dealer ad megaSeed = .ok (ct, cm) →
      ∃ b w, computeEphKeyAndPop P .pairs megaSeed ad dealer = .ok (b, ct.ephemeralKey, w, ct.popProof) := by
    intro ct cm values mask hct
    rw [encryptAndCommitPair] at hct
    obtain ⟨ct', he, hct⟩ := Res.bind_eq_ok.1 hct
    obtain ⟨cm', -, hct⟩ := Res.bind_eq_ok.1 hct
    cases hct
    obtain ⟨-, b, w, h1, -⟩ := Pair.encrypt_eph he
    exact ⟨b, w, h1⟩
  cases shares with
  | random =>
    dsimp only at h
    obtain ⟨⟨values, r1⟩, -, h⟩ := Res.bind_eq_ok.1 h
    dsimp only at h
    obtain ⟨⟨mask, r2⟩, -, h⟩ := Res.bind_eq_ok.1 h
    dsimp only at h
    obtain ⟨⟨ct, cm⟩, hct, h⟩ := Res.bind_eq_ok.1 h
    cases h
    cases hc
    obtain ⟨b, w, e⟩ := pair hct
    exact ⟨megaSeed, b, w, hms, e⟩
  | reshareUnmasked s1 =>
    dsimp only at h
    obtain ⟨⟨values, r1⟩, -, h⟩ := Res.bind_eq_ok.1 h
    dsimp only at h
    obtain ⟨⟨ct, cm⟩, hct, h⟩ := Res.bind_eq_ok.1 h
    cases h
    cases hc
    obtain ⟨b, w, e⟩ := single hct
    exact ⟨megaSeed, b, w, hms, e⟩
  | reshareMasked s1 s2 =>
    dsimp only at h
    obtain ⟨⟨values, r1⟩, -, h⟩ := Res.bind_eq_ok.1 h
    dsimp only at h
    obtain ⟨⟨ct, cm⟩, hct, h⟩ := Res.bind_eq_ok.1 h
    dsimp only at h
    obtain ⟨ps, -, h⟩ := Res.bind_eq_ok.1 h
    obtain ⟨pf, -, h⟩ := Res.bind_eq_ok.1 h
    cases h
    cases hc
    obtain ⟨b, w, e⟩ := single hct
    exact ⟨megaSeed, b, w, hms, e⟩
  | unmaskedTimesMasked l r m =>
    dsimp only at h
    obtain ⟨⟨pm, r0⟩, -, h⟩ := Res.bind_eq_ok.1 h
    dsimp only at h
    obtain ⟨⟨values, r1⟩, -, h⟩ := Res.bind_eq_ok.1 h
    dsimp only at h
    obtain ⟨om, -, h⟩ := Res.bind_eq_ok.1 h
    obtain ⟨⟨mask, r2⟩, -, h⟩ := Res.bind_eq_ok.1 h
    dsimp only at h
    obtain ⟨⟨ct, cm⟩, hct, h⟩ := Res.bind_eq_ok.1 h
    dsimp only at h
    obtain ⟨ps, -, h⟩ := Res.bind_eq_ok.1 h
    obtain ⟨opf, -, h⟩ := Res.bind_eq_ok.1 h
    cases h
    cases hc
    obtain ⟨b, w, e⟩ := pair hct
    exact ⟨megaSeed, b, w, hms, e⟩
  | other =>
    cases h
    cases hc

/-- All points are public keys. -/
theorem exists_keys (pks : List Pt) : ∃ keys : List Fn, pks = keys.map Point.mulByG := by
  refine ⟨pks.map fun p => (exists_smul_eq G_ne_zero p).choose, ?_⟩
  rw [List.map_map]
  conv_lhs => rw [← List.map_id pks]
  exact List.map_congr_left fun p _ => (exists_smul_eq G_ne_zero p).choose_spec

theorem new_cipher {P : Prim} {shares : Shares} {seed : Seed} {t : Int} {pks : List Pt} {dealer : NodeIndex} {ad : Bytes}
    {d : Dealing} (h : new P shares seed t pks dealer ad = .ok d) (hs : shares ≠ .other) : ∃ c, d.ciphertext = some c := by
  obtain ⟨keys, rfl⟩ := exists_keys pks
  obtain ⟨-, -, -, -, c, -, -, -, -, -, -, -, -, -, hc, -⟩ := new_spec h hs
  exact ⟨c, hc⟩

/-- Decryption opens with the shared secret. -/
theorem openWith_of_decrypt {P : Prim} {c : Cipher} {cm : Commitment} {ad : Bytes} {dealer i : NodeIndex} {k : Fn} {pk : Pt}
    {o : Opening} (h : c.decryptAndCheck P cm ad dealer i k pk = .ok o) :
    c.openWith P ad dealer i pk (k • c.ephemeral) = .ok o := by
  cases c with
  | single m =>
    rw [Cipher.decryptAndCheck, Single.decryptAndCheck, Single.decrypt] at h
    obtain ⟨s, hs, h⟩ := Res.bind_eq_ok.1 h
    obtain ⟨-, -, hs⟩ := Res.bind_eq_ok.1 hs
    obtain ⟨b, -, h⟩ := Res.bind_eq_ok.1 h
    split_ifs at h
    cases h
    rw [Cipher.openWith]
    exact Res.bind_eq_ok.2 ⟨s, hs, rfl⟩
  | pair m =>
    rw [Cipher.decryptAndCheck, Pair.decryptAndCheck, Pair.decrypt] at h
    obtain ⟨s, hs, h⟩ := Res.bind_eq_ok.1 h
    obtain ⟨-, -, hs⟩ := Res.bind_eq_ok.1 hs
    obtain ⟨b, -, h⟩ := Res.bind_eq_ok.1 h
    split_ifs at h
    cases h
    rw [Cipher.openWith]
    exact Res.bind_eq_ok.2 ⟨s, hs, rfl⟩

end Dealings

/-- C170, dealings: two dealings that both hide their secret or both do not, made with the same seed, give all shares of the
first one away to everybody, unless the challenges of their ciphertexts agree.  There are at least threshold-many recipients, so
that the shares determine the secret dealt. -/
theorem C170_dealings (P : Prim) (seed : Seed) (shares shares' : Shares) (t t' : Int) (pks pks' : List Pt)
    (dealer dealer' : NodeIndex) (ad ad' : Bytes) (d d' : Dealing) (c c' : Cipher) (hs : shares ≠ .other)
    (h : new P shares seed t pks dealer ad = .ok d) (h' : new P shares' seed t' pks' dealer' ad' = .ok d')
    (hk : shares.hidden = shares'.hidden) (hc : d.ciphertext = some c) (hc' : d'.ciphertext = some c')
    (hne : c.popProof.challenge ≠ c'.popProof.challenge) :
    t ≤ pks.length ∧ ∃ (values mask : List Fn) (cm : Commitment), d.commitment = some cm ∧ (values.length : Int) = t ∧
      (∀ s, shares.secret = some s → values.head? = some s) ∧
      cm.points = (if shares.hidden then List.zipWith (fun v m : Fn => v • G + m • Point.H) values mask
        else values.map fun v : Fn => v • G) ∧
      ∀ (i : NodeIndex) (pk : Pt), 0 ≤ i.toInt → pks[i.toInt.toNat]? = some pk →
        c.leak P c' ad dealer i pk = .ok
          (if shares.hidden then .pedersen ((toPoly values).eval (place i)) ((toPoly mask).eval (place i))
            else .simple ((toPoly values).eval (place i))) := by
  obtain ⟨keys, rfl⟩ := exists_keys pks
  obtain ⟨-, hle, -⟩ := new_spec h hs
  obtain ⟨s, b, w, e1, e2⟩ := new_eph h hc
  obtain ⟨s', b', w', e1', e2'⟩ := new_eph h' hc'
  rw [e1] at e1'
  cases e1'
  rw [← hk] at e2'
  obtain ⟨hb, hv⟩ := eph_common e2 e2' hne
  obtain ⟨values, mask, c0, cm, hcm, hc0, hvl, -, hsec, -, -, hpts, hdec⟩ := C85_dealing_contents P shares seed t keys dealer ad d hs h
  rw [hc] at hc0
  cases hc0
  refine ⟨by simpa using hle, values, mask, cm, hcm, hvl, hsec, ?_, fun i pk hi hpk => ?_⟩
  · split_ifs at hpts ⊢ with hh
    · exact hpts.2
    · exact hpts.2
  · rw [List.getElem?_map, Option.map_eq_some_iff] at hpk
    obtain ⟨k, hk, rfl⟩ := hpk
    rw [← openWith_of_decrypt (hdec i k hi hk), Cipher.leak, hb, hv]
    congr 1
    show b • k • G = k • b • G
    rw [smul_smul, smul_smul, mul_comm]

namespace Complaints

theorem scan_mem {P : Prim} {ad : Bytes} {i : NodeIndex} {k : Fn} {pk : Pt} {seed : Seed} {ds : DealingMap}
    {acc cs : List (NodeIndex × Complaint)} (h : scan P ad i k pk seed acc ds = .ok cs) {j : NodeIndex} {c : Complaint}
    (hj : (j, c) ∈ cs) : (j, c) ∈ acc ∨ ∃ d s, seed.derive P (label j) = .ok s ∧ newComplaint P s d j i k pk ad = .ok c := by
  induction ds generalizing acc with
  | nil =>
    cases h
    exact Or.inl hj
  | cons x rest ih =>
    rw [scan] at h
    split at h
    · exact ih h
    · obtain ⟨s, hs, h⟩ := Res.bind_eq_ok.1 h
      obtain ⟨c1, hc1, h⟩ := Res.bind_eq_ok.1 h
      rcases ih h with h1 | h1
      · rcases OMap.mem_set h1 with h2 | h2
        · cases h2
          exact Or.inr ⟨x.2, s, hs, hc1⟩
        · exact Or.inl h2
      · exact Or.inr h1
    all_goals cases h

theorem generate_mem {P : Prim} {ad : Bytes} {i : NodeIndex} {k : Fn} {pk : Pt} {seed : Seed} {ds : DealingMap}
    {cs : List (NodeIndex × Complaint)} (h : generateComplaints P ds ad i k pk seed = .ok cs) {j : NodeIndex} {c : Complaint}
    (hj : (j, c) ∈ cs) : ∃ s b g ad', seed.derive P (label j) = .ok s ∧ Dlog.create P s k b g ad' = .ok c.proof := by
  rw [generateComplaints] at h
  obtain ⟨cs', hcs, h⟩ := Res.bind_eq_ok.1 h
  split_ifs at h
  cases h
  rcases scan_mem hcs hj with h1 | ⟨d, s, hs, hc⟩
  · cases h1
  · rw [newComplaint] at hc
    obtain ⟨ct, -, hc⟩ := Res.bind_eq_ok.1 hc
    obtain ⟨a, -, hc⟩ := Res.bind_eq_ok.1 hc
    obtain ⟨pf, hpf, hc⟩ := Res.bind_eq_ok.1 hc
    cases hc
    exact ⟨s, _, _, _, hs, hpf⟩

end Complaints

/-- C170, complaints: complaints about one dealer number, made with the same seed in two runs (such as for two transcripts), give
the private key of the receiver away unless their challenges agree; so does a single complaint if its seed is known (as in
testutils/dealings.go:18-30, where the seed is derived from the transcript). -/
theorem C170_complaints (P : Prim) (seed : Seed) (k : Fn) (ds : DealingMap) (ad : Bytes) (i : NodeIndex) (pk : Pt)
    (cs : List (NodeIndex × Complaint)) (j : NodeIndex) (c : Complaint)
    (h : generateComplaints P ds ad i k pk seed = .ok cs) (hj : (j, c) ∈ cs) :
    (∀ (ds' : DealingMap) (ad' : Bytes) (i' : NodeIndex) (pk' : Pt) (cs' : List (NodeIndex × Complaint)) (c' : Complaint),
      generateComplaints P ds' ad' i' k pk' seed = .ok cs' → (j, c') ∈ cs' → c.proof.challenge ≠ c'.proof.challenge →
      c.proof.common c'.proof = k) ∧
    ∃ s r rng, seed.derive P (label j) = .ok s ∧ Scalar.random (s.rng P) = .ok (r, rng) ∧
      (c.proof.challenge ≠ 0 → c.proof.witness r = k) := by
  obtain ⟨s, b, g, a, hs, hp⟩ := generate_mem h hj
  refine ⟨fun ds' ad' i' pk' cs' c' h' hj' hne => ?_, ?_⟩
  · obtain ⟨s', b', g', a', hs', hp'⟩ := generate_mem h' hj'
    rw [hs] at hs'
    cases hs'
    exact (C170_proofs P s).1 _ _ _ _ _ _ _ _ _ hp hp' hne
  · obtain ⟨r, rng, hr, e⟩ := Dlog.create_response hp
    refine ⟨s, r, rng, hs, hr, fun h0 => ?_⟩
    rw [e]
    exact witness_eq h0

/-! ### Examples: two uses of one seed with different challenges -/

namespace SeedReuse

open Rfc9380 Ro

/-- A hash function that repeats byte 85 of a message prepared by `ExpandMessageXmd` (this is the first byte of the associated
data, for the oracles here) and keeps the beginning of any other message. -/
def readHash (x : Bytes) : Bytes :=
  if x.take 64 = List.replicate 64 0 then List.replicate 32 (x.getD 85 0) else (x ++ List.replicate 32 0).take 32

def readPrim : Prim :=
  { Protocol.cycPrim with
    sha256 := readHash
    sha256_length := fun m => by rw [readHash]; split_ifs <;> simp }

theorem read_flows : Protocol.Flows readPrim := Protocol.cyc_flows

theorem readHash_keep {v : UInt8} (hv : v ≠ 0) (l : Bytes) : readHash (List.replicate 32 v ++ l) = List.replicate 32 v := by
  rw [readHash, if_neg, List.append_assoc, List.take_append_of_le_length (by simp), List.take_of_length_le (by simp)]
  intro h
  have := congrArg List.head? h
  simp [List.replicate_succ] at this
  exact hv this

theorem readHash_two (l : Bytes) : readHash (List.replicate 32 0 ++ (2 :: l)) = List.replicate 32 0 := by
  rw [readHash, if_neg, List.append_assoc, List.take_append_of_le_length (by simp), List.take_of_length_le (by simp)]
  intro h
  have := congrArg (fun l => l.getD 32 0) h
  simp [List.replicate_succ] at this

theorem strxor_self (v : UInt8) : strxor (List.replicate 32 v) (List.replicate 32 v) = List.replicate 32 0 := by
  simp [strxor, List.replicate_succ]

theorem read_expand {m : Bytes} {v : UInt8} (hv : v ≠ 0) {k : Nat} {l rest : Bytes}
    (hm : m = chunk (ascii "associated_data", [tyByteString] ++ toBE 4 k ++ (v :: l)) ++ rest) (dst : Bytes) :
    Xmd.expandMessageXmd readPrim m dst 32 = .ok (List.replicate 32 v) ∧
    Xmd.expandMessageXmd readPrim m dst 48 = .ok (List.replicate 32 v ++ List.replicate 16 0) := by
  have hs : readPrim.sha256 = readHash := rfl
  have h85 : ∀ r : Bytes, (List.replicate 64 0 ++ (m ++ r)).getD 85 0 = v := by
    intro r
    obtain ⟨a, b, c, d, hk⟩ : ∃ a b c d, toBE 4 k = [a, b, c, d] := ⟨_, _, _, _, rfl⟩
    rw [hm, hk, chunk, show ascii "associated_data" = [97, 115, 115, 111, 99, 105, 97, 116, 101, 100, 95, 100, 97, 116, 97] by
      decide +kernel]
    rfl
  have h0 : ∀ len : Nat, readHash (msgPrime m (effectiveDst readHash dst) len) = List.replicate 32 v := by
    intro len
    have e : msgPrime m (effectiveDst readHash dst) len =
        List.replicate 64 0 ++ (m ++ (i2osp len 2 ++ (i2osp 0 1 ++ dstPrime (effectiveDst readHash dst)))) := by
      rw [msgPrime, i2osp_zero]
      simp only [List.append_assoc]
    rw [e, readHash, if_pos (by rw [List.take_append_of_le_length (by simp)]; simp), h85]
  have b0 : ∀ d, block readHash (List.replicate 32 v) d 0 = List.replicate 32 v := fun d => by
    rw [block, List.append_assoc, readHash_keep hv]
  have b1 : ∀ d, block readHash (List.replicate 32 v) d 1 = List.replicate 32 0 := fun d => by
    rw [block, b0, strxor_self, List.append_assoc]
    exact readHash_two _
  constructor
  · rw [show (32 : Int) = ((32 : Nat) : Int) from rfl, expand_eq _ _ _ _ (by norm_num), hs, h0]
    simp only [ell, Nat.reduceAdd, Nat.reduceDiv, List.range_succ, List.range_zero, List.nil_append, List.flatMap_cons,
      List.flatMap_nil, b0, List.append_nil]
    rw [List.take_of_length_le (by simp)]
  · rw [show (48 : Int) = ((48 : Nat) : Int) from rfl, expand_eq _ _ _ _ (by norm_num), hs, h0]
    simp only [ell, Nat.reduceAdd, Nat.reduceDiv, List.range_succ, List.range_zero, List.nil_append, List.flatMap_cons,
      List.flatMap_nil, b0, b1, List.append_nil, List.cons_append]
    rw [List.take_append, List.take_of_length_le (by simp)]
    simp

/-- The call with the least name comes first. -/
theorem first_call (ds : Bytes) (c : RoCall) (l : List RoCall) (hc : c.WellFormed)
    (hl : ∀ x ∈ l, nameKey c.name < nameKey x.name) : ∃ rest, (run ds (c :: l)).inputs = c.enc :: rest := by
  have hr := rep_run ds (c :: l)
  have hacc : c ∈ RoCall.accepted (c :: l) := by
    clear hr hl
    induction l using List.reverseRecOn with
    | nil =>
      rw [show [c] = [] ++ [c] from rfl, RoCall.accepted_append, RoCall.accStep, if_pos ⟨hc, by simp [RoCall.accepted]⟩]
      simp
    | append_singleton l d ih =>
      rw [← List.cons_append, RoCall.accepted_append, RoCall.accStep]
      split_ifs
      · exact List.mem_append_left _ ih
      · exact ih
  have hmem := (hr.mem c.enc).2 ⟨c, hacc, rfl⟩
  have hall : ∀ x ∈ (run ds (c :: l)).inputs, x = c.enc ∨ nameKey c.name < nameKey x.1 := fun x hx => by
    obtain ⟨d, hd, rfl⟩ := (hr.mem x).1 hx
    rcases List.mem_cons.1 (RoCall.accepted_subset _ d hd) with rfl | hd
    · exact Or.inl rfl
    · exact Or.inr (hl d hd)
  have hs := hr.sorted
  revert hmem hall hs
  generalize (run ds (c :: l)).inputs = m
  intro hmem hall hs
  cases m with
  | nil => cases hmem
  | cons y ys =>
    rcases hall y (by simp) with rfl | hy
    · exact ⟨ys, rfl⟩
    · rcases List.mem_cons.1 hmem with rfl | h
      · exact ⟨ys, rfl⟩
      · exact absurd (lt_trans hy ((List.pairwise_cons.1 hs).1 _ h)) (lt_irrefl _)

/-- The challenge under this hash function. -/
def readChallenge (v : UInt8) : Fn := (beVal (List.replicate 32 v ++ List.replicate 16 0) : Fn)

theorem read_challenge (i : Dlog.Instance) (c1 c2 : Pt) {v : UInt8} (hv : v ≠ 0) {l : Bytes} (hl : (v :: l).length ≤ 255) :
    Dlog.hashToChallenge readPrim i c1 c2 (v :: l) = .ok (readChallenge v) := by
  obtain ⟨rest, h⟩ := first_call dlogDst (adCall (v :: l)) (dlogCalls i c1 c2 (v :: l)).tail ((adCall_wf_iff _).2 hl) (by
    intro x hx
    simp only [dlogCalls, List.tail_cons, List.mem_cons, List.not_mem_nil, or_false] at hx
    rcases hx with rfl | rfl | rfl | rfl | rfl | rfl <;> (show nameKey (ascii _) < nameKey (ascii _); decide +kernel))
  have h' : (Dlog.transcript i c1 c2 (v :: l)).inputs = (adCall (v :: l)).enc :: rest := by
    rw [dlog_transcript_eq]; exact h
  rw [Dlog.hashToChallenge, outputScalar, outputScalars, formRoInput_eq (by rw [h']; simp), Res.ok_bind, h', List.flatMap_cons,
    H2C.hashToScalar, show H2C.goInt ((1 : Int) * 48) = 48 from rfl,
    (read_expand (m := chunk (adCall (v :: l)).enc ++ rest.flatMap chunk) hv (k := (v :: l).length) (l := l) rfl _).2, Res.ok_bind,
    show H2C.makeSlice 1 = .ok () from rfl, Res.ok_bind]
  simp only [show (1 : Int).toNat = 1 from rfl, List.range_one, Res.mapM', List.length_append, List.length_replicate]
  rw [if_neg (by norm_num), zero_mul, List.drop_zero, List.take_of_length_le (by simp),
    (C11_scalar_wide_reduction _).1 (by simp)]
  rfl

theorem read_assoc (i j : NodeIndex) (pk : Pt) {v : UInt8} (hv : v ≠ 0) {l : Bytes} (hl : (v :: l).length ≤ 255) :
    createProofAssocData readPrim (v :: l) i j pk = .ok (List.replicate 32 v) := by
  obtain ⟨rest, h⟩ := first_call (ascii "ic-crypto-tecdsa-complaint-proof-assoc-data") (adCall (v :: l))
    [⟨ascii "receiver_index", tyInteger, toBE 8 (uint32Of i)⟩, ⟨ascii "dealer_index", tyInteger, toBE 8 (uint32Of j)⟩,
      ptCall "receiver_public_key" pk] ((adCall_wf_iff _).2 hl) (by
    intro x hx
    simp only [List.mem_cons, List.not_mem_nil, or_false] at hx
    rcases hx with rfl | rfl | rfl <;> (show nameKey (ascii _) < nameKey (ascii _); decide +kernel))
  have h' : (assocTranscript (v :: l) i j pk).inputs = (adCall (v :: l)).enc :: rest := h
  rw [createProofAssocData, outputByteString, formRoInput_eq (by rw [h']; simp), Res.ok_bind, h', List.flatMap_cons]
  exact (read_expand hv rfl _).1

theorem read_create {seed : Seed} {x : Fn} {g h : Pt} {v : UInt8} (hv : v ≠ 0) {l : Bytes} (hl : (v :: l).length ≤ 255) :
    ∃ p, Dlog.create readPrim seed x g h (v :: l) = .ok p := by
  obtain ⟨r, rng, hr, -⟩ := Protocol.random_flows read_flows (Protocol.onStream_rng readPrim seed)
  rw [Dlog.create, hr, Res.ok_bind]
  simp only [read_challenge _ _ _ hv hl]
  exact ⟨_, rfl⟩

theorem create_challenge {seed : Seed} {x : Fn} {g h : Pt} {v : UInt8} (hv : v ≠ 0) {l : Bytes} (hl : (v :: l).length ≤ 255)
    {p : Proof} (hp : Dlog.create readPrim seed x g h (v :: l) = .ok p) : p.challenge = readChallenge v := by
  rw [Dlog.create] at hp
  obtain ⟨r, -, hp⟩ := Res.bind_eq_ok.1 hp
  simp only [read_challenge _ _ _ hv hl] at hp
  cases hp
  rfl

theorem challenges_ne : readChallenge 1 ≠ readChallenge 2 := by
  rw [readChallenge, readChallenge]
  decide +kernel

end SeedReuse

open SeedReuse

/-- Two proofs of knowledge with one seed. -/
example (seed : Seed) (x : Fn) : ∃ p q, Dlog.create readPrim seed x G Point.H [1] = .ok p ∧
    Dlog.create readPrim seed x G Point.H [2] = .ok q ∧ p.common q = x := by
  obtain ⟨p, hp⟩ := read_create (seed := seed) (x := x) (g := G) (h := Point.H) (v := 1) (by decide) (l := []) (by simp)
  obtain ⟨q, hq⟩ := read_create (seed := seed) (x := x) (g := G) (h := Point.H) (v := 2) (by decide) (l := []) (by simp)
  refine ⟨p, q, hp, hq, (C170_proofs readPrim seed).1 x _ _ _ _ _ _ p q hp hq ?_⟩
  rw [create_challenge (by decide) (by simp) hp, create_challenge (by decide) (by simp) hq]
  exact challenges_ne

theorem SeedReuse.eph_challenge {k : CType} {seed : Seed} {v : UInt8} (hv : v ≠ 0) {d : NodeIndex} {b : Fn} {e w : Pt} {p : Proof}
    (h : computeEphKeyAndPop readPrim k seed [v] d = .ok (b, e, w, p)) : p.challenge = readChallenge v := by
  rw [computeEphKeyAndPop] at h
  obtain ⟨s, -, h⟩ := Res.bind_eq_ok.1 h
  obtain ⟨b', -, h⟩ := Res.bind_eq_ok.1 h
  obtain ⟨B, -, h⟩ := Res.bind_eq_ok.1 h
  obtain ⟨s', -, h⟩ := Res.bind_eq_ok.1 h
  obtain ⟨pf, hpf, h⟩ := Res.bind_eq_ok.1 h
  cases h
  exact create_challenge hv (by simp) hpf

/-- Two random dealings with one seed, for the associated data of two protocol runs: the third node's share of the first one is
public. -/
example (seed : Seed) (pks pks' : List Pt) (h : pks.length = 4) (h' : pks'.length = 3) : ∃ d d' c c' cm values mask,
    Dealings.new readPrim .random seed 2 pks 0 [1] = .ok d ∧ Dealings.new readPrim .random seed 1 pks' 3 [2] = .ok d' ∧
    d.ciphertext = some c ∧ d'.ciphertext = some c' ∧ d.commitment = some cm ∧
    cm.points = List.zipWith (fun v m : Fn => v • G + m • Point.H) values mask ∧ values.length = 2 ∧
    ∀ pk, pks[2]? = some pk → c.leak readPrim c' [1] 0 2 pk =
      .ok (.pedersen ((toPoly values).eval 3) ((toPoly mask).eval 3)) := by
  obtain ⟨d, hd⟩ := Protocol.new_flows read_flows .random seed 2 pks 0 [1] (by norm_num) (by omega)
  obtain ⟨d', hd'⟩ := Protocol.new_flows read_flows .random seed 1 pks' 3 [2] (by norm_num) (by omega)
  obtain ⟨c, hc⟩ := new_cipher hd (by simp)
  obtain ⟨c', hc'⟩ := new_cipher hd' (by simp)
  obtain ⟨_, _, _, _, e⟩ := new_eph hd hc
  obtain ⟨_, _, _, _, e'⟩ := new_eph hd' hc'
  obtain ⟨-, values, mask, cm, hcm, hl, -, hpts, hleak⟩ := C170_dealings readPrim seed .random .random 2 1 pks pks' 0 3 [1] [2] d d' c c'
    (by simp) hd hd' rfl hc hc' (by
      rw [eph_challenge (by decide) e, eph_challenge (by decide) e']
      exact challenges_ne)
  refine ⟨d, d', c, c', cm, values, mask, hd, hd', hc, hc', hcm, hpts, by omega, fun pk hpk => ?_⟩
  have := hleak 2 pk (by decide) hpk
  rwa [show place 2 = 3 by simp [place]] at this

/-- Node 3 complains about dealer 1 in two protocol runs, with one seed: its private key is public.  (The dealings have no
entry for the node, so that they cannot be opened.) -/
example (seed : Seed) (k : Fn) (m m' : Ciphertext Fn) (cm cm' : Commitment) (h : m.ctexts = []) (h' : m'.ctexts = []) :
    ∃ c c', generateComplaints readPrim [(1, ⟨some (.single m), some cm, none⟩)] [1] 3 k (k • G) seed = .ok [(1, c)] ∧
      generateComplaints readPrim [(1, ⟨some (.single m'), some cm', none⟩)] [2] 3 k (k • G) seed = .ok [(1, c')] ∧
      c.proof.common c'.proof = k := by
  obtain ⟨s, hs, -⟩ := C22_seed_derivation.2.2.1 readPrim seed (label 1)
  have run : ∀ (v : UInt8) (hv : v ≠ 0) (m : Ciphertext Fn) (cm : Commitment), m.ctexts = [] → ∃ c : Complaint,
      c.proof.challenge = readChallenge v ∧
      generateComplaints readPrim [(1, ⟨some (.single m), some cm, none⟩)] [v] 3 k (k • G) seed = .ok [(1, c)] := by
    intro v hv m cm hm
    have hv' : v :: List.replicate 31 v = List.replicate 32 v := rfl
    obtain ⟨p, hp⟩ := read_create (seed := s) (x := k) (g := G) (h := m.ephemeralKey) hv (l := List.replicate 31 v) (by simp)
    refine ⟨⟨p, k • m.ephemeralKey⟩, create_challenge hv (by simp) hp, ?_⟩
    rw [hv'] at hp
    have hop : ∃ e, openDealing readPrim ⟨some (.single m), some cm, none⟩ [v] 1 3 k (k • G) = .err e := by
      have hd : Single.decryptFromSharedSecret readPrim m [v] 1 3 (k • G) (Point.scalarMul m.ephemeralKey k) =
          .err "invalid index" := by
        rw [Single.decryptFromSharedSecret, if_pos (by rw [hm]; decide)]
      show ∃ e, Single.decryptAndCheck readPrim m cm [v] 1 3 k (k • G) = .err e
      rw [Single.decryptAndCheck, Single.decrypt, hd]
      rcases verifyPop_cases readPrim .single [v] 1 m.ephemeralKey m.popPublicKey m.popProof with h | h
      · rw [h]; exact ⟨_, rfl⟩
      · cases hx : verifyPop readPrim .single [v] 1 m.ephemeralKey m.popPublicKey m.popProof with
        | err e => exact ⟨_, rfl⟩
        | _ => rw [hx] at h; cases h
    obtain ⟨e, he⟩ := hop
    rw [generateComplaints, scan]
    simp only [he, hs, Res.ok_bind, newComplaint, nonNil, read_assoc 3 1 (k • G) hv (l := []) (by simp), Cipher.ephemeral, hp, scan]
    rfl
  obtain ⟨c, h1, h2⟩ := run 1 (by decide) m cm h
  obtain ⟨c', h1', h2'⟩ := run 2 (by decide) m' cm' h'
  exact ⟨c, c', h2, h2', (C170_complaints readPrim seed k _ _ _ _ _ 1 c h2 (by simp)).1 _ _ _ _ _ c' h2' (by simp)
    (by rw [h1, h1']; exact challenges_ne)⟩

end Verif
