import Verif.Lemmas.Mega

/-! C49–C53, C77–C82: multi-recipient encryption (MEGa). -/

set_option autoImplicit false

namespace Verif

open Mega RoCall Zk

/-! ### C49, C50: decryption inverts encryption -/

/-- C49: the ciphertext passes `CheckValidity` for the number of recipients, and recipient `i` (any node index inside
the list) gets plaintext `i`. -/
theorem C49_single_roundtrip (P : Prim) (seed : Seed) (plaintexts keys : List Fn) (d : NodeIndex) (ad : Bytes)
    (ct : Ciphertext Fn) (h : Single.encrypt P seed plaintexts (keys.map Point.mulByG) d ad = .ok ct) :
    Single.checkValidity P ct keys.length ad d = .ok () ∧
    ∀ (i : NodeIndex) (k m : Fn), 0 ≤ i.toInt → keys[i.toInt.toNat]? = some k → plaintexts[i.toInt.toNat]? = some m →
      Single.decrypt P ct ad d i k (Point.mulByG k) = .ok m := by
  rw [Single.encrypt] at h
  obtain ⟨⟨⟩, hc, h⟩ := Res.bind_eq_ok.1 h
  obtain ⟨hlen, -⟩ := (checkPlaintexts_ok_iff _ _).1 hc
  obtain ⟨⟨beta, v, pub, pf⟩, he, h⟩ := Res.bind_eq_ok.1 h
  dsimp only at h
  obtain ⟨cs, hcs, h⟩ := Res.bind_eq_ok.1 h
  cases h
  obtain ⟨rfl, hpop⟩ := computeEphKeyAndPop_spec he
  obtain ⟨cs', hcs', hl, hent⟩ := Single.encryptLoop_spec P d ad beta (beta • G) 0 _ _ hlen
  rw [hcs] at hcs'
  cases hcs'
  rw [List.length_map] at hl
  refine ⟨by rw [Single.checkValidity, if_neg (by simp [hl])]; exact hpop, fun i k m hi hk hm => ?_⟩
  obtain ⟨h0, hh, hcj⟩ := hent i.toInt.toNat (Point.mulByG k) m (by rw [List.getElem?_map, hk]; rfl) hm
  rw [Nat.zero_add, ofNat_toInt hi] at hh
  have hlt : i.toInt.toNat < cs.length := by
    rw [hl]; exact (List.getElem?_eq_some_iff.1 hk).1
  have hshared : Point.scalarMul (beta • G) k = beta • Point.mulByG k := by
    show k • beta • G = beta • k • G
    rw [smul_smul, smul_smul, mul_comm]
  have hidx : index cs i.toInt = .ok (h0 + m) := by
    have := index_ok hcj
    rwa [Int.toNat_of_nonneg hi] at this
  simp only [Single.decrypt, hpop, Res.ok_bind, Single.decryptFromSharedSecret, hshared, hh, hidx, index_zero]
  rw [if_neg (by omega)]
  simp

/-- C50. -/
theorem C50_pair_roundtrip (P : Prim) (seed : Seed) (plaintexts : List (Fn × Fn)) (keys : List Fn) (d : NodeIndex)
    (ad : Bytes) (ct : Ciphertext (Fn × Fn))
    (h : Pair.encrypt P seed plaintexts (keys.map Point.mulByG) d ad = .ok ct) :
    Pair.checkValidity P ct keys.length ad d = .ok () ∧
    ∀ (i : NodeIndex) (k : Fn) (m : Fn × Fn), 0 ≤ i.toInt → keys[i.toInt.toNat]? = some k →
      plaintexts[i.toInt.toNat]? = some m → Pair.decrypt P ct ad d i k (Point.mulByG k) = .ok m := by
  rw [Pair.encrypt] at h
  obtain ⟨⟨⟩, hc, h⟩ := Res.bind_eq_ok.1 h
  obtain ⟨hlen, -⟩ := (checkPlaintexts_ok_iff _ _).1 hc
  obtain ⟨⟨beta, v, pub, pf⟩, he, h⟩ := Res.bind_eq_ok.1 h
  dsimp only at h
  obtain ⟨cs, hcs, h⟩ := Res.bind_eq_ok.1 h
  cases h
  obtain ⟨rfl, hpop⟩ := computeEphKeyAndPop_spec he
  obtain ⟨cs', hcs', hl, hent⟩ := Pair.encryptLoop_spec P d ad beta (beta • G) 0 _ _ hlen
  rw [hcs] at hcs'
  cases hcs'
  rw [List.length_map] at hl
  refine ⟨by rw [Pair.checkValidity, if_neg (by simp [hl])]; exact hpop, fun i k m hi hk hm => ?_⟩
  obtain ⟨h0, h1, hh, hcj⟩ := hent i.toInt.toNat (Point.mulByG k) m (by rw [List.getElem?_map, hk]; rfl) hm
  rw [Nat.zero_add, ofNat_toInt hi] at hh
  have hlt : i.toInt.toNat < cs.length := by
    rw [hl]; exact (List.getElem?_eq_some_iff.1 hk).1
  have hshared : Point.scalarMul (beta • G) k = beta • Point.mulByG k := by
    show k • beta • G = beta • k • G
    rw [smul_smul, smul_smul, mul_comm]
  have hidx : index cs i.toInt = .ok (h0 + m.1, h1 + m.2) := by
    have := index_ok hcj
    rwa [Int.toNat_of_nonneg hi] at this
  simp only [Pair.decrypt, hpop, Res.ok_bind, Pair.decryptFromSharedSecret, hshared, hh, hidx, index_zero, index_one]
  rw [if_neg (by omega)]
  simp

/-- C49, encryption does return: for equally many (at least one) plaintexts and keys, `Encrypt` returns a ciphertext
as soon as the two rejection samplings of the derived generators return, and otherwise does not return at all; it never
fails or panics. -/
theorem C49_encrypt_returns (P : Prim) (seed : Seed) (pks : List Pt) (d : NodeIndex) (ad : Bytes) (hne : pks ≠ [])
    (ms : List Fn) (hl : ms.length = pks.length) :
    ((∃ ct, Single.encrypt P seed ms pks d ad = .ok ct) ∨ Single.encrypt P seed ms pks d ad = .diverge) ∧
    (∀ s s' x y r r', seed.derive P CType.single.ephemeralKeyDst = .ok s →
      seed.derive P CType.single.popProofDst = .ok s' → Scalar.random (s.rng P) = .ok (x, r) →
      Scalar.random (s'.rng P) = .ok (y, r') → ∃ ct, Single.encrypt P seed ms pks d ad = .ok ct) := by
  have hc : checkPlaintexts ms pks = .ok () :=
    (checkPlaintexts_ok_iff _ _).2 ⟨hl, fun e => hne (List.length_eq_zero_iff.1 (by rw [← hl, e]; rfl))⟩
  have hok : ∀ z, computeEphKeyAndPop P .single seed ad d = .ok z → ∃ ct, Single.encrypt P seed ms pks d ad = .ok ct := by
    rintro ⟨beta, v, pub, pf⟩ hz
    obtain ⟨cs, hcs, -⟩ := Single.encryptLoop_spec P d ad beta v 0 pks ms hl
    exact ⟨⟨v, pub, pf, cs⟩, by simp only [Single.encrypt, hc, Res.ok_bind, hz, hcs]⟩
  refine ⟨?_, fun s s' x y r r' hs hs' hx hy => ?_⟩
  · rcases computeEphKeyAndPop_total P .single seed ad d with ⟨z, hz⟩ | hz
    · exact Or.inl (hok z hz)
    · right; simp only [Single.encrypt, hc, Res.ok_bind, hz, Res.diverge_bind]
  · obtain ⟨z, hz⟩ := computeEphKeyAndPop_ok ad d hs hs' hx hy
    exact hok z hz

/-- C50, encryption does return: for equally many (at least one) plaintexts and keys, `Encrypt` returns a ciphertext
as soon as the two rejection samplings of the derived generators return, and otherwise does not return at all; it never
fails or panics. -/
theorem C50_encrypt_returns (P : Prim) (seed : Seed) (pks : List Pt) (d : NodeIndex) (ad : Bytes) (hne : pks ≠ [])
    (ms : List (Fn × Fn)) (hl : ms.length = pks.length) :
    ((∃ ct, Pair.encrypt P seed ms pks d ad = .ok ct) ∨ Pair.encrypt P seed ms pks d ad = .diverge) ∧
    (∀ s s' x y r r', seed.derive P CType.pairs.ephemeralKeyDst = .ok s →
      seed.derive P CType.pairs.popProofDst = .ok s' → Scalar.random (s.rng P) = .ok (x, r) →
      Scalar.random (s'.rng P) = .ok (y, r') → ∃ ct, Pair.encrypt P seed ms pks d ad = .ok ct) := by
  have hc : checkPlaintexts ms pks = .ok () :=
    (checkPlaintexts_ok_iff _ _).2 ⟨hl, fun e => hne (List.length_eq_zero_iff.1 (by rw [← hl, e]; rfl))⟩
  have hok : ∀ z, computeEphKeyAndPop P .pairs seed ad d = .ok z → ∃ ct, Pair.encrypt P seed ms pks d ad = .ok ct := by
    rintro ⟨beta, v, pub, pf⟩ hz
    obtain ⟨cs, hcs, -⟩ := Pair.encryptLoop_spec P d ad beta v 0 pks ms hl
    exact ⟨⟨v, pub, pf, cs⟩, by simp only [Pair.encrypt, hc, Res.ok_bind, hz, hcs]⟩
  refine ⟨?_, fun s s' x y r r' hs hs' hx hy => ?_⟩
  · rcases computeEphKeyAndPop_total P .pairs seed ad d with ⟨z, hz⟩ | hz
    · exact Or.inl (hok z hz)
    · right; simp only [Pair.encrypt, hc, Res.ok_bind, hz, Res.diverge_bind]
  · obtain ⟨z, hz⟩ := computeEphKeyAndPop_ok ad d hs hs' hx hy
    exact hok z hz

/-- Encryptions exist for every list of plaintexts and keys (with a generator whose sampling accepts). -/
theorem encrypt_nonvacuous (seed : Seed) (pks : List Pt) (d : NodeIndex) (ad : Bytes) (hne : pks ≠ []) :
    (∀ ms : List Fn, ms.length = pks.length → ∃ ct, Single.encrypt zeroPrim seed ms pks d ad = .ok ct) ∧
    (∀ ms : List (Fn × Fn), ms.length = pks.length → ∃ ct, Pair.encrypt zeroPrim seed ms pks d ad = .ok ct) := by
  constructor
  · intro ms hl
    obtain ⟨s, hs, -⟩ := C22_seed_derivation.2.2.1 zeroPrim seed CType.single.ephemeralKeyDst
    obtain ⟨s', hs', -⟩ := C22_seed_derivation.2.2.1 zeroPrim seed CType.single.popProofDst
    exact (C49_encrypt_returns zeroPrim seed pks d ad hne ms hl).2 s s' _ _ _ _ hs hs' (zeroPrim_random s) (zeroPrim_random s')
  · intro ms hl
    obtain ⟨s, hs, -⟩ := C22_seed_derivation.2.2.1 zeroPrim seed CType.pairs.ephemeralKeyDst
    obtain ⟨s', hs', -⟩ := C22_seed_derivation.2.2.1 zeroPrim seed CType.pairs.popProofDst
    exact (C50_encrypt_returns zeroPrim seed pks d ad hne ms hl).2 s s' _ _ _ _ hs hs' (zeroPrim_random s) (zeroPrim_random s')

/-! ### C51: indices outside the ciphertext -/

/-- C51, the part that holds: an index that is too large gives an error, for any ciphertext, honest or not. -/
theorem C51_too_large_partial (P : Prim) (ad : Bytes) (d i : NodeIndex) (k : Fn) (pk shared : Pt) :
    (∀ ct : Ciphertext Fn, (ct.ctexts.length : Int) ≤ i.toInt →
      (Single.decryptFromSharedSecret P ct ad d i pk shared).isErr = true ∧
      (Single.decrypt P ct ad d i k pk).isErr = true) ∧
    (∀ ct : Ciphertext (Fn × Fn), (ct.ctexts.length : Int) ≤ i.toInt →
      (Pair.decryptFromSharedSecret P ct ad d i pk shared).isErr = true ∧
      (Pair.decrypt P ct ad d i k pk).isErr = true) := by
  refine ⟨fun ct h => ⟨by rw [Single.decryptFromSharedSecret, if_pos h]; rfl, ?_⟩,
    fun ct h => ⟨by rw [Pair.decryptFromSharedSecret, if_pos h]; rfl, ?_⟩⟩
  · rcases verifyPop_cases P .single ad d ct.ephemeralKey ct.popPublicKey ct.popProof with hv | hv
    · rw [Single.decrypt, hv, Res.ok_bind, Single.decryptFromSharedSecret, if_pos h]; rfl
    · obtain ⟨e, he⟩ := Res.isErr_iff.1 hv
      rw [Single.decrypt, he]; rfl
  · rcases verifyPop_cases P .pairs ad d ct.ephemeralKey ct.popPublicKey ct.popProof with hv | hv
    · rw [Pair.decrypt, hv, Res.ok_bind, Pair.decryptFromSharedSecret, if_pos h]; rfl
    · obtain ⟨e, he⟩ := Res.isErr_iff.1 hv
      rw [Pair.decrypt, he]; rfl

/-- C51 fails for every negative index: decrypting any ciphertext whose proof of possession verifies panics. -/
theorem C51_negative_panics (P : Prim) (ad : Bytes) (d i : NodeIndex) (k : Fn) (pk : Pt) (hi : i.toInt < 0) :
    (∀ ct : Ciphertext Fn, Single.checkValidity P ct ct.ctexts.length ad d = .ok () →
      (Single.decrypt P ct ad d i k pk).isPanic = true) ∧
    (∀ ct : Ciphertext (Fn × Fn), Pair.checkValidity P ct ct.ctexts.length ad d = .ok () →
      (Pair.decrypt P ct ad d i k pk).isPanic = true) := by
  constructor
  · intro ct hv
    rw [Single.checkValidity, if_neg (by simp)] at hv
    obtain ⟨h0, hh⟩ := single_pad P d i ad pk ct.ephemeralKey (Point.scalarMul ct.ephemeralKey k)
    rw [Single.decrypt, hv, Res.ok_bind, Single.decryptFromSharedSecret, if_neg (by omega), hh, Res.ok_bind, index,
      if_pos hi]
    rfl
  · intro ct hv
    rw [Pair.checkValidity, if_neg (by simp)] at hv
    obtain ⟨h0, h1, hh⟩ := pair_pad P d i ad pk ct.ephemeralKey (Point.scalarMul ct.ephemeralKey k)
    rw [Pair.decrypt, hv, Res.ok_bind, Pair.decryptFromSharedSecret, if_neg (by omega), hh, Res.ok_bind, index,
      if_pos hi]
    rfl

/-- C51 as stated is false, already for an honest one-recipient ciphertext and index -1. -/
theorem C51_false : ∃ (P : Prim) (ct : Ciphertext Fn) (ad : Bytes) (d i : NodeIndex) (k : Fn),
    Single.encrypt P ⟨[]⟩ [7] [Point.mulByG k] d ad = .ok ct ∧ i.toInt = -1 ∧
    (Single.decrypt P ct ad d i k (Point.mulByG k)).isPanic = true := by
  obtain ⟨ct, hct⟩ := (encrypt_nonvacuous ⟨[]⟩ [Point.mulByG 3] 0 [] (by simp)).1 [7] rfl
  have hv := (C49_single_roundtrip zeroPrim ⟨[]⟩ [7] [3] 0 [] ct hct).1
  have hlen : ((ct.ctexts.length : Nat) : Int) = 1 := by
    by_contra hne
    rw [Single.checkValidity, if_pos (by simpa using hne)] at hv
    cases hv
  refine ⟨zeroPrim, ct, [], 0, -1, 3, hct, by decide, ?_⟩
  refine (C51_negative_panics zeroPrim [] 0 (-1) 3 _ (by decide)).1 ct ?_
  rw [hlen]; exact hv

/-! ### C52: input validation -/

/-- C52, the part that holds: different counts are errors; for equal counts of at least one the call never fails or
panics and a returned ciphertext has one entry per recipient. -/
theorem C52_encrypt_validation_partial (P : Prim) (seed : Seed) (pks : List Pt) (d : NodeIndex) (ad : Bytes) :
    (∀ ms : List Fn,
      (ms.length ≠ pks.length → (Single.encrypt P seed ms pks d ad).isErr = true) ∧
      (ms.length = pks.length → pks ≠ [] → (Single.encrypt P seed ms pks d ad).isErr = false ∧
        (Single.encrypt P seed ms pks d ad).isPanic = false) ∧
      (∀ ct, Single.encrypt P seed ms pks d ad = .ok ct → ct.ctexts.length = pks.length)) ∧
    (∀ ms : List (Fn × Fn),
      (ms.length ≠ pks.length → (Pair.encrypt P seed ms pks d ad).isErr = true) ∧
      (ms.length = pks.length → pks ≠ [] → (Pair.encrypt P seed ms pks d ad).isErr = false ∧
        (Pair.encrypt P seed ms pks d ad).isPanic = false) ∧
      (∀ ct, Pair.encrypt P seed ms pks d ad = .ok ct → ct.ctexts.length = pks.length)) := by
  constructor
  · intro ms
    refine ⟨fun h => ?_, fun h hne => ?_, fun ct h => ?_⟩
    · obtain ⟨e, he⟩ := Res.isErr_iff.1 (checkPlaintexts_isErr ms pks (fun hh => h hh.1))
      rw [Single.encrypt, he]; rfl
    · rcases (C49_encrypt_returns P seed pks d ad hne ms h).1 with ⟨ct, hc⟩ | hc <;> rw [hc] <;> exact ⟨rfl, rfl⟩
    · rw [Single.encrypt] at h
      obtain ⟨⟨⟩, hc, h⟩ := Res.bind_eq_ok.1 h
      obtain ⟨⟨beta, v, pub, pf⟩, -, h⟩ := Res.bind_eq_ok.1 h
      dsimp only at h
      obtain ⟨cs, hcs, h⟩ := Res.bind_eq_ok.1 h
      cases h
      obtain ⟨cs', hcs', hl, -⟩ := Single.encryptLoop_spec P d ad beta v 0 pks ms ((checkPlaintexts_ok_iff _ _).1 hc).1
      rw [hcs] at hcs'; cases hcs'; exact hl
  · intro ms
    refine ⟨fun h => ?_, fun h hne => ?_, fun ct h => ?_⟩
    · obtain ⟨e, he⟩ := Res.isErr_iff.1 (checkPlaintexts_isErr ms pks (fun hh => h hh.1))
      rw [Pair.encrypt, he]; rfl
    · rcases (C50_encrypt_returns P seed pks d ad hne ms h).1 with ⟨ct, hc⟩ | hc <;> rw [hc] <;> exact ⟨rfl, rfl⟩
    · rw [Pair.encrypt] at h
      obtain ⟨⟨⟩, hc, h⟩ := Res.bind_eq_ok.1 h
      obtain ⟨⟨beta, v, pub, pf⟩, -, h⟩ := Res.bind_eq_ok.1 h
      dsimp only at h
      obtain ⟨cs, hcs, h⟩ := Res.bind_eq_ok.1 h
      cases h
      obtain ⟨cs', hcs', hl, -⟩ := Pair.encryptLoop_spec P d ad beta v 0 pks ms ((checkPlaintexts_ok_iff _ _).1 hc).1
      rw [hcs] at hcs'; cases hcs'; exact hl

/-- C52 as stated is false for no recipients: the counts agree, yet encryption fails. -/
theorem C52_false (P : Prim) (seed : Seed) (d : NodeIndex) (ad : Bytes) :
    (Single.encrypt P seed [] [] d ad).isErr = true ∧ (Pair.encrypt P seed [] [] d ad).isErr = true := ⟨rfl, rfl⟩

/-- C52, `CheckValidity` refuses every other number of recipients. -/
theorem C52_check_validity_count (P : Prim) (ad : Bytes) (d : NodeIndex) (expected : Int) :
    (∀ ct : Ciphertext Fn, Single.checkValidity P ct expected ad d = .ok () → (ct.ctexts.length : Int) = expected) ∧
    (∀ ct : Ciphertext (Fn × Fn), Pair.checkValidity P ct expected ad d = .ok () →
      (ct.ctexts.length : Int) = expected) := by
  constructor <;> intro ct h <;> by_contra hne
  · rw [Single.checkValidity, if_pos hne] at h; cases h
  · rw [Pair.checkValidity, if_pos hne] at h; cases h

/-! ### C53: forged proofs of possession -/

/-- C53: let `B` be the base that the code derives.  If no single scalar takes `(G, B)` to the ephemeral and the PoP key,
there is a function of the commitments alone (fixed by `B` and the two keys, whatever the hash function, associated
data, dealer and proof) whose value the challenge hash must hit for `VerifyPop` to accept. -/
theorem C53_forged_pop (B eph pub : Pt) (hfalse : ¬ ∃ x : Fn, eph = x • G ∧ pub = x • B) :
    ∃ bad : Pt → Pt → Fn, ∀ (P : Prim) (t : CType) (ad : Bytes) (d : NodeIndex) (pf : Zk.Proof),
      computePopBase P t ad d eph = .ok B → verifyPop P t ad d eph pub pf = .ok () →
      ∃ c1 c2, pf.challenge = bad c1 c2 ∧
        Dlog.hashToChallenge P (Dlog.fromCommitments G B eph pub) c1 c2 ad = .ok (bad c1 c2) := by
  obtain ⟨bad, h⟩ := C48_dlog_soundness G B eph pub hfalse
  refine ⟨bad, fun P t ad d pf hB hv => h P pf ad ?_⟩
  rwa [verifyPop, hB, Res.ok_bind] at hv

/-- C53, the base always exists, so the theorem covers every call of `VerifyPop`. -/
theorem C53_base_exists (P : Prim) (t : CType) (ad : Bytes) (d : NodeIndex) (eph : Pt) :
    ∃ B, computePopBase P t ad d eph = .ok B := computePopBase_ok P t ad d eph

/-- Forgeries exist for every base. -/
example (B : Pt) : ∃ eph pub : Pt, ¬ ∃ x : Fn, eph = x • G ∧ pub = x • B := by
  refine ⟨0, G, ?_⟩
  rintro ⟨x, h1, h2⟩
  rw [eq_comm, smul_eq_zero_iff_left G_ne_zero] at h1
  rw [h1] at h2
  exact G_ne_zero (h2.trans (zero_smul Fn B))

/-! ### C77: pads are bound to their context -/

/-- C77, the part that holds: two pad derivations that differ in ciphertext kind, dealer index mod 2^32, recipient index
mod 2^32, a key, the shared secret, or (if both have at most 255 bytes) associated data hash different inputs. -/
theorem C77_pad_binding_partial (t t' : CType) (d r d' r' : NodeIndex) (ad ad' : Bytes) (pk eph sh pk' eph' sh' : Pt)
    (hne : ¬ (t = t' ∧ d.toNat % 2 ^ 32 = d'.toNat % 2 ^ 32 ∧ r.toNat % 2 ^ 32 = r'.toNat % 2 ^ 32 ∧ pk = pk' ∧
      eph = eph' ∧ sh = sh' ∧ (ad.length ≤ 255 → ad'.length ≤ 255 → ad = ad'))) :
    Ro.Disjoint (padTranscript t d r ad pk eph sh) (padTranscript t' d' r' ad' pk' eph' sh') := by
  rw [padTranscript_eq, padTranscript_eq]
  apply Ro.disjoint_run
  rintro ⟨hds, hp⟩
  have hn := (accepted_spec (padCalls d' r' ad' pk' eph' sh')).2
  obtain ⟨m1, m2, m3, m4, m5, m6⟩ := mem_pad (d := d) (r := r) (ad := ad) (pk := pk) (eph := eph) (shared := sh)
  obtain ⟨n1, n2, n3, n4, n5, n6⟩ := mem_pad (d := d') (r := r') (ad := ad') (pk := pk') (eph := eph') (shared := sh')
  refine hne ⟨?_, ?_, ?_, ptCall_inj (call_eq_of_perm hp hn m3 n3 rfl), ptCall_inj (call_eq_of_perm hp hn m4 n4 rfl),
    ptCall_inj (call_eq_of_perm hp hn m5 n5 rfl), fun h h' => ?_⟩
  · revert hds; cases t <;> cases t' <;> first | exact fun _ => rfl | (intro h; exact absurd h (by decide +kernel))
  · rw [← uint32Of_eq, ← uint32Of_eq]; exact idxCall_inj (call_eq_of_perm hp hn m1 n1 rfl)
  · rw [← uint32Of_eq, ← uint32Of_eq]; exact idxCall_inj (call_eq_of_perm hp hn m2 n2 rfl)
  · have := call_eq_of_perm hp hn (m6 h) (n6 h') rfl
    simpa only [adCall, RoCall.mk.injEq, true_and] using this

/-- C77 as stated is false: dealer and recipient indices are cut to 32 bits, and associated data above 255 bytes is
dropped, so such contexts get the same pads whatever the hash function. -/
theorem C77_false :
    (∃ d d' : NodeIndex, d ≠ d' ∧ ∀ P t r ad pk eph sh,
      hashToScalars P t d r ad pk eph sh = hashToScalars P t d' r ad pk eph sh) ∧
    (∃ r r' : NodeIndex, r ≠ r' ∧ ∀ P t d ad pk eph sh,
      hashToScalars P t d r ad pk eph sh = hashToScalars P t d r' ad pk eph sh) ∧
    (∀ ad ad' : Bytes, 255 < ad.length → 255 < ad'.length → ∀ P t d r pk eph sh,
      hashToScalars P t d r ad pk eph sh = hashToScalars P t d r ad' pk eph sh) := by
  have hcut : uint32Of 1 = uint32Of 4294967297 := by decide
  refine ⟨⟨1, 4294967297, by decide, fun P t r ad pk eph sh => ?_⟩, ⟨1, 4294967297, by decide, fun P t d ad pk eph sh => ?_⟩,
    fun ad ad' h h' P t d r pk eph sh => ?_⟩
  · simp only [hashToScalars, padTranscript, hcut]
  · simp only [hashToScalars, padTranscript, hcut]
  · simp only [hashToScalars, padTranscript_eq]
    refine (C24_outputs_depend_on_set _ _ _ ?_ P).2.1 _
    have key : ∀ a : Bytes, 255 < a.length → accepted (padCalls d r a pk eph sh) =
        [idxCall "dealer_index" d, idxCall "recipient_index" r, ptCall "public_key" pk, ptCall "ephemeral_key" eph,
          ptCall "shared_secret" sh] := by
      intro a ha
      have hna : ¬ (adCall a).WellFormed := fun hw => by have := (adCall_wf_iff a).1 hw; omega
      rw [padCalls_accepted, padCalls]
      rw [List.filter_cons_of_pos (by simpa using idxCall_wf _ _ (by decide +kernel)),
        List.filter_cons_of_pos (by simpa using idxCall_wf _ _ (by decide +kernel)),
        List.filter_cons_of_neg (by simpa using hna),
        List.filter_cons_of_pos (by simpa using ptCall_wf _ _ (by decide +kernel)),
        List.filter_cons_of_pos (by simpa using ptCall_wf _ _ (by decide +kernel)),
        List.filter_cons_of_pos (by simpa using ptCall_wf _ _ (by decide +kernel)), List.filter_nil]
    rw [key ad h, key ad' h']

/-! ### C78: the base of the proof of possession is bound to its context -/

/-- C78, the part that holds. -/
theorem C78_pop_base_binding_partial (t t' : CType) (d d' : NodeIndex) (ad ad' : Bytes) (eph eph' : Pt)
    (hne : ¬ (t = t' ∧ d.toNat % 2 ^ 32 = d'.toNat % 2 ^ 32 ∧ eph = eph' ∧
      (ad.length ≤ 255 → ad'.length ≤ 255 → ad = ad'))) :
    Ro.Disjoint (popTranscript t ad d eph) (popTranscript t' ad' d' eph') := by
  rw [popTranscript_eq, popTranscript_eq]
  apply Ro.disjoint_run
  rintro ⟨hds, hp⟩
  have hn := (accepted_spec (popCalls ad' d' eph')).2
  obtain ⟨m1, m2, m3⟩ := mem_pop (d := d) (ad := ad) (eph := eph)
  obtain ⟨n1, n2, n3⟩ := mem_pop (d := d') (ad := ad') (eph := eph')
  refine hne ⟨?_, ?_, ptCall_inj (call_eq_of_perm hp hn m2 n2 rfl), fun h h' => ?_⟩
  · revert hds; cases t <;> cases t' <;> first | exact fun _ => rfl | (intro h; exact absurd h (by decide +kernel))
  · rw [← uint32Of_eq, ← uint32Of_eq]; exact idxCall_inj (call_eq_of_perm hp hn m1 n1 rfl)
  · have := call_eq_of_perm hp hn (m3 h) (n3 h') rfl
    simpa only [adCall, RoCall.mk.injEq, true_and] using this

/-- C78 as stated is false: a proof of possession made for one dealer is accepted for every dealer whose index agrees
with it modulo 2^32. -/
theorem C78_false : ∃ d d' : NodeIndex, d ≠ d' ∧ ∀ P t ad eph pub pf,
    verifyPop P t ad d eph pub pf = verifyPop P t ad d' eph pub pf := by
  have hcut : uint32Of 1 = uint32Of 4294967297 := by decide
  exact ⟨1, 4294967297, by decide, fun P t ad eph pub pf => by
    simp only [verifyPop, computePopBase, popTranscript, hcut]⟩

/-! ### C79: DecryptAndCheck -/

/-- C79: `DecryptAndCheck` returns exactly the decrypted opening, and only when it matches the commitment at the
receiver's index; a returned opening always has the commitment's kind. -/
theorem C79_decrypt_and_check (P : Prim) (c : Commitment) (ad : Bytes) (d i : NodeIndex) (k : Fn) (pk : Pt) (o : Opening) :
    (∀ ct : Ciphertext Fn, Single.decryptAndCheck P ct c ad d i k pk = .ok o ↔
      ∃ s, o = .simple s ∧ c.kind = .simple ∧ Single.decrypt P ct ad d i k pk = .ok s ∧
        c.evaluateAt i = .ok (Point.mulByG s)) ∧
    (∀ ct : Ciphertext (Fn × Fn), Pair.decryptAndCheck P ct c ad d i k pk = .ok o ↔
      ∃ s m, o = .pedersen s m ∧ c.kind = .pedersen ∧ Pair.decrypt P ct ad d i k pk = .ok (s, m) ∧
        c.evaluateAt i = .ok (Point.pedersen s m)) := by
  constructor
  · intro ct
    constructor
    · intro h
      rw [Single.decryptAndCheck] at h
      obtain ⟨s, hs, h⟩ := Res.bind_eq_ok.1 h
      obtain ⟨b, hb, h⟩ := Res.bind_eq_ok.1 h
      cases hk : c.kind
      · simp only [Commitment.checkOpening, hk] at hb
        obtain ⟨e, he, hb⟩ := Res.bind_eq_ok.1 hb
        cases hb
        split_ifs at h with hcond
        cases h
        exact ⟨s, rfl, rfl, hs, by rw [he, of_decide_eq_true hcond]⟩
      · simp [Commitment.checkOpening, hk] at hb
    · rintro ⟨s, rfl, hk, hs, he⟩
      simp [Single.decryptAndCheck, hs, Commitment.checkOpening, hk, he]
  · intro ct
    constructor
    · intro h
      rw [Pair.decryptAndCheck] at h
      obtain ⟨⟨s, m⟩, hs, h⟩ := Res.bind_eq_ok.1 h
      obtain ⟨b, hb, h⟩ := Res.bind_eq_ok.1 h
      cases hk : c.kind
      · simp [Commitment.checkOpening, hk] at hb
      · simp only [Commitment.checkOpening, hk] at hb
        obtain ⟨e, he, hb⟩ := Res.bind_eq_ok.1 hb
        cases hb
        split_ifs at h with hcond
        cases h
        exact ⟨s, m, rfl, rfl, hs, by rw [he, of_decide_eq_true hcond]⟩
    · rintro ⟨s, m, rfl, hk, hs, he⟩
      simp [Pair.decryptAndCheck, hs, Commitment.checkOpening, hk, he]

/-! ### C80 -/

/-- C80: `VerifyIs` accepts exactly the ciphertext's own kind on K256. -/
theorem C80_verify_is (t : CType) (curve : CurveType) :
    (∀ ct : Ciphertext Fn, Single.verifyIs ct t curve = .ok () ↔ t = .single ∧ curve = K256) ∧
    (∀ ct : Ciphertext (Fn × Fn), Pair.verifyIs ct t curve = .ok () ↔ t = .pairs ∧ curve = K256) := by
  constructor
  · intro ct
    rw [Single.verifyIs]
    split_ifs with h1 h2
    · simp [Ne.symm h1]
    · simp [Ne.symm h2]
    · simp [(not_not.1 h1).symm, (not_not.1 h2).symm]
  · intro ct
    rw [Pair.verifyIs]
    split_ifs with h1 h2
    · simp [Ne.symm h1]
    · simp [Ne.symm h2]
    · simp [(not_not.1 h1).symm, (not_not.1 h2).symm]

/-! ### C81, C82: keys -/

/-- C81: generated key pairs match, and both halves survive serialisation. -/
theorem C81_keys (P : Prim) (seed : Seed) :
    (∀ pk sk, genKeypair P seed = .ok (pk, sk) → pk = sk • G) ∧
    ((∃ x, genKeypair P seed = .ok x) ∨ genKeypair P seed = .diverge) ∧
    (∀ pk : Pt, ∃ b, Point.serializeRes pk = .ok b ∧ publicKeyDeserialize K256 b = .ok (some (Point.raw pk)) ∧
      verifyPublicKey K256 b = .ok ()) ∧
    (∀ sk : Fn, privateKeyDeserialize K256 (Scalar.serialize sk) = .ok (some sk)) := by
  have hr := C21_random_scalar (seed.rng P)
  refine ⟨fun pk sk h => ?_, ?_, fun pk => ?_, fun sk => (C01_scalar_roundtrip.1 sk).2.2⟩
  · rw [genKeypair] at h
    obtain ⟨⟨s, r⟩, -, h⟩ := Res.bind_eq_ok.1 h
    simp only [Res.ok.injEq, Prod.mk.injEq] at h
    obtain ⟨rfl, rfl⟩ := h
    rfl
  · rw [genKeypair]
    rcases h : Scalar.random (seed.rng P) with ⟨s, r⟩ | e | e | _
    · exact Or.inl ⟨_, rfl⟩
    · rw [h] at hr; simp at hr
    · rw [h] at hr; simp at hr
    · exact Or.inr rfl
  · obtain ⟨b, h1, -, h3⟩ := C04_point_roundtrip.1 pk
    exact ⟨b, h1, h3, by simp only [verifyPublicKey, publicKeyDeserialize, h3, Res.ok_bind]⟩

/-- Generation returns for some generator. -/
example : genKeypair zeroPrim ⟨[]⟩ = .ok (Point.mulByG 0, 0) := by
  rw [genKeypair, zeroPrim_random]; rfl

/-- C82 is false: `VerifyMegaPublicKey` accepts the identity, accepts a string whose `x` is on no curve point (as the
identity), and with the identity as public key the shared secret is the identity whatever the ephemeral key. -/
theorem C82_false :
    verifyPublicKey K256 (List.replicate 33 0) = .ok () ∧
    (∃ b : Bytes, b.length = 33 ∧ (∀ P : Pt, Point.serialize P ≠ b) ∧ verifyPublicKey K256 b = .ok ()) ∧
    (∀ beta : Fn, Point.scalarMul 0 beta = 0) := by
  refine ⟨by decide +kernel, ⟨2 :: toBE 32 5, by simp, fun P h => ?_, by decide +kernel⟩, fun beta => smul_zero beta⟩
  have h1 : Point.deserialize K256 (2 :: toBE 32 5) = .ok (some (Point.raw 0)) := by decide +kernel
  obtain ⟨b, hb, -, hd⟩ := C04_point_roundtrip.1 P
  rw [Point.serializeRes_eq, h] at hb
  cases hb
  rw [h1] at hd
  have hP : P = 0 := by
    have := congrArg (fun r => match r with | Res.ok (some x) => Point.ofRaw? x | _ => none) hd
    simp only [Point.ofRaw?_raw, Option.some.injEq] at this
    exact this.symm
  subst hP
  exact absurd h (by decide +kernel)

/-- C82, the part that holds: what is accepted decodes to a point of the curve. -/
theorem C82_public_key_on_curve_partial (b : Bytes) (r : RawPt) (h : publicKeyDeserialize K256 b = .ok (some r)) :
    b.length = 33 ∧ ∃ P : Pt, r = Point.raw P := (C05_canonical_decoding_partial b).1 r h

end Verif
