import Verif.Spec.Context
import Verif.Props.Binding
import Verif.Props.Complaints

/-! C197: dealings in a context that they were not made for. -/

set_option autoImplicit false

namespace Verif

open RoCall Mega Zk Dealings Complaints

theorem popTranscript_disjoint (t : CType) (ad ad' : Bytes) (d d' : NodeIndex) (eph : Pt) (h : ¬ (kept ad = kept ad' ∧ low d = low d')) :
    (popTranscript t ad d eph).Disjoint (popTranscript t ad' d' eph) := by
  rw [popTranscript_eq, popTranscript_eq]
  refine Ro.disjoint_run fun ⟨_, hp⟩ => h ?_
  replace hp := (accepted_perm_iff (cs' := popCalls ad' d' eph) (popCalls_nodup ad d eph) rfl).1 hp
  simp only [popCalls, List.map_cons, List.map_nil, List.cons.injEq, and_true, seen_ad] at hp
  rwa [seen_idx (by decide +kernel)] at hp

theorem dlogTranscript_disjoint (i i' : Dlog.Instance) (c1 c2 c1' c2' : Pt) (ad ad' : Bytes) (h : ¬ (i = i' ∧ kept ad = kept ad')) :
    (Dlog.transcript i c1 c2 ad).Disjoint (Dlog.transcript i' c1' c2' ad') := by
  rw [dlog_transcript_eq, dlog_transcript_eq]
  refine Ro.disjoint_run fun ⟨_, hp⟩ => h ?_
  replace hp := (accepted_perm_iff (cs := dlogCalls i c1 c2 ad) (cs' := dlogCalls i' c1' c2' ad') (by
      show [ascii "associated_data", ascii "instance_g", ascii "instance_h", ascii "instance_g_x", ascii "instance_h_x",
        ascii "commitment1", ascii "commitment2"].Nodup
      decide +kernel) rfl).1 hp
  simp only [dlogCalls, List.map_cons, List.map_nil, List.cons.injEq, and_true, seen_ad] at hp
  rw [seen_pt (by decide +kernel), seen_pt (by decide +kernel), seen_pt (by decide +kernel), seen_pt (by decide +kernel),
    seen_pt (by decide +kernel), seen_pt (by decide +kernel)] at hp
  obtain ⟨a, b, c, d⟩ := i
  obtain ⟨a', b', c', d'⟩ := i'
  simp only [Dlog.Instance.mk.injEq]
  tauto

/-- Whoever takes a dealing has accepted its proof of possession. -/
theorem takenFor_pop {P : Prim} {d : Dealing} {dealer : NodeIndex} {ad : Bytes} (h : d.TakenFor P dealer ad) :
    ∃ c, d.ciphertext = some c ∧ verifyPop P c.ctype ad dealer c.ephemeral c.popPublic c.popProof = .ok () := by
  have hacc : ∀ c : Cipher, c.popAccepted P ad dealer →
      verifyPop P c.ctype ad dealer c.ephemeral c.popPublic c.popProof = .ok () := by
    intro c hc; cases c <;> exact hc
  have hdec : ∀ (c : Cipher) (cm : Commitment) (i : NodeIndex) (k : Fn) (pk : Pt) (o : Opening),
      c.decryptAndCheck P cm ad dealer i k pk = .ok o → c.popAccepted P ad dealer := by
    intro c cm i k pk o h
    cases c with
    | single m =>
      simp only [Cipher.decryptAndCheck, Single.decryptAndCheck, Single.decrypt] at h
      obtain ⟨s, hs, -⟩ := Res.bind_eq_ok.1 h
      obtain ⟨u, hu, -⟩ := Res.bind_eq_ok.1 hs
      exact hu
    | pair m =>
      simp only [Cipher.decryptAndCheck, Pair.decryptAndCheck, Pair.decrypt] at h
      obtain ⟨s, hs, -⟩ := Res.bind_eq_ok.1 h
      obtain ⟨u, hu, -⟩ := Res.bind_eq_ok.1 hs
      exact hu
  rcases h with ⟨curve, op, t, r, h⟩ | ⟨curve, k, pk, i, h⟩ | ⟨k, pk, i, o, h⟩
  · obtain ⟨-, cm, c, c0, hcm, hc, hl, hc0, hsz, hpop, -⟩ := accepted_only h
    exact ⟨c, hc, hacc c hpop⟩
  · obtain ⟨-, cm, -, -, ⟨m, s, hm, -, hd, -⟩ | ⟨m, s, r, hm, -, hd, -⟩⟩ := (C84_private_verify P d curve k pk ad dealer i).1 h
    · obtain ⟨u, hu, -⟩ := Res.bind_eq_ok.1 hd
      exact ⟨_, hm, hacc _ hu⟩
    · obtain ⟨u, hu, -⟩ := Res.bind_eq_ok.1 hd
      exact ⟨_, hm, hacc _ hu⟩
  · rw [openDealing.eq_def] at h
    obtain ⟨c, hc, h⟩ := Res.bind_eq_ok.1 h
    have hc' : d.ciphertext = some c := by
      cases hx : d.ciphertext with
      | none => rw [hx] at hc; cases hc
      | some x => rw [hx] at hc; cases hc; rfl
    refine ⟨c, hc', hacc c ?_⟩
    cases hcm : d.commitment with
    | some cm =>
      rw [hcm] at h
      cases c <;> exact hdec _ cm i k pk o h
    | none =>
      rw [hcm] at h
      cases c with
      | single m => obtain ⟨s, -, h⟩ := Res.bind_eq_ok.1 h; cases h
      | pair m => obtain ⟨s, -, h⟩ := Res.bind_eq_ok.1 h; cases h

/-- C197, the part that holds: a dealing that is taken for two dealers whose indices differ modulo 2^32, or in two contexts that differ in
what is kept of the associated data, gives a collision of the hash function: the base or the challenge of its proof of possession comes
from two different inputs.
Missing: indices that agree modulo 2^32, and associated data of more than 255 bytes (`C197_false`). -/
theorem C197_bound_partial (P : Prim) (d : Dealing) (A B : NodeIndex) (ad ad' : Bytes) (h : d.TakenFor P A ad) (h' : d.TakenFor P B ad')
    (hne : ¬ (low A = low B ∧ kept ad = kept ad')) :
    ∃ c, d.ciphertext = some c ∧ (c.SameBase P A B ad ad' ∨ c.SameChallenge P A B ad ad') := by
  obtain ⟨c, hc, hv⟩ := takenFor_pop h
  obtain ⟨c', hc', hv'⟩ := takenFor_pop h'
  rw [hc, Option.some.injEq] at hc'
  subst hc'
  refine ⟨c, hc, ?_⟩
  obtain ⟨X, hX, hv⟩ := Res.bind_eq_ok.1 hv
  obtain ⟨Y, hY, hv'⟩ := Res.bind_eq_ok.1 hv'
  by_cases e : X = Y ∧ kept ad = kept ad'
  · obtain ⟨rfl, e⟩ := e
    exact Or.inl ⟨popTranscript_disjoint _ _ _ _ _ _ fun hh => hne ⟨hh.2, hh.1⟩, X, hX, hY⟩
  · refine Or.inr ?_
    rw [(C48_verification_exact P ad).1] at hv
    rw [(C48_verification_exact P ad').1] at hv'
    refine ⟨X, Y, hX, hY, dlogTranscript_disjoint _ _ _ _ _ _ ad ad' ?_, hv, hv'⟩
    rintro ⟨hi, hk⟩
    refine e ⟨?_, hk⟩
    exact congrArg Dlog.Instance.h hi

/-- What contexts have in common that agree in what the hashes keep of them. -/
theorem hashes_agree (P : Prim) {A B : NodeIndex} {ad ad' : Bytes} (hA : low A = low B) (had : kept ad = kept ad') :
    (∀ t r pk eph sh, hashToScalars P t A r ad pk eph sh = hashToScalars P t B r ad' pk eph sh) ∧
    (∀ t eph, computePopBase P t ad A eph = computePopBase P t ad' B eph) ∧
    (∀ i c1 c2, Dlog.hashToChallenge P i c1 c2 ad = Dlog.hashToChallenge P i c1 c2 ad') ∧
    (∀ i c, EqOpen.hashToChallenge P i c ad = EqOpen.hashToChallenge P i c ad') ∧
    (∀ i c1 c2, Product.hashToChallenge P i c1 c2 ad = Product.hashToChallenge P i c1 c2 ad') ∧
    ∀ r pk, createProofAssocData P ad r A pk = createProofAssocData P ad' r B pk :=
  ⟨fun t r pk eph sh => (C171_encryption t t A B r r ad ad' pk pk eph eph sh sh).1.2 ⟨rfl, hA, rfl, had, rfl, rfl, rfl⟩ P,
    fun t eph => (C171_encryption t t A B 0 0 ad ad' 0 0 eph eph 0 0).2.2 ⟨rfl, had, hA, rfl⟩ P,
    fun i c1 c2 => ((C171_challenges ad ad').1 i i c1 c2 c1 c2).2 ⟨rfl, rfl, rfl, had⟩ P,
    fun i c => ((C171_challenges ad ad').2.1 i i c c).2 ⟨rfl, rfl, had⟩ P,
    fun i c1 c2 => ((C171_challenges ad ad').2.2 i i c1 c2 c1 c2).2 ⟨rfl, rfl, rfl, had⟩ P,
    fun r pk => (C171_complaints ad ad' r A r B pk pk).2 ⟨had, rfl, hA, rfl⟩ P⟩

theorem checkValidity_agree (P : Prim) {A B : NodeIndex} {ad ad' : Bytes} (hA : low A = low B) (had : kept ad = kept ad') (c : Cipher) (n : Int) :
    c.checkValidity P n ad A = c.checkValidity P n ad' B := by
  obtain ⟨-, h2, h3, -⟩ := hashes_agree P hA had
  cases c <;> simp only [Cipher.checkValidity, Single.checkValidity, Pair.checkValidity, verifyPop, Dlog.verify, h2, h3]

theorem decryptAndCheck_agree (P : Prim) {A B : NodeIndex} {ad ad' : Bytes} (hA : low A = low B) (had : kept ad = kept ad') (c : Cipher)
    (cm : Commitment) (i : NodeIndex) (k : Fn) (pk : Pt) :
    c.decryptAndCheck P cm ad A i k pk = c.decryptAndCheck P cm ad' B i k pk := by
  obtain ⟨h1, h2, h3, -⟩ := hashes_agree P hA had
  cases c <;> simp only [Cipher.decryptAndCheck, Single.decryptAndCheck, Pair.decryptAndCheck, Single.decrypt, Pair.decrypt,
    Single.decryptFromSharedSecret, Pair.decryptFromSharedSecret, verifyPop, Dlog.verify, h1, h2, h3]

theorem encryptSingle_agree (P : Prim) {A B : NodeIndex} {ad ad' : Bytes} (hA : low A = low B) (had : kept ad = kept ad') (seed : Seed)
    (pts : List Fn) (pks : List Pt) : Single.encrypt P seed pts pks A ad = Single.encrypt P seed pts pks B ad' := by
  obtain ⟨h1, h2, h3, -⟩ := hashes_agree P hA had
  have hl : ∀ (pks : List Pt) (pts : List Fn) (beta : Fn) (v : Pt) (i : Nat),
      Single.encryptLoop P A ad beta v i pks pts = Single.encryptLoop P B ad' beta v i pks pts := by
    intro pks
    induction pks with
    | nil => intro pts beta v i; simp only [Single.encryptLoop]
    | cons pk pks ih => intro pts beta v i; cases pts <;> simp only [Single.encryptLoop, h1, ih]
  simp only [Single.encrypt, computeEphKeyAndPop, Dlog.create, h2, h3, hl]

theorem encryptPair_agree (P : Prim) {A B : NodeIndex} {ad ad' : Bytes} (hA : low A = low B) (had : kept ad = kept ad') (seed : Seed)
    (pts : List (Fn × Fn)) (pks : List Pt) : Pair.encrypt P seed pts pks A ad = Pair.encrypt P seed pts pks B ad' := by
  obtain ⟨h1, h2, h3, -⟩ := hashes_agree P hA had
  have hl : ∀ (pks : List Pt) (pts : List (Fn × Fn)) (beta : Fn) (v : Pt) (i : Nat),
      Pair.encryptLoop P A ad beta v i pks pts = Pair.encryptLoop P B ad' beta v i pks pts := by
    intro pks
    induction pks with
    | nil => intro pts beta v i; simp only [Pair.encryptLoop]
    | cons pk pks ih => intro pts beta v i; cases pts <;> simp only [Pair.encryptLoop, h1, ih]
  simp only [Pair.encrypt, computeEphKeyAndPop, Dlog.create, h2, h3, hl]

/-- C197 as stated is false: contexts that differ only in dealer indices that agree modulo 2^32 or in associated data of more than 255 bytes
are the same to all of the code, whatever the hash function.  The same dealings are made in them, and what is done with a dealing ends in the
same way; only public verification of a dealing that refers to earlier transcripts tells dealers apart, by their commitments there. -/
theorem C197_false (P : Prim) (A B : NodeIndex) (ad ad' : Bytes) (hA : low A = low B) (had : kept ad = kept ad') :
    (∀ shares seed t pks, Dealings.new P shares seed t pks A ad = Dealings.new P shares seed t pks B ad') ∧
    ∀ d : Dealing,
      (∀ curve t n, publiclyVerify P d curve .random t A n ad = publiclyVerify P d curve .random t B n ad') ∧
      (∀ curve op t n, publiclyVerify P d curve op t A n ad = publiclyVerify P d curve op t A n ad') ∧
      (∀ curve k pk i, privateVerify P d curve k pk ad A i = privateVerify P d curve k pk ad' B i) ∧
      (∀ k pk i, openDealing P d ad A i k pk = openDealing P d ad' B i k pk) ∧
      ∀ c i pk, Complaints.verify P c d A i pk ad = Complaints.verify P c d B i pk ad' := by
  obtain ⟨h1, h2, h3, h4, h5, h6⟩ := hashes_agree P hA had
  refine ⟨fun shares seed t pks => ?_, fun d => ⟨fun curve t n => ?_, fun curve op t n => ?_, fun curve k pk i => ?_, fun k pk i => ?_,
    fun c i pk => ?_⟩⟩
  · simp only [Dealings.new, encryptAndCommitPair, encryptAndCommitSingle, encryptSingle_agree P hA had, encryptPair_agree P hA had,
      EqOpen.create, Product.create, h4, h5]
  · simp only [publiclyVerify, checkValidity_agree P hA had]
  · simp only [publiclyVerify, checkValidity_agree P (rfl : low A = low A) had, EqOpen.verify, Product.verify, h4, h5]
  · simp only [privateVerify, decryptAndCheck_agree P hA had]
  · simp only [openDealing, decryptAndCheck_agree P hA had, Single.decrypt, Pair.decrypt, Single.decryptFromSharedSecret,
      Pair.decryptFromSharedSecret, verifyPop, Dlog.verify, h1, h2, h3]
  · have hc : ∀ ct k sh, claimedOpening P ct k ad A i pk sh = claimedOpening P ct k ad' B i pk sh := by
      intro ct k sh
      cases ct <;> cases k <;> simp only [claimedOpening, Single.decryptFromSharedSecret, Pair.decryptFromSharedSecret, h1]
    simp only [Complaints.verify, h6, hc]

/-- Such contexts. -/
example : low 1 = low 4294967297 ∧ (1 : NodeIndex) ≠ 4294967297 ∧
    kept (List.replicate 256 0) = kept (List.replicate 256 1) ∧ List.replicate 256 (0 : UInt8) ≠ List.replicate 256 1 := by decide +kernel

/-- With a hash function that is constant the same dealing is taken in two contexts that the hashes do distinguish. -/
example : ∃ d : Dealing, d.TakenFor zeroPrim 0 [] ∧ d.TakenFor zeroPrim 1 [7] ∧ ¬ (low 0 = low 1 ∧ kept [] = kept [7]) := by
  obtain ⟨d, hd⟩ := dealing_exists .random ⟨[]⟩ 1 [Point.mulByG 3] 0 [] (by norm_num) (by simp)
  have h := (C54_honest_dealings_verify zeroPrim .random .random ⟨[]⟩ 1 [3] 0 [] d trivial hd).1
  obtain ⟨hK, cm, c, c0, hcm, hc, hl, hc0, hsz, hpop, hp⟩ := accepted_only h
  refine ⟨d, Or.inl ⟨_, _, _, _, h⟩, Or.inl ⟨K256, .random, 1, 1, ?_⟩, by decide +kernel⟩
  refine accepted_of _ _ _ _ _ _ _ _ ⟨rfl, cm, c, c0, hcm, hc, hl, hc0, hsz, ?_, hp⟩
  cases c with
  | single m =>
    obtain ⟨X, -, hv⟩ := Res.bind_eq_ok.1 hpop
    obtain ⟨Y, hY⟩ := C53_base_exists zeroPrim .single [7] 1 m.ephemeralKey
    rw [zeroPrim_dlog_verify] at hv
    simp only [Cipher.popAccepted, verifyPop, hY, Res.ok_bind]
    rw [zeroPrim_dlog_verify]
    exact hv
  | pair m =>
    obtain ⟨X, -, hv⟩ := Res.bind_eq_ok.1 hpop
    obtain ⟨Y, hY⟩ := C53_base_exists zeroPrim .pairs [7] 1 m.ephemeralKey
    rw [zeroPrim_dlog_verify] at hv
    simp only [Cipher.popAccepted, verifyPop, hY, Res.ok_bind]
    rw [zeroPrim_dlog_verify]
    exact hv

end Verif
