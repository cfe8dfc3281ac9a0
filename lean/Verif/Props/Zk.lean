import Verif.Lemmas.Zk

/-!
Properties C26, C27, C45–C48: the three zero-knowledge proof systems.  `G`, `Point.H` are the two generators;
`Point.mulByG s = s•G`, `Point.pedersen s m = s•G + m•H`.
-/

namespace Verif

open RoCall Zk

/-! ### C26: binding to statement and associated data -/

/-- C26 does not hold of the code: associated data longer than 255 bytes is silently ignored — all such strings give the
same challenge in all three systems, for every hash function. -/
theorem C26_false (ad ad' : Bytes) (h : 255 < ad.length) (h' : 255 < ad'.length) (P : Prim) :
    (∀ i c1 c2, Dlog.hashToChallenge P i c1 c2 ad = Dlog.hashToChallenge P i c1 c2 ad') ∧
    (∀ i c, EqOpen.hashToChallenge P i c ad = EqOpen.hashToChallenge P i c ad') ∧
    (∀ i c1 c2, Product.hashToChallenge P i c1 c2 ad = Product.hashToChallenge P i c1 c2 ad') := by
  refine ⟨fun i c1 c2 => ?_, fun i c => ?_, fun i c1 c2 => ?_⟩
  · rw [Dlog.hashToChallenge, Dlog.hashToChallenge, dlog_transcript_eq, dlog_transcript_eq]
    refine (C24_outputs_depend_on_set _ _ _ ?_ P).2.2.1
    rw [dlog_accepted, dlog_accepted, if_neg (by omega), if_neg (by omega)]
    exact List.Perm.refl _
  · rw [EqOpen.hashToChallenge, EqOpen.hashToChallenge, eq_transcript_eq, eq_transcript_eq]
    refine (C24_outputs_depend_on_set _ _ _ ?_ P).2.2.1
    rw [eq_accepted, eq_accepted, if_neg (by omega), if_neg (by omega)]
    exact List.Perm.refl _
  · rw [Product.hashToChallenge, Product.hashToChallenge, prod_transcript_eq, prod_transcript_eq]
    refine (C24_outputs_depend_on_set _ _ _ ?_ P).2.2.1
    rw [prod_accepted, prod_accepted, if_neg (by omega), if_neg (by omega)]
    exact List.Perm.refl _

/-- A witness pair: two different strings of 256 bytes. -/
example : 255 < (List.replicate 256 (0 : UInt8)).length ∧ 255 < (List.replicate 256 (1 : UInt8)).length ∧
    List.replicate 256 (0 : UInt8) ≠ List.replicate 256 1 := by decide +kernel

/-- Consequence: a proof made for one long associated-data string verifies for any other. -/
theorem C26_false_replay (P : Prim) (ad ad' : Bytes) (h : 255 < ad.length) (h' : 255 < ad'.length) (pf : Proof)
    (g h₀ gx hx : Pt) : Dlog.verify P pf g h₀ gx hx ad = Dlog.verify P pf g h₀ gx hx ad' := by
  simp only [Dlog.verify, (C26_false ad ad' h h' P).1]

/-- C26 for associated data up to 255 bytes, dlog equivalence: the hashed transcript determines the whole statement,
the commitments and the associated data, and different ones are told apart by some hash function.
Missing: associated data longer than 255 bytes (see `C26_false`). -/
theorem C26_dlog_binding_partial (i i' : Dlog.Instance) (c1 c2 c1' c2' : Pt) (ad ad' : Bytes)
    (h : ad.length ≤ 255) (h' : ad'.length ≤ 255) (hne : (i, c1, c2, ad) ≠ (i', c1', c2', ad')) :
    (Dlog.transcript i c1 c2 ad).Disjoint (Dlog.transcript i' c1' c2' ad') ∧
    ∃ P, Dlog.hashToChallenge P i c1 c2 ad ≠ Dlog.hashToChallenge P i' c1' c2' ad' := by
  have hp : ¬ (dlogDst = dlogDst ∧ (accepted (dlogCalls i c1 c2 ad)).Perm (accepted (dlogCalls i' c1' c2' ad'))) := by
    rintro ⟨-, hp⟩
    obtain ⟨e1, e2, e3, e4⟩ := dlog_perm_iff h h' hp
    exact hne (by rw [e1, e2, e3, e4])
  refine ⟨?_, (C23_outputs_separated _ _ _ _ (dlog_accepted_ne i c1 c2 ad)
    (dlog_accepted_ne i' c1' c2' ad') hp).2⟩
  rw [dlog_transcript_eq, dlog_transcript_eq]
  exact Ro.disjoint_run hp

/-- C26, equal openings. -/
theorem C26_equal_openings_binding_partial (i i' : EqOpen.Instance) (c c' : Pt) (ad ad' : Bytes)
    (h : ad.length ≤ 255) (h' : ad'.length ≤ 255) (hne : (i, c, ad) ≠ (i', c', ad')) :
    (EqOpen.transcript i c ad).Disjoint (EqOpen.transcript i' c' ad') ∧
    ∃ P, EqOpen.hashToChallenge P i c ad ≠ EqOpen.hashToChallenge P i' c' ad' := by
  have hp : ¬ (equalOpeningsDst = equalOpeningsDst ∧
      (accepted (eqCalls i c ad)).Perm (accepted (eqCalls i' c' ad'))) := by
    rintro ⟨-, hp⟩
    obtain ⟨e1, e2, e3⟩ := eq_perm_iff h h' hp
    exact hne (by rw [e1, e2, e3])
  refine ⟨?_, (C23_outputs_separated _ _ _ _ (eq_accepted_ne i c ad)
    (eq_accepted_ne i' c' ad') hp).2⟩
  rw [eq_transcript_eq, eq_transcript_eq]
  exact Ro.disjoint_run hp

/-- C26, products. -/
theorem C26_product_binding_partial (i i' : Product.Instance) (c1 c2 c1' c2' : Pt) (ad ad' : Bytes)
    (h : ad.length ≤ 255) (h' : ad'.length ≤ 255) (hne : (i, c1, c2, ad) ≠ (i', c1', c2', ad')) :
    (Product.transcript i c1 c2 ad).Disjoint (Product.transcript i' c1' c2' ad') ∧
    ∃ P, Product.hashToChallenge P i c1 c2 ad ≠ Product.hashToChallenge P i' c1' c2' ad' := by
  have hp : ¬ (equalOpeningsDst = equalOpeningsDst ∧
      (accepted (prodCalls i c1 c2 ad)).Perm (accepted (prodCalls i' c1' c2' ad'))) := by
    rintro ⟨-, hp⟩
    obtain ⟨e1, e2, e3, e4⟩ := prod_perm_iff h h' hp
    exact hne (by rw [e1, e2, e3, e4])
  refine ⟨?_, (C23_outputs_separated _ _ _ _ (prod_accepted_ne i c1 c2 ad)
    (prod_accepted_ne i' c1' c2' ad') hp).2⟩
  rw [prod_transcript_eq, prod_transcript_eq]
  exact Ro.disjoint_run hp

/-- Transcripts really are hashed: both sides of `Disjoint` have a message. -/
example (i : Dlog.Instance) (c1 c2 : Pt) (ad : Bytes) : ∃ m, (Dlog.transcript i c1 c2 ad).formRoInput = .ok m := by
  rw [dlog_transcript_eq]; exact Ro.form_ok_of_accepted (dlog_accepted_ne i c1 c2 ad)

/-! ### C27 -/

/-- C27: transcripts of different proof systems never coincide (although the product proof uses the domain separator of
the equal-openings proof), and some hash function tells them apart. -/
theorem C27_proof_systems_separated (i : Dlog.Instance) (c1 c2 : Pt) (ad : Bytes)
    (i' : EqOpen.Instance) (c' : Pt) (ad' : Bytes) (i'' : Product.Instance) (c1'' c2'' : Pt) (ad'' : Bytes) :
    ((Dlog.transcript i c1 c2 ad).Disjoint (EqOpen.transcript i' c' ad') ∧
      (Dlog.transcript i c1 c2 ad).Disjoint (Product.transcript i'' c1'' c2'' ad'') ∧
      (EqOpen.transcript i' c' ad').Disjoint (Product.transcript i'' c1'' c2'' ad'')) ∧
    (∃ P, Dlog.hashToChallenge P i c1 c2 ad ≠ EqOpen.hashToChallenge P i' c' ad') ∧
    (∃ P, Dlog.hashToChallenge P i c1 c2 ad ≠ Product.hashToChallenge P i'' c1'' c2'' ad'') ∧
    (∃ P, EqOpen.hashToChallenge P i' c' ad' ≠ Product.hashToChallenge P i'' c1'' c2'' ad'') := by
  have hd : dlogDst ≠ equalOpeningsDst := by decide +kernel
  have h1 : ¬ (dlogDst = equalOpeningsDst ∧
      (accepted (dlogCalls i c1 c2 ad)).Perm (accepted (eqCalls i' c' ad'))) := fun h => hd h.1
  have h2 : ¬ (dlogDst = equalOpeningsDst ∧
      (accepted (dlogCalls i c1 c2 ad)).Perm (accepted (prodCalls i'' c1'' c2'' ad''))) := fun h => hd h.1
  have h3 : ¬ (equalOpeningsDst = equalOpeningsDst ∧
      (accepted (eqCalls i' c' ad')).Perm (accepted (prodCalls i'' c1'' c2'' ad''))) := by
    rintro ⟨-, hp⟩
    refine not_perm_of_name (ptCall "instance_a" i'.a) ?_ ?_ hp
    · rw [eq_accepted]; split_ifs <;> simp [eqCalls]
    · intro d hdm
      have hdm' := accepted_subset _ d hdm
      have hnames : ascii "instance_a" ∉ (prodCalls i'' c1'' c2'' ad'').map RoCall.name := by
        show ascii "instance_a" ∉ [ascii "associated_data", ascii "instance_g", ascii "instance_h",
          ascii "instance_lhs", ascii "instance_rhs", ascii "instance_product", ascii "commitment1",
          ascii "commitment2"]
        decide +kernel
      intro e
      exact hnames (List.mem_map.2 ⟨d, hdm', e⟩)
  refine ⟨⟨?_, ?_, ?_⟩,
    (C23_outputs_separated _ _ _ _ (dlog_accepted_ne i c1 c2 ad) (eq_accepted_ne i' c' ad') h1).2,
    (C23_outputs_separated _ _ _ _ (dlog_accepted_ne i c1 c2 ad) (prod_accepted_ne i'' c1'' c2'' ad'') h2).2,
    (C23_outputs_separated _ _ _ _ (eq_accepted_ne i' c' ad') (prod_accepted_ne i'' c1'' c2'' ad'') h3).2⟩
  · rw [dlog_transcript_eq, eq_transcript_eq]; exact Ro.disjoint_run h1
  · rw [dlog_transcript_eq, prod_transcript_eq]; exact Ro.disjoint_run h2
  · rw [eq_transcript_eq, prod_transcript_eq]; exact Ro.disjoint_run h3

/-! ### C45–C47: completeness -/

/-- C45: the proof returned by `Create` verifies for the statement `(g, h, x•g, x•h)`, whatever the hash function,
generator, bases and associated data; `Create` returns whenever the generator does and never fails otherwise. -/
theorem C45_dlog_completeness (P : Prim) (seed : Seed) (x : Fn) (g h : Pt) (ad : Bytes) :
    (∀ pf, Dlog.create P seed x g h ad = .ok pf → Dlog.verify P pf g h (x • g) (x • h) ad = .ok ()) ∧
    (∀ r r', Scalar.random (seed.rng P) = .ok (r, r') → ∃ pf, Dlog.create P seed x g h ad = .ok pf) ∧
    (Dlog.create P seed x g h ad).isErr = false ∧ (Dlog.create P seed x g h ad).isPanic = false := by
  have hc : ∀ r r', Scalar.random (seed.rng P) = .ok (r, r') → ∃ c,
      Dlog.hashToChallenge P (Dlog.fromWitness g h x) (r • g) (r • h) ad = .ok c ∧
      Dlog.create P seed x g h ad = .ok ⟨c, x * c + r⟩ := by
    intro r r' hr
    obtain ⟨c, hcc⟩ := dlog_challenge_ok P (Dlog.fromWitness g h x) (r • g) (r • h) ad
    refine ⟨c, hcc, ?_⟩
    simp only [Dlog.create, hr, Res.ok_bind, Point.scalarMul, hcc]
  have hother := C21_random_scalar (seed.rng P)
  refine ⟨fun pf hpf => ?_, fun r r' hr => ?_, ?_, ?_⟩
  · rcases hr : Scalar.random (seed.rng P) with ⟨r, r'⟩ | e | e | _
    · obtain ⟨c, h1, h2⟩ := hc r r' hr
      rw [h2, Res.ok.injEq] at hpf
      subst hpf
      have e1 : (x * c + r) • g - c • x • g = r • g := by rw [add_smul, smul_smul, mul_comm c x]; abel
      have e2 : (x * c + r) • h - c • x • h = r • h := by rw [add_smul, smul_smul, mul_comm c x]; abel
      simp only [Dlog.verify, Dlog.recoverCommitments, Dlog.fromCommitments, Point.scalarMul, e1, e2]
      have h1' : Dlog.hashToChallenge P ⟨g, h, x • g, x • h⟩ (r • g) (r • h) ad = .ok c := h1
      rw [h1']; simp
    · simp [Dlog.create, hr] at hpf
    · simp [Dlog.create, hr] at hpf
    · simp [Dlog.create, hr] at hpf
  · obtain ⟨c, -, h2⟩ := hc r r' hr
    exact ⟨_, h2⟩
  · rcases hr : Scalar.random (seed.rng P) with ⟨r, r'⟩ | e | e | _
    · obtain ⟨c, -, h2⟩ := hc r r' hr; rw [h2]; rfl
    · have := hother.2.2.1; rw [hr] at this; simp at this
    · have := hother.2.2.2; rw [hr] at this; simp at this
    · simp [Dlog.create, hr]
  · rcases hr : Scalar.random (seed.rng P) with ⟨r, r'⟩ | e | e | _
    · obtain ⟨c, -, h2⟩ := hc r r' hr; rw [h2]; rfl
    · have := hother.2.2.1; rw [hr] at this; simp at this
    · have := hother.2.2.2; rw [hr] at this; simp at this
    · simp [Dlog.create, hr]

/-- C46: equal openings. -/
theorem C46_equal_openings_completeness (P : Prim) (seed : Seed) (s m : Fn) (ad : Bytes) :
    (∀ pf, EqOpen.create P seed s m ad = .ok pf →
      EqOpen.verify P pf (Point.pedersen s m) (Point.mulByG s) ad = .ok ()) ∧
    (∀ r r', Scalar.random (seed.rng P) = .ok (r, r') → ∃ pf, EqOpen.create P seed s m ad = .ok pf) := by
  have hc : ∀ r r', Scalar.random (seed.rng P) = .ok (r, r') → ∃ c,
      EqOpen.hashToChallenge P (EqOpen.fromWitness s m) (r • Point.H) ad = .ok c ∧
      EqOpen.create P seed s m ad = .ok ⟨c, m * c + r⟩ := by
    intro r r' hr
    obtain ⟨c, hcc⟩ := eq_challenge_ok P (EqOpen.fromWitness s m) (r • Point.H) ad
    refine ⟨c, hcc, ?_⟩
    have hcc' : EqOpen.hashToChallenge P (EqOpen.fromWitness s m) (r • (EqOpen.fromWitness s m).h) ad = .ok c := hcc
    simp only [EqOpen.create, hr, Res.ok_bind, Point.scalarMul, hcc']
  refine ⟨fun pf hpf => ?_, fun r r' hr => ?_⟩
  · rcases hr : Scalar.random (seed.rng P) with ⟨r, r'⟩ | e | e | _
    · obtain ⟨c, h1, h2⟩ := hc r r' hr
      rw [h2, Res.ok.injEq] at hpf
      subst hpf
      have hd : Point.pedersen s m - Point.mulByG s = m • Point.H := by
        show s • G + m • Point.H - s • G = _
        abel
      have e1 : (m * c + r) • Point.H - c • m • Point.H = r • Point.H := by
        rw [add_smul, smul_smul, mul_comm c m]; abel
      simp only [EqOpen.verify, EqOpen.recoverCommitments, EqOpen.fromCommitments, Point.scalarMul, hd, e1]
      have h1' : EqOpen.hashToChallenge P ⟨G, Point.H, Point.pedersen s m, Point.mulByG s⟩ (r • Point.H) ad = .ok c :=
        h1
      rw [h1']; simp
    · simp [EqOpen.create, hr] at hpf
    · simp [EqOpen.create, hr] at hpf
    · simp [EqOpen.create, hr] at hpf
  · obtain ⟨c, -, h2⟩ := hc r r' hr
    exact ⟨_, h2⟩

/-- What `Create` does for any claimed product: the recovered second commitment is off by `c·(lhs·rhs − product)·G`. -/
theorem product_create_verify (P : Prim) (seed : Seed) (l r rm pr pm : Fn) (ad : Bytes) (pf : Product.Proof)
    (h : Product.create P seed l r rm pr pm ad = .ok pf) :
    ∃ r1 r2 : Fn,
      Product.hashToChallenge P (Product.fromWitness l r rm pr pm) (r1 • G)
        (r1 • Point.pedersen r rm + r2 • Point.H) ad = .ok pf.challenge ∧
      Product.recoverCommitment (Product.fromWitness l r rm pr pm) pf =
        (r1 • G, r1 • Point.pedersen r rm + r2 • Point.H + (pf.challenge * (l * r - pr)) • G) := by
  rcases hr : Scalar.random (seed.rng P) with ⟨r1, rng⟩ | e | e | _
  · rcases hr2 : Scalar.random rng with ⟨r2, rng2⟩ | e | e | _
    · obtain ⟨c, hcc⟩ := prod_challenge_ok P (Product.fromWitness l r rm pr pm)
        (Point.scalarMul (Product.fromWitness l r rm pr pm).g r1)
        (Point.mulPoints (Product.fromWitness l r rm pr pm).rhsCom r1 (Product.fromWitness l r rm pr pm).h r2) ad
      simp only [Product.create, hr, hr2, Res.ok_bind, hcc, Res.ok.injEq] at h
      subst h
      refine ⟨r1, r2, hcc, ?_⟩
      simp only [Product.recoverCommitment, Product.fromWitness, Point.mulByG, Point.scalarMul, Point.mulPoints,
        Point.pedersen, Prod.mk.injEq]
      constructor <;> module
    · simp [Product.create, hr, hr2] at h
    · simp [Product.create, hr, hr2] at h
    · simp [Product.create, hr, hr2] at h
  · simp [Product.create, hr] at h
  · simp [Product.create, hr] at h
  · simp [Product.create, hr] at h

/-- C47: proofs for a correct product verify; a proof created for a wrong product verifies only if its challenge is zero
or is also the hash of a *different* transcript (the one with the second commitment shifted). -/
theorem C47_product_completeness (P : Prim) (seed : Seed) (l r rm pr pm : Fn) (ad : Bytes) (pf : Product.Proof)
    (h : Product.create P seed l r rm pr pm ad = .ok pf) :
    (pr = l * r → Product.verify P pf (Point.mulByG l) (Point.pedersen r rm) (Point.pedersen pr pm) ad = .ok ()) ∧
    (pr ≠ l * r → Product.verify P pf (Point.mulByG l) (Point.pedersen r rm) (Point.pedersen pr pm) ad = .ok () →
      pf.challenge = 0 ∨ ∃ c1 c2 c2', c2 ≠ c2' ∧
        Product.hashToChallenge P (Product.fromWitness l r rm pr pm) c1 c2 ad = .ok pf.challenge ∧
        Product.hashToChallenge P (Product.fromWitness l r rm pr pm) c1 c2' ad = .ok pf.challenge) := by
  obtain ⟨r1, r2, h1, h2⟩ := product_create_verify P seed l r rm pr pm ad pf h
  have hi : Product.fromCommitments (Point.mulByG l) (Point.pedersen r rm) (Point.pedersen pr pm) =
      Product.fromWitness l r rm pr pm := rfl
  constructor
  · intro e
    subst e
    have h0 : (pf.challenge * (l * r - l * r)) • G = 0 := by rw [sub_self, mul_zero]; exact zero_smul Fn G
    rw [h0, add_zero] at h2
    simp only [Product.verify, hi]
    rw [h2, h1]; simp
  · intro hne hv
    by_cases hc0 : pf.challenge = 0
    · exact Or.inl hc0
    right
    simp only [Product.verify, hi, h2] at hv
    obtain ⟨c, hc, hv⟩ := Res.bind_eq_ok.1 hv
    split_ifs at hv with hcc
    refine ⟨_, _, _, ?_, h1, by rw [hcc]; exact hc⟩
    rw [hcc]
    intro he
    have : (c * (l * r - pr)) • G = 0 := by
      have h3 := he.symm
      rwa [add_eq_left] at h3
    rw [smul_eq_zero_iff_left G_ne_zero] at this
    rcases mul_eq_zero.1 this with h0 | h0
    · exact hc0 (by rw [hcc, h0])
    · exact hne (sub_eq_zero.1 h0).symm

/-- A generator exists for which `Create` returns: the hypotheses of C45–C47 are met for every witness. -/
theorem create_nonvacuous (x : Fn) (g h : Pt) (ad : Bytes) (l r rm pr pm : Fn) :
    ∃ (P : Prim) (seed : Seed), (∃ pf, Dlog.create P seed x g h ad = .ok pf) ∧
      (∃ pf, EqOpen.create P seed x l ad = .ok pf) ∧ (∃ pf, Product.create P seed l r rm pr pm ad = .ok pf) := by
  let P : Prim := { Prim.ofHash (fun _ => List.replicate 32 0) (by simp) with chacha20 := fun _ _ => 0 }
  have hr : ∀ k, Scalar.random ⟨fun _ => 0, k⟩ = .ok (0, ⟨fun _ => 0, k + 32⟩) := by
    intro k
    refine ((C21_random_scalar _).1 0 _).2 ⟨0, by simp, ?_, by simp⟩
    show beVal ((List.range 32).map fun _ => 0) = (0 : Fn).val
    decide +kernel
  refine ⟨P, ⟨[]⟩, (C45_dlog_completeness P ⟨[]⟩ x g h ad).2.1 _ _ (hr 0),
    (C46_equal_openings_completeness P ⟨[]⟩ x l ad).2 _ _ (hr 0), ?_⟩
  obtain ⟨c, hcc⟩ := prod_challenge_ok P (Product.fromWitness l r rm pr pm)
        (Point.scalarMul (Product.fromWitness l r rm pr pm).g 0)
        (Point.mulPoints (Product.fromWitness l r rm pr pm).rhsCom 0 (Product.fromWitness l r rm pr pm).h 0) ad
  refine ⟨⟨c, l * c + 0, (pm - l * rm) * c + 0⟩, ?_⟩
  have h1 : Scalar.random (Seed.rng P ⟨[]⟩) = .ok (0, ⟨fun _ => 0, 0 + 32⟩) := hr 0
  simp only [Product.create, h1, Res.ok_bind, hr, hcc]

/-! ### C48: soundness -/

/-- C48, dlog equivalence: for a false statement there is, independently of the hash function, the associated data and
the proof, a function from commitments to challenges such that every accepted proof has commitments whose hash is
exactly that value. -/
theorem C48_dlog_soundness (g h gx hx : Pt) (hfalse : ¬ ∃ x : Fn, gx = x • g ∧ hx = x • h) :
    ∃ bad : Pt → Pt → Fn, ∀ (P : Prim) (pf : Proof) (ad : Bytes), Dlog.verify P pf g h gx hx ad = .ok () →
      ∃ c1 c2, pf.challenge = bad c1 c2 ∧
        Dlog.hashToChallenge P (Dlog.fromCommitments g h gx hx) c1 c2 ad = .ok (bad c1 c2) := by
  classical
  let R : Pt → Pt → Fn → Prop := fun c1 c2 c => ∃ z : Fn, z • g - c • gx = c1 ∧ z • h - c • hx = c2
  have huniq : ∀ c1 c2 c c', R c1 c2 c → R c1 c2 c' → c = c' := by
    rintro c1 c2 c c' ⟨z, h1, h2⟩ ⟨z', h1', h2'⟩
    by_contra hne
    have hd : c - c' ≠ 0 := sub_ne_zero.2 hne
    apply hfalse
    refine ⟨(c - c')⁻¹ * (z - z'), ?_, ?_⟩
    · have e : (z - z') • g = (c - c') • gx := by
        rw [sub_smul, sub_smul]
        have := h1.trans h1'.symm
        rw [sub_eq_sub_iff_add_eq_add] at this
        rw [sub_eq_sub_iff_add_eq_add, this, add_comm]
      rw [mul_smul, e, smul_smul, inv_mul_cancel₀ hd, one_smul]
    · have e : (z - z') • h = (c - c') • hx := by
        rw [sub_smul, sub_smul]
        have := h2.trans h2'.symm
        rw [sub_eq_sub_iff_add_eq_add] at this
        rw [sub_eq_sub_iff_add_eq_add, this, add_comm]
      rw [mul_smul, e, smul_smul, inv_mul_cancel₀ hd, one_smul]
  refine ⟨fun c1 c2 => if hex : ∃ c, R c1 c2 c then hex.choose else 0, ?_⟩
  intro P pf ad hv
  simp only [Dlog.verify, Dlog.recoverCommitments, Point.scalarMul] at hv
  obtain ⟨c, hc, hv⟩ := Res.bind_eq_ok.1 hv
  split_ifs at hv with hcc
  have hR : R (pf.response • g - pf.challenge • gx) (pf.response • h - pf.challenge • hx) pf.challenge := ⟨_, rfl, rfl⟩
  have hex : ∃ c, R (pf.response • g - pf.challenge • gx) (pf.response • h - pf.challenge • hx) c := ⟨_, hR⟩
  refine ⟨pf.response • g - pf.challenge • gx, pf.response • h - pf.challenge • hx, ?_, ?_⟩
  · show _ = dite _ _ _
    rw [dif_pos hex]; exact huniq _ _ _ _ hR hex.choose_spec
  · show _ = Res.ok (dite _ _ _)
    rw [dif_pos hex, ← huniq _ _ _ _ hR hex.choose_spec]
    rw [hcc] at hc
    exact hc

/-- False statements exist. -/
example : ¬ ∃ x : Fn, (G : Pt) = x • G ∧ (0 : Pt) = x • G := by
  rintro ⟨x, h1, h2⟩; rw [← h2] at h1; exact G_ne_zero h1

/-- Exact meaning of acceptance in the three systems. -/
theorem C48_verification_exact (P : Prim) (ad : Bytes) :
    (∀ (pf : Proof) (g h gx hx : Pt), Dlog.verify P pf g h gx hx ad = .ok () ↔
      Dlog.hashToChallenge P ⟨g, h, gx, hx⟩ (pf.response • g - pf.challenge • gx) (pf.response • h - pf.challenge • hx)
        ad = .ok pf.challenge) ∧
    (∀ (pf : Proof) (a b : Pt), EqOpen.verify P pf a b ad = .ok () ↔
      EqOpen.hashToChallenge P ⟨G, Point.H, a, b⟩ (pf.response • Point.H - pf.challenge • (a - b)) ad =
        .ok pf.challenge) ∧
    (∀ (pf : Product.Proof) (L R M : Pt), Product.verify P pf L R M ad = .ok () ↔
      Product.hashToChallenge P ⟨G, Point.H, L, R, M⟩ (pf.response1 • G - pf.challenge • L)
        (pf.response1 • R + pf.response2 • Point.H - pf.challenge • M) ad = .ok pf.challenge) := by
  refine ⟨fun pf g h gx hx => ?_, fun pf a b => ?_, fun pf L R M => ?_⟩
  · obtain ⟨c, hc⟩ := dlog_challenge_ok P ⟨g, h, gx, hx⟩ (pf.response • g - pf.challenge • gx)
      (pf.response • h - pf.challenge • hx) ad
    simp only [Dlog.verify, Dlog.recoverCommitments, Dlog.fromCommitments, Point.scalarMul, hc, Res.ok_bind]
    split_ifs with e
    · simp [e]
    · simp [e]
  · obtain ⟨c, hc⟩ := eq_challenge_ok P ⟨G, Point.H, a, b⟩ (pf.response • Point.H - pf.challenge • (a - b)) ad
    simp only [EqOpen.verify, EqOpen.recoverCommitments, EqOpen.fromCommitments, Point.scalarMul, hc, Res.ok_bind]
    split_ifs with e
    · simp [e]
    · simp [Ne.symm e]
  · obtain ⟨c, hc⟩ := prod_challenge_ok P ⟨G, Point.H, L, R, M⟩ (pf.response1 • G - pf.challenge • L)
        (pf.response1 • R + pf.response2 • Point.H - pf.challenge • M) ad
    simp only [Product.verify, Product.recoverCommitment, Product.fromCommitments, Point.scalarMul, Point.mulByG,
      Point.mulPoints, hc, Res.ok_bind]
    split_ifs with e
    · simp [e]
    · simp [Ne.symm e]

/-- C48, extraction: two responses to different challenges for the same commitments give a witness, by an explicit
formula: `x` for dlog equivalence; the mask for equal openings; `lhs` and the mask of `product − lhs·rhs` for
products. -/
theorem C48_extraction (c c' : Fn) (hc : c ≠ c') :
    (∀ (z z' : Fn) (g h gx hx : Pt), z • g - c • gx = z' • g - c' • gx → z • h - c • hx = z' • h - c' • hx →
      gx = ((z - z') / (c - c')) • g ∧ hx = ((z - z') / (c - c')) • h) ∧
    (∀ (z z' : Fn) (a b : Pt), z • Point.H - c • (a - b) = z' • Point.H - c' • (a - b) →
      a - b = ((z - z') / (c - c')) • Point.H) ∧
    (∀ (z w z' w' : Fn) (L R M : Pt), z • G - c • L = z' • G - c' • L →
      z • R + w • Point.H - c • M = z' • R + w' • Point.H - c' • M →
      L = Point.mulByG ((z - z') / (c - c')) ∧
      M = ((z - z') / (c - c')) • R + ((w - w') / (c - c')) • Point.H ∧
      (∀ r rm, R = Point.pedersen r rm →
        M = Point.pedersen ((z - z') / (c - c') * r) ((z - z') / (c - c') * rm + (w - w') / (c - c')))) := by
  have hd : c - c' ≠ 0 := sub_ne_zero.2 hc
  have solve : ∀ (X Y : Pt), (c - c') • X = Y → X = (c - c')⁻¹ • Y := by
    intro X Y h
    rw [← h, smul_smul, inv_mul_cancel₀ hd, one_smul]
  have one : ∀ (z z' : Fn) (g gx : Pt), z • g - c • gx = z' • g - c' • gx → gx = ((z - z') / (c - c')) • g := by
    intro z z' g gx h
    have e : (c - c') • gx = (z - z') • g := by
      rw [sub_smul, sub_smul]
      rw [sub_eq_sub_iff_add_eq_add] at h ⊢
      rw [add_comm, ← h, add_comm]
    rw [solve _ _ e, smul_smul, div_eq_inv_mul]
  refine ⟨fun z z' g h gx hx h1 h2 => ⟨one _ _ _ _ h1, one _ _ _ _ h2⟩, fun z z' a b h1 => one _ _ _ _ h1,
    fun z w z' w' L R M h1 h2 => ?_⟩
  have e : (c - c') • M = (z - z') • R + (w - w') • Point.H := by
    have h3 : c • M = z • R + w • Point.H - (z' • R + w' • Point.H - c' • M) := by rw [← h2]; abel
    rw [sub_smul, h3]; module
  have hM : M = ((z - z') / (c - c')) • R + ((w - w') / (c - c')) • Point.H := by
    rw [solve _ _ e, smul_add, smul_smul, smul_smul, div_eq_inv_mul, div_eq_inv_mul]
  refine ⟨one _ _ _ _ h1, hM, ?_⟩
  rintro r rm rfl
  rw [hM]
  show _ • (r • G + rm • Point.H) + _ = _ • G + _ • Point.H
  module

/-- Two such transcripts exist for every true statement (answer two challenges with the same commitment). -/
example (g : Pt) (x r : Fn) : (x * 1 + r) • g - (1 : Fn) • x • g = (x * 2 + r) • g - (2 : Fn) • x • g := by module

end Verif
