import Verif.Spec.OracleProduct
import Verif.Props.OracleDealing
import Verif.Props.Simulation

/-!
Property C165: a dealing of a product, with its proof, hides the dealer's share of the masked factor in the random oracle model.
-/

set_option autoImplicit false

namespace Verif

open Oracle Mega

namespace Oracle

variable {D E : Finset Question} {A R : Type}

namespace Alg2

/-- The program for given pads. -/
def withPads (O : D → A) : Alg2 D E A R → Alg E Fn R
  | done r => .done r
  | pad q next => (next (O q)).withPads O
  | challenge q next => .ask q fun a => (next a).withPads O

/-- The program for given challenges. -/
def withChallenges (C : E → Fn) : Alg2 D E A R → Alg D A R
  | done r => .done r
  | pad q next => .ask q fun a => (next a).withChallenges C
  | challenge q next => (next (C q)).withChallenges C

theorem run_withPads (p : Alg2 D E A R) (O : D → A) (C : E → Fn) : (p.withPads O).run C = p.run O C := by
  induction p with
  | done r => rfl
  | pad q next ih => exact ih (O q)
  | challenge q next ih => exact ih (C q)

theorem run_withChallenges (p : Alg2 D E A R) (O : D → A) (C : E → Fn) : (p.withChallenges C).run O = p.run O C := by
  induction p with
  | done r => rfl
  | pad q next ih => exact ih (O q)
  | challenge q next ih => exact ih (C q)

theorem asked_withChallenges (p : Alg2 D E A R) (O : D → A) (C : E → Fn) : (p.withChallenges C).asked O = p.pads O C := by
  induction p with
  | done r => rfl
  | pad q next ih => exact congrArg (q :: ·) (ih (O q))
  | challenge q next ih => exact ih (C q)

end Alg2

theorem share_average_add {X Y Z W : Type} [Finite X] [Finite Y] [Finite Z] [Finite W] (p : X → Y → Prop)
    (p' : X → Z → Prop) (p'' : X → W → Prop) (h : ∀ x, share (p x) ≤ share (p' x) + share (p'' x)) :
    share (fun u : X × Y => p u.1 u.2) ≤ share (fun u : X × Z => p' u.1 u.2) + share (fun u : X × W => p'' u.1 u.2) := by
  have := Fintype.ofFinite X
  rw [share_sum, share_sum, share_sum, ← add_div, ← Finset.sum_add_distrib]
  exact div_le_div_of_nonneg_right (Finset.sum_le_sum fun x _ => h x) (Nat.cast_nonneg _)

end Oracle

variable {D E : Finset Question} {R S : Type} {k m : Nat}

/-- C165: a program asks at most `q` questions for challenges, is then given everything that is published of a dealing of a product,
and whatever the `k` or fewer recipients of a group `B` know.  It tells shares `x` and `y` of the factors apart, of which the
commitments to the factors are the same, with an advantage of at most `2 q / n ^ 2` and the share of random choices for which it
asks for the pad of a recipient outside the group, when it is given made-up entries for these and a made-up proof. -/
theorem C165_product_dealing (hm : m ≤ 2 ^ 32) (d : NodeIndex) (ad : Bytes) (beta : Fn) (keys : Fin m → Pt) (qs : Fin m → D)
    (hqs : ∀ i : Fin m, within D (padOf .pairs d ad beta i (keys i)) = some (qs i)) (B : Finset (Fin m)) (hB : B.card ≤ k)
    (q : Nat) (first : Alg E Fn S) (hq : first.AtMost q)
    (g : S → (Fin (k + 1) → Pt) → (D → Fn × Fn) → (Fin m → Fn × Fn) → Zk.Product.Proof → Alg2 D E (Fn × Fn) R)
    (hg : ∀ s cm O O' e pf, (∀ x, (∀ i ∈ Bᶜ, qs i ≠ x) → O x = O' x) → g s cm O e pf = g s cm O' e pf)
    (win : R → Prop) (x y : Factors) (hxy : x.Same y)
    (hE : ∀ z : Factors, x.Same z → ∀ (c : DealerCoins k) r, ∃ v, within E ((z.task ad c).asks r) = some v) :
    let view (z : Factors) (u : (DealerCoins k × (D → Fn × Fn)) × (Fn × Fn) × (E → Fn)) :=
      (g (first.run u.2.2) (commitments (z.poly u.1.1) u.1.1.2) u.1.2 (entries qs (dealt (z.poly u.1.1) u.1.1.2) u.1.2)
        ((z.task ad u.1.1).proof u.2.2 u.2.1)).run u.1.2 u.2.2
    let blind (u : (((Fn × Fn × Fn) × (E → Fn)) × DealerCoins k × (D → Fn × Fn) × ((Bᶜ : Finset (Fin m)) → Fn × Fn))) :=
      let pf : Zk.Product.Proof := ⟨u.1.1.1, u.1.1.2.1, u.1.1.2.2⟩
      let c := u.2.1
      (g (first.run u.1.2) (commitments (x.poly c) c.2) u.2.2.1 (madeUp qs (dealt (x.poly c) c.2) Bᶜ u.2.2.1 u.2.2.2) pf).pads
        u.2.2.1 (program u.1.2 ((x.task ad c).claim pf).asks pf.challenge)
    share (fun u => win (view x u)) ≤
      share (fun u => win (view y u)) + 2 * q / n ^ 2 + share (fun u => ∃ i ∈ Bᶜ, qs i ∈ blind u) := by
  intro view blind
  let made (z : Factors) (u : (DealerCoins k × (D → Fn × Fn)) × (Fn × Fn × Fn) × (E → Fn)) :=
    (g (first.run u.2.2) (commitments (z.poly u.1.1) u.1.1.2) u.1.2 (entries qs (dealt (z.poly u.1.1) u.1.1.2) u.1.2)
      ⟨u.2.1.1, u.2.1.2.1, u.2.1.2.2⟩).run u.1.2
        (program u.2.2 ((z.task ad u.1.1).claim ⟨u.2.1.1, u.2.1.2.1, u.2.1.2.2⟩).asks u.2.1.1)
  have hsim : ∀ z : Factors, x.Same z → share (fun u => win (view z u)) ≤ share (fun u => win (made z u)) + (q : ℚ) / n ^ 2 ∧
      share (fun u => win (made z u)) ≤ share (fun u => win (view z u)) + (q : ℚ) / n ^ 2 := by
    intro z hz
    have h := fun (v : DealerCoins k × (D → Fn × Fn)) => simulate (S := S) (first := first)
      (asks := fun _ r => (z.task ad v.1).asks r) (claimAsks := fun _ c w => (ProductTask.claim (z.task ad v.1) ⟨c, w.1, w.2⟩).asks)
      (resp := fun _ c r => ((z.task ad v.1).lhs * c + r.1, ((z.task ad v.1).productMasking - (z.task ad v.1).lhs * (z.task ad v.1).rhsMasking) * c + r.2))
      (next := fun s c w => (g s (commitments (z.poly v.1) v.1.2) v.2 (entries qs (dealt (z.poly v.1) v.1.2) v.2) ⟨c, w.1, w.2⟩).withPads v.2)
      (fun _ c => Equiv.prodCongr (Equiv.addLeft ((z.task ad v.1).lhs * c))
        (Equiv.addLeft (((z.task ad v.1).productMasking - (z.task ad v.1).lhs * (z.task ad v.1).rhsMasking) * c)))
      q win hq (fun O r => hE z hz v.1 r) (fun O r r' y => product_nonce (z.task ad v.1) r r' y) (fun _ _ _ => rfl)
      (fun t c r => product_claim_asks (z.task ad v.1) c r)
    simp only [Alg2.run_withPads, card_pairs] at h
    exact ⟨share_average (fun v w => win (view z (v, w))) (fun v w => win (made z (v, w))) _ fun v => (h v).1,
      share_average (fun v w => win (made z (v, w))) (fun v w => win (view z (v, w))) _ fun v => (h v).2⟩
  have hmade : share (fun u => win (made x u)) ≤ share (fun u => win (made y u)) + share (fun u => ∃ i ∈ Bᶜ, qs i ∈ blind u) := by
    have h := fun w : (Fn × Fn × Fn) × (E → Fn) => C161_masked_dealing hm d ad beta keys qs hqs B hB
      (fun cm O e => (g (first.run w.2) cm O e ⟨w.1.1, w.1.2.1, w.1.2.2⟩).withChallenges
        (program w.2 (ProductClaim.asks ⟨x.l • G, x.r • G + x.m • Point.H, cm 0, ad, ⟨w.1.1, w.1.2.1, w.1.2.2⟩⟩) w.1.1))
      (fun cm O O' hO => by funext e; dsimp only; rw [hg _ _ _ _ _ _ hO]) win (x.l * x.r) (y.l * y.r)
    simp only [AsksFor, Alg2.run_withChallenges, Alg2.asked_withChallenges] at h
    have hcomm : ∀ z, share (fun u => win (made z u)) = share (fun u : ((Fn × Fn × Fn) × (E → Fn)) × DealerCoins k × (D → Fn × Fn) =>
        win (made z (u.2, u.1))) := fun z => (share_equiv (Equiv.prodComm _ _) (fun u => win (made z u))).symm
    rw [hcomm, hcomm]
    refine share_average_add (fun w v => win (made x (v, w))) (fun w v => win (made y (v, w)))
      (fun w v => ∃ i ∈ Bᶜ, qs i ∈ blind (w, v)) fun w => ?_
    have hx : ∀ c : DealerCoins k, (x.task ad c).claim ⟨w.1.1, w.1.2.1, w.1.2.2⟩ =
        ⟨x.l • G, x.r • G + x.m • Point.H, commitments (withSecret (x.l * x.r) c) c.2 0, ad, ⟨w.1.1, w.1.2.1, w.1.2.2⟩⟩ := fun c => rfl
    have hy : ∀ c : DealerCoins k, (y.task ad c).claim ⟨w.1.1, w.1.2.1, w.1.2.2⟩ =
        ⟨x.l • G, x.r • G + x.m • Point.H, commitments (withSecret (y.l * y.r) c) c.2 0, ad, ⟨w.1.1, w.1.2.1, w.1.2.2⟩⟩ := by
      intro c
      rw [hxy.1, hxy.2]
      rfl
    simp only [made, blind, hx, hy, Factors.poly]
    exact h w
  have h1 := (hsim x ⟨rfl, rfl⟩).1
  have h2 := (hsim y hxy).2
  have e : (2 : ℚ) * q / n ^ 2 = q / n ^ 2 + q / n ^ 2 := by ring
  rw [e]
  linarith

/-- C165, the link to the code: with the code's hash functions as oracles, a dealing of a product consists of these commitments and
entries and this proof, for the coefficients and nonces that the generators of the derived seeds draw. -/
theorem C165_code (P : Prim) (seed : Seed) (k : Nat) (keys : List Pt) (hkeys : keys.length ≤ 2 ^ 32) (dealer : NodeIndex) (ad : Bytes)
    (x : Factors) (dl : Dealings.Dealing)
    (h : Dealings.new P (.unmaskedTimesMasked x.l x.r x.m) seed (k + 1) keys dealer ad = .ok dl) :
    ∃ (ps : Seed) (r r' r'' : Rng) (c : DealerCoins k) (pfs : Seed) (nonces : Fn × Fn) (beta : Fn) (ct : Ciphertext (Fn × Fn))
      (pf : Zk.Product.Proof),
      seed.derive P Dealings.polyDst = .ok ps ∧ Scalar.random (ps.rng P) = .ok (c.2 0, r) ∧
      Poly.randomWithConstant (x.l * x.r) (k + 1) r = .ok (List.ofFn (x.poly c), r') ∧
      Poly.randomWithConstant (c.2 0) (k + 1) r' = .ok (List.ofFn c.2, r'') ∧
      seed.derive P Zk.productDst = .ok pfs ∧ Draws2 P pfs nonces.1 nonces.2 ∧
      dl = ⟨some (.pair ct), some ⟨.pedersen, List.ofFn (commitments (x.poly c) c.2)⟩, some (.product (some pf))⟩ ∧
      ct.ephemeralKey = beta • G ∧
      (∀ qs : Fin keys.length → D, (∀ i : Fin keys.length, within D (padOf .pairs dealer ad beta i keys[i]) = some (qs i)) →
        ct.ctexts = List.ofFn (entries qs (dealt (x.poly c) c.2) fun q => codeOracle2 P q.1)) ∧
      ((∃ v, within E ((x.task ad c).asks nonces) = some v) →
        pf = (x.task ad c).proof (fun q : E => codeOracle P q.1) nonces) := by
  rw [Dealings.new] at h
  split_ifs at h with h0
  obtain ⟨ps, hps, h⟩ := Res.bind_eq_ok.1 h
  obtain ⟨ms, hms, h⟩ := Res.bind_eq_ok.1 h
  dsimp only at h
  obtain ⟨⟨pm, r⟩, hpm, h⟩ := Res.bind_eq_ok.1 h
  dsimp only at h
  obtain ⟨⟨values, r'⟩, hv, h⟩ := Res.bind_eq_ok.1 h
  dsimp only at h
  obtain ⟨om, hom, h⟩ := Res.bind_eq_ok.1 h
  obtain ⟨⟨mask, r''⟩, hm, h⟩ := Res.bind_eq_ok.1 h
  rw [Dealings.nonNil_eq_ok.1 hm] at hom
  dsimp only at h
  obtain ⟨⟨ct, cm⟩, henc, h⟩ := Res.bind_eq_ok.1 h
  dsimp only at h
  obtain ⟨pfs, hpfs, h⟩ := Res.bind_eq_ok.1 h
  obtain ⟨opf, hpf, h⟩ := Res.bind_eq_ok.1 h
  have hdl := (Res.ok.inj h).symm
  have hmk : Poly.randomWithConstant pm (k + 1) r' = .ok (mask, r'') := by
    cases hc : Poly.randomWithConstant pm (k + 1) r' <;> rw [hc] at hom <;> simp only [Dealings.ignoreErr, Res.ok.injEq, Option.some.injEq, reduceCtorEq] at hom
    rw [hom]
  have hpf' : ∃ pf, opf = some pf ∧ Zk.Product.create P pfs x.l x.r x.m (x.l * x.r) pm ad = .ok pf := by
    rcases Zk.product_create_cases P pfs x.l x.r x.m (x.l * x.r) pm ad with ⟨pf, e⟩ | e
    · rw [e] at hpf; cases hpf; exact ⟨pf, rfl, e⟩
    · rw [e] at hpf; cases hpf
  obtain ⟨pf, rfl, hcreate⟩ := hpf'
  obtain ⟨-, hvl, hv0⟩ := Poly.randomWithConstant_ok hv
  obtain ⟨-, hml, hm0⟩ := Poly.randomWithConstant_ok hmk
  obtain ⟨f, rfl⟩ := eq_ofFn (n := k + 1) (by omega : values.length = k + 1)
  obtain ⟨g, rfl⟩ := eq_ofFn (n := k + 1) (by omega : mask.length = k + 1)
  have hf0 : f 0 = x.l * x.r := by simpa [Poly.coeff] using hv0
  have hg0 : g 0 = pm := by simpa [Poly.coeff] using hm0
  have hf : x.poly (Fin.tail f, g) = f := by
    rw [Factors.poly, ← hf0]
    exact Fin.cons_self_tail f
  have hdraw : ∃ nonces : Fn × Fn, Draws2 P pfs nonces.1 nonces.2 := by
    rw [Zk.Product.create] at hcreate
    obtain ⟨⟨r1, g1⟩, h1, hcreate⟩ := Res.bind_eq_ok.1 hcreate
    obtain ⟨⟨r2, g2⟩, h2, hcreate⟩ := Res.bind_eq_ok.1 hcreate
    exact ⟨(r1, r2), g1, g2, h1, h2⟩
  obtain ⟨nonces, hdraw⟩ := hdraw
  rw [Dealings.encryptAndCommitPair] at henc
  obtain ⟨ct', hct, henc⟩ := Res.bind_eq_ok.1 henc
  obtain ⟨cm', hcm, henc⟩ := Res.bind_eq_ok.1 henc
  obtain ⟨rfl, rfl⟩ := Prod.mk.inj (Res.ok.inj henc)
  rw [Commitment.createPedersen_self (by simp) (by simp) (by omega)] at hcm
  obtain ⟨beta, hb, -, hent, -⟩ := (C152_code (D := D) P ms keys dealer ad).2 _ _ hct
  refine ⟨ps, r, r', r'', (Fin.tail f, g), pfs, nonces, beta, ct', pf, hps, by rw [← hg0] at hpm; exact hpm, by rw [hf]; exact hv,
    by rw [← hg0] at hmk; exact hmk, hpfs, hdraw, ?_, hb, fun qs hqs => ?_, ?_⟩
  · rw [hdl, ← Res.ok.inj hcm, hf]
    have : List.zipWith Point.pedersen (List.ofFn f) (List.ofFn g) = List.ofFn (commitments f g) :=
      List.ext_getElem (by simp) fun i h1 h2 => by
        rw [List.getElem_zipWith, List.getElem_ofFn, List.getElem_ofFn, List.getElem_ofFn]
        rfl
    rw [this]
  · rw [hent qs hqs, hf]
    congr 1
    funext i
    rw [entries, entries]
    congr 1
    have : (i : Nat) < 2 ^ 32 := lt_of_lt_of_le i.2 hkeys
    rw [dealt, ← evaluateAt_ofFn f this, ← evaluateAt_ofFn g this, List.getD_eq_getElem?_getD,
      List.getElem?_eq_getElem (by simp), List.getElem_map, List.getElem_range, Option.getD_some]
  · rintro ⟨v, hv⟩
    have h3 := (C159_code P E pfs).2.2 (x.task ad (Fin.tail f, g)) nonces.1 nonces.2 hdraw fun z hz => by
      rw [within_eq] at hv
      rw [hv] at hz
      exact Option.some.inj hz ▸ v.2
    simp only [Factors.task, hg0] at h3 ⊢
    rw [hcreate] at h3
    exact Res.ok.inj h3

/-- There are finite sets of questions with the questions of all proofs, whatever the shares. -/
theorem product_domain (k : Nat) (ad : Bytes) :
    ∃ E : Finset Question, ∀ (z : Factors) (c : DealerCoins k) (r : Fn × Fn), ∃ v, within E ((z.task ad c).asks r) = some v := by
  have hq : ∀ u : (Fn × Fn × Fn) × Fn × (Fn × Fn),
      ∃ y, question (ProductTask.asks ⟨u.1.1, u.1.2.1, u.1.2.2, u.2.1, ad⟩ u.2.2) = some y := by
    intro u
    rw [ProductTask.asks, Zk.prod_transcript_eq]
    obtain ⟨m, hm⟩ := Ro.form_ok_of_accepted (ds := Zk.equalOpeningsDst) (Zk.prod_accepted_ne _ _ _ ad)
    exact ⟨_, question_run.2 ⟨m, hm, rfl⟩⟩
  choose f hf using hq
  have hfin : (Set.range f).Finite := Set.finite_range f
  exact ⟨hfin.toFinset, fun z c r => ⟨⟨f ((z.l, z.r, z.m), c.2 0, r), by simp⟩, within_eq.2 (hf ((z.l, z.r, z.m), c.2 0, r))⟩⟩

/-- The hypotheses are met, for any number of keys and any threshold, by a program that returns all it is given; and there are
different shares that the commitments do not tell apart. -/
example (d : NodeIndex) (ad : Bytes) (beta : Fn) (keys : Fin m → Pt) (x : Factors) :
    ∃ (D E : Finset Question) (qs : Fin m → D), (∀ i : Fin m, within D (padOf .pairs d ad beta i (keys i)) = some (qs i)) ∧
      (∀ z : Factors, x.Same z → ∀ (c : DealerCoins k) r, ∃ v, within E ((z.task ad c).asks r) = some v) ∧
      ∀ r, ∃ y : Factors, x.Same y ∧ y.r = r := by
  classical
  have hex : ∀ i : Fin m, ∃ q, question (padOf .pairs d ad beta i (keys i)) = some q := by
    intro i
    rw [padOf, padTranscript_eq]
    obtain ⟨x, hx⟩ := Ro.form_ok_of_accepted (ds := CType.pairs.encryptionDst)
      (List.ne_nil_of_mem (mem_pad (d := d) (r := BitVec.ofNat 64 i) (ad := ad) (pk := keys i) (eph := beta • G)
        (shared := beta • keys i)).1)
    exact ⟨_, question_run.2 ⟨x, hx, rfl⟩⟩
  choose f hf using hex
  obtain ⟨E, hE⟩ := product_domain k ad
  refine ⟨Finset.univ.image f, E, fun i => ⟨f i, Finset.mem_image_of_mem f (Finset.mem_univ i)⟩, fun i => within_eq.2 (hf i),
    fun z _ => hE z, fun r => ?_⟩
  obtain ⟨l, hl⟩ := exists_smul_eq H_ne_zero G
  refine ⟨⟨x.l, r, x.m + (x.r - r) * l⟩, ⟨rfl, ?_⟩, rfl⟩
  rw [hl, smul_smul, smul_smul, ← add_smul, ← add_smul]
  congr 1
  ring

end Verif
