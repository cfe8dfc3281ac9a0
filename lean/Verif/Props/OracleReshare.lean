import Verif.Spec.OracleReshare
import Verif.Props.OracleProduct

/-!
Property C167: dealings without mask show only the public key of what is dealt, in the random oracle model.
-/

set_option autoImplicit false

namespace Verif

open Oracle Mega

variable {D E : Finset Question} {R S : Type} {k m : Nat}

namespace Oracle

/-- The coefficients that make the dealing of `s` look like the made-up one. -/
theorem shifted (B : Finset (Fin m)) (Z : Fin (k + 1) → Fn) (hZ : Vanishes B Z) (s : Fn) (c : Fin k → Fn) :
    simpleCommitments (polyOf s (c + s • Fin.tail Z)) = shown Z (s • G) c ∧
      ∀ i ∈ B, values (m := m) (polyOf s (c + s • Fin.tail Z)) i = values (polyOf 0 c) i := by
  have hf : polyOf s (c + s • Fin.tail Z) = polyOf 0 c + s • Z := by
    funext j
    refine Fin.cases ?_ (fun j => ?_) j
    · simp [polyOf, hZ.1]
    · simp [polyOf, Fin.tail]
  rw [hf]
  constructor
  · funext j
    simp only [simpleCommitments, shown, Pi.add_apply, Pi.smul_apply, smul_eq_mul]
    module
  · intro i hi
    simp only [values, valueFor_add, valueFor_smul, hZ.2 i hi, mul_zero, add_zero]

end Oracle

/-- C167, dealings without mask and without proof: give a program everything that is published of a dealing of `s` of threshold
`k + 1`, and whatever the `k` or fewer recipients of a group `B` know.  It does the same with a dealing made up from `s • G`, random
coefficients and random entries for the others, except for the share of random choices for which it asks, of the made-up dealing,
for the pad of a recipient outside the group. -/
theorem C167_without_mask (hm : m ≤ 2 ^ 32) (d : NodeIndex) (ad : Bytes) (beta : Fn) (keys : Fin m → Pt) (qs : Fin m → D)
    (hqs : ∀ i : Fin m, within D (padOf .single d ad beta i (keys i)) = some (qs i)) (B : Finset (Fin m))
    (Z : Fin (k + 1) → Fn) (hZ : Vanishes B Z)
    (g : (Fin (k + 1) → Pt) → (D → Fn) → (Fin m → Fn) → Alg D Fn R) (hg : ∀ cm, Fair qs Bᶜ (g cm)) (win : R → Prop) (s : Fn) :
    let view (u : (Fin k → Fn) × (D → Fn)) := g (simpleCommitments (polyOf s u.1)) u.2 (entries qs (values (polyOf s u.1)) u.2)
    let sim (S : Pt) (u : (Fin k → Fn) × (D → Fn) × ((Bᶜ : Finset (Fin m)) → Fn)) :=
      g (shown Z S u.1) u.2.1 (madeUp qs (values (polyOf 0 u.1)) Bᶜ u.2.1 u.2.2)
    |share (fun u => win ((view u).run u.2)) - share (fun u => win ((sim (s • G) u).run u.2.1))| ≤
      share (fun u => AsksFor qs Bᶜ (sim (s • G) u) u.2.1) := by
  intro view sim
  let hid := (Bᶜ : Finset (Fin m))
  let made (c : Fin k → Fn) (y : (D → Fn) × (hid → Fn)) :=
    g (simpleCommitments (polyOf s c)) y.1 (madeUp qs (values (polyOf s c)) hid y.1 y.2)
  have hmade := fun c : Fin k → Fn => C152_made_up hm .single d ad beta keys qs hqs hid (values (polyOf s c))
    (g (simpleCommitments (polyOf s c))) (hg _) win
  have hclean : share (fun u => ¬ AsksFor qs hid (view u) u.2 ∧ win ((view u).run u.2)) =
      share (fun u : (Fin k → Fn) × (D → Fn) × (hid → Fn) => ¬ AsksFor qs hid (made u.1 u.2) u.2.1 ∧ win ((made u.1 u.2).run u.2.1)) :=
    share_average_eq (fun c O => ¬ AsksFor qs hid (view (c, O)) O ∧ win ((view (c, O)).run O))
      (fun c y => ¬ AsksFor qs hid (made c y) y.1 ∧ win ((made c y).run y.1)) fun c => (hmade c).1
  have hasks : share (fun u => AsksFor qs hid (view u) u.2) =
      share (fun u : (Fin k → Fn) × (D → Fn) × (hid → Fn) => AsksFor qs hid (made u.1 u.2) u.2.1) :=
    share_average_eq (fun c O => AsksFor qs hid (view (c, O)) O) (fun c y => AsksFor qs hid (made c y) y.1) fun c => (hmade c).2
  let e : (Fin k → Fn) ≃ (Fin k → Fn) := Equiv.addRight (s • Fin.tail Z)
  have hsame : ∀ c y, made (e c) y = sim (s • G) (c, y) := by
    intro c y
    obtain ⟨h1, h2⟩ := shifted B Z hZ s c
    have h3 : madeUp qs (values (polyOf s (e c))) hid y.1 y.2 = madeUp qs (values (polyOf 0 c)) hid y.1 y.2 := by
      funext i
      simp only [madeUp]
      split_ifs with hi
      · rfl
      · exact congrArg (y.1 (qs i) + ·) (h2 i (by simpa [hid] using hi))
    exact congr (congrFun (congrArg g h1) y.1) h3
  have hswap : ∀ p : Alg D Fn R → (D → Fn) → Prop, share (fun u : (Fin k → Fn) × (D → Fn) × (hid → Fn) => p (made u.1 u.2) u.2.1) =
      share (fun u : (Fin k → Fn) × (D → Fn) × (hid → Fn) => p (sim (s • G) u) u.2.1) := by
    intro p
    refine (share_equiv (Equiv.prodCongr e (Equiv.refl ((D → Fn) × (hid → Fn)))) fun u => p (made u.1 u.2) u.2.1).symm.trans ?_
    exact congrArg share (funext fun u => congrArg (p · u.2.1) (hsame u.1 u.2))
  have e1 := hclean.trans (hswap fun p O => ¬ AsksFor qs hid p O ∧ win (p.run O))
  have e2 := hasks.trans (hswap fun p O => AsksFor qs hid p O)
  have bound : ∀ {X : Type} [Finite X] (p a : X → Prop), share p ≤ share (fun x => ¬ a x ∧ p x) + share a ∧
      share (fun x => ¬ a x ∧ p x) ≤ share p := fun p a => ⟨share_le_add _ _ _ fun x hx => by
    by_cases ha : a x
    · exact Or.inr ha
    · exact Or.inl ⟨ha, hx⟩, share_mono fun x hx => hx.2⟩
  have b1 := bound (fun u => win ((view u).run u.2)) (fun u => AsksFor qs hid (view u) u.2)
  have b2 := bound (fun u => win ((sim (s • G) u).run u.2.1)) (fun u => AsksFor qs hid (sim (s • G) u) u.2.1)
  rw [abs_le]
  constructor <;> linarith [b1.1, b1.2, b2.1, b2.2]

theorem Oracle.share_average_abs {X Y Z W : Type} [Finite X] [Finite Y] [Finite Z] [Finite W] (p : X → Y → Prop)
    (p' : X → Z → Prop) (p'' : X → W → Prop) (h : ∀ x, |share (p x) - share (p' x)| ≤ share (p'' x)) :
    |share (fun u : X × Y => p u.1 u.2) - share (fun u : X × Z => p' u.1 u.2)| ≤ share (fun u : X × W => p'' u.1 u.2) := by
  have h1 := share_average_add p p' p'' fun x => by have := (abs_le.1 (h x)).2; linarith
  have h2 := share_average_add p' p p'' fun x => by have := (abs_le.1 (h x)).1; linarith
  rw [abs_le]
  constructor <;> linarith

/-- C167, resharing of a masked secret: the dealing comes with a proof that the constant term is the secret of the masked commitment.
A program that asks at most `q` questions for challenges beforehand does the same with a dealing made up from the masked commitment
and from `secret • G`, with the exception of the share `q / n` and that of C167. -/
theorem C167_with_proof (hm : m ≤ 2 ^ 32) (d : NodeIndex) (beta : Fn) (keys : Fin m → Pt) (qs : Fin m → D) (t : EqTask)
    (hqs : ∀ i : Fin m, within D (padOf .single d t.ad beta i (keys i)) = some (qs i)) (B : Finset (Fin m))
    (Z : Fin (k + 1) → Fn) (hZ : Vanishes B Z) (q : Nat) (first : Alg E Fn S) (hq : first.AtMost q)
    (g : S → (Fin (k + 1) → Pt) → (D → Fn) → (Fin m → Fn) → Zk.Proof → Alg2 D E Fn R)
    (hg : ∀ s cm O O' e pf, (∀ x, (∀ i ∈ Bᶜ, qs i ≠ x) → O x = O' x) → g s cm O e pf = g s cm O' e pf)
    (win : R → Prop) (hE : ∀ r, ∃ v, within E (t.asks r) = some v) :
    let view (u : ((Fin k → Fn) × (D → Fn)) × Fn × (E → Fn)) :=
      (g (first.run u.2.2) (simpleCommitments (polyOf t.secret u.1.1)) u.1.2 (entries qs (values (polyOf t.secret u.1.1)) u.1.2)
        (t.proof u.2.2 u.2.1)).run u.1.2 u.2.2
    let sim (K : Pt) (u : ((Fn × Fn) × (E → Fn)) × (Fin k → Fn) × (D → Fn) × ((Bᶜ : Finset (Fin m)) → Fn)) :=
      g (first.run u.1.2) (shown Z K u.2.1) u.2.2.1 (madeUp qs (values (polyOf 0 u.2.1)) Bᶜ u.2.2.1 u.2.2.2) ⟨u.1.1.1, u.1.1.2⟩
    let challenges (M K : Pt) (u : (Fn × Fn) × (E → Fn)) :=
      program u.2 (EqClaim.asks ⟨M, K, t.ad, ⟨u.1.1, u.1.2⟩⟩) u.1.1
    let K := t.secret • G
    let M := t.secret • G + t.masking • Point.H
    |share (fun u => win (view u)) - share (fun u => win ((sim K u).run u.2.2.1 (challenges M K u.1)))| ≤
      q / n + share (fun u => ∃ i ∈ Bᶜ, qs i ∈ (sim K u).pads u.2.2.1 (challenges M K u.1)) := by
  intro view sim challenges K M
  let made (u : ((Fin k → Fn) × (D → Fn)) × (Fn × Fn) × (E → Fn)) :=
    (g (first.run u.2.2) (simpleCommitments (polyOf t.secret u.1.1)) u.1.2 (entries qs (values (polyOf t.secret u.1.1)) u.1.2)
      ⟨u.2.1.1, u.2.1.2⟩).run u.1.2 (challenges M K u.2)
  have h1 : share (fun u => win (view u)) ≤ share (fun u => win (made u)) + (q : ℚ) / n ∧
      share (fun u => win (made u)) ≤ share (fun u => win (view u)) + (q : ℚ) / n := by
    have h := fun v : (Fin k → Fn) × (D → Fn) => simulate (S := S) (first := first)
      (asks := fun _ r => t.asks r) (claimAsks := fun _ c w => (EqTask.claim t ⟨c, w⟩).asks) (resp := fun _ c r => t.masking * c + r)
      (next := fun s c w => (g s (simpleCommitments (polyOf t.secret v.1)) v.2 (entries qs (values (polyOf t.secret v.1)) v.2)
        ⟨c, w⟩).withPads v.2)
      (fun _ c => Equiv.addLeft (t.masking * c)) q win hq (fun _ r => hE r) (fun _ r r' y => eq_nonce t r r' y) (fun _ _ _ => rfl)
      (fun _ c r => eq_claim_asks t c r)
    simp only [Alg2.run_withPads, card_Fn] at h
    exact ⟨share_average (fun v w => win (view (v, w))) (fun v w => win (made (v, w))) _ fun v => (h v).1,
      share_average (fun v w => win (made (v, w))) (fun v w => win (view (v, w))) _ fun v => (h v).2⟩
  have h2 : |share (fun u => win (made u)) - share (fun u => win ((sim K u).run u.2.2.1 (challenges M K u.1)))| ≤
      share (fun u => ∃ i ∈ Bᶜ, qs i ∈ (sim K u).pads u.2.2.1 (challenges M K u.1)) := by
    have h := fun w : (Fn × Fn) × (E → Fn) => C167_without_mask hm d t.ad beta keys qs hqs B Z hZ
      (fun cm O e => (g (first.run w.2) cm O e ⟨w.1.1, w.1.2⟩).withChallenges (challenges M K w))
      (fun cm O O' hO => by funext e; dsimp only; rw [hg _ _ _ _ _ _ hO]) win t.secret
    simp only [AsksFor, Alg2.run_withChallenges, Alg2.asked_withChallenges] at h
    rw [← share_equiv (Equiv.prodComm _ _) (fun u => win (made u))]
    exact share_average_abs (fun w v => win (made (v, w))) (fun w v => win ((sim K (w, v)).run v.2.1 (challenges M K w)))
      (fun w v => ∃ i ∈ Bᶜ, qs i ∈ (sim K (w, v)).pads v.2.1 (challenges M K w)) h
  rw [abs_le] at h2 ⊢
  constructor <;> linarith [h1.1, h1.2, h2.1, h2.2]

namespace Dealings

/-- What a dealing without mask consists of. -/
theorem single_contents (P : Prim) (ms : Seed) (k : Nat) (keys : List Pt) (hkeys : keys.length ≤ 2 ^ 32) (dealer : NodeIndex)
    (ad : Bytes) (f : Fin (k + 1) → Fn) (ct : Ciphertext Fn) (cm : Commitment)
    (h : encryptAndCommitSingle P (List.ofFn f) (k + 1) keys dealer ad ms = .ok (ct, cm)) :
    cm = ⟨.simple, List.ofFn (simpleCommitments f)⟩ ∧ ∃ beta : Fn, ct.ephemeralKey = beta • G ∧
      ∀ qs : Fin keys.length → D, (∀ i : Fin keys.length, within D (padOf .single dealer ad beta i keys[i]) = some (qs i)) →
        ct.ctexts = List.ofFn (entries qs (values f) fun q => codeOracle P q.1) := by
  rw [encryptAndCommitSingle] at h
  obtain ⟨ct', hct, h⟩ := Res.bind_eq_ok.1 h
  obtain ⟨cm', hcm, h⟩ := Res.bind_eq_ok.1 h
  obtain ⟨rfl, rfl⟩ := Prod.mk.inj (Res.ok.inj h)
  rw [Commitment.createSimple_self (by simp) (by omega)] at hcm
  obtain ⟨beta, hb, -, hent, -⟩ := (C152_code (D := D) P ms keys dealer ad).1 _ _ hct
  refine ⟨?_, beta, hb, fun qs hqs => ?_⟩
  · rw [← Res.ok.inj hcm]
    have : (List.ofFn f).map Point.mulByG = List.ofFn (simpleCommitments f) :=
      List.ext_getElem (by simp) fun i h1 h2 => by
        rw [List.getElem_map, List.getElem_ofFn, List.getElem_ofFn]
        rfl
    rw [this]
  · rw [hent qs hqs]
    congr 1
    funext i
    rw [entries, entries]
    congr 1
    have : (i : Nat) < 2 ^ 32 := lt_of_lt_of_le i.2 hkeys
    rw [values, ← evaluateAt_ofFn f this, List.getD_eq_getElem?_getD, List.getElem?_eq_getElem (by simp), List.getElem_map,
      List.getElem_range, Option.getD_some]

theorem eq_polyOf {s : Fn} {k : Nat} {r r' : Rng} {cs : List Fn} (h : Poly.randomWithConstant s (k + 1) r = .ok (cs, r')) :
    ∃ c : Fin k → Fn, cs = List.ofFn (polyOf s c) := by
  obtain ⟨-, hl, h0⟩ := Poly.randomWithConstant_ok h
  obtain ⟨f, rfl⟩ := eq_ofFn (n := k + 1) (by omega : cs.length = k + 1)
  have hf0 : f 0 = s := by simpa [Poly.coeff] using h0
  refine ⟨Fin.tail f, ?_⟩
  rw [polyOf, ← hf0, Fin.cons_self_tail]

/-- C167, the link to the code for unmasked secrets: with the code's hash function as oracle, a dealing consists of these commitments
and entries, for the coefficients that the generator of the derived seed draws. -/
theorem C167_code_unmasked (P : Prim) (seed : Seed) (k : Nat) (keys : List Pt) (hkeys : keys.length ≤ 2 ^ 32) (dealer : NodeIndex)
    (ad : Bytes) (s : Fn) (dl : Dealing) (h : new P (.reshareUnmasked s) seed (k + 1) keys dealer ad = .ok dl) :
    ∃ (ps : Seed) (r : Rng) (c : Fin k → Fn) (beta : Fn) (ct : Ciphertext Fn),
      seed.derive P polyDst = .ok ps ∧ Poly.randomWithConstant s (k + 1) (ps.rng P) = .ok (List.ofFn (polyOf s c), r) ∧
      dl = ⟨some (.single ct), some ⟨.simple, List.ofFn (simpleCommitments (polyOf s c))⟩, none⟩ ∧ ct.ephemeralKey = beta • G ∧
      ∀ qs : Fin keys.length → D, (∀ i : Fin keys.length, within D (padOf .single dealer ad beta i keys[i]) = some (qs i)) →
        ct.ctexts = List.ofFn (entries qs (values (polyOf s c)) fun q => codeOracle P q.1) := by
  rw [new] at h
  split_ifs at h with h0
  obtain ⟨ps, hps, h⟩ := Res.bind_eq_ok.1 h
  obtain ⟨ms, hms, h⟩ := Res.bind_eq_ok.1 h
  dsimp only at h
  obtain ⟨⟨cs, r⟩, hv, h⟩ := Res.bind_eq_ok.1 h
  dsimp only at h
  obtain ⟨⟨ct, cm⟩, hct, h⟩ := Res.bind_eq_ok.1 h
  obtain ⟨c, rfl⟩ := eq_polyOf hv
  obtain ⟨rfl, beta, hb, hent⟩ := single_contents (D := D) P ms k keys hkeys dealer ad _ _ _ hct
  exact ⟨ps, r, c, beta, ct, hps, hv, (Res.ok.inj h).symm, hb, hent⟩

/-- C167, the link to the code for masked secrets: besides there is the proof, with the nonce drawn by the generator of another derived
seed. -/
theorem C167_code_masked (P : Prim) (seed : Seed) (k : Nat) (keys : List Pt) (hkeys : keys.length ≤ 2 ^ 32) (dealer : NodeIndex)
    (ad : Bytes) (s mask : Fn) (dl : Dealing) (h : new P (.reshareMasked s mask) seed (k + 1) keys dealer ad = .ok dl) :
    ∃ (ps : Seed) (r : Rng) (c : Fin k → Fn) (pfs : Seed) (nonce beta : Fn) (ct : Ciphertext Fn) (pf : Zk.Proof),
      seed.derive P polyDst = .ok ps ∧ Poly.randomWithConstant s (k + 1) (ps.rng P) = .ok (List.ofFn (polyOf s c), r) ∧
      seed.derive P Zk.equalOpeningsDst = .ok pfs ∧ Draws P pfs nonce ∧
      dl = ⟨some (.single ct), some ⟨.simple, List.ofFn (simpleCommitments (polyOf s c))⟩, some (.masked (some pf))⟩ ∧
      ct.ephemeralKey = beta • G ∧
      (∀ qs : Fin keys.length → D, (∀ i : Fin keys.length, within D (padOf .single dealer ad beta i keys[i]) = some (qs i)) →
        ct.ctexts = List.ofFn (entries qs (values (polyOf s c)) fun q => codeOracle P q.1)) ∧
      ((∃ v, within E (EqTask.asks ⟨s, mask, ad⟩ nonce) = some v) →
        pf = EqTask.proof (fun q : E => codeOracle P q.1) ⟨s, mask, ad⟩ nonce) := by
  rw [new] at h
  split_ifs at h with h0
  obtain ⟨ps, hps, h⟩ := Res.bind_eq_ok.1 h
  obtain ⟨ms, hms, h⟩ := Res.bind_eq_ok.1 h
  dsimp only at h
  obtain ⟨⟨cs, r⟩, hv, h⟩ := Res.bind_eq_ok.1 h
  dsimp only at h
  obtain ⟨⟨ct, cm⟩, hct, h⟩ := Res.bind_eq_ok.1 h
  dsimp only at h
  obtain ⟨pfs, hpfs, h⟩ := Res.bind_eq_ok.1 h
  obtain ⟨pf, hpf, h⟩ := Res.bind_eq_ok.1 h
  obtain ⟨c, rfl⟩ := eq_polyOf hv
  obtain ⟨rfl, beta, hb, hent⟩ := single_contents (D := D) P ms k keys hkeys dealer ad _ _ _ hct
  have hdraw : ∃ nonce : Fn, Draws P pfs nonce := by
    have hpf' := hpf
    rw [Zk.EqOpen.create] at hpf'
    obtain ⟨⟨r1, g1⟩, h1, -⟩ := Res.bind_eq_ok.1 hpf'
    exact ⟨r1, g1, h1⟩
  obtain ⟨nonce, hdraw⟩ := hdraw
  refine ⟨ps, r, c, pfs, nonce, beta, ct, pf, hps, hv, hpfs, hdraw, (Res.ok.inj h).symm, hb, hent, ?_⟩
  rintro ⟨v, hv⟩
  have h3 := (C159_code P E pfs).2.1 ⟨s, mask, ad⟩ nonce hdraw fun z hz => by
    rw [within_eq] at hv
    rw [hv] at hz
    exact Option.some.inj hz ▸ v.2
  exact Res.ok.inj (hpf.symm.trans h3)

end Dealings

/-- The hypotheses are met, for any number of keys, any threshold and every group of fewer recipients. -/
example (hm : m ≤ 2 ^ 32) (d : NodeIndex) (t : EqTask) (beta : Fn) (keys : Fin m → Pt) (B : Finset (Fin m)) (hB : B.card ≤ k) :
    ∃ (D E : Finset Question) (qs : Fin m → D) (Z : Fin (k + 1) → Fn), Vanishes B Z ∧
      (∀ i : Fin m, within D (padOf .single d t.ad beta i (keys i)) = some (qs i)) ∧ ∀ r, ∃ v, within E (t.asks r) = some v := by
  classical
  have hex : ∀ i : Fin m, ∃ q, question (padOf .single d t.ad beta i (keys i)) = some q := by
    intro i
    rw [padOf, padTranscript_eq]
    obtain ⟨x, hx⟩ := Ro.form_ok_of_accepted (ds := CType.single.encryptionDst)
      (List.ne_nil_of_mem (mem_pad (d := d) (r := BitVec.ofNat 64 i) (ad := t.ad) (pk := keys i) (eph := beta • G)
        (shared := beta • keys i)).1)
    exact ⟨_, question_run.2 ⟨x, hx, rfl⟩⟩
  choose f hf using hex
  have hq : ∀ r : Fn, ∃ y, question (t.asks r) = some y := by
    intro r
    rw [EqTask.asks, Zk.eq_transcript_eq]
    obtain ⟨m, hm⟩ := Ro.form_ok_of_accepted (ds := Zk.equalOpeningsDst) (Zk.eq_accepted_ne _ _ t.ad)
    exact ⟨_, question_run.2 ⟨m, hm, rfl⟩⟩
  choose f' hf' using hq
  have hfin : (Set.range f').Finite := Set.finite_range f'
  obtain ⟨Z, hZ⟩ := exists_vanishing hm B hB
  exact ⟨Finset.univ.image f, hfin.toFinset, fun i => ⟨f i, Finset.mem_image_of_mem f (Finset.mem_univ i)⟩, Z, hZ,
    fun i => within_eq.2 (hf i), fun r => ⟨⟨f' r, by simp⟩, within_eq.2 (hf' r)⟩⟩

/-- A group that reaches the threshold is not covered: there is no such polynomial. -/
example (Z : Fin 1 → Fn) : ¬ Vanishes (Finset.univ : Finset (Fin 1)) Z := by
  rintro ⟨h0, h1⟩
  have := h1 0 (by simp)
  simp [valueFor, h0] at this

end Verif
