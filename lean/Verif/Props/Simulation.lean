import Verif.Spec.Simulation
import Verif.Lemmas.Simulation
import Verif.Props.Oracle

/-!
Property C159: proofs are zero-knowledge in the random oracle model.
-/

set_option autoImplicit false

namespace Verif

open Zk Oracle

namespace Oracle

variable {D : Finset Question}

theorem answer_eq {O : D → Fn} {r : Ro} {q : D} (h : within D r = some q) : answer O r = O q := by
  rw [answer, h]

theorem program_eq {O : D → Fn} {r : Ro} {c : Fn} {q : D} (h : within D r = some q) : program O r c = Function.update O q c := by
  rw [program, h]

/-- What the code's oracle answers is what the code computes. -/
theorem outputScalar_answer (P : Prim) {ro : Ro} {ds : Bytes} {cs : List RoCall} (hro : ro = Ro.run ds cs)
    (h0 : RoCall.accepted cs ≠ []) (hD : ∀ x, question ro = some x → x ∈ D) :
    ro.outputScalar P = .ok (answer (fun q : D => codeOracle P q.1) ro) := by
  subst hro
  obtain ⟨c, hc⟩ := Ro.run_outputScalar_ok P ds h0
  obtain ⟨q, hq, e⟩ := (accepted_code P D ds cs h0 hD c).1 hc
  rw [hc, answer_eq hq, ← e]

theorem card_pairs : (Nat.card (Fn × Fn) : ℚ) = (n : ℚ) ^ 2 := by
  rw [Nat.card_prod, card_Fn]; push_cast; ring

/-- The simulation with questions given by oracle objects of the code. -/
theorem simulate {S N R : Type} [Finite N] [Nonempty N] {first : Alg D Fn S} {asks : S → N → Ro} {claimAsks : S → Fn → N → Ro}
    {resp : S → Fn → N → N} {next : S → Fn → N → Alg D Fn R} (e : S → Fn → N ≃ N) (q : Nat) (win : R → Prop)
    (hq : first.AtMost q) (hD : ∀ O r, ∃ y, within D (asks (first.run O) r) = some y)
    (hinj : ∀ O r r' y, within D (asks (first.run O) r) = some y → within D (asks (first.run O) r') = some y → r = r')
    (hresp : ∀ s c r, resp s c r = e s c r) (hclaim : ∀ s c r, claimAsks s c (e s c r) = asks s r) :
    share (fun x : N × (D → Fn) => win ((next (first.run x.2) (answer x.2 (asks (first.run x.2) x.1))
        (resp (first.run x.2) (answer x.2 (asks (first.run x.2) x.1)) x.1)).run x.2)) ≤
      share (fun x : (Fn × N) × (D → Fn) => win ((next (first.run x.2) x.1.1 x.1.2).run
        (program x.2 (claimAsks (first.run x.2) x.1.1 x.1.2) x.1.1))) + (q : ℚ) / Nat.card N ∧
    share (fun x : (Fn × N) × (D → Fn) => win ((next (first.run x.2) x.1.1 x.1.2).run
        (program x.2 (claimAsks (first.run x.2) x.1.1 x.1.2) x.1.1))) ≤
      share (fun x : N × (D → Fn) => win ((next (first.run x.2) (answer x.2 (asks (first.run x.2) x.1))
        (resp (first.run x.2) (answer x.2 (asks (first.run x.2) x.1)) x.1)).run x.2)) + (q : ℚ) / Nat.card N := by
  obtain ⟨r0⟩ := ‹Nonempty N›
  obtain ⟨q0, -⟩ := hD (fun _ => 0) r0
  have hqf : ∀ O r, within D (asks (first.run O) r) = some ((within D (asks (first.run O) r)).getD q0) := fun O r => by
    obtain ⟨y, hy⟩ := hD O r
    rw [hy]; rfl
  have h := simulation first (fun s r => (within D (asks s r)).getD q0) e next q hq
    (fun O r r' h => hinj O r r' _ (hqf O r) (by rw [hqf O r', ← show _ = (within D (asks (first.run O) r')).getD q0 from h])) win
  have e1 : (fun x : N × (D → Fn) => win ((next (first.run x.2) (answer x.2 (asks (first.run x.2) x.1))
        (resp (first.run x.2) (answer x.2 (asks (first.run x.2) x.1)) x.1)).run x.2)) =
      fun x => win (realWorld first (fun s r => (within D (asks s r)).getD q0) e next x) := by
    funext x
    rw [answer_eq (hqf x.2 x.1), hresp]
    rfl
  have e2 : (fun x : (Fn × N) × (D → Fn) => win ((next (first.run x.2) x.1.1 x.1.2).run
        (program x.2 (claimAsks (first.run x.2) x.1.1 x.1.2) x.1.1))) =
      fun x => win (simWorld first (fun s r => (within D (asks s r)).getD q0) e next x) := by
    funext x
    have hc := hclaim (first.run x.2) x.1.1 ((e (first.run x.2) x.1.1).symm x.1.2)
    rw [Equiv.apply_symm_apply] at hc
    rw [hc, program_eq (hqf x.2 _)]
    rfl
  rw [e1, e2]
  exact h

theorem dlog_nonce (t : DlogTask) (ht : t.g ≠ 0 ∨ t.h ≠ 0) (r r' : Fn) (y : D) (h1 : within D (t.asks r) = some y)
    (h2 : within D (t.asks r') = some y) : r = r' := by
  rw [DlogTask.asks, dlog_transcript_eq] at h1 h2
  obtain ⟨-, hp⟩ := perm_of_within h1 h2
  have key := points_eq (dlog_accepted _ _ _ _) (dlog_accepted _ _ _ _) hp
  rcases ht with ht | ht
  · exact (smul_left_inj ht).1 (key "commitment1" _ _ (by simp) (by simp))
  · exact (smul_left_inj ht).1 (key "commitment2" _ _ (by simp) (by simp))

theorem eq_nonce (t : EqTask) (r r' : Fn) (y : D) (h1 : within D (t.asks r) = some y)
    (h2 : within D (t.asks r') = some y) : r = r' := by
  rw [EqTask.asks, eq_transcript_eq] at h1 h2
  obtain ⟨-, hp⟩ := perm_of_within h1 h2
  have key := points_eq (eq_accepted _ _ _) (eq_accepted _ _ _) hp
  exact (smul_left_inj H_ne_zero).1 (key "commitment" _ _ (by simp) (by simp))

theorem product_nonce (t : ProductTask) (r r' : Fn × Fn) (y : D) (h1 : within D (t.asks r) = some y)
    (h2 : within D (t.asks r') = some y) : r = r' := by
  rw [ProductTask.asks, prod_transcript_eq] at h1 h2
  obtain ⟨-, hp⟩ := perm_of_within h1 h2
  have key := points_eq (prod_accepted _ _ _ _) (prod_accepted _ _ _ _) hp
  have k1 := (smul_left_inj G_ne_zero).1 (key "commitment1" (r.1 • G) (r'.1 • G) (by simp) (by simp))
  have k2 := key "commitment2" (r.1 • (t.rhs • G + t.rhsMasking • Point.H) + r.2 • Point.H)
    (r'.1 • (t.rhs • G + t.rhsMasking • Point.H) + r'.2 • Point.H) (by simp) (by simp)
  rw [k1, add_right_inj] at k2
  exact Prod.ext k1 ((smul_left_inj H_ne_zero).1 k2)

theorem dlog_claim_asks (t : DlogTask) (c r : Fn) : (t.claim ⟨c, t.x * c + r⟩).asks = t.asks r := by
  have h1 : ∀ b : Pt, (t.x * c + r) • b - c • t.x • b = r • b := fun b => by module
  simp only [DlogTask.claim, DlogClaim.asks, DlogTask.asks, h1]

theorem eq_claim_asks (t : EqTask) (c r : Fn) : (t.claim ⟨c, t.masking * c + r⟩).asks = t.asks r := by
  have h1 : (t.masking * c + r) • Point.H - c • (t.secret • G + t.masking • Point.H - t.secret • G) = r • Point.H := by module
  simp only [EqTask.claim, EqClaim.asks, EqTask.asks, h1]

theorem product_claim_asks (t : ProductTask) (c : Fn) (r : Fn × Fn) :
    (t.claim ⟨c, t.lhs * c + r.1, (t.productMasking - t.lhs * t.rhsMasking) * c + r.2⟩).asks = t.asks r := by
  have h1 : (t.lhs * c + r.1) • G - c • t.lhs • G = r.1 • G := by module
  have h2 : (t.lhs * c + r.1) • (t.rhs • G + t.rhsMasking • Point.H) +
      ((t.productMasking - t.lhs * t.rhsMasking) * c + r.2) • Point.H -
        c • ((t.lhs * t.rhs) • G + t.productMasking • Point.H) =
      r.1 • (t.rhs • G + t.rhsMasking • Point.H) + r.2 • Point.H := by module
  simp only [ProductTask.claim, ProductClaim.asks, ProductTask.asks, h1, h2]

theorem dlog_code (P : Prim) (t : DlogTask) (r : Fn) (hD : ∀ x, question (t.asks r) = some x → x ∈ D) :
    Dlog.hashToChallenge P (Dlog.fromWitness t.g t.h t.x) (Point.scalarMul t.g r) (Point.scalarMul t.h r) t.ad =
      .ok (answer (fun q : D => codeOracle P q.1) (t.asks r)) := by
  unfold DlogTask.asks at hD ⊢
  rw [← outputScalar_answer P (dlog_transcript_eq _ _ _ _) (dlog_accepted_ne _ _ _ _) hD]
  rfl

theorem eq_code (P : Prim) (t : EqTask) (r : Fn) (hD : ∀ x, question (t.asks r) = some x → x ∈ D) :
    EqOpen.hashToChallenge P (EqOpen.fromWitness t.secret t.masking)
        (Point.scalarMul (EqOpen.fromWitness t.secret t.masking).h r) t.ad =
      .ok (answer (fun q : D => codeOracle P q.1) (t.asks r)) := by
  unfold EqTask.asks at hD ⊢
  rw [← outputScalar_answer P (eq_transcript_eq _ _ _) (eq_accepted_ne _ _ _) hD]
  rfl

theorem product_code (P : Prim) (t : ProductTask) (r1 r2 : Fn) (hD : ∀ x, question (t.asks (r1, r2)) = some x → x ∈ D) :
    Product.hashToChallenge P (Product.fromWitness t.lhs t.rhs t.rhsMasking (t.lhs * t.rhs) t.productMasking)
        (Point.scalarMul (Product.fromWitness t.lhs t.rhs t.rhsMasking (t.lhs * t.rhs) t.productMasking).g r1)
        (Point.mulPoints (Product.fromWitness t.lhs t.rhs t.rhsMasking (t.lhs * t.rhs) t.productMasking).rhsCom r1
          (Product.fromWitness t.lhs t.rhs t.rhsMasking (t.lhs * t.rhs) t.productMasking).h r2) t.ad =
      .ok (answer (fun q : D => codeOracle P q.1) (t.asks (r1, r2))) := by
  unfold ProductTask.asks at hD ⊢
  rw [← outputScalar_answer P (prod_transcript_eq _ _ _ _) (prod_accepted_ne _ _ _ _) hD]
  rfl

end Oracle

/-- C159, the link to the code: with the code's hash function as oracle, `Create` makes the proof of the nonces that the seed's
generator draws. -/
theorem C159_code (P : Prim) (D : Finset Question) (seed : Seed) :
    (∀ (t : DlogTask) (r : Fn), Draws P seed r → (∀ x, question (t.asks r) = some x → x ∈ D) →
      Dlog.create P seed t.x t.g t.h t.ad = .ok (t.proof (fun q : D => codeOracle P q.1) r)) ∧
    (∀ (t : EqTask) (r : Fn), Draws P seed r → (∀ x, question (t.asks r) = some x → x ∈ D) →
      EqOpen.create P seed t.secret t.masking t.ad = .ok (t.proof (fun q : D => codeOracle P q.1) r)) ∧
    (∀ (t : ProductTask) (r1 r2 : Fn), Draws2 P seed r1 r2 → (∀ x, question (t.asks (r1, r2)) = some x → x ∈ D) →
      Product.create P seed t.lhs t.rhs t.rhsMasking (t.lhs * t.rhs) t.productMasking t.ad =
        .ok (t.proof (fun q : D => codeOracle P q.1) (r1, r2))) := by
  refine ⟨fun t r ⟨rng, hr⟩ hD => ?_, fun t r ⟨rng, hr⟩ hD => ?_, fun t r1 r2 ⟨rng, rng', hr, hr2⟩ hD => ?_⟩
  · simp only [Dlog.create, hr, Res.ok_bind, dlog_code P t r hD, DlogTask.proof]
  · simp only [EqOpen.create, hr, Res.ok_bind, eq_code P t r hD, EqTask.proof]
  · simp only [Product.create, hr, hr2, Res.ok_bind, product_code P t r1 r2 hD, ProductTask.proof]

section

variable (D : Finset Question) (R : Type) (q : Nat) (win : R → Prop)

/-- C159, equality of discrete logarithms: a program that asks at most `q` questions before it chooses statement and witness, and any
number afterwards, does the same with a proof of the prover as with a proof made up without the witness, the oracle's answer to
the one question being set to the made-up challenge; except for the share `q / n`. -/
theorem C159_dlog (first : Alg D Fn (DlogTask × (Zk.Proof → Alg D Fn R))) (hq : first.AtMost q) (hg : ∀ O, (first.run O).1.g ≠ 0 ∨ (first.run O).1.h ≠ 0)
    (hD : ∀ O r, ∃ y, within D ((first.run O).1.asks r) = some y) :
    let real := share fun x : Fn × (D → Fn) => let t := first.run x.2; win ((t.2 (t.1.proof x.2 x.1)).run x.2)
    let sim := share fun x : (Fn × Fn) × (D → Fn) => let t := first.run x.2; let pf : Zk.Proof := ⟨x.1.1, x.1.2⟩
      win ((t.2 pf).run (program x.2 (t.1.claim pf).asks pf.challenge))
    real ≤ sim + (q : ℚ) / n ∧ sim ≤ real + (q : ℚ) / n := by
  have h := simulate (S := DlogTask × (Zk.Proof → Alg D Fn R)) (first := first)
    (asks := fun t r => t.1.asks r) (claimAsks := fun t c z => (DlogTask.claim t.1 ⟨c, z⟩).asks) (resp := fun t c r => t.1.x * c + r)
    (next := fun t c z => t.2 ⟨c, z⟩) (fun t c => Equiv.addLeft (t.1.x * c)) q win hq (fun O r => hD O r)
    (fun O r r' y => dlog_nonce (first.run O).1 (hg O) r r' y) (fun _ _ _ => rfl) (fun t c r => dlog_claim_asks t.1 c r)
  rw [card_Fn] at h
  exact h

/-- C159, equal openings. -/
theorem C159_equal_openings (first : Alg D Fn (EqTask × (Zk.Proof → Alg D Fn R))) (hq : first.AtMost q)
    (hD : ∀ O r, ∃ y, within D ((first.run O).1.asks r) = some y) :
    let real := share fun x : Fn × (D → Fn) => let t := first.run x.2; win ((t.2 (t.1.proof x.2 x.1)).run x.2)
    let sim := share fun x : (Fn × Fn) × (D → Fn) => let t := first.run x.2; let pf : Zk.Proof := ⟨x.1.1, x.1.2⟩
      win ((t.2 pf).run (program x.2 (t.1.claim pf).asks pf.challenge))
    real ≤ sim + (q : ℚ) / n ∧ sim ≤ real + (q : ℚ) / n := by
  have h := simulate (S := EqTask × (Zk.Proof → Alg D Fn R)) (first := first)
    (asks := fun t r => t.1.asks r) (claimAsks := fun t c z => (EqTask.claim t.1 ⟨c, z⟩).asks) (resp := fun t c r => t.1.masking * c + r)
    (next := fun t c z => t.2 ⟨c, z⟩) (fun t c => Equiv.addLeft (t.1.masking * c)) q win hq (fun O r => hD O r)
    (fun O r r' y => eq_nonce (first.run O).1 r r' y) (fun _ _ _ => rfl) (fun t c r => eq_claim_asks t.1 c r)
  rw [card_Fn] at h
  exact h

/-- C159, products: with two nonces the exceptions are the share `q / n ^ 2`. -/
theorem C159_product (first : Alg D Fn (ProductTask × (Zk.Product.Proof → Alg D Fn R))) (hq : first.AtMost q)
    (hD : ∀ O r, ∃ y, within D ((first.run O).1.asks r) = some y) :
    let real := share fun x : (Fn × Fn) × (D → Fn) => let t := first.run x.2; win ((t.2 (t.1.proof x.2 x.1)).run x.2)
    let sim := share fun x : (Fn × Fn × Fn) × (D → Fn) => let t := first.run x.2
      let pf : Zk.Product.Proof := ⟨x.1.1, x.1.2.1, x.1.2.2⟩
      win ((t.2 pf).run (program x.2 (t.1.claim pf).asks pf.challenge))
    real ≤ sim + (q : ℚ) / n ^ 2 ∧ sim ≤ real + (q : ℚ) / n ^ 2 := by
  have h := simulate (S := ProductTask × (Zk.Product.Proof → Alg D Fn R)) (first := first)
    (asks := fun t r => t.1.asks r) (claimAsks := fun t c z => (ProductTask.claim t.1 ⟨c, z.1, z.2⟩).asks)
    (resp := fun t c r => (t.1.lhs * c + r.1, (t.1.productMasking - t.1.lhs * t.1.rhsMasking) * c + r.2))
    (next := fun t c z => t.2 ⟨c, z.1, z.2⟩)
    (fun t c => Equiv.prodCongr (Equiv.addLeft (t.1.lhs * c)) (Equiv.addLeft ((t.1.productMasking - t.1.lhs * t.1.rhsMasking) * c)))
    q win hq (fun O r => hD O r) (fun O r r' y => product_nonce (first.run O).1 r r' y) (fun _ _ _ => rfl) (fun t c r => product_claim_asks t.1 c r)
  rw [card_pairs] at h
  exact h

end

/-- C159: a made-up proof passes the verification with the oracle that answers its question by its challenge. -/
theorem C159_accepted {D : Finset Question} (O : D → Fn) (ro : Ro) (c : Fn) (hD : ∃ y, within D ro = some y) :
    Accepted (program O ro c) ro c := by
  obtain ⟨y, hy⟩ := hD
  exact ⟨y, hy, by rw [program_eq hy, Function.update_self]⟩

/-- There are finite sets of questions with all questions of a task, for every nonce. -/
theorem dlog_domain (g h : Pt) (x : Fn) (ad : Bytes) : ∃ D : Finset Question, ∀ r : Fn,
    ∃ y, within D (DlogTask.asks ⟨g, h, x, ad⟩ r) = some y := by
  have hq : ∀ r : Fn, ∃ y, question (Dlog.transcript ⟨g, h, x • g, x • h⟩ (r • g) (r • h) ad) = some y := by
    intro r
    rw [dlog_transcript_eq]
    obtain ⟨m, hm⟩ := Ro.form_ok_of_accepted (ds := dlogDst) (dlog_accepted_ne ⟨g, h, x • g, x • h⟩ (r • g) (r • h) ad)
    exact ⟨_, question_run.2 ⟨m, hm, rfl⟩⟩
  choose f hf using hq
  have hfin : (Set.range f).Finite := Set.finite_range f
  refine ⟨hfin.toFinset, fun r => ⟨⟨f r, by simp⟩, ?_⟩⟩
  exact within_eq.2 (hf r)

/-- For the example: asks the question of a proof and compares the answer with its challenge. -/
def recheck (D : Finset Question) (asks : Zk.Proof → Ro) (pf : Zk.Proof) : Alg D Fn Bool :=
  match within D (asks pf) with
  | some y => .ask y fun c => .done (c == pf.challenge)
  | none => .done false

theorem recheck_run {D : Finset Question} {asks : Zk.Proof → Ro} {pf : Zk.Proof} {O : D → Fn} {y : D}
    (hy : within D (asks pf) = some y) (hO : O y = pf.challenge) : (recheck D asks pf).run O = true := by
  rw [recheck, hy]
  simp [Alg.run, hO]

/-- A program that chooses a statement at once, is given a proof and recomputes its challenge: it finds every proof right in both
worlds. -/
example (x : Fn) (ad : Bytes) : ∃ (D : Finset Question) (first : Alg D Fn (DlogTask × (Zk.Proof → Alg D Fn Bool))),
    first.AtMost 0 ∧ (∀ O, (first.run O).1.g ≠ 0 ∨ (first.run O).1.h ≠ 0) ∧
    (∀ O r, ∃ y, within D ((first.run O).1.asks r) = some y) ∧
    (∀ O r, (((first.run O).2 ((first.run O).1.proof O r)).run O = true)) ∧
    (∀ O c z, ((first.run O).2 ⟨c, z⟩).run (program O ((first.run O).1.claim ⟨c, z⟩).asks c) = true) := by
  obtain ⟨D, hD⟩ := dlog_domain G Point.H x ad
  obtain ⟨t, ht, hDt⟩ : ∃ t : DlogTask, t.g ≠ 0 ∧ ∀ r, ∃ y, within D (t.asks r) = some y :=
    ⟨⟨G, Point.H, x, ad⟩, G_ne_zero, hD⟩
  refine ⟨D, .done (t, recheck D fun pf => (t.claim pf).asks), trivial, fun _ => .inl ht, fun O r => hDt r, fun O r => ?_, fun O c z => ?_⟩
  · obtain ⟨y, hy⟩ := hDt r
    simp only [Alg.run]
    have hO : O y = (t.proof O r).challenge := by simp only [DlogTask.proof, answer_eq hy]
    refine recheck_run (y := y) ?_ hO
    simp only [DlogTask.proof, dlog_claim_asks, hy]
  · obtain ⟨y, hy⟩ := hDt (z - t.x * c)
    have hcl := dlog_claim_asks t c (z - t.x * c)
    rw [add_sub_cancel] at hcl
    simp only [Alg.run]
    refine recheck_run (y := y) (by rw [hcl, hy]) ?_
    rw [hcl, program_eq hy, Function.update_self]

end Verif
