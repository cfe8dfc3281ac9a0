import Verif.Props.OraclePop

/-!
C178 for the dealings that have a proof besides that of possession: products and resharings of masked secrets.
-/

set_option autoImplicit false

namespace Verif

open Oracle Mega

namespace Oracle

variable {D E : Finset Question} {A R S Y : Type} {k m : Nat}

/-- The program that takes `c` for the answer to one question. -/
def Alg.told {Q B : Type} [DecidableEq Q] (q : Q) (c : B) : Alg Q B R → Alg Q B R
  | .done r => .done r
  | .ask x next => if x = q then (next c).told q c else .ask x fun a => (next a).told q c

theorem Alg.run_told {Q B : Type} [DecidableEq Q] (q : Q) (c : B) (O : Q → B) : ∀ g : Alg Q B R,
    (g.told q c).run O = g.run (Function.update O q c)
  | .done r => rfl
  | .ask x next => by
    rw [Alg.told]
    split_ifs with h
    · rw [Alg.run_told q c O (next c), Alg.run, h, Function.update_self]
    · rw [Alg.run, Alg.run_told q c O, Alg.run, Function.update_of_ne h]

theorem exists_told (ro : Ro) (c : Fn) : ∃ told : Alg E Fn R → Alg E Fn R, ∀ g O, (told g).run O = g.run (program O ro c) := by
  cases h : within E ro with
  | none => exact ⟨id, fun g O => by rw [program, h]; rfl⟩
  | some y => exact ⟨Alg.told y c, fun g O => by rw [program, h]; exact Alg.run_told y c O g⟩

/-- One more question after a program. -/
def Alg.andAsk {Q B T : Type} (q : S → Q) (f : S → B → T) : Alg Q B S → Alg Q B T
  | .done s => .ask (q s) fun a => .done (f s a)
  | .ask x next => .ask x fun a => (next a).andAsk q f

theorem Alg.run_andAsk {Q B T : Type} (q : S → Q) (f : S → B → T) (O : Q → B) : ∀ g : Alg Q B S,
    (g.andAsk q f).run O = f (g.run O) (O (q (g.run O)))
  | .done s => rfl
  | .ask x next => by rw [Alg.andAsk, Alg.run, Alg.run_andAsk q f O, Alg.run]

theorem Alg.atMost_andAsk {Q B T : Type} (q : S → Q) (f : S → B → T) : ∀ (g : Alg Q B S) (l : Nat), g.AtMost l → (g.andAsk q f).AtMost (l + 1)
  | .done s, l, _ => fun a => by cases l <;> exact trivial
  | .ask x next, 0, h => h.elim
  | .ask x next, l + 1, h => fun a => Alg.atMost_andAsk q f (next a) l (h a)

/-- Two proofs, the second of them that of possession, may be replaced by made-up ones. -/
theorem pop_made_two {N : Type} [Finite N] [Nonempty N] (b r : Fn) (ad : Bytes) (q : Nat) (first : Alg E Fn S) (hq : first.AtMost q)
    (hE : ∀ nonce, ∃ v, within E ((popTask b r ad).asks nonce) = some v)
    (asks : N → Ro) (claimAsks : Fn → N → Ro) (e : Fn → N ≃ N) (hA : ∀ z, ∃ v, within E (asks z) = some v)
    (hinj : ∀ z z' v, within E (asks z) = some v → within E (asks z') = some v → z = z')
    (hclaim : ∀ c z, claimAsks c (e c z) = asks z)
    (next : S → Fn × N → Pop → Alg E Fn R) (win : R → Prop) :
    |share (fun u : N × Fn × (E → Fn) => win ((next (first.run u.2.2) (answer u.2.2 (asks u.1), e (answer u.2.2 (asks u.1)) u.1)
        (popReal b r ad u.2.2 u.2.1)).run u.2.2)) -
      share (fun u : (Fn × Fn) × (Fn × N) × (E → Fn) => win ((next (first.run u.2.2) u.2.1 (popMade (b • G) r u.1)).run
        (popChallenges (b • G) r ad (program u.2.2 (claimAsks u.2.1.1 u.2.1.2) u.2.1.1) u.1)))| ≤ ((q : ℚ) + 1) / n + q / Nat.card N := by
  classical
  choose v hv using hA
  let real (z : N) (u : Fn × (E → Fn)) := win ((next (first.run u.2) (answer u.2 (asks z), e (answer u.2 (asks z)) z)
    (popReal b r ad u.2 u.1)).run u.2)
  let mid (z : N) (u : (Fn × Fn) × (E → Fn)) := win ((next (first.run u.2) (answer u.2 (asks z), e (answer u.2 (asks z)) z)
    (popMade (b • G) r u.1)).run (popChallenges (b • G) r ad u.2 u.1))
  let made (x : Fn × Fn) (u : (Fn × N) × (E → Fn)) := win ((next (first.run u.2) u.1 (popMade (b • G) r x)).run
    (popChallenges (b • G) r ad (program u.2 (claimAsks u.1.1 u.1.2) u.1.1) x))
  have h1 : ∀ z, share (real z) ≤ share (mid z) + ((q : ℚ) + 1) / n ∧ share (mid z) ≤ share (real z) + ((q : ℚ) + 1) / n := by
    intro z
    have h := pop_made_one (R := R) b r ad (q + 1) (first.andAsk (fun _ => v z) (fun s c => (s, c, e c z)))
      (Alg.atMost_andAsk _ _ _ _ hq) hE (fun s pop => next s.1 s.2 pop) win
    simp only [Alg.run_andAsk, Nat.cast_add, Nat.cast_one] at h
    simp only [real, mid, answer_eq (hv z)]
    exact h
  have h2 : ∀ x, share (fun u : N × (E → Fn) => mid u.1 (x, u.2)) ≤ share (made x) + (q : ℚ) / Nat.card N ∧
      share (made x) ≤ share (fun u : N × (E → Fn) => mid u.1 (x, u.2)) + (q : ℚ) / Nat.card N := by
    intro x
    obtain ⟨told, htold⟩ := exists_told (R := R) ((popTask b r ad).claim ⟨x.1, x.2⟩).asks x.1 (E := E)
    simp only [← popChallenges_eq b r ad _ x] at htold
    have h := simulate (first := first) (asks := fun _ z => asks z) (claimAsks := fun _ c z => claimAsks c z) (resp := fun _ c z => e c z)
      (next := fun s c z => told (next s (c, z) (popMade (b • G) r x))) (fun _ c => e c) q win hq (fun _ z => ⟨v z, hv z⟩)
      (fun _ z z' y => hinj z z' y) (fun _ _ _ => rfl) (fun _ c z => hclaim c z)
    simp only [htold] at h
    exact h
  have a1 := share_average real mid _ fun z => (h1 z).1
  have a2 := share_average mid real _ fun z => (h1 z).2
  have b1 := share_average (fun (x : Fn × Fn) (u : N × (E → Fn)) => mid u.1 (x, u.2)) made _ fun x => (h2 x).1
  have b2 := share_average made (fun (x : Fn × Fn) (u : N × (E → Fn)) => mid u.1 (x, u.2)) _ fun x => (h2 x).2
  let re : ((Fn × Fn) × N × (E → Fn)) ≃ N × (Fn × Fn) × (E → Fn) :=
    ⟨fun u => (u.2.1, u.1, u.2.2), fun u => (u.2.1, u.1, u.2.2), fun _ => rfl, fun _ => rfl⟩
  have hre : share (fun u : (Fn × Fn) × N × (E → Fn) => mid u.2.1 (u.1, u.2.2)) = share (fun u : N × (Fn × Fn) × (E → Fn) => mid u.1 u.2) :=
    share_equiv re (fun u => mid u.1 u.2)
  rw [hre] at b1 b2
  change |share (fun u : N × Fn × (E → Fn) => real u.1 u.2) - share (fun u : (Fn × Fn) × (Fn × N) × (E → Fn) => made u.1 u.2)| ≤ _
  rw [abs_le]
  constructor <;> linarith

end Oracle

variable {D E : Finset Question} {R S : Type} {k m : Nat}

/-- C178 for dealings of a product, with both their proofs (see C165 for what is compared). -/
theorem C178_product (hm : m ≤ 2 ^ 32) (d : NodeIndex) (ad : Bytes) (B : Finset (Fin m)) (hB : B.card ≤ k) (sk : Fin m → Fn)
    (q : Nat) (first : (Fin m → Pt) → Pt → Pt → Alg E Fn S) (hq : ∀ keys V base, (first keys V base).AtMost q)
    (g : S → Pop → (Fin (k + 1) → Pt) → (Fin m → Pt) → (Fin m → Fn × Fn) → Zk.Product.Proof → Alg2 D E (Fn × Fn) R) (q' : Nat)
    (hq' : ∀ s pop cm keys e pf, (g s pop cm keys e pf).AtMostPads q') (b : Fn) (qs : (Fin m → Fn) → Fin m → D)
    (hqs : ∀ a (i : Fin m), within D (padOf .pairs d ad b i (keysFrom B sk 0 a i)) = some (qs a i))
    (hP : ∀ r nonce, ∃ v, within E ((popTask b r ad).asks nonce) = some v) (win : R → Prop) (x y : Factors) (hxy : x.Same y)
    (hE : ∀ z : Factors, x.Same z → ∀ (c : DealerCoins k) r, ∃ v, within E ((z.task ad c).asks r) = some v) (w : Fn) :
    let view (z : Factors) (u : ((Fin m → Fn) × Fn) × (DealerCoins k × (D → Fn × Fn)) × (Fn × Fn) × Fn × (E → Fn)) :=
      (g ((first (keysFrom B sk 0 u.1.1) (b • G) (u.1.2 • G)).run u.2.2.2.2) (popReal b u.1.2 ad u.2.2.2.2 u.2.2.2.1)
        (commitments (z.poly u.2.1.1) u.2.1.1.2) (keysFrom B sk 0 u.1.1) (entries (qs u.1.1) (dealt (z.poly u.2.1.1) u.2.1.1.2) u.2.1.2)
        ((z.task ad u.2.1.1).proof u.2.2.2.2 u.2.2.1)).run u.2.1.2 u.2.2.2.2
    let asks (V : Pt) (c : Fn × ((Fn × Fn) × (Fn × Fn × Fn) × (E → Fn)) × DealerCoins k) (keys : Fin m → Pt) (e : Fin m → Fn × Fn)
        (O : D → Fn × Fn) :=
      let pf : Zk.Product.Proof := ⟨c.2.1.2.1.1, c.2.1.2.1.2.1, c.2.1.2.1.2.2⟩
      (g ((first keys V (c.1 • G)).run c.2.1.2.2) (popMade V c.1 c.2.1.1) (commitments (x.poly c.2.2) c.2.2.2) keys e pf).pads O
        (popChallenges V c.1 ad (program c.2.1.2.2 ((x.task ad c.2.2).claim pf).asks pf.challenge) c.2.1.1)
    share (fun u => win (view x u)) ≤ share (fun u => win (view y u)) + 2 * ((q + 1) / n + q / n ^ 2) + q' * m * share (fun u :
        ((Fin m → Fn) × (Fn × ((Fn × Fn) × (Fn × Fn × Fn) × (E → Fn)) × DealerCoins k) × (D → Fn × Fn) ×
          ((Bᶜ : Finset (Fin m)) → Fn × Fn)) × Fin q' × Fin m =>
      solve .pairs d ad B sk (fun c => dealt (x.poly c.2.2) c.2.2.2) (asks (b • G)) (b • G) (w • G) u.1.1 u.1.2 u.2.1 u.2.2 =
        (b * w) • G) := by
  intro view asks
  let bad (x' : (Fin m → Fn) × Fn) (u : ((Fn × Fn) × (Fn × Fn × Fn) × (E → Fn)) × DealerCoins k × (D → Fn × Fn) ×
      ((Bᶜ : Finset (Fin m)) → Fn × Fn)) :=
    ∃ i ∈ Bᶜ, qs x'.1 i ∈ asks (b • G) (x'.2, u.1, u.2.1) (keysFrom B sk 0 x'.1)
      (madeUp (qs x'.1) (dealt (x.poly u.2.1) u.2.1.2) Bᶜ u.2.2.1 u.2.2.2) u.2.2.1
  have key : ∀ x', share (fun u => win (view x (x', u))) ≤ share (fun u => win (view y (x', u))) + 2 * ((q + 1) / n + q / n ^ 2) +
      share (bad x') := by
    rintro ⟨a, r⟩
    let made (z : Factors) (u : (DealerCoins k × (D → Fn × Fn)) × (Fn × Fn) × (Fn × Fn × Fn) × (E → Fn)) :=
      let pf : Zk.Product.Proof := ⟨u.2.2.1.1, u.2.2.1.2.1, u.2.2.1.2.2⟩
      (g ((first (keysFrom B sk 0 a) (b • G) (r • G)).run u.2.2.2) (popMade (b • G) r u.2.1)
        (commitments (z.poly u.1.1) u.1.1.2) (keysFrom B sk 0 a) (entries (qs a) (dealt (z.poly u.1.1) u.1.1.2) u.1.2) pf).run u.1.2
          (popChallenges (b • G) r ad (program u.2.2.2 ((z.task ad u.1.1).claim pf).asks pf.challenge) u.2.1)
    have hsim : ∀ z : Factors, x.Same z →
        share (fun u => win (view z ((a, r), u))) ≤ share (fun u => win (made z u)) + (((q : ℚ) + 1) / n + q / n ^ 2) ∧
        share (fun u => win (made z u)) ≤ share (fun u => win (view z ((a, r), u))) + (((q : ℚ) + 1) / n + q / n ^ 2) := by
      intro z hz
      have h := fun v : DealerCoins k × (D → Fn × Fn) => pop_made_two (R := R) (N := Fn × Fn) b r ad q
        (first (keysFrom B sk 0 a) (b • G) (r • G)) (hq _ _ _) (hP r)
        (fun z' => (z.task ad v.1).asks z') (fun c z' => (ProductTask.claim (z.task ad v.1) ⟨c, z'.1, z'.2⟩).asks)
        (fun c => Equiv.prodCongr (Equiv.addLeft ((z.task ad v.1).lhs * c))
          (Equiv.addLeft (((z.task ad v.1).productMasking - (z.task ad v.1).lhs * (z.task ad v.1).rhsMasking) * c)))
        (fun z' => hE z hz v.1 z') (fun z' z'' y => product_nonce (z.task ad v.1) z' z'' y)
        (fun c z' => product_claim_asks (z.task ad v.1) c z')
        (fun s w' pop => (g s pop (commitments (z.poly v.1) v.1.2) (keysFrom B sk 0 a) (entries (qs a) (dealt (z.poly v.1) v.1.2) v.2)
          ⟨w'.1, w'.2.1, w'.2.2⟩).withPads v.2) win
      simp only [Alg2.run_withPads, card_pairs] at h
      have h' : ∀ v, |share (fun u => win (view z ((a, r), v, u))) - share (fun u => win (made z (v, u)))| ≤
        ((q : ℚ) + 1) / n + q / n ^ 2 := h
      exact ⟨share_average (fun v u => win (view z ((a, r), v, u))) (fun v u => win (made z (v, u))) _ fun v => by linarith [(abs_le.1 (h' v)).2],
        share_average (fun v u => win (made z (v, u))) (fun v u => win (view z ((a, r), v, u))) _ fun v => by linarith [(abs_le.1 (h' v)).1]⟩
    have hmade : share (fun u => win (made x u)) ≤ share (fun u => win (made y u)) + share (bad (a, r)) := by
      have h := fun z' : (Fn × Fn) × (Fn × Fn × Fn) × (E → Fn) => C161_masked_dealing hm d ad b (keysFrom B sk 0 a) (qs a) (hqs a) B hB
        (fun cm _ e => (g ((first (keysFrom B sk 0 a) (b • G) (r • G)).run z'.2.2) (popMade (b • G) r z'.1) cm (keysFrom B sk 0 a) e
            ⟨z'.2.1.1, z'.2.1.2.1, z'.2.1.2.2⟩).withChallenges
          (popChallenges (b • G) r ad (program z'.2.2
            (ProductClaim.asks ⟨x.l • G, x.r • G + x.m • Point.H, cm 0, ad, ⟨z'.2.1.1, z'.2.1.2.1, z'.2.1.2.2⟩⟩) z'.2.1.1) z'.1))
        (fun cm O O' _ => rfl) win (x.l * x.r) (y.l * y.r)
      simp only [AsksFor, Alg2.run_withChallenges, Alg2.asked_withChallenges] at h
      have hcomm : ∀ z, share (fun u => win (made z u)) = share (fun u : ((Fn × Fn) × (Fn × Fn × Fn) × (E → Fn)) × DealerCoins k × (D → Fn × Fn) =>
          win (made z (u.2, u.1))) := fun z => (share_equiv (Equiv.prodComm _ _) (fun u => win (made z u))).symm
      rw [hcomm, hcomm]
      refine share_average_add (fun z' v => win (made x (v, z'))) (fun z' v => win (made y (v, z')))
        (fun z' v => bad (a, r) (z', v)) fun z' => ?_
      have hx : ∀ c : DealerCoins k, (x.task ad c).claim ⟨z'.2.1.1, z'.2.1.2.1, z'.2.1.2.2⟩ =
          ⟨x.l • G, x.r • G + x.m • Point.H, commitments (withSecret (x.l * x.r) c) c.2 0, ad, ⟨z'.2.1.1, z'.2.1.2.1, z'.2.1.2.2⟩⟩ :=
        fun c => rfl
      have hy : ∀ c : DealerCoins k, (y.task ad c).claim ⟨z'.2.1.1, z'.2.1.2.1, z'.2.1.2.2⟩ =
          ⟨x.l • G, x.r • G + x.m • Point.H, commitments (withSecret (y.l * y.r) c) c.2 0, ad, ⟨z'.2.1.1, z'.2.1.2.1, z'.2.1.2.2⟩⟩ := by
        intro c
        rw [hxy.1, hxy.2]
        rfl
      simp only [made, bad, asks, hx, hy, Factors.poly]
      exact h z'
    linarith [(hsim x ⟨rfl, rfl⟩).1, (hsim y hxy).2]
  refine (share_average_add_const (fun x' u => win (view x (x', u))) (fun x' u => win (view y (x', u))) _ bad key).trans (add_le_add_right ?_ _)
  let re : (((Fin m → Fn) × Fn) × ((Fn × Fn) × (Fn × Fn × Fn) × (E → Fn)) × DealerCoins k × (D → Fn × Fn) × ((Bᶜ : Finset (Fin m)) → Fn × Fn)) ≃
      (Fin m → Fn) × (Fn × ((Fn × Fn) × (Fn × Fn × Fn) × (E → Fn)) × DealerCoins k) × (D → Fn × Fn) × ((Bᶜ : Finset (Fin m)) → Fn × Fn) :=
    ⟨fun u => (u.1.1, (u.1.2, u.2.1, u.2.2.1), u.2.2.2), fun v => ((v.1, v.2.1.1), v.2.1.2.1, v.2.1.2.2, v.2.2), fun _ => rfl, fun _ => rfl⟩
  refine le_trans (le_of_eq ?_) (asks_le .pairs d ad B sk
    (fun c : Fn × ((Fn × Fn) × (Fn × Fn × Fn) × (E → Fn)) × DealerCoins k => dealt (x.poly c.2.2) c.2.2.2) (asks (b • G)) q'
    (fun _ _ _ _ => Alg2.pads_le _ _ _ _ (hq' _ _ _ _ _ _)) b qs hqs w)
  exact share_equiv re (fun u => ∃ i ∈ Bᶜ, qs u.1 i ∈ asks (b • G) u.2.1 (keysFrom B sk 0 u.1)
    (madeUp (qs u.1) (dealt (x.poly u.2.1.2.2) u.2.1.2.2.2) Bᶜ u.2.2.1 u.2.2.2) u.2.2.1)

/-- C178 for resharings of masked secrets, with both their proofs (see C167 for what is compared). -/
theorem C178_masked (hm : m ≤ 2 ^ 32) (d : NodeIndex) (t : EqTask) (B : Finset (Fin m)) (Z : Fin (k + 1) → Fn) (hZ : Vanishes B Z)
    (sk : Fin m → Fn) (q : Nat) (first : (Fin m → Pt) → Pt → Pt → Alg E Fn S) (hq : ∀ keys V base, (first keys V base).AtMost q)
    (g : S → Pop → (Fin (k + 1) → Pt) → (Fin m → Pt) → (Fin m → Fn) → Zk.Proof → Alg2 D E Fn R) (q' : Nat)
    (hq' : ∀ s pop cm keys e pf, (g s pop cm keys e pf).AtMostPads q') (b : Fn) (qs : (Fin m → Fn) → Fin m → D)
    (hqs : ∀ a (i : Fin m), within D (padOf .single d t.ad b i (keysFrom B sk 0 a i)) = some (qs a i))
    (hP : ∀ r nonce, ∃ v, within E ((popTask b r t.ad).asks nonce) = some v) (hE : ∀ r, ∃ v, within E (t.asks r) = some v)
    (win : R → Prop) (w : Fn) :
    let view (u : ((Fin m → Fn) × Fn) × ((Fin k → Fn) × (D → Fn)) × Fn × Fn × (E → Fn)) :=
      (g ((first (keysFrom B sk 0 u.1.1) (b • G) (u.1.2 • G)).run u.2.2.2.2) (popReal b u.1.2 t.ad u.2.2.2.2 u.2.2.2.1)
        (simpleCommitments (polyOf t.secret u.2.1.1)) (keysFrom B sk 0 u.1.1)
        (entries (qs u.1.1) (values (polyOf t.secret u.2.1.1)) u.2.1.2) (t.proof u.2.2.2.2 u.2.2.1)).run u.2.1.2 u.2.2.2.2
    let sim (K V : Pt) (c : Fn × ((Fn × Fn) × (Fn × Fn) × (E → Fn)) × (Fin k → Fn)) (keys : Fin m → Pt) (e : Fin m → Fn) :=
      g ((first keys V (c.1 • G)).run c.2.1.2.2) (popMade V c.1 c.2.1.1) (shown Z K c.2.2) keys e ⟨c.2.1.2.1.1, c.2.1.2.1.2⟩
    let challenges (M K V : Pt) (c : Fn × ((Fn × Fn) × (Fn × Fn) × (E → Fn)) × (Fin k → Fn)) :=
      popChallenges V c.1 t.ad (program c.2.1.2.2 (EqClaim.asks ⟨M, K, t.ad, ⟨c.2.1.2.1.1, c.2.1.2.1.2⟩⟩) c.2.1.2.1.1) c.2.1.1
    let K := t.secret • G
    let M := t.secret • G + t.masking • Point.H
    |share (fun u => win (view u)) - share (fun u :
        (Fin m → Fn) × (Fn × ((Fn × Fn) × (Fn × Fn) × (E → Fn)) × (Fin k → Fn)) × (D → Fn) × ((Bᶜ : Finset (Fin m)) → Fn) =>
      win ((sim K (b • G) u.2.1 (keysFrom B sk 0 u.1)
        (madeUp (qs u.1) (values (polyOf 0 u.2.1.2.2)) Bᶜ u.2.2.1 u.2.2.2)).run u.2.2.1 (challenges M K (b • G) u.2.1)))| ≤
      (q + 1) / n + q / n + q' * m * share (fun u :
        ((Fin m → Fn) × (Fn × ((Fn × Fn) × (Fn × Fn) × (E → Fn)) × (Fin k → Fn)) × (D → Fn) × ((Bᶜ : Finset (Fin m)) → Fn)) ×
          Fin q' × Fin m =>
      solve .single d t.ad B sk (fun c => values (polyOf 0 c.2.2))
        (fun c keys e O => (sim K (b • G) c keys e).pads O (challenges M K (b • G) c)) (b • G) (w • G)
        u.1.1 u.1.2 u.2.1 u.2.2 = (b * w) • G) := by
  intro view sim challenges K M
  let asks (c : Fn × ((Fn × Fn) × (Fn × Fn) × (E → Fn)) × (Fin k → Fn)) (keys : Fin m → Pt) (e : Fin m → Fn) (O : D → Fn) :=
    (sim K (b • G) c keys e).pads O (challenges M K (b • G) c)
  let simWin (x : (Fin m → Fn) × Fn) (u : ((Fn × Fn) × (Fn × Fn) × (E → Fn)) × (Fin k → Fn) × (D → Fn) × ((Bᶜ : Finset (Fin m)) → Fn)) :=
    win ((sim K (b • G) (x.2, u.1, u.2.1) (keysFrom B sk 0 x.1)
      (madeUp (qs x.1) (values (polyOf 0 u.2.1)) Bᶜ u.2.2.1 u.2.2.2)).run u.2.2.1 (challenges M K (b • G) (x.2, u.1, u.2.1)))
  let simAsks (x : (Fin m → Fn) × Fn) (u : ((Fn × Fn) × (Fn × Fn) × (E → Fn)) × (Fin k → Fn) × (D → Fn) × ((Bᶜ : Finset (Fin m)) → Fn)) :=
    ∃ i ∈ Bᶜ, qs x.1 i ∈ asks (x.2, u.1, u.2.1) (keysFrom B sk 0 x.1)
      (madeUp (qs x.1) (values (polyOf 0 u.2.1)) Bᶜ u.2.2.1 u.2.2.2) u.2.2.1
  have key : ∀ x : (Fin m → Fn) × Fn, |share (fun u => win (view (x, u))) - share (simWin x)| ≤ (q + 1) / n + q / n + share (simAsks x) := by
    rintro ⟨a, r⟩
    let made (u : ((Fin k → Fn) × (D → Fn)) × (Fn × Fn) × (Fn × Fn) × (E → Fn)) :=
      (g ((first (keysFrom B sk 0 a) (b • G) (r • G)).run u.2.2.2) (popMade (b • G) r u.2.1)
        (simpleCommitments (polyOf t.secret u.1.1)) (keysFrom B sk 0 a)
        (entries (qs a) (values (polyOf t.secret u.1.1)) u.1.2) ⟨u.2.2.1.1, u.2.2.1.2⟩).run u.1.2
          (popChallenges (b • G) r t.ad (program u.2.2.2 (EqClaim.asks ⟨M, K, t.ad, ⟨u.2.2.1.1, u.2.2.1.2⟩⟩) u.2.2.1.1) u.2.1)
    have hsim : share (fun u => win (view ((a, r), u))) ≤ share (fun u => win (made u)) + (((q : ℚ) + 1) / n + q / n) ∧
        share (fun u => win (made u)) ≤ share (fun u => win (view ((a, r), u))) + (((q : ℚ) + 1) / n + q / n) := by
      have h := fun v : (Fin k → Fn) × (D → Fn) => pop_made_two (R := R) (N := Fn) b r t.ad q
        (first (keysFrom B sk 0 a) (b • G) (r • G)) (hq _ _ _) (hP r)
        (fun z' => t.asks z') (fun c z' => (EqTask.claim t ⟨c, z'⟩).asks) (fun c => Equiv.addLeft (t.masking * c))
        hE (fun z' z'' y => eq_nonce t z' z'' y) (fun c z' => eq_claim_asks t c z')
        (fun s w' pop => (g s pop (simpleCommitments (polyOf t.secret v.1)) (keysFrom B sk 0 a)
          (entries (qs a) (values (polyOf t.secret v.1)) v.2) ⟨w'.1, w'.2⟩).withPads v.2) win
      simp only [Alg2.run_withPads, card_Fn] at h
      have h' : ∀ v, |share (fun u => win (view ((a, r), v, u))) - share (fun u => win (made (v, u)))| ≤ ((q : ℚ) + 1) / n + q / n := h
      exact ⟨share_average (fun v u => win (view ((a, r), v, u))) (fun v u => win (made (v, u))) _ fun v => by linarith [(abs_le.1 (h' v)).2],
        share_average (fun v u => win (made (v, u))) (fun v u => win (view ((a, r), v, u))) _ fun v => by linarith [(abs_le.1 (h' v)).1]⟩
    have h := fun z : (Fn × Fn) × (Fn × Fn) × (E → Fn) =>
      C167_without_mask hm d t.ad b (keysFrom B sk 0 a) (qs a) (hqs a) B Z hZ
        (fun cm _ e => (g ((first (keysFrom B sk 0 a) (b • G) (r • G)).run z.2.2) (popMade (b • G) r z.1) cm (keysFrom B sk 0 a) e
            ⟨z.2.1.1, z.2.1.2⟩).withChallenges
          (popChallenges (b • G) r t.ad (program z.2.2 (EqClaim.asks ⟨M, K, t.ad, ⟨z.2.1.1, z.2.1.2⟩⟩) z.2.1.1) z.1))
        (fun cm O O' _ => rfl) win t.secret
    simp only [AsksFor, Alg2.run_withChallenges, Alg2.asked_withChallenges] at h
    have hmade := share_average_abs (fun z v => win (made (v, z))) (fun z v => simWin (a, r) (z, v)) (fun z v => simAsks (a, r) (z, v)) h
    have hswap : share (fun u : ((Fn × Fn) × (Fn × Fn) × (E → Fn)) × (Fin k → Fn) × (D → Fn) => win (made (u.2, u.1))) =
        share (fun u => win (made u)) := share_equiv (Equiv.prodComm _ _) (fun u => win (made u))
    rw [hswap, abs_le] at hmade
    rw [abs_le]
    constructor <;> linarith [hsim.1, hsim.2, hmade.1, hmade.2]
  have h := share_average_abs_const (fun x u => win (view (x, u))) simWin _ simAsks key
  let re : (((Fin m → Fn) × Fn) × ((Fn × Fn) × (Fn × Fn) × (E → Fn)) × (Fin k → Fn) × (D → Fn) × ((Bᶜ : Finset (Fin m)) → Fn)) ≃
      (Fin m → Fn) × (Fn × ((Fn × Fn) × (Fn × Fn) × (E → Fn)) × (Fin k → Fn)) × (D → Fn) × ((Bᶜ : Finset (Fin m)) → Fn) :=
    ⟨fun u => (u.1.1, (u.1.2, u.2.1, u.2.2.1), u.2.2.2), fun v => ((v.1, v.2.1.1), v.2.1.2.1, v.2.1.2.2, v.2.2), fun _ => rfl, fun _ => rfl⟩
  have e1 := share_equiv re (fun u => win ((sim K (b • G) u.2.1 (keysFrom B sk 0 u.1)
        (madeUp (qs u.1) (values (polyOf 0 u.2.1.2.2)) Bᶜ u.2.2.1 u.2.2.2)).run u.2.2.1 (challenges M K (b • G) u.2.1)))
  have e2 := share_equiv re (fun u => ∃ i ∈ Bᶜ, qs u.1 i ∈ asks u.2.1 (keysFrom B sk 0 u.1)
    (madeUp (qs u.1) (values (polyOf 0 u.2.1.2.2)) Bᶜ u.2.2.1 u.2.2.2) u.2.2.1)
  rw [← e1]
  refine h.trans (add_le_add_right (le_trans (le_of_eq e2) ?_) _)
  exact asks_le .single d t.ad B sk (fun c : Fn × ((Fn × Fn) × (Fn × Fn) × (E → Fn)) × (Fin k → Fn) => values (polyOf 0 c.2.2)) asks q'
    (fun _ _ _ _ => Alg2.pads_le _ _ _ _ (hq' _ _ _ _ _ _)) b qs hqs w

/-- The hypotheses on questions are met: a larger set of questions keeps them, so that one for the proofs of possession and one for the others make one
for both. -/
theorem Oracle.within_union {E' : Finset Question} (ro : Ro) (h : (∃ v, within E ro = some v) ∨ ∃ v, within E' ro = some v) :
    ∃ v, within (E ∪ E') ro = some v := by
  rcases h with ⟨v, hv⟩ | ⟨v, hv⟩
  · have h := within_eq.1 hv
    exact ⟨⟨v.1, Finset.mem_union_left _ v.2⟩, within_eq.2 h⟩
  · have h := within_eq.1 hv
    exact ⟨⟨v.1, Finset.mem_union_right _ v.2⟩, within_eq.2 h⟩

example (b : Fn) (t : EqTask) : ∃ E : Finset Question, (∀ r nonce, ∃ v, within E ((popTask b r t.ad).asks nonce) = some v) ∧
    ∀ r, ∃ v, within E (t.asks r) = some v := by
  obtain ⟨E, hE⟩ := pop_domain b t.ad
  have hq' : ∀ r : Fn, ∃ y, question (t.asks r) = some y := by
    intro r
    rw [EqTask.asks, Zk.eq_transcript_eq]
    obtain ⟨m, hm⟩ := Ro.form_ok_of_accepted (ds := Zk.equalOpeningsDst) (Zk.eq_accepted_ne _ _ t.ad)
    exact ⟨_, question_run.2 ⟨m, hm, rfl⟩⟩
  choose f hf using hq'
  have hfin : (Set.range f).Finite := Set.finite_range f
  have hE' : ∀ r, ∃ v, within hfin.toFinset (t.asks r) = some v := fun r => ⟨⟨f r, hfin.mem_toFinset.2 ⟨_, rfl⟩⟩, within_eq.2 (hf r)⟩
  exact ⟨E ∪ hfin.toFinset, fun r nonce => within_union _ (.inl (hE r nonce)), fun r => within_union _ (.inr (hE' r))⟩

example (b : Fn) (ad : Bytes) : ∃ E : Finset Question, (∀ r nonce, ∃ v, within E ((popTask b r ad).asks nonce) = some v) ∧
    ∀ (z : Factors) (c : DealerCoins k) r, ∃ v, within E ((z.task ad c).asks r) = some v := by
  obtain ⟨E, hE⟩ := pop_domain b ad
  obtain ⟨E', hE'⟩ := product_domain k ad
  exact ⟨E ∪ E', fun r nonce => within_union _ (.inl (hE r nonce)), fun z c r => within_union _ (.inr (hE' z c r))⟩

end Verif
