import Verif.Spec.OraclePop
import Verif.Props.OracleDh

/-!
C178: dealings with their proofs of possession, and the Diffie-Hellman problem.
-/

set_option autoImplicit false

namespace Verif

open Oracle Mega

namespace Oracle

variable {D E : Finset Question} {A R S Y : Type} {k m : Nat}

theorem popReal_eq (b r : Fn) (ad : Bytes) (O : E → Fn) (nonce : Fn) :
    popReal b r ad O nonce = popMade (b • G) r
      (answer O ((popTask b r ad).asks nonce), b * answer O ((popTask b r ad).asks nonce) + nonce) := by
  simp only [popReal, popMade, DlogTask.proof, smul_comm b r G]
  rfl

theorem popChallenges_eq (b r : Fn) (ad : Bytes) (O : E → Fn) (x : Fn × Fn) :
    popChallenges (b • G) r ad O x = program O ((popTask b r ad).claim ⟨x.1, x.2⟩).asks x.1 := by
  simp only [popChallenges, DlogTask.claim, popTask, smul_comm b r G]

/-- For given random choices of everything else. -/
theorem pop_made_one (b r : Fn) (ad : Bytes) (q : Nat) (first : Alg E Fn S) (hq : first.AtMost q)
    (hE : ∀ nonce, ∃ v, within E ((popTask b r ad).asks nonce) = some v) (next : S → Pop → Alg E Fn R) (win : R → Prop) :
    share (fun u : Fn × (E → Fn) => win ((next (first.run u.2) (popReal b r ad u.2 u.1)).run u.2)) ≤
      share (fun u : (Fn × Fn) × (E → Fn) =>
        win ((next (first.run u.2) (popMade (b • G) r u.1)).run (popChallenges (b • G) r ad u.2 u.1))) + (q : ℚ) / n ∧
    share (fun u : (Fn × Fn) × (E → Fn) =>
        win ((next (first.run u.2) (popMade (b • G) r u.1)).run (popChallenges (b • G) r ad u.2 u.1))) ≤
      share (fun u : Fn × (E → Fn) => win ((next (first.run u.2) (popReal b r ad u.2 u.1)).run u.2)) + (q : ℚ) / n := by
  have h := simulate (first := first) (asks := fun _ r' => (popTask b r ad).asks r')
    (claimAsks := fun _ c z => ((popTask b r ad).claim ⟨c, z⟩).asks) (resp := fun _ c r' => b * c + r')
    (next := fun s c z => next s (popMade (b • G) r (c, z)))
    (fun _ c => Equiv.addLeft (b * c)) q win hq (fun _ r' => hE r') (fun _ r' r'' z => dlog_nonce (popTask b r ad) (.inl G_ne_zero) r' r'' z)
    (fun _ _ _ => rfl) (fun _ c r' => dlog_claim_asks (popTask b r ad) c r')
  rw [card_Fn] at h
  simp only [popReal_eq, popChallenges_eq]
  exact h

/-- The proof of possession may be replaced by a made-up one. -/
theorem pop_made [Finite Y] [Nonempty Y] (b r : Fn) (ad : Bytes) (q : Nat) (first : Alg E Fn S) (hq : first.AtMost q)
    (hE : ∀ nonce, ∃ v, within E ((popTask b r ad).asks nonce) = some v) (next : Y → S → Pop → Alg E Fn R) (win : R → Prop) :
    share (fun u : Y × Fn × (E → Fn) => win ((next u.1 (first.run u.2.2) (popReal b r ad u.2.2 u.2.1)).run u.2.2)) ≤
      share (fun u : Y × (Fn × Fn) × (E → Fn) =>
        win ((next u.1 (first.run u.2.2) (popMade (b • G) r u.2.1)).run (popChallenges (b • G) r ad u.2.2 u.2.1))) + (q : ℚ) / n ∧
    share (fun u : Y × (Fn × Fn) × (E → Fn) =>
        win ((next u.1 (first.run u.2.2) (popMade (b • G) r u.2.1)).run (popChallenges (b • G) r ad u.2.2 u.2.1))) ≤
      share (fun u : Y × Fn × (E → Fn) => win ((next u.1 (first.run u.2.2) (popReal b r ad u.2.2 u.2.1)).run u.2.2)) + (q : ℚ) / n := by
  have h := fun y => pop_made_one b r ad q first hq hE (next y) win
  let real (y : Y) (u : Fn × (E → Fn)) := win ((next y (first.run u.2) (popReal b r ad u.2 u.1)).run u.2)
  let made (y : Y) (u : (Fn × Fn) × (E → Fn)) :=
    win ((next y (first.run u.2) (popMade (b • G) r u.1)).run (popChallenges (b • G) r ad u.2 u.1))
  exact ⟨share_average real made _ fun y => (h y).1, share_average made real _ fun y => (h y).2⟩

end Oracle

variable {D E : Finset Question} {R S : Type} {k m : Nat}

/-- C178 for random dealings: a program asks at most `q` questions for challenges, is then given everything that is published of a random
dealing, with the proof of possession of the ephemeral key, and has the private keys of a group of `k` or fewer recipients.  On average
over the keys of the others, the base of the proof and the dealer's random choices, it tells two secrets apart with an advantage of at
most `2 q / n` and the number of pads it asks for times the number of recipients times the share of random choices for which `solve`,
given `b • G` and `w • G` and nothing else about `b` and `w`, finds `(b * w) • G`. -/
theorem C178_random (hm : m ≤ 2 ^ 32) (d : NodeIndex) (ad : Bytes) (B : Finset (Fin m)) (hB : B.card ≤ k) (sk : Fin m → Fn)
    (q : Nat) (first : (Fin m → Pt) → Pt → Pt → Alg E Fn S) (hq : ∀ keys V base, (first keys V base).AtMost q)
    (g : S → Pop → (Fin (k + 1) → Pt) → (Fin m → Pt) → (Fin m → Fn × Fn) → Alg2 D E (Fn × Fn) R) (q' : Nat)
    (hq' : ∀ s pop cm keys e, (g s pop cm keys e).AtMostPads q') (b : Fn) (qs : (Fin m → Fn) → Fin m → D)
    (hqs : ∀ a (i : Fin m), within D (padOf .pairs d ad b i (keysFrom B sk 0 a i)) = some (qs a i))
    (hE : ∀ r nonce, ∃ v, within E ((popTask b r ad).asks nonce) = some v) (win : R → Prop) (s s' w : Fn) :
    let view (s : Fn) (u : ((Fin m → Fn) × Fn) × (DealerCoins k × (D → Fn × Fn)) × Fn × (E → Fn)) :=
      (g ((first (keysFrom B sk 0 u.1.1) (b • G) (u.1.2 • G)).run u.2.2.2) (popReal b u.1.2 ad u.2.2.2 u.2.2.1)
        (commitments (withSecret s u.2.1.1) u.2.1.1.2) (keysFrom B sk 0 u.1.1)
        (entries (qs u.1.1) (dealt (withSecret s u.2.1.1) u.2.1.1.2) u.2.1.2)).run u.2.1.2 u.2.2.2
    let asks (V : Pt) (c : Fn × ((Fn × Fn) × (E → Fn)) × DealerCoins k) (keys : Fin m → Pt) (e : Fin m → Fn × Fn) (O : D → Fn × Fn) :=
      (g ((first keys V (c.1 • G)).run c.2.1.2) (popMade V c.1 c.2.1.1) (commitments (withSecret s c.2.2) c.2.2.2) keys e).pads O
        (popChallenges V c.1 ad c.2.1.2 c.2.1.1)
    share (fun u => win (view s u)) ≤ share (fun u => win (view s' u)) + 2 * q / n + q' * m * share (fun u :
        ((Fin m → Fn) × (Fn × ((Fn × Fn) × (E → Fn)) × DealerCoins k) × (D → Fn × Fn) × ((Bᶜ : Finset (Fin m)) → Fn × Fn)) ×
          Fin q' × Fin m =>
      solve .pairs d ad B sk (fun c => dealt (withSecret s c.2.2) c.2.2.2) (asks (b • G)) (b • G) (w • G) u.1.1 u.1.2 u.2.1 u.2.2 =
        (b * w) • G) := by
  intro view asks
  have key : ∀ x : (Fin m → Fn) × Fn, share (fun u => win (view s (x, u))) ≤ share (fun u => win (view s' (x, u))) + 2 * q / n +
      share (fun u : ((Fn × Fn) × (E → Fn)) × DealerCoins k × (D → Fn × Fn) × ((Bᶜ : Finset (Fin m)) → Fn × Fn) =>
        ∃ i ∈ Bᶜ, qs x.1 i ∈ asks (b • G) (x.2, u.1, u.2.1) (keysFrom B sk 0 x.1)
          (madeUp (qs x.1) (dealt (withSecret s u.2.1) u.2.1.2) Bᶜ u.2.2.1 u.2.2.2) u.2.2.1) := by
    rintro ⟨a, r⟩
    let made (s : Fn) (u : (DealerCoins k × (D → Fn × Fn)) × (Fn × Fn) × (E → Fn)) :=
      (g ((first (keysFrom B sk 0 a) (b • G) (r • G)).run u.2.2) (popMade (b • G) r u.2.1)
        (commitments (withSecret s u.1.1) u.1.1.2) (keysFrom B sk 0 a)
        (entries (qs a) (dealt (withSecret s u.1.1) u.1.1.2) u.1.2)).run u.1.2 (popChallenges (b • G) r ad u.2.2 u.2.1)
    have hsim : ∀ s, share (fun u => win (view s ((a, r), u))) ≤ share (fun u => win (made s u)) + (q : ℚ) / n ∧
        share (fun u => win (made s u)) ≤ share (fun u => win (view s ((a, r), u))) + (q : ℚ) / n := fun s => by
      have h := pop_made (R := R) b r ad q (first (keysFrom B sk 0 a) (b • G) (r • G)) (hq _ _ _) (hE r)
        (fun (v : DealerCoins k × (D → Fn × Fn)) st pop => (g st pop (commitments (withSecret s v.1) v.1.2) (keysFrom B sk 0 a)
          (entries (qs a) (dealt (withSecret s v.1) v.1.2) v.2)).withPads v.2) win
      simp only [Alg2.run_withPads] at h
      exact h
    have h := fun z : (Fn × Fn) × (E → Fn) =>
      C161_masked_dealing hm d ad b (keysFrom B sk 0 a) (qs a) (hqs a) B hB
        (fun cm _ e => (g ((first (keysFrom B sk 0 a) (b • G) (r • G)).run z.2) (popMade (b • G) r z.1) cm (keysFrom B sk 0 a) e).withChallenges
          (popChallenges (b • G) r ad z.2 z.1)) (fun cm O O' _ => rfl) win s s'
    simp only [AsksFor, Alg2.run_withChallenges, Alg2.asked_withChallenges] at h
    have hmade := share_average_add (fun z v => win (made s (v, z))) (fun z v => win (made s' (v, z)))
      (fun (z : (Fn × Fn) × (E → Fn)) (v : DealerCoins k × (D → Fn × Fn) × ((Bᶜ : Finset (Fin m)) → Fn × Fn)) =>
        ∃ i ∈ Bᶜ, qs a i ∈ asks (b • G) (r, z, v.1) (keysFrom B sk 0 a)
          (madeUp (qs a) (dealt (withSecret s v.1) v.1.2) Bᶜ v.2.1 v.2.2) v.2.1) h
    have hswap : ∀ s, share (fun u : ((Fn × Fn) × (E → Fn)) × DealerCoins k × (D → Fn × Fn) => win (made s (u.2, u.1))) =
        share (fun u => win (made s u)) := fun s => share_equiv (Equiv.prodComm _ _) (fun u => win (made s u))
    rw [hswap, hswap] at hmade
    have e : (2 : ℚ) * q / n = q / n + q / n := by ring
    rw [e]
    linarith [(hsim s).1, (hsim s').2]
  refine (share_average_add_const (fun x u => win (view s (x, u))) (fun x u => win (view s' (x, u))) _ _ key).trans (add_le_add_right ?_ _)
  refine le_trans (le_of_eq ?_) (asks_le .pairs d ad B sk
    (fun c : Fn × ((Fn × Fn) × (E → Fn)) × DealerCoins k => dealt (withSecret s c.2.2) c.2.2.2) (asks (b • G)) q'
    (fun _ _ _ _ => Alg2.pads_le _ _ _ _ (hq' _ _ _ _ _)) b qs hqs w)
  let re : (((Fin m → Fn) × Fn) × ((Fn × Fn) × (E → Fn)) × DealerCoins k × (D → Fn × Fn) × ((Bᶜ : Finset (Fin m)) → Fn × Fn)) ≃
      (Fin m → Fn) × (Fn × ((Fn × Fn) × (E → Fn)) × DealerCoins k) × (D → Fn × Fn) × ((Bᶜ : Finset (Fin m)) → Fn × Fn) :=
    ⟨fun u => (u.1.1, (u.1.2, u.2.1, u.2.2.1), u.2.2.2), fun v => ((v.1, v.2.1.1), v.2.1.2.1, v.2.1.2.2, v.2.2), fun _ => rfl, fun _ => rfl⟩
  exact share_equiv re (fun u => ∃ i ∈ Bᶜ, qs u.1 i ∈ asks (b • G) u.2.1 (keysFrom B sk 0 u.1)
    (madeUp (qs u.1) (dealt (withSecret s u.2.1.2.2) u.2.1.2.2.2) Bᶜ u.2.2.1 u.2.2.2) u.2.2.1)

/-- C178 for resharings without mask: the same for telling the dealing of `s` apart from one that is made up, with its proof of
possession, from `s • G` and the ephemeral key; the proof costs `q / n`. -/
theorem C178_unmasked (hm : m ≤ 2 ^ 32) (d : NodeIndex) (ad : Bytes) (B : Finset (Fin m)) (Z : Fin (k + 1) → Fn) (hZ : Vanishes B Z)
    (sk : Fin m → Fn) (q : Nat) (first : (Fin m → Pt) → Pt → Pt → Alg E Fn S) (hq : ∀ keys V base, (first keys V base).AtMost q)
    (g : S → Pop → (Fin (k + 1) → Pt) → (Fin m → Pt) → (Fin m → Fn) → Alg2 D E Fn R) (q' : Nat)
    (hq' : ∀ s pop cm keys e, (g s pop cm keys e).AtMostPads q') (b : Fn) (qs : (Fin m → Fn) → Fin m → D)
    (hqs : ∀ a (i : Fin m), within D (padOf .single d ad b i (keysFrom B sk 0 a i)) = some (qs a i))
    (hE : ∀ r nonce, ∃ v, within E ((popTask b r ad).asks nonce) = some v) (win : R → Prop) (s w : Fn) :
    let view (u : ((Fin m → Fn) × Fn) × ((Fin k → Fn) × (D → Fn)) × Fn × (E → Fn)) :=
      (g ((first (keysFrom B sk 0 u.1.1) (b • G) (u.1.2 • G)).run u.2.2.2) (popReal b u.1.2 ad u.2.2.2 u.2.2.1)
        (simpleCommitments (polyOf s u.2.1.1)) (keysFrom B sk 0 u.1.1)
        (entries (qs u.1.1) (values (polyOf s u.2.1.1)) u.2.1.2)).run u.2.1.2 u.2.2.2
    let sim (K V : Pt) (c : Fn × ((Fn × Fn) × (E → Fn)) × (Fin k → Fn)) (keys : Fin m → Pt) (e : Fin m → Fn) :=
      g ((first keys V (c.1 • G)).run c.2.1.2) (popMade V c.1 c.2.1.1) (shown Z K c.2.2) keys e
    let challenges (V : Pt) (c : Fn × ((Fn × Fn) × (E → Fn)) × (Fin k → Fn)) := popChallenges V c.1 ad c.2.1.2 c.2.1.1
    |share (fun u => win (view u)) - share (fun u :
        (Fin m → Fn) × (Fn × ((Fn × Fn) × (E → Fn)) × (Fin k → Fn)) × (D → Fn) × ((Bᶜ : Finset (Fin m)) → Fn) =>
      win ((sim (s • G) (b • G) u.2.1 (keysFrom B sk 0 u.1)
        (madeUp (qs u.1) (values (polyOf 0 u.2.1.2.2)) Bᶜ u.2.2.1 u.2.2.2)).run u.2.2.1 (challenges (b • G) u.2.1)))| ≤
      q / n + q' * m * share (fun u :
        ((Fin m → Fn) × (Fn × ((Fn × Fn) × (E → Fn)) × (Fin k → Fn)) × (D → Fn) × ((Bᶜ : Finset (Fin m)) → Fn)) × Fin q' × Fin m =>
      solve .single d ad B sk (fun c => values (polyOf 0 c.2.2))
        (fun c keys e O => (sim (s • G) (b • G) c keys e).pads O (challenges (b • G) c)) (b • G) (w • G)
        u.1.1 u.1.2 u.2.1 u.2.2 = (b * w) • G) := by
  intro view sim challenges
  let asks (c : Fn × ((Fn × Fn) × (E → Fn)) × (Fin k → Fn)) (keys : Fin m → Pt) (e : Fin m → Fn) (O : D → Fn) :=
    (sim (s • G) (b • G) c keys e).pads O (challenges (b • G) c)
  let simWin (x : (Fin m → Fn) × Fn) (u : ((Fn × Fn) × (E → Fn)) × (Fin k → Fn) × (D → Fn) × ((Bᶜ : Finset (Fin m)) → Fn)) :=
    win ((sim (s • G) (b • G) (x.2, u.1, u.2.1) (keysFrom B sk 0 x.1)
      (madeUp (qs x.1) (values (polyOf 0 u.2.1)) Bᶜ u.2.2.1 u.2.2.2)).run u.2.2.1 (challenges (b • G) (x.2, u.1, u.2.1)))
  let simAsks (x : (Fin m → Fn) × Fn) (u : ((Fn × Fn) × (E → Fn)) × (Fin k → Fn) × (D → Fn) × ((Bᶜ : Finset (Fin m)) → Fn)) :=
    ∃ i ∈ Bᶜ, qs x.1 i ∈ asks (x.2, u.1, u.2.1) (keysFrom B sk 0 x.1)
      (madeUp (qs x.1) (values (polyOf 0 u.2.1)) Bᶜ u.2.2.1 u.2.2.2) u.2.2.1
  have key : ∀ x : (Fin m → Fn) × Fn, |share (fun u => win (view (x, u))) - share (simWin x)| ≤ q / n + share (simAsks x) := by
    rintro ⟨a, r⟩
    let made (u : ((Fin k → Fn) × (D → Fn)) × (Fn × Fn) × (E → Fn)) :=
      (g ((first (keysFrom B sk 0 a) (b • G) (r • G)).run u.2.2) (popMade (b • G) r u.2.1)
        (simpleCommitments (polyOf s u.1.1)) (keysFrom B sk 0 a)
        (entries (qs a) (values (polyOf s u.1.1)) u.1.2)).run u.1.2 (popChallenges (b • G) r ad u.2.2 u.2.1)
    have hsim : share (fun u => win (view ((a, r), u))) ≤ share (fun u => win (made u)) + (q : ℚ) / n ∧
        share (fun u => win (made u)) ≤ share (fun u => win (view ((a, r), u))) + (q : ℚ) / n := by
      have h := pop_made (R := R) b r ad q (first (keysFrom B sk 0 a) (b • G) (r • G)) (hq _ _ _) (hE r)
        (fun (v : (Fin k → Fn) × (D → Fn)) st pop => (g st pop (simpleCommitments (polyOf s v.1)) (keysFrom B sk 0 a)
          (entries (qs a) (values (polyOf s v.1)) v.2)).withPads v.2) win
      simp only [Alg2.run_withPads] at h
      exact h
    have h := fun z : (Fn × Fn) × (E → Fn) =>
      C167_without_mask hm d ad b (keysFrom B sk 0 a) (qs a) (hqs a) B Z hZ
        (fun cm _ e => (g ((first (keysFrom B sk 0 a) (b • G) (r • G)).run z.2) (popMade (b • G) r z.1) cm (keysFrom B sk 0 a) e).withChallenges
          (popChallenges (b • G) r ad z.2 z.1)) (fun cm O O' _ => rfl) win s
    simp only [AsksFor, Alg2.run_withChallenges, Alg2.asked_withChallenges] at h
    have hmade := share_average_abs (fun z v => win (made (v, z))) (fun z v => simWin (a, r) (z, v)) (fun z v => simAsks (a, r) (z, v)) h
    have hswap : share (fun u : ((Fn × Fn) × (E → Fn)) × (Fin k → Fn) × (D → Fn) => win (made (u.2, u.1))) =
        share (fun u => win (made u)) := share_equiv (Equiv.prodComm _ _) (fun u => win (made u))
    rw [hswap, abs_le] at hmade
    rw [abs_le]
    constructor <;> linarith [hsim.1, hsim.2, hmade.1, hmade.2]
  have h := share_average_abs_const (fun x u => win (view (x, u))) simWin _ simAsks key
  let re : (((Fin m → Fn) × Fn) × ((Fn × Fn) × (E → Fn)) × (Fin k → Fn) × (D → Fn) × ((Bᶜ : Finset (Fin m)) → Fn)) ≃
      (Fin m → Fn) × (Fn × ((Fn × Fn) × (E → Fn)) × (Fin k → Fn)) × (D → Fn) × ((Bᶜ : Finset (Fin m)) → Fn) :=
    ⟨fun u => (u.1.1, (u.1.2, u.2.1, u.2.2.1), u.2.2.2), fun v => ((v.1, v.2.1.1), v.2.1.2.1, v.2.1.2.2, v.2.2), fun _ => rfl, fun _ => rfl⟩
  have e1 := share_equiv re (fun u => win ((sim (s • G) (b • G) u.2.1 (keysFrom B sk 0 u.1)
        (madeUp (qs u.1) (values (polyOf 0 u.2.1.2.2)) Bᶜ u.2.2.1 u.2.2.2)).run u.2.2.1 (challenges (b • G) u.2.1)))
  have e2 := share_equiv re (fun u => ∃ i ∈ Bᶜ, qs u.1 i ∈ asks u.2.1 (keysFrom B sk 0 u.1)
    (madeUp (qs u.1) (values (polyOf 0 u.2.1.2.2)) Bᶜ u.2.2.1 u.2.2.2) u.2.2.1)
  rw [← e1]
  refine h.trans (add_le_add_right (le_trans (le_of_eq e2) ?_) _)
  exact asks_le .single d ad B sk (fun c : Fn × ((Fn × Fn) × (E → Fn)) × (Fin k → Fn) => values (polyOf 0 c.2.2)) asks q'
    (fun _ _ _ _ => Alg2.pads_le _ _ _ _ (hq' _ _ _ _ _)) b qs hqs w

namespace Mega

/-- What is published about the ephemeral key, by the code. -/
theorem computeEphKeyAndPop_real {P : Prim} {t : CType} {seed : Seed} {ad : Bytes} {d : NodeIndex} {beta : Fn} {v pub : Pt} {pf : Zk.Proof}
    (h : computeEphKeyAndPop P t seed ad d = .ok (beta, v, pub, pf)) : ∃ (s s' : Seed) (r nonce : Fn),
      seed.derive P t.ephemeralKeyDst = .ok s ∧ seed.derive P t.popProofDst = .ok s' ∧ Draws P s beta ∧ Draws P s' nonce ∧
      computePopBase P t ad d (beta • G) = .ok (r • G) ∧
      ((∀ x, question ((popTask beta r ad).asks nonce) = some x → x ∈ E) →
        Pop.mk v (r • G) pub pf = popReal beta r ad (fun q : E => codeOracle P q.1) nonce) := by
  rw [computeEphKeyAndPop] at h
  obtain ⟨s, hs, h⟩ := Res.bind_eq_ok.1 h
  obtain ⟨x, hx, h⟩ := Res.bind_eq_ok.1 h
  dsimp only at h
  obtain ⟨B, hB, h⟩ := Res.bind_eq_ok.1 h
  obtain ⟨s', hs', h⟩ := Res.bind_eq_ok.1 h
  obtain ⟨pf', hp, h⟩ := Res.bind_eq_ok.1 h
  cases h
  obtain ⟨r, rfl⟩ := exists_smul_eq G_ne_zero B
  obtain ⟨⟨nonce, rng⟩, hr, -⟩ := Res.bind_eq_ok.1 (show Zk.Dlog.create P s' beta G (r • G) ad = .ok pf from hp)
  obtain ⟨⟨x', rng'⟩, hx', e⟩ := Res.bind_eq_ok.1 (show Scalar.fromSeed P s = .ok beta from hx)
  cases e
  refine ⟨s, s', r, nonce, hs, hs', ⟨rng', hx'⟩, ⟨rng, hr⟩, hB, fun hE => ?_⟩
  have hc := (C159_code P E s').1 (popTask beta r ad) nonce ⟨rng, hr⟩ hE
  rw [show Zk.Dlog.create P s' (popTask beta r ad).x (popTask beta r ad).g (popTask beta r ad).h (popTask beta r ad).ad =
    Zk.Dlog.create P s' beta G (r • G) ad from rfl, hp] at hc
  rw [Res.ok.inj hc]
  rfl

end Mega

/-- C178, the code: what a ciphertext of the code tells about its ephemeral key is what `popReal` says, for the answers of the code's
oracle; the base is what `ComputePopBase` makes of the key, and key and nonce are drawn from two seeds that are derived from the
ciphertext's seed. -/
theorem C178_code (P : Prim) (seed : Seed) (pks : List Pt) (d : NodeIndex) (ad : Bytes) :
    (∀ ms (ct : Ciphertext Fn), Single.encrypt P seed ms pks d ad = .ok ct → ∃ (s s' : Seed) (beta r nonce : Fn),
      seed.derive P CType.single.ephemeralKeyDst = .ok s ∧ seed.derive P CType.single.popProofDst = .ok s' ∧
      Draws P s beta ∧ Draws P s' nonce ∧ computePopBase P .single ad d ct.ephemeralKey = .ok (r • G) ∧
      ((∀ x, question ((popTask beta r ad).asks nonce) = some x → x ∈ E) →
        Pop.mk ct.ephemeralKey (r • G) ct.popPublicKey ct.popProof = popReal beta r ad (fun q : E => codeOracle P q.1) nonce)) ∧
    (∀ ms (ct : Ciphertext (Fn × Fn)), Pair.encrypt P seed ms pks d ad = .ok ct → ∃ (s s' : Seed) (beta r nonce : Fn),
      seed.derive P CType.pairs.ephemeralKeyDst = .ok s ∧ seed.derive P CType.pairs.popProofDst = .ok s' ∧
      Draws P s beta ∧ Draws P s' nonce ∧ computePopBase P .pairs ad d ct.ephemeralKey = .ok (r • G) ∧
      ((∀ x, question ((popTask beta r ad).asks nonce) = some x → x ∈ E) →
        Pop.mk ct.ephemeralKey (r • G) ct.popPublicKey ct.popProof = popReal beta r ad (fun q : E => codeOracle P q.1) nonce)) := by
  constructor
  · intro ms ct h
    rw [Single.encrypt] at h
    obtain ⟨⟨⟩, -, h⟩ := Res.bind_eq_ok.1 h
    obtain ⟨⟨b, v, w, pf⟩, he, h⟩ := Res.bind_eq_ok.1 h
    dsimp only at h
    obtain ⟨cs, -, h⟩ := Res.bind_eq_ok.1 h
    cases h
    obtain ⟨s, s', r, nonce, h1, h2, h3, h4, h5, h6⟩ := computeEphKeyAndPop_real (E := E) he
    exact ⟨s, s', b, r, nonce, h1, h2, h3, h4, by rw [(computeEphKeyAndPop_spec he).1]; exact h5, h6⟩
  · intro ms ct h
    rw [Pair.encrypt] at h
    obtain ⟨⟨⟩, -, h⟩ := Res.bind_eq_ok.1 h
    obtain ⟨⟨b, v, w, pf⟩, he, h⟩ := Res.bind_eq_ok.1 h
    dsimp only at h
    obtain ⟨cs, -, h⟩ := Res.bind_eq_ok.1 h
    cases h
    obtain ⟨s, s', r, nonce, h1, h2, h3, h4, h5, h6⟩ := computeEphKeyAndPop_real (E := E) he
    exact ⟨s, s', b, r, nonce, h1, h2, h3, h4, by rw [(computeEphKeyAndPop_spec he).1]; exact h5, h6⟩

/-- The sets of questions exist, for all bases and nonces. -/
theorem Oracle.pop_domain (b : Fn) (ad : Bytes) : ∃ E : Finset Question, ∀ r nonce, ∃ v, within E ((popTask b r ad).asks nonce) = some v := by
  have hex : ∀ z : Fn × Fn, ∃ y, question ((popTask b z.1 ad).asks z.2) = some y := fun z => by
    obtain ⟨D, hD⟩ := dlog_domain G (z.1 • G) b ad
    obtain ⟨y, hy⟩ := hD z.2
    exact ⟨y.1, within_eq.1 hy⟩
  choose f hf using hex
  have hfin : (Set.range f).Finite := Set.finite_range f
  exact ⟨hfin.toFinset, fun r nonce => ⟨⟨f (r, nonce), hfin.mem_toFinset.2 ⟨_, rfl⟩⟩, within_eq.2 (hf (r, nonce))⟩⟩

/-- The made-up proof is that of the code when challenge and answer are: nothing but the two numbers is made up. -/
example (b r : Fn) (ad : Bytes) (O : E → Fn) (nonce : Fn) : ∃ x, popMade (b • G) r x = popReal b r ad O nonce :=
  ⟨_, (popReal_eq b r ad O nonce).symm⟩

/-- The made-up proof passes the test: the answer to its one question is its challenge. -/
example (b r : Fn) (ad : Bytes) (hE : ∀ nonce, ∃ v, within E ((popTask b r ad).asks nonce) = some v) (O : E → Fn) (x : Fn × Fn) :
    answer (popChallenges (b • G) r ad O x) ((popTask b r ad).claim ⟨x.1, x.2⟩).asks = x.1 := by
  rw [popChallenges_eq]
  generalize popTask b r ad = t at hE
  have h := dlog_claim_asks t x.1 (x.2 - t.x * x.1)
  rw [add_sub_cancel] at h
  obtain ⟨v, hv⟩ := hE (x.2 - t.x * x.1)
  rw [h, program_eq hv, answer_eq hv]
  simp

end Verif
