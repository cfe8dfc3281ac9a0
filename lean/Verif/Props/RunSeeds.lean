import Verif.Spec.RunSeeds
import Verif.Props.SeedBytes
import Verif.Props.Complaints
import Verif.Props.Protocol

/-!
C199: where the driver of the protocol takes its randomness from.
-/

set_option autoImplicit false

namespace Verif

open Protocol Dealings Mega Complaints SeedBytes RunSeeds

/-! ### The dealings of one round -/

theorem RunSeeds.dealLoop_made {P : Prim} {s : Setup} {op : Op} {shares : List Shares} {i : Nat} {st : Nat → UInt8} {rng' : Rng}
    {ds : DealingMap} (h : dealLoop P s op i shares ⟨st, 32 * i⟩ = .ok (ds, rng')) :
    ∀ x ∈ ds, ∃ j seed, x.1 = node j ∧ Made P.sha256 (next st (32 * j)) "ic-crypto-seed-from-rng" seed ∧ DealtWith P seed s.ad x.1 x.2 := by
  induction shares generalizing i rng' ds with
  | nil => cases h; simp
  | cons sh rest ih =>
    rw [dealLoop] at h
    obtain ⟨⟨sd, rng1⟩, hsd, h⟩ := Res.bind_eq_ok.1 h
    obtain ⟨d, hd, h⟩ := Res.bind_eq_ok.1 h
    obtain ⟨⟨⟩, -, h⟩ := Res.bind_eq_ok.1 h
    obtain ⟨us, -, h⟩ := Res.bind_eq_ok.1 h
    obtain ⟨⟨ds1, rng2⟩, h1, h⟩ := Res.bind_eq_ok.1 h
    simp only [Res.ok.injEq, Prod.mk.injEq] at h
    obtain ⟨rfl, -⟩ := h
    obtain ⟨sd', e, hm⟩ := (C22_exact P).2.2.1 ⟨st, 32 * i⟩
    rw [e] at hsd
    simp only [Res.ok.injEq, Prod.mk.injEq] at hsd
    obtain ⟨rfl, rfl⟩ := hsd
    have ih' := ih (i := i + 1) h1
    split_ifs
    · exact ih'
    · intro x hx
      rcases List.mem_cons.1 hx with rfl | hx
      · exact ⟨i, sd'.value, rfl, hm, sh, _, _, d, hd, rfl⟩
      · exact ih' x hx

theorem RunSeeds.corrupt_emptied {P : Prim} {d bad : Dealing} {targets : List NodeIndex} {sd : Seed} (h : corrupt P d targets sd = .ok bad) :
    bad.emptied = d.emptied := by
  rw [corrupt] at h
  obtain ⟨-, -, h⟩ := Res.bind_eq_ok.1 h
  obtain ⟨⟨r, rng⟩, -, h⟩ := Res.bind_eq_ok.1 h
  obtain ⟨ct, cm, pf⟩ := d
  cases h
  rcases ct with _ | (m | m) <;> rfl

theorem RunSeeds.damageLoop_made {P : Prim} {s : Setup} {Q : NodeIndex → Dealing → Prop}
    (hQ : ∀ i d d', Dealing.emptied d' = d.emptied → Q i d → Q i d') {damage : List NodeIndex} {rng : Rng} {ds ds' : DealingMap}
    (hd : ∀ x ∈ ds, Q x.1 x.2) (h : damageLoop P s damage rng ds = .ok ds') : ∀ x ∈ ds', Q x.1 x.2 := by
  induction damage generalizing rng ds with
  | nil => cases h; exact hd
  | cons i rest ih =>
    rw [damageLoop] at h
    obtain ⟨d, hg, h⟩ := Res.bind_eq_ok.1 h
    rcases hu : rng.uint32 with ⟨x, rng1⟩
    rw [hu] at h
    simp only at h
    split_ifs at h
    obtain ⟨⟨targets, rng2⟩, -, h⟩ := Res.bind_eq_ok.1 h
    obtain ⟨⟨sd, rng3⟩, -, h⟩ := Res.bind_eq_ok.1 h
    obtain ⟨bad, hb, h⟩ := Res.bind_eq_ok.1 h
    obtain ⟨⟨⟩, -, h⟩ := Res.bind_eq_ok.1 h
    have hget : OMap.get BitVec.toInt i ds = some d := by
      rcases hg' : OMap.get BitVec.toInt i ds with _ | d'
      · rw [hg'] at hg; cases hg
      · rw [hg'] at hg; cases hg; rfl
    refine ih (fun y hy => ?_) h
    rcases OMap.mem_set hy with rfl | hy
    · obtain ⟨i', e, hi⟩ := OMap.mem_of_get hget
      cases BitVec.eq_of_toInt_eq e
      exact hQ _ d _ (corrupt_emptied hb) (hd _ hi)
    · exact hd y hy

/-- One round: the number goes up by one, and nothing else of the setup changes; the dealings are made with the seeds of that number. -/
theorem RunSeeds.make_seeds {P : Prim} {cbor : Commitment → Res Bytes} {s s' : Setup} {shares : List Shares} {op : Op}
    {numberOfDealers corrupted : Nat} {R : Round} (h : Round.make P cbor s shares op numberOfDealers corrupted = .ok (R, s')) :
    s' = { s with round := s.round + 1 } ∧
    ∀ x ∈ R.dealings, ∃ j seed, x.1 = node j ∧ DealerSeed P s.seed.value s.round j seed ∧ DealtWith P seed s.ad x.1 x.2 := by
  rw [Round.make] at h
  obtain ⟨⟨seed, s1⟩, hs1, h⟩ := Res.bind_eq_ok.1 h
  obtain ⟨ds, h1, h⟩ := Res.bind_eq_ok.1 h
  obtain ⟨T, h2, h⟩ := Res.bind_eq_ok.1 h
  obtain ⟨os, h3, h⟩ := Res.bind_eq_ok.1 h
  obtain ⟨c, h4, h⟩ := Res.bind_eq_ok.1 h
  cases h
  rw [Setup.nextDealingSeed] at hs1
  obtain ⟨sd, hsd, hs1⟩ := Res.bind_eq_ok.1 hs1
  cases hs1
  refine ⟨rfl, ?_⟩
  simp only at h1 ⊢
  obtain ⟨sd', e, -, hm⟩ := C22_seed_derivation.1 P s.seed.value (ascii "ic-crypto-tecdsa-round-" ++ decimal s.round)
  rw [Seed.derive, e] at hsd
  cases hsd
  rw [createDealings] at h1
  obtain ⟨⟨ds1, rng1⟩, g1, h1⟩ := Res.bind_eq_ok.1 h1
  obtain ⟨⟨ds2, rng2⟩, g2, h1⟩ := Res.bind_eq_ok.1 h1
  obtain ⟨⟨damage, rng3⟩, g3, h1⟩ := Res.bind_eq_ok.1 h1
  simp only at h1 g2
  have m1 := dealLoop_made (st := P.chacha20 seed.value) (i := 0) g1
  obtain ⟨sub, -⟩ := thin_spec rfl g2
  refine damageLoop_made (Q := fun i d => ∃ j sd, i = node j ∧ DealerSeed P s.seed.value s.round j sd ∧ DealtWith P sd s.ad i d) ?_ ?_ h1
  · rintro i d d' he ⟨j, sd, e1, e2, sh, t, pks, d0, e3, e4⟩
    exact ⟨j, sd, e1, e2, sh, t, pks, d0, e3, he.trans e4⟩
  · intro x hx
    obtain ⟨j, sd, e1, e2, e3⟩ := m1 x (sub.subset hx)
    exact ⟨j, sd, e1, ⟨_, _, numeral_decimal _, hm, e2⟩, e3⟩

theorem RunSeeds.step_seeds {P : Prim} {cbor : Commitment → Res Bytes} {s s' : Setup} {R : Option Round} (h : Step P cbor s R s') :
    s'.seed = s.seed ∧ s'.ad = s.ad ∧ s'.round = s.round + R.toList.length ∧
    ∀ R' ∈ R, ∀ x ∈ R'.dealings, ∃ j seed, x.1 = node j ∧ DealerSeed P s.seed.value s.round j seed ∧ DealtWith P seed s.ad x.1 x.2 := by
  have key : ∀ {shares op a b R}, Round.make P cbor s shares op a b = .ok (R, s') →
      s'.seed = s.seed ∧ s'.ad = s.ad ∧ s'.round = s.round + (some R).toList.length ∧
      ∀ R' ∈ some R, ∀ x ∈ R'.dealings, ∃ j seed, x.1 = node j ∧ DealerSeed P s.seed.value s.round j seed ∧
        DealtWith P seed s.ad x.1 x.2 := by
    intro shares op a b R h
    obtain ⟨rfl, h'⟩ := make_seeds h
    refine ⟨rfl, rfl, rfl, fun R' hR => ?_⟩
    cases hR
    exact h'
  cases h with
  | random _ _ h => exact key h
  | reshareOfMasked _ _ _ h => obtain ⟨shares, -, h⟩ := Res.bind_eq_ok.1 h; exact key h
  | reshareOfUnmasked _ _ _ h => obtain ⟨shares, -, h⟩ := Res.bind_eq_ok.1 h; exact key h
  | multiply _ _ _ _ h => obtain ⟨shares, -, h⟩ := Res.bind_eq_ok.1 h; exact key h
  | removeNodes k h =>
    rw [Setup.removeNodes] at h
    split_ifs at h
    cases h
    exact ⟨rfl, rfl, rfl, fun _ h => by cases h⟩
  | modifyThreshold t => exact ⟨rfl, rfl, rfl, fun _ h => by cases h⟩

/-! ### C199 -/

/-- C199, rounds: in every run the seed and the data of the setup stay, the rounds are numbered one after the other, and every dealing of every
round was made with the seed of its dealer in the round of that number. -/
theorem C199_rounds (P : Prim) (cbor : Commitment → Res Bytes) (s s' : Setup) (Rs : List Round) (h : Run P cbor s Rs s') :
    s'.seed = s.seed ∧ s'.ad = s.ad ∧ s'.round = s.round + Rs.length ∧
    ∀ (k : Nat) (R : Round), Rs[k]? = some R → ∀ x ∈ R.dealings, ∃ j seed, x.1 = node j ∧
      DealerSeed P s.seed.value (s.round + k) j seed ∧ DealtWith P seed s.ad x.1 x.2 := by
  induction h with
  | done s => exact ⟨rfl, rfl, rfl, fun k R h => by simp at h⟩
  | @step s s1 s' R Rs h1 _ ih =>
    obtain ⟨a1, a2, a3, a4⟩ := step_seeds h1
    obtain ⟨b1, b2, b3, b4⟩ := ih
    refine ⟨b1.trans a1, b2.trans a2, by rw [b3, a3, List.length_append]; omega, fun k R' hR x hx => ?_⟩
    rw [a1, a2] at b4
    cases R with
    | none =>
      have := b4 k R' hR x hx
      rwa [a3] at this
    | some R =>
      cases k with
      | zero => cases hR; exact a4 _ rfl x hx
      | succ k =>
        have := b4 k R' hR x hx
        rwa [a3, show s.round + (some R).toList.length + k = s.round + (k + 1) by simp; omega] at this

/-- C199, signing: the setup of the signing protocol is a run of seven rounds, numbered from zero. -/
theorem C199_signing (P : Prim) (cbor : Commitment → Res Bytes) (nodes : Nat) (t : Int) (corrupted : Nat) (seed : Seed) (S : SigSetup)
    (h : SigSetup.new P cbor nodes t corrupted seed = .ok S) :
    ∃ s0 R1 R2, Setup.new P nodes t seed = .ok s0 ∧ s0.round = 0 ∧ s0.seed = seed ∧
      Run P cbor s0 [R1, R2, S.lambda, S.key, S.kappa, S.keyTimesLambda, S.kappaTimesLambda] S.setup := by
  rw [SigSetup.new] at h
  obtain ⟨s0, h0, h⟩ := Res.bind_eq_ok.1 h
  obtain ⟨⟨R1, s1⟩, h1, h⟩ := Res.bind_eq_ok.1 h
  obtain ⟨⟨R2, s2⟩, h2, h⟩ := Res.bind_eq_ok.1 h
  obtain ⟨⟨R3, s3⟩, h3, h⟩ := Res.bind_eq_ok.1 h
  obtain ⟨⟨R4, s4⟩, h4, h⟩ := Res.bind_eq_ok.1 h
  obtain ⟨⟨R5, s5⟩, h5, h⟩ := Res.bind_eq_ok.1 h
  obtain ⟨⟨R6, s6⟩, h6, h⟩ := Res.bind_eq_ok.1 h
  obtain ⟨⟨R7, s7⟩, h7, h⟩ := Res.bind_eq_ok.1 h
  cases h
  have e := h0
  rw [Setup.new] at e
  obtain ⟨⟨sk, rng⟩, -, e⟩ := Res.bind_eq_ok.1 e
  cases e
  exact ⟨_, R1, R2, h0, rfl, rfl, .step (.random _ _ h1) (.step (.random _ _ h2) (.step (.random _ _ h3)
    (.step (.reshareOfMasked _ _ _ h4) (.step (.reshareOfMasked _ _ _ h5) (.step (.multiply _ _ _ _ h6)
    (.step (.multiply _ _ _ _ h7) (.done _)))))))⟩

/-- C199, setup: the data are the first block of the key stream of the seed, and the keys of the nodes are drawn from what follows, each from
where the one before it stopped. -/
theorem C199_setup (P : Prim) (nodes : Nat) (t : Int) (seed : Seed) (s : Setup) (h : Setup.new P nodes t seed = .ok s) :
    s.threshold = t ∧ s.seed = seed ∧ s.round = 0 ∧ s.ad = next (P.chacha20 seed.value) 0 ∧ s.sk.length = nodes ∧
    ∃ p : Nat → Nat, p 0 = 32 ∧ ∀ i k, s.sk[i]? = some k → p i + 32 ≤ p (i + 1) ∧
      Scalar.random ⟨P.chacha20 seed.value, p i⟩ = .ok (k, ⟨P.chacha20 seed.value, p (i + 1)⟩) := by
  have keys : ∀ (n pos : Nat) (st : Nat → UInt8) (l : List Fn) (rng : Rng), genKeys n ⟨st, pos⟩ = .ok (l, rng) → l.length = n ∧
      ∃ p : Nat → Nat, p 0 = pos ∧ ∀ i k, l[i]? = some k → p i + 32 ≤ p (i + 1) ∧
        Scalar.random ⟨st, p i⟩ = .ok (k, ⟨st, p (i + 1)⟩) := by
    intro n
    induction n with
    | zero => intro pos st l rng h; cases h; exact ⟨rfl, fun _ => pos, rfl, by simp⟩
    | succ n ih =>
      intro pos st l rng h
      rw [genKeys] at h
      obtain ⟨⟨k, rng1⟩, hk, h⟩ := Res.bind_eq_ok.1 h
      obtain ⟨⟨rest, rng2⟩, hr, h⟩ := Res.bind_eq_ok.1 h
      cases h
      obtain ⟨c, -, -, rfl⟩ := ((C21_random_scalar _).1 _ _).1 hk
      obtain ⟨hl, p, p0, hp⟩ := ih _ _ _ _ hr
      refine ⟨by rw [List.length_cons, hl], fun i => if i = 0 then pos else p (i - 1), rfl, fun i k' hi => ?_⟩
      cases i with
      | zero =>
        cases hi
        simp only [if_true, Nat.zero_add, Nat.one_ne_zero, if_false, Nat.sub_self, p0]
        exact ⟨by omega, hk⟩
      | succ i => exact hp i k' hi
  rw [Setup.new] at h
  have hx : (seed.rng P).xorKeyStream (List.replicate 32 0) = (next (P.chacha20 seed.value) 0, ⟨P.chacha20 seed.value, 32⟩) := by
    rw [Rng.xorKeyStream, List.length_replicate, zipWith_zero_xor _ 32 (by simp [Rng.peek])]
    rfl
  rw [hx] at h
  obtain ⟨⟨sk, rng⟩, hk, h⟩ := Res.bind_eq_ok.1 h
  cases h
  obtain ⟨hl, hp⟩ := keys _ _ _ _ _ hk
  exact ⟨rfl, rfl, rfl, rfl, hl, hp⟩

/-! ### Different dealers -/

/-- A hash function that tells a set of inputs of the expansion from all others. -/
theorem RunSeeds.exists_hash (S : Bytes → Bytes → Prop) : ∃ H : Bytes → Bytes, (∀ m, (H m).length = 32) ∧
    ∀ msg dst, dst.length < 256 → (S msg dst → Rfc9380.expandMessageXmd H msg dst 32 = some (List.replicate 32 1)) ∧
      (¬ S msg dst → Rfc9380.expandMessageXmd H msg dst 32 = some (List.replicate 32 0)) := by
  classical
  let one : Bytes := List.replicate 32 1
  let zero : Bytes := List.replicate 32 0
  let C : Bytes → Prop := fun x => (∃ msg dst, dst.length < 256 ∧ S msg dst ∧ x = Rfc9380.msgPrime msg dst 32) ∨ x.take 32 = one
  have hne : zero ≠ one := by decide
  obtain ⟨H, hH⟩ : ∃ H : Bytes → Bytes, H = fun x => if C x then one else zero := ⟨_, rfl⟩
  have h1 : ∀ x, C x → H x = one := fun x h => by rw [hH]; exact if_pos h
  have h0 : ∀ x, ¬ C x → H x = zero := fun x h => by rw [hH]; exact if_neg h
  have hpad : ∀ msg dst, (Rfc9380.msgPrime msg dst 32).take 33 = List.replicate 33 0 := by
    intro msg dst
    rw [Rfc9380.msgPrime, show Rfc9380.i2osp 0 64 = List.replicate 33 0 ++ List.replicate 31 0 by decide]
    simp only [List.append_assoc]
    exact List.take_left' (by simp)
  have hexp : ∀ msg dst, dst.length < 256 → Rfc9380.expandMessageXmd H msg dst 32 =
      some ((H (H (Rfc9380.msgPrime msg dst 32) ++ Rfc9380.i2osp 1 1 ++ Rfc9380.dstPrime dst)).take 32) := by
    intro msg dst hd
    rw [Rfc9380.expandMessageXmd, if_neg (by decide), Rfc9380.effectiveDst, if_neg (by omega)]
    simp [Rfc9380.ell, Rfc9380.block]
  refine ⟨H, fun m => ?_, fun msg dst hd => ⟨fun hS => ?_, fun hS => ?_⟩⟩
  · by_cases h : C m
    · rw [h1 m h]; rfl
    · rw [h0 m h]; rfl
  · rw [hexp msg dst hd, h1 _ (.inl ⟨msg, dst, hd, hS, rfl⟩), h1 _ (.inr (by rw [List.append_assoc]; exact List.take_left' rfl))]
    rfl
  · have hb : H (Rfc9380.msgPrime msg dst 32) = zero := by
      refine h0 _ ?_
      rintro (⟨msg', dst', hd', hS', e⟩ | e)
      · obtain ⟨rfl, rfl⟩ := msgPrime_inj hd hd' e
        exact hS hS'
      · have := congrArg (List.take 32) (hpad msg dst)
        rw [List.take_take, show min 32 33 = 32 from rfl, e] at this
        exact absurd this (by decide)
    rw [hexp msg dst hd, hb, h0]
    · rfl
    · rintro (⟨msg', dst', hd', hS', e⟩ | e)
      · have := hpad msg' dst'
        rw [← e, List.append_assoc, show Rfc9380.i2osp 1 1 = [1] by decide, List.singleton_append,
          show (33 : Nat) = zero.length + 1 from rfl, List.take_length_add_append, List.take_succ_cons, List.take_zero] at this
        exact absurd this (by decide)
      · rw [List.append_assoc] at e
        exact hne ((List.take_left' rfl).symm.trans e)

theorem RunSeeds.numeral_value {b : Bytes} {m n : Nat} (h : Numeral b m) (h' : Numeral b n) : m = n := h.2.2.1.symm.trans h'.2.2.1

theorem RunSeeds.numeral_length {b : Bytes} {m : Nat} (h : Numeral b m) (hm : m < 2 ^ 63) : b.length < 233 := by
  have hf : ∀ (l : Bytes) (a : Nat), a * 10 ^ l.length ≤ l.foldl (fun a c => 10 * a + (c.toNat - 48)) a := by
    intro l
    induction l with
    | nil => intro a; simp
    | cons c l ih =>
      intro a
      refine le_trans ?_ (ih _)
      rw [List.length_cons, pow_succ]
      calc a * (10 ^ l.length * 10) = (10 * a) * 10 ^ l.length := by ring
        _ ≤ _ := Nat.mul_le_mul_right _ (Nat.le_add_right _ _)
  obtain ⟨-, hd, hv, hz⟩ := h
  cases b with
  | nil => simp
  | cons c l =>
    by_cases hc : c = 48
    · rw [hc] at hz ⊢
      rw [hz rfl]
      decide
    · have h48 : 49 ≤ c.toNat := by
        have := (hd c (by simp)).1
        have hne : c.toNat ≠ 48 := fun e => hc (UInt8.toNat_inj.1 e)
        omega
      rw [List.foldl_cons] at hv
      have h1 := hf l (10 * 0 + (c.toNat - 48))
      rw [hv] at h1
      by_contra hlen
      rw [List.length_cons] at hlen
      have h2 : (10 : Nat) ^ 19 ≤ 10 ^ l.length := Nat.pow_le_pow_right (by norm_num) (by omega)
      have h3 : 1 * 10 ^ l.length ≤ (10 * 0 + (c.toNat - 48)) * 10 ^ l.length := Nat.mul_le_mul_right _ (by omega)
      have h4 : (2 : Nat) ^ 63 < 10 ^ 19 := by norm_num
      omega

/-- C199, different dealers: no two pairs of a round and a dealer are confused, i.e. for some hash function and key stream their seeds differ, whatever
the root. -/
theorem C199_apart (root : Bytes) (round round' dealer dealer' : Nat) (hr : round < 2 ^ 63) (hr' : round' < 2 ^ 63)
    (hne : (round, dealer) ≠ (round', dealer')) :
    ∃ P : Prim, (∃ seed seed', DealerSeed P root round dealer seed ∧ DealerSeed P root round' dealer' seed') ∧
      ∀ seed seed', DealerSeed P root round dealer seed → DealerSeed P root round' dealer' seed' → seed ≠ seed' := by
  classical
  let one : Bytes := List.replicate 32 1
  let zero : Bytes := List.replicate 32 0
  have hne01 : one ≠ zero := by decide
  let dst := ascii "ic-crypto-seed-from-rng"
  have hdst : dst.length < 256 := by decide +kernel
  let pre := ascii "ic-crypto-tecdsa-round-"
  have hpre : pre.length = 23 := by decide +kernel
  have hlab : ∀ digits, pre ++ digits ≠ dst := by
    intro digits e
    have : (pre ++ digits)[10]? = dst[10]? := by rw [e]
    rw [List.getElem?_append_left (by omega)] at this
    exact absurd this (by decide +kernel)
  obtain ⟨H, hH, hx⟩ := exists_hash fun msg d => (∃ digits, Numeral digits round ∧ msg = root ∧ d = pre ++ digits) ∨ (msg = one ∧ d = dst)
  let stream : Bytes → Nat → UInt8 := fun key i => if dealer = dealer' then (if key = one then 1 else 0) else if i / 32 = dealer then 1 else 0
  obtain ⟨P, hP, hP'⟩ : ∃ P : Prim, P.sha256 = H ∧ P.chacha20 = stream :=
    ⟨⟨H, hH, fun _ _ => List.replicate 64 0, by simp, stream⟩, rfl, rfl⟩
  have hlen : ∀ digits, pre.length + (digits : Bytes).length < 256 → (pre ++ digits).length < 256 := fun d h => by
    rwa [List.length_append]
  -- the seeds of the rounds
  have e1 : ∀ digits, Numeral digits round → Rfc9380.expandMessageXmd H root (pre ++ digits) 32 = some one := fun digits hd =>
    (hx root _ (hlen _ (by have := numeral_length hd hr; omega))).1 (.inl ⟨digits, hd, rfl, rfl⟩)
  have e2 : ∀ digits, Numeral digits round' → round ≠ round' → Rfc9380.expandMessageXmd H root (pre ++ digits) 32 = some zero := by
    intro digits hd hn
    refine (hx root _ (hlen _ (by have := numeral_length hd hr'; omega))).2 ?_
    rintro (⟨digits', hd', -, e⟩ | ⟨-, e⟩)
    · cases List.append_cancel_left e
      exact hn (numeral_value hd' hd)
    · exact hlab _ e
  -- the seeds of the dealers
  have f1 : Rfc9380.expandMessageXmd H one dst 32 = some one := (hx one dst hdst).1 (.inr ⟨rfl, rfl⟩)
  have f2 : Rfc9380.expandMessageXmd H zero dst 32 = some zero := by
    refine (hx zero dst hdst).2 ?_
    rintro (⟨digits', hd', -, e⟩ | ⟨e, -⟩)
    · exact hlab _ e.symm
    · exact hne01 e.symm
  have hconst : ∀ (st : Nat → UInt8) (c : UInt8) (p : Nat), (∀ i < 32, st (p + i) = c) → next st p = List.replicate 32 c := by
    intro st c p h
    rw [next, List.eq_replicate_iff]
    refine ⟨by simp, fun b hb => ?_⟩
    obtain ⟨i, hi, rfl⟩ := List.mem_map.1 hb
    exact h i (List.mem_range.1 hi)
  have g1 : next (stream one) (32 * dealer) = one := by
    refine hconst _ _ _ fun i hi => ?_
    by_cases hd : dealer = dealer'
    · exact (if_pos hd).trans (if_pos rfl)
    · exact (if_neg hd).trans (if_pos (by omega))
  have g2 : ∀ rs, (round ≠ round' → rs = zero) → next (stream rs) (32 * dealer') = zero := by
    intro rs hrs
    refine hconst _ _ _ fun i hi => ?_
    by_cases hd : dealer = dealer'
    · have hn : round ≠ round' := fun e => hne (by rw [e, hd])
      exact (if_pos hd).trans (if_neg (by rw [hrs hn]; exact hne01.symm))
    · exact (if_neg hd).trans (if_neg (by omega))
  have s1 : ∀ seed, DealerSeed P root round dealer seed → seed = one := by
    rintro seed ⟨digits, rs, hd, hrs, hm⟩
    rw [hP, e1 digits hd] at hrs
    cases hrs
    rw [Made, hP, hP', g1] at hm
    exact (Option.some.inj (f1.symm.trans hm)).symm
  have s2 : ∀ seed, DealerSeed P root round' dealer' seed → seed = zero := by
    rintro seed ⟨digits, rs, hd, hrs, hm⟩
    rw [hP] at hrs
    rw [Made, hP, hP', g2 rs fun hn => by rw [e2 digits hd hn] at hrs; exact (Option.some.inj hrs).symm] at hm
    exact (Option.some.inj (f2.symm.trans hm)).symm
  refine ⟨P, ⟨one, zero, ⟨_, one, numeral_decimal _, by rw [hP]; exact e1 _ (numeral_decimal _), by rw [Made, hP, hP', g1]; exact f1⟩, ?_⟩, ?_⟩
  · by_cases hn : round = round'
    · exact ⟨_, one, numeral_decimal _, by rw [hP, ← hn]; exact e1 _ (numeral_decimal _),
        by rw [Made, hP, hP', g2 one fun h => absurd hn h]; exact f2⟩
    · exact ⟨_, zero, numeral_decimal _, by rw [hP]; exact e2 _ (numeral_decimal _) hn,
        by rw [Made, hP, hP', g2 zero fun _ => rfl]; exact f2⟩
  · intro seed seed' h h'
    rw [s1 seed h, s2 seed' h']
    exact hne01

/-- The same dealer in the first two rounds, and two dealers of one round. -/
example : ((0, 3) : Nat × Nat) ≠ (1, 3) ∧ ((2, 0) : Nat × Nat) ≠ (2, 1) := by decide

/-- A run that changes the nodes and the threshold, without rounds. -/
example (P : Prim) (cbor : Commitment → Res Bytes) (seed : Seed) : Run P cbor ⟨2, [7], [1, 2, 3], seed, 4⟩ [] ⟨1, [7], [1, 2], seed, 4⟩ :=
  .step (.removeNodes 1 rfl) (.step (.modifyThreshold 1) (.done _))

end Verif
