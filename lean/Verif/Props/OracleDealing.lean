import Verif.Spec.OracleDealing
import Verif.Props.OraclePads
import Verif.Lemmas.Hybrid
import Verif.Lemmas.Dealings
import Mathlib.Algebra.Polynomial.BigOperators
import Mathlib.Algebra.Polynomial.Eval.Degree

/-!
Property C161: a masked dealing, as a whole, hides its secret from fewer than threshold-many recipients in the random oracle model.
-/

set_option autoImplicit false

namespace Verif

open Oracle Mega Polynomial

namespace Oracle

variable {k m : Nat}

theorem valueFor_add (f f' : Fin k → Fn) (i : Nat) : valueFor (f + f') i = valueFor f i + valueFor f' i := by
  simp only [valueFor, Pi.add_apply, add_mul, Finset.sum_add_distrib]

theorem valueFor_smul (a : Fn) (f : Fin k → Fn) (i : Nat) : valueFor (a • f) i = a * valueFor f i := by
  simp only [valueFor, Pi.smul_apply, smul_eq_mul, Finset.mul_sum, mul_assoc]

theorem place_ne_zero {i : Nat} (h : i < 2 ^ 64) : (i : Fn) + 1 ≠ 0 := by
  have : ((i + 1 : Nat) : Fn) ≠ 0 := by
    rw [Ne, ZMod.natCast_eq_zero_iff]
    refine Nat.not_dvd_of_pos_of_lt (by omega) ?_
    have : (2 : Nat) ^ 64 < n := by norm_num [n]
    omega
  exact_mod_cast this

/-- A polynomial of small degree with constant term 1 that vanishes at the places of a small group. -/
theorem exists_vanishing (hm : m ≤ 2 ^ 32) (B : Finset (Fin m)) (hB : B.card ≤ k) :
    ∃ Z : Fin (k + 1) → Fn, Z 0 = 1 ∧ ∀ i ∈ B, valueFor Z i = 0 := by
  let p : Fn[X] := ∏ i ∈ B, (X - C (((i : Nat) : Fn) + 1))
  have hdeg : p.natDegree ≤ k := by
    rw [natDegree_prod _ _ fun i _ => X_sub_C_ne_zero _]
    simpa only [natDegree_X_sub_C, Finset.sum_const, smul_eq_mul, mul_one] using hB
  have h0 : p.eval 0 ≠ 0 := by
    rw [eval_prod, Finset.prod_ne_zero_iff]
    intro i _
    rw [eval_sub, eval_X, eval_C, zero_sub, neg_ne_zero]
    exact place_ne_zero (lt_of_lt_of_le i.2 (hm.trans (by norm_num)))
  have hc0 : p.coeff 0 ≠ 0 := by rwa [coeff_zero_eq_eval_zero]
  refine ⟨fun j => (p.coeff 0)⁻¹ * p.coeff j, inv_mul_cancel₀ hc0, fun i hi => ?_⟩
  have hz : p.eval (((i : Nat) : Fn) + 1) = 0 := by
    rw [eval_prod]
    exact Finset.prod_eq_zero hi (by simp)
  rw [eval_eq_sum_range' (Nat.lt_succ_of_le hdeg), ← Fin.sum_univ_eq_sum_range (fun j => p.coeff j * (((i : Nat) : Fn) + 1) ^ j)] at hz
  simp only [valueFor, mul_assoc, ← Finset.mul_sum]
  rw [hz, mul_zero]

/-- Coins for another secret that give the same commitments and the same values for the group. -/
theorem other_coins (hm : m ≤ 2 ^ 32) (B : Finset (Fin m)) (hB : B.card ≤ k) (s s' : Fn) :
    ∃ e : DealerCoins k ≃ DealerCoins k, ∀ c,
      commitments (withSecret s' (e c)) (e c).2 = commitments (withSecret s c) c.2 ∧
      ∀ i ∈ B, dealt (m := m) (withSecret s' (e c)) (e c).2 i = dealt (withSecret s c) c.2 i := by
  obtain ⟨Z, hZ0, hZ⟩ := exists_vanishing hm B hB
  obtain ⟨l, hl⟩ := exists_smul_eq H_ne_zero G
  let a : Fn := s' - s
  refine ⟨Equiv.prodCongr (Equiv.addRight (a • Fin.tail Z)) (Equiv.addRight ((-(l * a)) • Z)), fun c => ?_⟩
  have hf : withSecret s' (c.1 + a • Fin.tail Z, c.2 + (-(l * a)) • Z) = withSecret s c + a • Z := by
    funext j
    refine Fin.cases ?_ (fun j => ?_) j
    · simp only [withSecret, Fin.cons_zero, Pi.add_apply, Pi.smul_apply, hZ0, smul_eq_mul, mul_one, a]; ring
    · simp only [withSecret, Fin.cons_succ, Pi.add_apply, Pi.smul_apply, Fin.tail]
  have he : (Equiv.prodCongr (Equiv.addRight (a • Fin.tail Z)) (Equiv.addRight ((-(l * a)) • Z))) c =
      (c.1 + a • Fin.tail Z, c.2 + (-(l * a)) • Z) := rfl
  rw [he, hf]
  constructor
  · funext j
    simp only [commitments, Pi.add_apply, Pi.smul_apply, smul_eq_mul]
    rw [hl]
    module
  · intro i hi
    simp only [dealt, valueFor_add, valueFor_smul, hZ i hi, mul_zero, add_zero]

theorem share_average_eq {X Y Z : Type} [Finite X] [Finite Y] [Finite Z] (p : X → Y → Prop) (p' : X → Z → Prop)
    (h : ∀ x, share (p x) = share (p' x)) : share (fun u : X × Y => p u.1 u.2) = share (fun u : X × Z => p' u.1 u.2) := by
  have := Fintype.ofFinite X
  rw [share_sum, share_sum]
  simp only [h]

end Oracle

variable {D : Finset Question} {R : Type} {k m : Nat}

/-- C161: give a program everything that is published of a masked dealing of threshold `k + 1` to `m` recipients, and whatever the
`k` or fewer recipients of a group `B` know; anything else may also be given to it that does not depend on the pads of the others.
Then it tells the secrets `s` and `s'` apart with an advantage of at most the share of coins, oracles and made-up entries for which
it asks for the pad of a recipient outside the group. -/
theorem C161_masked_dealing (hm : m ≤ 2 ^ 32) (d : NodeIndex) (ad : Bytes) (beta : Fn) (keys : Fin m → Pt) (qs : Fin m → D)
    (hqs : ∀ i : Fin m, within D (padOf .pairs d ad beta i (keys i)) = some (qs i)) (B : Finset (Fin m)) (hB : B.card ≤ k)
    (g : (Fin (k + 1) → Pt) → (D → Fn × Fn) → (Fin m → Fn × Fn) → Alg D (Fn × Fn) R) (hg : ∀ cm, Fair qs Bᶜ (g cm))
    (win : R → Prop) (s s' : Fn) :
    let view (s : Fn) (x : DealerCoins k × (D → Fn × Fn)) :=
      g (commitments (withSecret s x.1) x.1.2) x.2 (entries qs (dealt (withSecret s x.1) x.1.2) x.2)
    let blind (x : DealerCoins k × (D → Fn × Fn) × ((Bᶜ : Finset (Fin m)) → Fn × Fn)) :=
      g (commitments (withSecret s x.1) x.1.2) x.2.1 (madeUp qs (dealt (withSecret s x.1) x.1.2) Bᶜ x.2.1 x.2.2)
    share (fun x => win ((view s x).run x.2)) ≤
      share (fun x => win ((view s' x).run x.2)) + share (fun x => AsksFor qs Bᶜ (blind x) x.2.1) := by
  intro view blind
  let hid := (Bᶜ : Finset (Fin m))
  let made (s : Fn) (c : DealerCoins k) (y : (D → Fn × Fn) × (hid → Fn × Fn)) :=
    g (commitments (withSecret s c) c.2) y.1 (madeUp qs (dealt (withSecret s c) c.2) hid y.1 y.2)
  have hmade := fun (s : Fn) (c : DealerCoins k) => C152_made_up hm .pairs d ad beta keys qs hqs hid
    (dealt (withSecret s c) c.2) (g (commitments (withSecret s c) c.2)) (hg _) win
  have hclean : ∀ s, share (fun x => ¬ AsksFor qs hid (view s x) x.2 ∧ win ((view s x).run x.2)) =
      share (fun x : DealerCoins k × (D → Fn × Fn) × (hid → Fn × Fn) =>
        ¬ AsksFor qs hid (made s x.1 x.2) x.2.1 ∧ win ((made s x.1 x.2).run x.2.1)) := fun s =>
    share_average_eq (fun c O => ¬ AsksFor qs hid (view s (c, O)) O ∧ win ((view s (c, O)).run O))
      (fun c y => ¬ AsksFor qs hid (made s c y) y.1 ∧ win ((made s c y).run y.1)) fun c => (hmade s c).1
  have hasks : share (fun x => AsksFor qs hid (view s x) x.2) =
      share (fun x : DealerCoins k × (D → Fn × Fn) × (hid → Fn × Fn) => AsksFor qs hid (made s x.1 x.2) x.2.1) :=
    share_average_eq (fun c O => AsksFor qs hid (view s (c, O)) O) (fun c y => AsksFor qs hid (made s c y) y.1)
      fun c => (hmade s c).2
  obtain ⟨e, he⟩ := other_coins hm B hB s s'
  have hsame : ∀ c y, made s' (e c) y = made s c y := by
    intro c y
    have h2 : madeUp qs (dealt (withSecret s' (e c)) (e c).2) hid y.1 y.2 = madeUp qs (dealt (withSecret s c) c.2) hid y.1 y.2 := by
      funext i
      simp only [madeUp]
      split_ifs with hi
      · rfl
      · rw [(he c).2 i (by simpa [hid] using hi)]
    simp only [made, h2, (he c).1]
  have hswap : share (fun x : DealerCoins k × (D → Fn × Fn) × (hid → Fn × Fn) =>
        ¬ AsksFor qs hid (made s x.1 x.2) x.2.1 ∧ win ((made s x.1 x.2).run x.2.1)) =
      share (fun x : DealerCoins k × (D → Fn × Fn) × (hid → Fn × Fn) =>
        ¬ AsksFor qs hid (made s' x.1 x.2) x.2.1 ∧ win ((made s' x.1 x.2).run x.2.1)) := by
    refine Eq.trans ?_ (share_equiv (Equiv.prodCongr e (Equiv.refl ((D → Fn × Fn) × (hid → Fn × Fn))))
      fun x => ¬ AsksFor qs hid (made s' x.1 x.2) x.2.1 ∧ win ((made s' x.1 x.2).run x.2.1))
    exact congrArg share (funext fun x => by simp only [Equiv.prodCongr_apply, Prod.map, Equiv.refl_apply, hsame])
  have h1 := share_le_add (fun x => win ((view s x).run x.2)) (fun x => ¬ AsksFor qs hid (view s x) x.2 ∧ win ((view s x).run x.2))
    (fun x => AsksFor qs hid (view s x) x.2) (fun x hx => by
      by_cases ha : AsksFor qs hid (view s x) x.2
      · exact Or.inr ha
      · exact Or.inl ⟨ha, hx⟩)
  have h2 := share_mono (p := fun x => ¬ AsksFor qs hid (view s' x) x.2 ∧ win ((view s' x).run x.2))
    (p' := fun x => win ((view s' x).run x.2)) fun x hx => hx.2
  rw [hclean, hswap, ← hclean, hasks] at h1
  exact h1.trans (add_le_add h2 le_rfl)

namespace Oracle

theorem evaluateAt_ofFn (f : Fin k → Fn) {i : Nat} (hi : i < 2 ^ 32) :
    Poly.evaluateAt (List.ofFn f) (Scalar.fromNodeIndex (BitVec.ofNat 64 i)) = valueFor f i := by
  have hp : Scalar.fromNodeIndex (BitVec.ofNat 64 i) = (i : Fn) + 1 := by
    have h1 : ((BitVec.ofNat 64 i) + 1#64).toNat = i + 1 := by
      rw [BitVec.toNat_add, BitVec.toNat_ofNat]
      norm_num
      omega
    rw [Scalar.fromNodeIndex, Scalar.fromUint64, h1]
    push_cast
    rfl
  rw [Poly.evaluateAt_eq, hp, valueFor]
  generalize (i : Fn) + 1 = x
  have hsum : ∀ (k : Nat) (f : Fin k → Fn), (toPoly (List.ofFn f)).eval x = ∑ j : Fin k, f j * x ^ (j : Nat) := by
    intro k
    induction k with
    | zero => intro f; simp
    | succ k ih =>
      intro f
      rw [List.ofFn_succ, toPoly_cons, eval_add, eval_mul, eval_C, eval_X, ih, Fin.sum_univ_succ, Finset.mul_sum]
      congr 1
      · simp
      · refine Finset.sum_congr rfl fun j _ => ?_
        rw [Fin.val_succ, pow_succ]; ring
  exact hsum k f

theorem eq_ofFn {A : Type} {n : Nat} {l : List A} (h : l.length = n) : ∃ f : Fin n → A, l = List.ofFn f :=
  ⟨fun j => l[(j : Nat)]'(h ▸ j.2), List.ext_getElem (by simp [h]) fun i h1 h2 => by rw [List.getElem_ofFn]⟩

end Oracle

/-- C161, the link to the code: with the code's hash function as oracle, a random dealing consists of these commitments and entries,
for the coefficients that the generator of the derived seed draws. -/
theorem C161_code (P : Prim) (seed : Seed) (k : Nat) (keys : List Pt) (hkeys : keys.length ≤ 2 ^ 32) (dealer : NodeIndex) (ad : Bytes)
    (dl : Dealings.Dealing) (h : Dealings.new P .random seed (k + 1) keys dealer ad = .ok dl) :
    ∃ (ps : Seed) (r r' : Rng) (s : Fn) (c : DealerCoins k) (beta : Fn) (ct : Ciphertext (Fn × Fn)),
      seed.derive P Dealings.polyDst = .ok ps ∧ Poly.random (k + 1) (ps.rng P) = .ok (List.ofFn (withSecret s c), r) ∧
      Poly.random (k + 1) r = .ok (List.ofFn c.2, r') ∧
      dl = ⟨some (.pair ct), some ⟨.pedersen, List.ofFn (commitments (withSecret s c) c.2)⟩, none⟩ ∧
      ct.ephemeralKey = beta • G ∧
      ∀ qs : Fin keys.length → D, (∀ i : Fin keys.length, within D (padOf .pairs dealer ad beta i keys[i]) = some (qs i)) →
        ct.ctexts = List.ofFn (entries qs (dealt (withSecret s c) c.2) fun q => codeOracle2 P q.1) := by
  rw [Dealings.new] at h
  split_ifs at h with h0
  obtain ⟨ps, hps, h⟩ := Res.bind_eq_ok.1 h
  obtain ⟨ms, hms, h⟩ := Res.bind_eq_ok.1 h
  obtain ⟨⟨values, r⟩, hv, h⟩ := Res.bind_eq_ok.1 h
  obtain ⟨⟨mask, r'⟩, hmk, h⟩ := Res.bind_eq_ok.1 h
  obtain ⟨⟨ct, cm⟩, henc, h⟩ := Res.bind_eq_ok.1 h
  dsimp only at hmk henc h
  have hdl := (Res.ok.inj h).symm
  have hvl : values.length = k + 1 := by have := (Poly.random_ok hv).2; omega
  have hml : mask.length = k + 1 := by have := (Poly.random_ok hmk).2; omega
  obtain ⟨f, rfl⟩ := eq_ofFn hvl
  obtain ⟨g, rfl⟩ := eq_ofFn hml
  have hf : withSecret (f 0) (Fin.tail f, g) = f := Fin.cons_self_tail f
  rw [Dealings.encryptAndCommitPair] at henc
  obtain ⟨ct', hct, henc⟩ := Res.bind_eq_ok.1 henc
  obtain ⟨cm', hcm, henc⟩ := Res.bind_eq_ok.1 henc
  obtain ⟨rfl, rfl⟩ := Prod.mk.inj (Res.ok.inj henc)
  rw [Commitment.createPedersen_self (by simp) (by simp) (by omega)] at hcm
  obtain ⟨beta, hb, -, hent, -⟩ := (C152_code (D := D) P ms keys dealer ad).2 _ _ hct
  refine ⟨ps, r, r', f 0, (Fin.tail f, g), beta, ct', hps, by rw [hf]; exact hv, hmk, ?_, hb, fun qs hqs => ?_⟩
  · rw [hdl, ← Res.ok.inj hcm, hf]
    have : List.zipWith Point.pedersen (List.ofFn f) (List.ofFn g) = List.ofFn (commitments f g) :=
      List.ext_getElem (by simp) fun i h1 h2 => by
        rw [List.getElem_zipWith, List.getElem_ofFn, List.getElem_ofFn, List.getElem_ofFn]
        rfl
    rw [this]
  · rw [hent qs hqs, hf]
    congr 1
    funext i
    rw [entries, entries]
    congr 1
    have : (i : Nat) < 2 ^ 32 := lt_of_lt_of_le i.2 hkeys
    rw [dealt, ← evaluateAt_ofFn f this, ← evaluateAt_ofFn g this, List.getD_eq_getElem?_getD,
      List.getElem?_eq_getElem (by simp), List.getElem_map, List.getElem_range, Option.getD_some]

/-- The hypotheses are met, for any number of keys, any threshold, and a program that knows the entries of `B` and asks for nothing. -/
example (d : NodeIndex) (ad : Bytes) (beta : Fn) (keys : Fin m → Pt) (B : Finset (Fin m)) :
    ∃ (D : Finset Question) (qs : Fin m → D)
      (g : (Fin (k + 1) → Pt) → (D → Fn × Fn) → (Fin m → Fn × Fn) → Alg D (Fn × Fn) ((Fin (k + 1) → Pt) × (Fin m → Fn × Fn))),
      (∀ i : Fin m, within D (padOf .pairs d ad beta i (keys i)) = some (qs i)) ∧ (∀ cm, Fair qs Bᶜ (g cm)) ∧
      ∀ cm O e, (g cm O e).run O = (cm, e) := by
  classical
  have hex : ∀ i : Fin m, ∃ q, question (padOf .pairs d ad beta i (keys i)) = some q := by
    intro i
    rw [padOf, padTranscript_eq]
    obtain ⟨x, hx⟩ := Ro.form_ok_of_accepted (ds := CType.pairs.encryptionDst)
      (List.ne_nil_of_mem (mem_pad (d := d) (r := BitVec.ofNat 64 i) (ad := ad) (pk := keys i) (eph := beta • G)
        (shared := beta • keys i)).1)
    exact ⟨_, question_run.2 ⟨x, hx, rfl⟩⟩
  choose f hf using hex
  exact ⟨Finset.univ.image f, fun i => ⟨f i, Finset.mem_image_of_mem f (Finset.mem_univ i)⟩, fun cm _ e => .done (cm, e),
    fun i => within_eq.2 (hf i), fun _ _ _ _ => rfl, fun _ _ _ => rfl⟩

/-- The number of recipients matters: with threshold 1 a single recipient, who may ask for its own pad, has the secret. -/
example (D : Finset Question) (q : D) (s : Fn) (c : DealerCoins 0) (O : D → Fn × Fn) :
    let g : (Fin 1 → Fn × Fn) → Alg D (Fn × Fn) Fn := fun e => .ask q fun a => .done (e 0 - a).1
    (g (entries (fun _ => q) (dealt (withSecret s c) c.2) O)).run O = s := by
  simp [Alg.run, entries, dealt, valueFor, withSecret]

end Verif
