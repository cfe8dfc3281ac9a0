import Verif.Props.OracleProduct
import Verif.Props.TranscriptSecrecy

/-!
Property C166: dealers who deal after an honest one can neither predict nor bias the secret of a random transcript, in the random
oracle model.
-/

set_option autoImplicit false

namespace Verif

open Oracle Mega

namespace Oracle

theorem share_shift (a : Fn) (T : Finset Fn) : share (fun s : Fn => s + a ∈ T) = T.card / n := by
  refine (share_equiv (Equiv.addRight a) (fun s : Fn => s ∈ T)).trans ?_
  have e : Nat.card {s : Fn // s ∈ T} = T.card := by simp
  rw [share, e, card_Fn]

end Oracle

variable {D : Finset Question} {k m : Nat}

/-- C166: a program is given everything that is published of a random dealing, and whatever the `k` or fewer recipients of a group `B`
know.  It ends with a number, the sum of the secrets that it deals itself, and a set of `t` numbers.  For random secrets of the given
dealing, the sum of all secrets is in the set for the share `t / n`, up to the share of random choices for which the program asks for
the pad of a recipient outside the group. -/
theorem C166_no_bias (hm : m ≤ 2 ^ 32) (d : NodeIndex) (ad : Bytes) (beta : Fn) (keys : Fin m → Pt) (qs : Fin m → D)
    (hqs : ∀ i : Fin m, within D (padOf .pairs d ad beta i (keys i)) = some (qs i)) (B : Finset (Fin m)) (hB : B.card ≤ k)
    (g : (Fin (k + 1) → Pt) → (D → Fn × Fn) → (Fin m → Fn × Fn) → Alg D (Fn × Fn) (Fn × Finset Fn)) (hg : ∀ cm, Fair qs Bᶜ (g cm))
    (t : Nat) (ht : ∀ cm O e, ((g cm O e).run O).2.card = t) :
    let view (u : Fn × DealerCoins k × (D → Fn × Fn)) :=
      g (commitments (withSecret u.1 u.2.1) u.2.1.2) u.2.2 (entries qs (dealt (withSecret u.1 u.2.1) u.2.1.2) u.2.2)
    let blind (u : Fn × DealerCoins k × (D → Fn × Fn) × ((Bᶜ : Finset (Fin m)) → Fn × Fn)) :=
      g (commitments (withSecret u.1 u.2.1) u.2.1.2) u.2.2.1
        (madeUp qs (dealt (withSecret u.1 u.2.1) u.2.1.2) Bᶜ u.2.2.1 u.2.2.2)
    |share (fun u => u.1 + ((view u).run u.2.2).1 ∈ ((view u).run u.2.2).2) - t / n| ≤
      share (fun u => AsksFor qs Bᶜ (blind u) u.2.2.1) := by
  intro view blind
  have key : ∀ (T : Fn × Finset Fn → Finset Fn) (t' : Nat), (∀ cm O e, (T ((g cm O e).run O)).card = t') →
      share (fun u => u.1 + ((view u).run u.2.2).1 ∈ T ((view u).run u.2.2)) ≤
        t' / n + share (fun u => AsksFor qs Bᶜ (blind u) u.2.2.1) := by
    intro T t' hT
    have h := share_average_add (fun s x => s + ((view (s, x)).run x.2).1 ∈ T ((view (s, x)).run x.2))
      (fun s x => s + ((view (0, x)).run x.2).1 ∈ T ((view (0, x)).run x.2))
      (fun s x => AsksFor qs Bᶜ (blind (s, x)) x.2.1)
      fun s => C161_masked_dealing hm d ad beta keys qs hqs B hB g hg (fun r => s + r.1 ∈ T r) s 0
    refine h.trans (add_le_add_left (le_of_eq ?_) _)
    rw [← share_equiv (Equiv.prodComm _ _) (fun u : Fn × DealerCoins k × (D → Fn × Fn) =>
      u.1 + ((view (0, u.2)).run u.2.2).1 ∈ T ((view (0, u.2)).run u.2.2))]
    have := Fintype.ofFinite (DealerCoins k × (D → Fn × Fn))
    have e := share_sum (fun (x : DealerCoins k × (D → Fn × Fn)) (s : Fn) =>
      s + ((view (0, x)).run x.2).1 ∈ T ((view (0, x)).run x.2))
    refine e.trans ?_
    simp only [share_shift]
    have hc : ∀ x : DealerCoins k × (D → Fn × Fn), ((T ((view (0, x)).run x.2)).card : ℚ) / n = t' / n := fun x => by
      rw [hT]
    rw [Finset.sum_congr rfl fun x _ => hc x, Finset.sum_const, Finset.card_univ, Nat.card_eq_fintype_card, nsmul_eq_mul,
      mul_div_cancel_left₀]
    exact_mod_cast Fintype.card_ne_zero
  have h1 := key (fun r => r.2) t ht
  have h2 := key (fun r => r.2ᶜ) (n - t) (fun cm O e => by rw [Finset.card_compl, ht, ← Nat.card_eq_fintype_card, card_Fn])
  simp only [Finset.mem_compl] at h2
  rw [share_not] at h2
  have hle : t ≤ n := by
    have := Finset.card_le_univ ((g (fun _ => 0) (fun _ => 0) (fun _ => 0)).run (fun _ => 0)).2
    rwa [ht, ← Nat.card_eq_fintype_card, card_Fn] at this
  rw [Nat.cast_sub hle, sub_div, div_self (by exact_mod_cast n_pos.ne')] at h2
  rw [abs_le]
  constructor <;> linarith

namespace Dealings

/-- What a random dealing shares out. -/
theorem random_sharesOut {P : Prim} {seed : Seed} {t : Int} {keys : List Fn} {dealer : NodeIndex} {ad : Bytes} {dl : Dealing}
    (h : new P .random seed t (keys.map Point.mulByG) dealer ad = .ok dl) :
    ∃ (ps : Seed) (values : List Fn) (r : Rng), seed.derive P polyDst = .ok ps ∧ Poly.random t (ps.rng P) = .ok (values, r) ∧
      0 < t ∧ SharesOut P dl t keys ad dealer (Poly.coeff values 0) := by
  rw [new] at h
  split_ifs at h with h0
  obtain ⟨ps, hps, h⟩ := Res.bind_eq_ok.1 h
  obtain ⟨ms, hms, h⟩ := Res.bind_eq_ok.1 h
  dsimp only at h
  obtain ⟨⟨values, r⟩, hv, h⟩ := Res.bind_eq_ok.1 h
  dsimp only at h
  obtain ⟨⟨mask, r'⟩, hm, h⟩ := Res.bind_eq_ok.1 h
  dsimp only at h
  obtain ⟨⟨ct, cm⟩, hct, h⟩ := Res.bind_eq_ok.1 h
  obtain ⟨hn, hvl⟩ := Poly.random_ok hv
  obtain ⟨-, hml⟩ := Poly.random_ok hm
  have hpos : 0 < t := by omega
  obtain ⟨rfl, -, hdec⟩ := encryptAndCommitPair_spec hpos hvl hml hct
  cases h
  refine ⟨ps, values, r, hps, hv, hpos, values, mask, .pair ct, _, rfl, rfl, by omega, by omega,
    (head?_eq_coeff (t := t.toNat) hvl (by omega) _).2 rfl, fun i k hi hk => ?_⟩
  have := hdec i k hi hk
  rw [Poly.evaluateAt_eq, Poly.evaluateAt_eq] at this
  exact this

/-- The secret of a random transcript is the sum of the secrets dealt. -/
theorem random_transcript_secret (P : Prim) (t : Int) (dealers : List NodeIndex) (d : NodeIndex → Dealing) (keys : List Fn)
    (ad : Bytes) (ht : 0 < t) (sec : NodeIndex → Fn)
    (hall : ∀ j ∈ dealers, publiclyVerify P (d j) K256 .random t j keys.length ad = .ok () ∧ SharesOut P (d j) t keys ad j (sec j)) :
    ∃ (T : Com) (f g : List Fn), newTranscript t (mapOf dealers d) .random = .ok (some T) ∧
      (f.length : Int) = t ∧ (g.length : Int) = t ∧ f.head? = some (dealers.map sec).sum ∧
      ∀ (i : NodeIndex) (k : Fn), 0 ≤ i.toInt → keys[i.toInt.toNat]? = some k →
        fromDealings P (mapOf dealers d) (some T) ad i k (k • G) =
          .ok (.pedersen ((toPoly f).eval (place i)) ((toPoly g).eval (place i))) := by
  have hex : ∀ j, ∃ (q r : List Fn) (cm : Commitment), j ∈ dealers → (d j).commitment = some cm ∧
      (cm.points.length : Int) = t ∧ cm.kind = .pedersen ∧ (q.length : Int) = t ∧ (r.length : Int) = t ∧ q.head? = some (sec j) ∧
      ∀ (i : NodeIndex) (k : Fn), 0 ≤ i.toInt → keys[i.toInt.toNat]? = some k →
        openDealing P (d j) ad j i k (k • G) = .ok (.pedersen ((toPoly q).eval (place i)) ((toPoly r).eval (place i))) := by
    intro j
    by_cases hj : j ∈ dealers
    · obtain ⟨hv, q, r, c', cm', h1, h2, h3, h4, h5, h6⟩ := hall j hj
      obtain ⟨-, cm, c, c0, hcm, hc, hl, hc0, hsz, hpop, hkind, -, -⟩ := accepted_only hv
      obtain rfl : cm = cm' := by rw [hcm] at h2; exact Option.some.inj h2
      refine ⟨q, r, cm, fun _ => ⟨h2, hl, hkind, h3, h4, h5, fun i k hi hki => ?_⟩⟩
      rw [openDealing.eq_def, h1, h2]
      exact h6 i k hi hki
    · exact ⟨[], [], ⟨.simple, []⟩, fun e => absurd e hj⟩
  choose q r cm hqr using hex
  have hc : Commits (mapOf dealers d) cm := by
    intro x hx
    obtain ⟨j, hj, rfl⟩ := List.mem_map.1 hx
    exact (hqr j hj).1
  have hl : ∀ x ∈ mapOf dealers d, ((cm x.1).points.length : Int) = t := by
    intro x hx
    obtain ⟨j, hj, rfl⟩ := List.mem_map.1 hx
    exact (hqr j hj).2.1
  have hkd : ∀ x ∈ mapOf dealers d, (cm x.1).kind = .pedersen := by
    intro x hx
    obtain ⟨j, hj, rfl⟩ := List.mem_map.1 hx
    exact (hqr j hj).2.2.1
  obtain ⟨pts, hT, -, -, hcomb⟩ := C58_random_sum t _ cm hc ht hl hkd
  have hlq : ∀ j ∈ dealers, (q j).length ≤ t.toNat := fun j hj => by have := (hqr j hj).2.2.2.1; omega
  have hlr : ∀ j ∈ dealers, (r j).length ≤ t.toNat := fun j hj => by have := (hqr j hj).2.2.2.2.1; omega
  refine ⟨_, linComb (fun _ => 1) dealers q t.toNat, linComb (fun _ => 1) dealers r t.toNat, hT,
    by rw [length_linComb]; omega, by rw [length_linComb]; omega, ?_, fun i k hi hki => ?_⟩
  · rw [head?_eq_coeff (t := t.toNat) (length_linComb ..) (by omega), coeff_linComb, if_pos (by omega)]
    refine congrArg List.sum (List.map_congr_left fun j hj => ?_)
    rw [one_mul]
    exact (head?_eq_coeff (t := t.toNat) (by have := (hqr j hj).2.2.2.1; omega) (by omega) _).1 (hqr j hj).2.2.2.2.2.1
  · have hopen : ∀ x ∈ mapOf dealers d, openDealing P x.2 ad x.1 i k (k • G) =
        .ok (.pedersen ((toPoly (q x.1)).eval (place i)) ((toPoly (r x.1)).eval (place i))) := by
      intro x hx
      obtain ⟨j, hj, rfl⟩ := List.mem_map.1 hx
      exact (hqr j hj).2.2.2.2.2.2 i k hi hki
    obtain ⟨-, h2⟩ := hcomb i (fun j => (toPoly (q j)).eval (place i)) (fun j => (toPoly (r j)).eval (place i))
      (fun x hx => (openDealing_ok (hc x hx) (hopen x hx)).2.2)
    rw [fromDealings, Res.mapM'_ok (g := fun x => Opening.pedersen ((toPoly (q x.1)).eval (place i))
      ((toPoly (r x.1)).eval (place i))) hopen, Res.ok_bind, h2, eval_linComb _ _ _ _ hlq, eval_linComb _ _ _ _ hlr]
    simp [mapOf, Function.comp_def]

/-- C166, the link to the code: when dealer `a` deals at random, so that its dealing is the one given to the program, and the
dealings of the others are accepted, publicly and by the recipients, then the transcript is made and its secret is that of `a`'s
dealing plus the sum of the others' secrets. -/
theorem C166_code (P : Prim) (k : Nat) (dealers : List NodeIndex) (d : NodeIndex → Dealing) (keys : List Fn)
    (hkeys : keys.length ≤ 2 ^ 32) (ad : Bytes) (a : NodeIndex) (seed : Seed) (hnd : dealers.Nodup) (ha : a ∈ dealers)
    (h : new P .random seed (k + 1) (keys.map Point.mulByG) a ad = .ok (d a)) (sec : NodeIndex → Fn)
    (hothers : ∀ j ∈ dealers, j ≠ a → publiclyVerify P (d j) K256 .random (k + 1) j keys.length ad = .ok () ∧
      SharesOut P (d j) (k + 1) keys ad j (sec j)) :
    ∃ (ps : Seed) (r r' : Rng) (s : Fn) (c : DealerCoins k) (beta : Fn) (ct : Ciphertext (Fn × Fn)) (T : Com) (f g : List Fn),
      seed.derive P polyDst = .ok ps ∧ Poly.random (k + 1) (ps.rng P) = .ok (List.ofFn (withSecret s c), r) ∧
      Poly.random (k + 1) r = .ok (List.ofFn c.2, r') ∧
      d a = ⟨some (.pair ct), some ⟨.pedersen, List.ofFn (commitments (withSecret s c) c.2)⟩, none⟩ ∧
      ct.ephemeralKey = beta • G ∧
      (∀ qs : Fin (keys.map Point.mulByG).length → D,
        (∀ i : Fin (keys.map Point.mulByG).length, within D (padOf .pairs a ad beta i (keys.map Point.mulByG)[i]) = some (qs i)) →
        ct.ctexts = List.ofFn (entries qs (dealt (withSecret s c) c.2) fun q => codeOracle2 P q.1)) ∧
      newTranscript (k + 1) (mapOf dealers d) .random = .ok (some T) ∧ f.length = k + 1 ∧ g.length = k + 1 ∧
      f.head? = some (s + ((dealers.erase a).map sec).sum) ∧
      ∀ (i : NodeIndex) (key : Fn), 0 ≤ i.toInt → keys[i.toInt.toNat]? = some key →
        fromDealings P (mapOf dealers d) (some T) ad i key (key • G) =
          .ok (.pedersen ((toPoly f).eval (place i)) ((toPoly g).eval (place i))) := by
  obtain ⟨ps, r, r', s, c, beta, ct, h1, h2, h3, h4, h5, h6⟩ := C161_code (D := D) P seed k _ (by simpa using hkeys) a ad _ h
  obtain ⟨ps', values, r'', h1', h2', -, hout⟩ := random_sharesOut h
  obtain rfl : ps = ps' := Res.ok.inj (h1.symm.trans h1')
  obtain ⟨rfl, -⟩ := Prod.mk.inj (Res.ok.inj (h2.symm.trans h2'))
  have hs : Poly.coeff (List.ofFn (withSecret s c)) 0 = s := by simp [Poly.coeff, withSecret]
  rw [hs] at hout
  obtain ⟨T, f, g, e1, e2, e3, e4, e5⟩ := random_transcript_secret P (k + 1) dealers d keys ad (by omega)
    (Function.update sec a s) fun j hj => by
      by_cases hja : j = a
      · subst hja
        rw [Function.update_self]
        exact ⟨(C54_honest_dealings_verify P .random .random seed (k + 1) keys j ad (d j) trivial h).1, hout⟩
      · rw [Function.update_of_ne hja]
        exact hothers j hj hja
  refine ⟨ps, r, r', s, c, beta, ct, T, f, g, h1, h2, h3, h4, h5, h6, e1, by omega, by omega, ?_, e5⟩
  rw [e4, ((List.perm_cons_erase ha).map _).sum_eq, List.map_cons, List.sum_cons, Function.update_self]
  have : (dealers.erase a).map (Function.update sec a s) = (dealers.erase a).map sec := by
    refine List.map_congr_left fun j hj => Function.update_of_ne ?_ ..
    rintro rfl
    exact hnd.not_mem_erase hj
  rw [this]

end Dealings

/-- The hypotheses are met by a program that deals the secret 0 itself and guesses that the sum is 0 or 1. -/
example (d : NodeIndex) (ad : Bytes) (beta : Fn) (keys : Fin m → Pt) (B : Finset (Fin m)) :
    ∃ (D : Finset Question) (qs : Fin m → D)
      (g : (Fin (k + 1) → Pt) → (D → Fn × Fn) → (Fin m → Fn × Fn) → Alg D (Fn × Fn) (Fn × Finset Fn)),
      (∀ i : Fin m, within D (padOf .pairs d ad beta i (keys i)) = some (qs i)) ∧ (∀ cm, Fair qs Bᶜ (g cm)) ∧
      ∀ cm O e, ((g cm O e).run O).2.card = 2 := by
  classical
  have hex : ∀ i : Fin m, ∃ q, question (padOf .pairs d ad beta i (keys i)) = some q := by
    intro i
    rw [padOf, padTranscript_eq]
    obtain ⟨x, hx⟩ := Ro.form_ok_of_accepted (ds := CType.pairs.encryptionDst)
      (List.ne_nil_of_mem (mem_pad (d := d) (r := BitVec.ofNat 64 i) (ad := ad) (pk := keys i) (eph := beta • G)
        (shared := beta • keys i)).1)
    exact ⟨_, question_run.2 ⟨x, hx, rfl⟩⟩
  choose f hf using hex
  exact ⟨Finset.univ.image f, fun i => ⟨f i, Finset.mem_image_of_mem f (Finset.mem_univ i)⟩, fun _ _ _ => .done (0, {0, 1}),
    fun i => within_eq.2 (hf i), fun _ _ _ _ => rfl, fun _ _ _ => by simp [Alg.run]⟩

/-- The bound on the group matters: with threshold 1 a single recipient, who may ask for its own pad, makes the sum 0. -/
example (D : Finset Question) (q : D) :
    let g : (Fin 1 → Fn × Fn) → Alg D (Fn × Fn) (Fn × Finset Fn) := fun e => .ask q fun a => .done (-(e 0 - a).1, {0})
    ∀ (s : Fn) (c : DealerCoins 0) (O : D → Fn × Fn), let r := (g (entries (fun _ => q) (dealt (withSecret s c) c.2) O)).run O
      s + r.1 ∈ r.2 ∧ r.2.card = 1 := by
  intro g s c O
  simp [g, Alg.run, entries, dealt, valueFor, withSecret]

end Verif
