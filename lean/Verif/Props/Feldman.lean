import Verif.Props.Secrecy
import Verif.Spec.Feldman

/-!
Property C131: unmasked dealings show fewer than threshold-many recipients no more than the public key.
-/

set_option autoImplicit false

namespace Verif.Dealings

open Mega Polynomial
open Point (H)

theorem place_ne_zero {i : NodeIndex} (h : 0 ≤ i.toInt) : place i ≠ 0 := by
  intro e
  have : i = -1 := fromNodeIndex_eq_zero.1 e
  rw [this] at h
  exact absurd h (by decide +kernel)

theorem place_injective : Function.Injective place := Lagr.fromNodeIndex_injective

theorem simulated_eq {t : Nat} (values : List Fn) (hl : values.length = t) (B : List NodeIndex) (hB : B.Nodup)
    (hpos : ∀ j ∈ B, 0 ≤ j.toInt) (hlt : B.length + 1 = t) :
    simulated t ((toPoly values).eval 0 • G) (B.map fun j => (j, (toPoly values).eval (place j))) =
      values.map fun v : Fn => v • G := by
  set seen := B.map fun j => (j, (toPoly values).eval (place j)) with hseen
  have hmap : (seen.map fun o => place o.1) = B.map place := by simp [hseen, Function.comp_def]
  have hnodes : nodesOf seen = insert 0 (B.map place).toFinset := by rw [nodesOf, hmap]
  have hn : (B.map place).Nodup := hB.map place_injective
  have h0 : (0 : Fn) ∉ (B.map place).toFinset := by
    rw [List.mem_toFinset, List.mem_map]
    rintro ⟨j, hj, e⟩
    exact place_ne_zero (hpos j hj) e
  have hcard : (nodesOf seen).card = t := by
    rw [hnodes, Finset.card_insert_of_notMem h0, List.toFinset_card_of_nodup hn, List.length_map, hlt]
  have hint := Lagrange.eq_interpolate (s := nodesOf seen) (v := id) (f := toPoly values) Function.injective_id.injOn
    (by rw [hcard, ← hl]; exact degree_toPoly_lt values)
  have hc : ∀ k, (toPoly values).coeff k = (toPoly values).eval 0 * (Lagrange.basis (nodesOf seen) id 0).coeff k +
      (B.map fun j => (toPoly values).eval (place j) * (Lagrange.basis (nodesOf seen) id (place j)).coeff k).sum := by
    intro k
    conv_lhs => rw [hint]
    rw [Lagrange.interpolate_apply, finsetSum_coeff]
    simp only [coeff_C_mul, id]
    conv_lhs => rw [hnodes]
    rw [Finset.sum_insert h0, ← hnodes]
    congr 1
    rw [List.sum_toFinset _ hn, List.map_map]
    rfl
  refine List.ext_getElem (by simp [simulated, hl]) fun k h1 h2 => ?_
  have hk : k < values.length := by simpa using h2
  simp only [simulated, List.getElem_map, List.getElem_range]
  have : values[k] = (toPoly values).coeff k := by rw [coeff_toPoly, Poly.coeff, dif_pos hk]
  rw [this, hc, add_smul, smul_smul, mul_comm]
  congr 1
  have hs : ∀ l : List Fn, (l.sum) • G = (l.map fun x : Fn => x • G).sum := by
    intro l
    induction l with
    | nil => simp
    | cons x l ih => rw [List.sum_cons, add_smul, ih, List.map_cons, List.sum_cons]
  rw [hs, hseen, List.map_map, List.map_map]
  exact congrArg List.sum (List.map_congr_left fun j _ => by simp [mul_comm])

/-- Encrypting other values at other nodes gives the same ciphertext but for the entries of those nodes. -/
theorem single_encrypt_change {P : Prim} {ms : Seed} {w w' : List Fn} {pks : List Pt} {dealer : NodeIndex} {ad : Bytes}
    {ct : Ciphertext Fn} (h : Single.encrypt P ms w pks dealer ad = .ok ct) (hl : w'.length = pks.length) :
    ∃ ct', Single.encrypt P ms w' pks dealer ad = .ok ct' ∧
      ct'.ephemeralKey = ct.ephemeralKey ∧ ct'.popPublicKey = ct.popPublicKey ∧ ct'.popProof = ct.popProof ∧
      ct'.ctexts.length = ct.ctexts.length ∧ ∀ j : Nat, w'[j]? = w[j]? → ct'.ctexts[j]? = ct.ctexts[j]? := by
  rw [Single.encrypt] at h
  obtain ⟨⟨⟩, hc, h⟩ := Res.bind_eq_ok.1 h
  obtain ⟨hlen, hne⟩ := (checkPlaintexts_ok_iff _ _).1 hc
  obtain ⟨⟨beta, v, pub, pf⟩, he, h⟩ := Res.bind_eq_ok.1 h
  dsimp only at h
  obtain ⟨cs, hcs, h⟩ := Res.bind_eq_ok.1 h
  cases h
  obtain ⟨cs0, hcs0, hl0, hent⟩ := Single.encryptLoop_spec P dealer ad beta v 0 pks w hlen
  rw [hcs] at hcs0
  cases hcs0
  obtain ⟨cs', hcs', hl', hent'⟩ := Single.encryptLoop_spec P dealer ad beta v 0 pks w' hl
  have hc' : checkPlaintexts w' pks = .ok () :=
    (checkPlaintexts_ok_iff _ _).2 ⟨hl, fun e => hne (List.length_eq_zero_iff.1 (by rw [hlen, ← hl, e]; rfl))⟩
  refine ⟨⟨v, pub, pf, cs'⟩, by simp only [Single.encrypt, hc', Res.ok_bind, he, hcs'], rfl, rfl, rfl, hl'.trans hl0.symm,
    fun j hj => ?_⟩
  show cs'[j]? = cs[j]?
  by_cases hb : j < pks.length
  · have e1 : w[j]? = some w[j] := List.getElem?_eq_getElem (by omega)
    obtain ⟨a, q1, q2⟩ := hent j _ _ (List.getElem?_eq_getElem hb) e1
    obtain ⟨a', q1', q2'⟩ := hent' j _ _ (List.getElem?_eq_getElem hb) (hj.trans e1)
    have q : Res.ok [a'] = Res.ok [a] := q1'.symm.trans q1
    simp only [Res.ok.injEq, List.cons.injEq, and_true] at q
    rw [q2, q2', q]
  · rw [List.getElem?_eq_none (by omega), List.getElem?_eq_none (by omega)]

/-- C131: of a dealing of `s` without mask, a group one short of the threshold sees nothing but what can be computed from
`s • G` and its own shares: the commitment is given by Lagrange's formula, and the ephemeral key, the proof of possession and
the group's ciphertext entries are those of an encryption of its shares together with anything else. -/
theorem C131_simulated (P : Prim) (shares : Shares) (s : Fn) (hsec : shares.secret = some s) (hh : shares.hidden = false)
    (seed : Seed) (t : Int) (keys : List Fn) (dealer : NodeIndex) (ad : Bytes) (d : Dealing)
    (h : new P shares seed t (keys.map Point.mulByG) dealer ad = .ok d)
    (B : List NodeIndex) (hB : B.Nodup) (hpos : ∀ j ∈ B, 0 ≤ j.toInt) (hlt : (B.length : Int) + 1 = t) :
    ∃ (share : NodeIndex → Fn) (cm : Commitment) (c : Ciphertext Fn) (ms : Seed),
      d.commitment = some cm ∧ d.ciphertext = some (.single c) ∧ seed.derive P megaDst = .ok ms ∧
      (∀ i ∈ B, ∀ k, keys[i.toInt.toNat]? = some k →
        Single.decryptAndCheck P c cm ad dealer i k (k • G) = .ok (.simple (share i))) ∧
      cm = ⟨.simple, simulated t.toNat (s • G) (B.map fun j => (j, share j))⟩ ∧
      ∀ w : List Fn, w.length = keys.length → (∀ j ∈ B, j.toInt.toNat < keys.length → w[j.toInt.toNat]? = some (share j)) →
        ∃ c', Single.encrypt P ms w (keys.map Point.mulByG) dealer ad = .ok c' ∧
          c'.ephemeralKey = c.ephemeralKey ∧ c'.popPublicKey = c.popPublicKey ∧ c'.popProof = c.popProof ∧
          c'.ctexts.length = c.ctexts.length ∧ ∀ j ∈ B, c'.ctexts[j.toInt.toNat]? = c.ctexts[j.toInt.toNat]? := by
  have key : ∃ (ms : Seed) (values : List Fn) (c : Ciphertext Fn) (cm : Commitment), seed.derive P megaDst = .ok ms ∧
      0 < t ∧ values.length = t.toNat ∧ Poly.evaluateAt values 0 = s ∧ d.commitment = some cm ∧ d.ciphertext = some (.single c) ∧
      encryptAndCommitSingle P values t (keys.map Point.mulByG) dealer ad ms = .ok (c, cm) := by
    rw [new] at h
    split_ifs at h with h0
    obtain ⟨ps, -, h⟩ := Res.bind_eq_ok.1 h
    dsimp only at h
    obtain ⟨ms, hms, h⟩ := Res.bind_eq_ok.1 h
    cases shares with
    | random => simp [Shares.secret] at hsec
    | unmaskedTimesMasked l r m => simp [Shares.hidden] at hh
    | other => simp [Shares.secret] at hsec
    | reshareUnmasked s1 =>
      dsimp only at h
      obtain ⟨⟨values, r1⟩, hv, h⟩ := Res.bind_eq_ok.1 h
      dsimp only at h
      obtain ⟨⟨ct, cm⟩, hct, h⟩ := Res.bind_eq_ok.1 h
      cases h
      obtain ⟨hpos, hvl, hc⟩ := Poly.randomWithConstant_ok hv
      cases hsec
      exact ⟨ms, values, ct, cm, hms, hpos, hvl, by rw [Poly.evaluateAt_zero, hc], rfl, rfl, hct⟩
    | reshareMasked s1 s2 =>
      dsimp only at h
      obtain ⟨⟨values, r1⟩, hv, h⟩ := Res.bind_eq_ok.1 h
      dsimp only at h
      obtain ⟨⟨ct, cm⟩, hct, h⟩ := Res.bind_eq_ok.1 h
      dsimp only at h
      obtain ⟨ps, -, h⟩ := Res.bind_eq_ok.1 h
      obtain ⟨pf, hpf, h⟩ := Res.bind_eq_ok.1 h
      cases h
      obtain ⟨hpos, hvl, hc⟩ := Poly.randomWithConstant_ok hv
      cases hsec
      exact ⟨ms, values, ct, cm, hms, hpos, hvl, by rw [Poly.evaluateAt_zero, hc], rfl, rfl, hct⟩
  obtain ⟨ms, values, c, cm, hms, ht, hvl, h0, hcm, hc, he⟩ := key
  obtain ⟨hcm', -, hdec⟩ := encryptAndCommitSingle_spec ht hvl he
  rw [Poly.evaluateAt_eq] at h0
  refine ⟨fun j => (toPoly values).eval (place j), cm, c, ms, hcm, hc, hms, fun i hi k hk => ?_, ?_, fun w hw hwj => ?_⟩
  · have := hdec i k (hpos i hi) hk
    rwa [Poly.evaluateAt_eq] at this
  · rw [hcm', ← h0, simulated_eq values hvl B hB hpos (by omega)]
    rfl
  · rw [encryptAndCommitSingle] at he
    obtain ⟨c0, hc0, he⟩ := Res.bind_eq_ok.1 he
    obtain ⟨cm0, -, he⟩ := Res.bind_eq_ok.1 he
    cases he
    obtain ⟨c', h1, h2, h3, h4, h5, h6⟩ := single_encrypt_change hc0 (w' := w) (by simpa using hw)
    refine ⟨c', h1, h2, h3, h4, h5, fun j hj => h6 _ ?_⟩
    by_cases hb : j.toInt.toNat < keys.length
    · rw [hwj j hj hb, plaintext_at (fun i => Poly.evaluateAt values (Scalar.fromNodeIndex i)) (hpos j hj) (by simpa using hb),
        Poly.evaluateAt_eq]
      rfl
    · rw [List.getElem?_eq_none (by omega), List.getElem?_eq_none (by simpa using hb)]

/-- C131: and the shares of the group can be anything, whatever the secret: for every `s` and every assignment of shares to
fewer than threshold-many recipients there are random choices with which the dealing of `s` gives them these shares. -/
theorem C131_any_shares (P : Prim) (shares : Shares) (s : Fn) (hsec : shares.secret = some s) (hh : shares.hidden = false)
    (seed : Seed) (t : Int) (keys : List Fn) (dealer : NodeIndex) (ad : Bytes) (hk : KeysDiffer P seed shares)
    (ht : t ≤ keys.length) (B : List NodeIndex) (hB : B.Nodup) (hpos : ∀ j ∈ B, 0 ≤ j.toInt) (hlt : (B.length : Int) < t)
    (share : NodeIndex → Fn) :
    ∃ (streams : Bytes → Nat → UInt8) (d : Dealing) (c : Cipher) (cm : Commitment),
      new (P.withStreams streams) shares seed t (keys.map Point.mulByG) dealer ad = .ok d ∧
      d.commitment = some cm ∧ d.ciphertext = some c ∧ ∀ i ∈ B, ∀ k, keys[i.toInt.toNat]? = some k →
        c.decryptAndCheck P cm ad dealer i k (k • G) = .ok (.simple (share i)) := by
  obtain ⟨-, hne, -⟩ := C38_sharing_secrecy t.toNat (B.map fun j => (j, share j))
    (by rw [List.map_map]; simpa [Function.comp_def] using hB)
    (fun o ho => by obtain ⟨j, hj, rfl⟩ := List.mem_map.1 ho; exact hpos j hj) (by simp only [List.length_map]; omega)
  obtain ⟨v, h1, h2, h3⟩ := Set.nonempty_of_ncard_ne_zero (hne s).ne'
  have hso : shares ≠ .other := by rintro rfl; simp [Shares.secret] at hsec
  obtain ⟨st, d, hd, c, cm, hc, hcm, hpts, -⟩ := C115_free_choices P shares hso seed t (keys.map Point.mulByG) dealer ad
    (by have := Int.natCast_nonneg B.length; omega) (by simpa using ht) hk ⟨v, v, 1, 1, 1, 1⟩ (by simp only; omega)
    (by simp only; omega) (fun s' e => by
      rw [hsec] at e; cases e
      exact (head?_eq_coeff h1 (by have := Int.natCast_nonneg B.length; omega) s).2 h3)
  obtain ⟨v', m', c', cm', k1, k2, k3, -, -, -, -, k4, k5⟩ := C85_dealing_contents _ shares seed t keys dealer ad d hso hd
  rw [hcm] at k1
  rw [hc] at k2
  cases k1
  cases k2
  rw [hh, if_neg (by simp)] at hpts k4
  have hinj : Function.Injective fun x : Fn => x • G := fun _ _ e => (smul_left_inj G_ne_zero).1 e
  have hv : v' = v := (List.map_injective_iff.2 hinj) (k4.2.symm.trans hpts)
  refine ⟨st, d, c, cm, hd, hcm, hc, fun i hi k hki => ?_⟩
  have := k5 i k (hpos i hi) hki
  have h4 := h2 _ (List.mem_map.2 ⟨i, hi, rfl⟩)
  rw [Poly.evaluateAt_eq] at h4
  rw [hh, hv, if_neg (by simp)] at this
  rw [show share i = (toPoly v).eval (place i) from h4.symm]
  exact this

/-- A resharing of 17 at threshold 2 among two nodes, with SHA-256: node 0 gets the share 5, and sees what follows from 17 • G
and 5. -/
example : ∃ (P : Prim) (d : Dealing) (cm : Commitment),
    new P (.reshareUnmasked 17) ⟨List.replicate 32 0⟩ 2 ([4, 6].map Point.mulByG) 1 [1] = .ok d ∧ d.commitment = some cm ∧
      cm.points = simulated 2 ((17 : Fn) • G) [(0, 5)] := by
  obtain ⟨st, d, c, cm, h1, h2, h3, h4⟩ := C131_any_shares Kat.prim (.reshareUnmasked 17) 17 rfl rfl ⟨List.replicate 32 0⟩ 2 [4, 6] 1
    [1] (keysDiffer_zero _) (by decide) [0] (by simp) (by simp) (by decide) (fun _ => 5)
  obtain ⟨sh, cm', c', ms, q1, q2, -, q3, q4, -⟩ := C131_simulated (Kat.prim.withStreams st) (.reshareUnmasked 17) 17 rfl rfl
    ⟨List.replicate 32 0⟩ 2 [4, 6] 1 [1] d h1 [0] (by simp) (by simp) (by decide)
  rw [h2] at q1
  rw [h3] at q2
  cases q1
  cases q2
  have e1 := h4 0 (by simp) 4 rfl
  have e2 := q3 0 (by simp) 4 rfl
  have e : sh 0 = 5 := by
    have : Res.ok (Opening.simple (sh 0)) = Res.ok (Opening.simple 5) := e2.symm.trans e1
    simpa using this
  exact ⟨_, d, cm, h1, h2, by rw [q4]; show simulated 2 _ [(0, sh 0)] = _; rw [e]⟩

end Verif.Dealings
