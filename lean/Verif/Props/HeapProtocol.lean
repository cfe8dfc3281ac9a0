import Verif.Lemmas.HeapSigning
import Verif.Props.ProtocolLive

/-!
C169: the protocol driver on memory.

Damaging a dealing writes to its objects, the shares of a round are the opening objects of an earlier one, and the damaged
dealing is made of objects of the dealing it replaces.  None of this is visible: every operation gives what it gives on values,
what it returns consists of new objects, no two the same, and nothing that existed before has changed.
-/

set_option autoImplicit false

namespace Verif

open Heap Protocol

/-- The setup: the keys are new objects, and cutting off nodes or changing the threshold leaves the others as they were. -/
theorem C169_setup (P : Prim) (m : Mem) :
    (∀ (receivers : Nat) (threshold : Int) (seed : Seed),
      Outcome (Writes ∅ m) (newSetup P receivers threshold seed) m (Setup.new P receivers threshold seed) (RetSetup m)) ∧
    ∀ (s : SetupObj) (v : Setup) (removing : Nat), SetupAt m s v →
      Outcome (Writes ∅ m) (removeNodes s removing) m (v.removeNodes removing) (fun v' s' m' => m' = m ∧ SetupAt m s' v') ∧
      ∀ t : Int, SetupAt m (modifyThreshold s t) (v.modifyThreshold t) :=
  ⟨fun _ _ _ => newSetup_ret, fun _ _ _ h => ⟨removeNodes_at h, fun _ => ⟨⟨rfl, h.1.2, h.1.3, h.1.4⟩, h.2⟩⟩⟩

/-- The four operations, whatever dealings are damaged: they end as on values, the round they return is made of new objects, no
two the same, and nothing that existed (such as the keys and the earlier rounds) has changed. -/
theorem C169_rounds (P : Prim) (cbor : Commitment → Res Bytes) (m : Mem) (s : SetupObj) (v : Setup) (dealers corrupted : Nat)
    (hs : SetupAt m s v) (hn : v.sk.length ≤ 2 ^ 63) :
    (dealers ≤ 2 ^ 63 → Outcome (Writes ∅ m) (roundRandom P cbor s dealers corrupted) m
      (Round.random P cbor v dealers corrupted) (RetStep m s)) ∧
    (∀ (r : RoundObj) (x : Round), RoundAt m r x → x.openings.length ≤ 2 ^ 63 →
      Outcome (Writes ∅ m) (roundReshareOfMasked P cbor s r dealers corrupted) m
        (Round.reshareOfMasked P cbor v x dealers corrupted) (RetStep m s)) ∧
    (∀ (r : RoundObj) (x : Round), RoundAt m r x → x.openings.length ≤ 2 ^ 63 →
      Outcome (Writes ∅ m) (roundReshareOfUnmasked P cbor s r dealers corrupted) m
        (Round.reshareOfUnmasked P cbor v x dealers corrupted) (RetStep m s)) ∧
    ∀ (r r' : RoundObj) (x x' : Round), RoundAt m r x → RoundAt m r' x' → x'.openings.length ≤ 2 ^ 63 →
      Outcome (Writes ∅ m) (roundMultiply P cbor s r r' dealers corrupted) m
        (Round.multiply P cbor v x x' dealers corrupted) (RetStep m s) :=
  ⟨fun hl => roundRandom_ret hs hn hl, fun _ _ hr hl => roundReshareOfMasked_ret hs hr hn hl,
    fun _ _ hr hl => roundReshareOfUnmasked_ret hs hr hn hl, fun _ _ _ _ hr hr' hl => roundMultiply_ret hs hr hr' hn hl⟩

/-- The check of the openings of a round against a commitment. -/
theorem C169_openings (m : Mem) (c : ComObj) (openings : List OpeningObj) (hc : Has View.com m c)
    (ho : Has View.opening.list m openings) :
    Outcome (Writes ∅ m) (Heap.verifyCommitmentOpenings c openings) m
      (Protocol.verifyCommitmentOpenings (View.com.val m c) (View.opening.list.val m openings)) (Ret View.data m) :=
  verifyCommitmentOpenings_ret hc.at ho.at

/-- The setup of the signature protocol, signature shares, signatures and their check. -/
theorem C169_signing (P : Prim) (m : Mem) :
    (∀ (cbor : Commitment → Res Bytes) (nodes : Nat) (t : Int) (corrupted : Nat) (seed : Seed), nodes ≤ 2 ^ 63 →
      Outcome (Writes ∅ m) (newSigSetup P cbor nodes t corrupted seed) m (SigSetup.new P cbor nodes t corrupted seed)
        (RetSig m)) ∧
    ∀ (S : SigSetupObj) (v : SigSetup) (path : List Key.Index) (msg rand : Bytes), SigAt m S v →
      Outcome (Writes ∅ m) (S.publicKey P path) m (v.publicKey P path) (Ret View.data m) ∧
      Outcome (Writes ∅ m) (S.generateShares P path msg rand) m (v.generateShares P path msg rand)
        (Ret (View.omap View.sigShare) m) ∧
      (∀ shares : List (NodeIndex × SigShareObj), Has (View.omap View.sigShare) m shares →
        Outcome (Writes ∅ m) (S.generateSignature P path msg rand shares) m
          (v.generateSignature P path msg rand ((View.omap View.sigShare).val m shares)) (Ret View.signature m)) ∧
      ∀ sig : SignatureObj, Has View.signature m sig →
        Outcome (Writes ∅ m) (S.verifySignature P path msg rand sig) m
          (v.verifySignature P path msg rand (View.signature.val m sig)) (Ret View.data m) :=
  ⟨fun _ _ _ _ _ hn => newSigSetup_ret hn, fun _ _ _ _ _ h => ⟨publicKey_ret h, generateShares_ret h,
    fun _ hs => generateSignature_ret h hs.at, fun _ hs => verify_ret h hs.at⟩⟩

/-- What a run on memory that ended normally says about the run on values. -/
theorem Heap.Outcome.of_ok {α β : Type} {E : Mem → Prop} {g : Go α} {m m' : Mem} {r : Res β} {R : β → α → Mem → Prop} {a : α}
    (h : Outcome E g m r R) (e : g m = (.ok a, m')) : ∃ v, r = .ok v ∧ R v a m' := by
  cases r with
  | ok v =>
    obtain ⟨a', m'', e', hr⟩ := h
    rw [e] at e'
    cases e'
    exact ⟨v, rfl, hr⟩
  | err s =>
    obtain ⟨m'', e', -⟩ := h
    rw [e] at e'
    cases e'
  | panic s =>
    obtain ⟨m'', e', -⟩ := h
    rw [e] at e'
    cases e'
  | diverge =>
    obtain ⟨m'', e', -⟩ := h
    rw [e] at e'
    cases e'

/-- The whole protocol on memory: after any run of the setup that ends normally, with damaged dealings in every round, any
`t` of the signature shares made give a signature that is a valid ECDSA signature under the derived key, and fewer give an
error.  Other objects may be made in between. -/
theorem C169_end_to_end (P : Prim) (cbor : Commitment → Res Bytes) (nodes : Nat) (t : Int) (corrupted : Nat) (seed : Seed)
    (ht : 0 < t) (hn : nodes ≤ 2 ^ 63) (m m1 : Mem) (S : SigSetupObj)
    (h : newSigSetup P cbor nodes t corrupted seed m = (.ok S, m1)) (path : List Key.Index) (msg rand : Bytes) (m2 m3 : Mem)
    (w2 : Writes ∅ m1 m2) (shares : List (NodeIndex × SigShareObj))
    (hs : S.generateShares P path (P.sha256 msg) rand m2 = (.ok shares, m3)) (part : List (NodeIndex × SigShareObj))
    (hp : part.Sublist shares) (m4 : Mem) (w4 : Writes ∅ m3 m4) :
    (t ≤ part.length → ∃ sig m5, S.generateSignature P path (P.sha256 msg) rand part m4 = (.ok sig, m5) ∧ Writes ∅ m m5 ∧
      (m5.sc sig.r ≠ 0 → m5.sc sig.s ≠ 0 → ∃ m6 Q c m7, S.verifySignature P path (P.sha256 msg) rand sig m5 = (.ok (), m6) ∧
        S.publicKey P path m6 = (.ok (Point.serialize Q, c), m7) ∧ Writes ∅ m5 m7 ∧
        Sign.EcdsaValid Q (Sign.hashNumber (P.sha256 msg)) (m5.sc sig.r) (m5.sc sig.s))) ∧
    ((part.length : Int) < t → ∃ e m5, S.generateSignature P path (P.sha256 msg) rand part m4 = (.err e, m5)) := by
  obtain ⟨v, hv, hS⟩ := (newSigSetup_ret hn).of_ok h
  have a2 : SigAt m2 S v := SigAt.mono hS.at w2
  obtain ⟨vsh, hvsh, hsh⟩ := (generateShares_ret a2).of_ok hs
  have a4 : SigAt m4 S v := (a2.mono hsh.1).mono w4
  have hpart : At (View.omap View.sigShare) m4 part ((View.omap View.sigShare).val m3 part) := (hsh.sublist hp).at.mono w4
  have hsub : ((View.omap View.sigShare).val m3 part).Sublist vsh := by
    rw [← hsh.2.2.2]
    exact hp.map _
  have hlen : ((View.omap View.sigShare).val m3 part).length = part.length := hpart.length.symm
  obtain ⟨c1, c2⟩ := C108_signing P cbor nodes t corrupted seed v ht hn hv path msg rand vsh hvsh _ hsub
  rw [hlen] at c1 c2
  have ho := generateSignature_ret (P := P) (path := path) (msg := P.sha256 msg) (rand := rand) a4 hpart
  refine ⟨fun hl => ?_, fun hl => ?_⟩
  · obtain ⟨vsig, e, hval⟩ := c1 hl
    rw [e] at ho
    obtain ⟨sig, m5, e5, hsig⟩ := ho
    have w5 := hsig.1
    obtain ⟨s1, s2⟩ := at_signature.1 hsig.at
    refine ⟨sig, m5, e5, (((hS.2.1.trans_empty w2).trans_empty hsh.1).trans_empty w4).trans_empty w5, fun hr0 hs0 => ?_⟩
    rw [(at_sc.1 s1).2] at hr0 ⊢
    rw [(at_sc.1 s2).2] at hs0 ⊢
    obtain ⟨g1, Q, c, g2, g3⟩ := hval hr0 hs0
    have hver := verify_ret (P := P) (path := path) (msg := P.sha256 msg) (rand := rand) (a4.mono w5) hsig.at
    rw [g1] at hver
    obtain ⟨⟨⟩, m6, e6, h6⟩ := hver
    have hpk := publicKey_ret (P := P) (path := path) ((a4.mono w5).mono h6.1)
    rw [g2] at hpk
    obtain ⟨pk, m7, e7, h7⟩ := hpk
    obtain rfl : pk = _ := h7.2.2.2
    exact ⟨m6, Q, c, m7, e6, e7, h6.1.trans_empty h7.1, g3⟩
  · have hc := c2 hl
    cases hr : v.generateSignature P path (P.sha256 msg) rand ((View.omap View.sigShare).val m3 part) with
    | err e =>
      rw [hr] at ho
      obtain ⟨m5, e5, -⟩ := ho
      exact ⟨e, m5, e5⟩
    | ok _ => rw [hr] at hc; cases hc
    | panic _ => rw [hr] at hc; cases hc
    | diverge => rw [hr] at hc; cases hc

/-- A run on memory ends normally if the run on values does. -/
theorem Heap.Outcome.to_ok {α β : Type} {E : Mem → Prop} {g : Go α} {m : Mem} {r : Res β} {R : β → α → Mem → Prop} {v : β}
    (h : Outcome E g m r R) (e : r = .ok v) : ∃ a m', g m = (.ok a, m') ∧ R v a m' := by
  subst e
  exact h

/-- Four nodes, one damaged dealing in each round, and a signature by three of the nodes, in any memory: the hypotheses of the
theorems above are met. -/
example (m : Mem) (seed : Seed) (msg rn : Bytes) : ∃ S v m1 shares m2 sig m3,
    newSigSetup cycPrim Commitment.serializeBytes 4 2 1 seed m = (.ok S, m1) ∧ SigAt m1 S v ∧
    S.generateShares cycPrim [] (cycPrim.sha256 msg) rn m1 = (.ok shares, m2) ∧ shares.length = 4 ∧
    Has (View.omap View.sigShare) m2 shares ∧
    S.generateSignature cycPrim [] (cycPrim.sha256 msg) rn (shares.drop 1) m2 = (.ok sig, m3) ∧ Has View.signature m3 sig := by
  obtain ⟨v, vsh, vsig, h1, h2, h3, h4⟩ := cyc_signs seed msg rn
  obtain ⟨S, m1, e1, hS⟩ := (newSigSetup_ret (m := m) (by norm_num)).to_ok h1
  obtain ⟨shares, m2, e2, hsh⟩ := (generateShares_ret (RetSig.at hS)).to_ok h2
  have hl : shares.length = 4 := hsh.at.length.trans h3
  have hpart := (hsh.sublist (List.drop_sublist 1 shares)).at
  have hval : (View.omap View.sigShare).val m2 (shares.drop 1) = vsh.drop 1 := by
    rw [← hsh.2.2.2]
    exact List.map_drop
  obtain ⟨sig, m3, e3, hsig⟩ := (generateSignature_ret ((RetSig.at hS).mono hsh.1) hpart).to_ok (v := vsig) (by
    rw [← h4, ← hval]
    rfl)
  exact ⟨S, v, m1, shares, m2, sig, m3, e1, RetSig.at hS, e2, hl, hsh.at.1, e3, hsig.at.1⟩

/-- The rounds of that setup are such as `C169_rounds` and `C169_openings` speak of: a round of masked shares, one of shares
without masks, and a commitment with its openings. -/
example (m : Mem) (seed : Seed) : ∃ S, ∃ v : SigSetup, ∃ m1,
    newSigSetup cycPrim Commitment.serializeBytes 4 2 1 seed m = (.ok S, m1) ∧ SetupAt m1 S.setup v.setup ∧
    v.setup.sk.length ≤ 2 ^ 63 ∧ (RoundAt m1 S.lambda v.lambda ∧ v.lambda.openings.length ≤ 2 ^ 63) ∧
    (RoundAt m1 S.key v.key ∧ v.key.openings.length ≤ 2 ^ 63) ∧
    Has View.com m1 S.key.commitment ∧ Has View.opening.list m1 S.key.openings := by
  obtain ⟨v, vsh, vsig, h1, -⟩ := cyc_signs seed [] []
  obtain ⟨S, m1, e1, hS⟩ := (newSigSetup_ret (m := m) (by norm_num)).to_ok h1
  obtain ⟨-, hl, -, x, -, l, l', -, -, -, -, -, -, -, hx, -, hlam, -⟩ :=
    C108_setup cycPrim Commitment.serializeBytes 4 2 1 seed v (by norm_num) (by norm_num) h1
  have h := (RetSig.at hS).split
  have h' : At View.sigParts m1 S.parts (sigVals v) := (RetSig.at hS).2
  obtain ⟨-, h'⟩ := at_prod.1 h'
  obtain ⟨r1, h'⟩ := at_prod.1 h'
  obtain ⟨r2, -⟩ := at_prod.1 h'
  refine ⟨S, v, m1, e1, h.1, by rw [hl]; norm_num, ⟨r1, ?_⟩, ⟨r2, ?_⟩, h.2.commitment.1, h.2.openings.1⟩
  · rw [hlam.2.2.2]
    simp
  · rw [hx.2.2]
    simp

end Verif
