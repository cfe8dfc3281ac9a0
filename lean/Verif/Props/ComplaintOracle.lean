import Verif.Spec.ComplaintOracle
import Verif.Props.Complaints
import Verif.Props.Oracle
import Verif.Lemmas.Simulation

/-!
Property C184: complaints about good dealings are rejected, in the random oracle model.
-/

set_option autoImplicit false

namespace Verif

open Oracle Dealings Complaints Mega Zk

namespace Oracle

variable {Q A R S : Type}

/-- The program whose result is changed by `f`. -/
def Alg.thenDo (f : R → S) : Alg Q A R → Alg Q A S
  | .done r => .done (f r)
  | .ask q next => .ask q fun a => (next a).thenDo f

theorem Alg.run_thenDo (f : R → S) (g : Alg Q A R) (O : Q → A) : (g.thenDo f).run O = f (g.run O) := by
  induction g with
  | done r => rfl
  | ask q next ih => exact ih (O q)

theorem Alg.atMost_thenDo (f : R → S) (g : Alg Q A R) (k : Nat) (h : g.AtMost k) : (g.thenDo f).AtMost k := by
  induction g generalizing k with
  | done r => exact True.intro
  | ask q next ih =>
    cases k with
    | zero => exact h
    | succ k => exact fun a => ih a k (h a)

theorem share_exists_le {α : Type} [Finite α] (p : Nat → α → Prop) (ε : ℚ) (h : ∀ j, share (p j) ≤ ε) (m : Nat) :
    share (fun a => ∃ j < m, p j a) ≤ m * ε := by
  induction m with
  | zero =>
    have : (fun a => ∃ j < 0, p j a) = fun _ : α => False := by
      funext a
      simp
    rw [this, share]
    simp
  | succ m ih =>
    have := share_or (fun a => ∃ j < m + 1, p j a) (fun a => ∃ j < m, p j a) (p m) (by
      rintro a ⟨j, hj, hp⟩
      rcases Nat.lt_succ_iff_lt_or_eq.1 hj with hj | rfl
      · exact .inl ⟨j, hj, hp⟩
      · exact .inr hp)
    push_cast
    linarith [h m]

theorem Accusation.false_of {x : Accusation} (h : x.shared ≠ x.key • x.ephemeral) : ¬ x.claim.True := by
  rintro ⟨y, h1, h2⟩
  have : x.key = y := smul_left_injective Fn G_ne_zero h1
  rw [← this] at h2
  exact h h2

end Oracle

/-- C184: a program that asks at most `q` questions and ends with at most `m` complaints ends with one whose shared secret is wrong and whose
proof is accepted for a share of at most `m (q + 1) / n` of the oracles. -/
theorem C184_deceiving (D : Finset Question) (g : Alg D Fn (List Accusation)) (q : Nat) (hq : g.AtMost q) (m : Nat)
    (hm : ∀ O, (g.run O).length ≤ m) :
    share (fun O : D → Fn => ∃ x ∈ g.run O, x.Deceives O) ≤ m * (((q : ℚ) + 1) / n) := by
  set pick : Nat → List Accusation → DlogClaim := fun j l =>
    (l[j]?.map Accusation.claim).getD ⟨G, G, (0 : Fn) • G, (0 : Fn) • G, [], ⟨0, 0⟩⟩ with hpick
  refine le_trans (share_mono ?_) (share_exists_le (fun j O => ¬ ((g.thenDo (pick j)).run O).True ∧
    Accepted O ((g.thenDo (pick j)).run O).asks ((g.thenDo (pick j)).run O).pf.challenge) _
    (fun j => C150_soundness D _ q (g.atMost_thenDo _ q hq)) m)
  rintro O ⟨x, hx, hne, hacc⟩
  obtain ⟨j, hj, e⟩ := List.mem_iff_getElem.1 hx
  have ep : (g.thenDo (pick j)).run O = x.claim := by
    rw [Alg.run_thenDo, hpick]
    simp only [List.getElem?_eq_getElem hj, e, Option.map_some, Option.getD_some]
  refine ⟨j, hj.trans_le (hm O), ?_⟩
  rw [ep]
  exact ⟨Accusation.false_of hne, hacc⟩

/-- C184, the link to the code.  Let a dealing have an accepted proof of possession and an entry for the complaining node.  A complaint that
does not deceive is accepted only if the node's share is bad; if it is bad, the complaint that the node makes is accepted and does not deceive.
So apart from complaints that deceive, `Verify` tells who is to blame. -/
theorem C184_verdict (P : Prim) (D : Finset Question) (d : Dealing) (ct : Cipher) (cm : Commitment) (hm : Matched d ct cm)
    (dealer i : NodeIndex) (h0 : 0 ≤ i.toInt) (hi : i.toInt < ct.size) (k : Fn) (ad : Bytes) (hpop : ct.popAccepted P ad dealer) :
    ∃ a, createProofAssocData P ad i dealer (k • G) = .ok a ∧
      (∀ c : Complaint, (∀ x, question (Accusation.claim ⟨ct.ephemeral, k, c.sharedSecret, a, c.proof⟩).asks = some x → x ∈ D) →
        verify P c d dealer i (k • G) ad = .ok () → GoodShare P ad dealer i k (k • G) ct cm →
        Accusation.Deceives (fun q : D => codeOracle P q.1) ⟨ct.ephemeral, k, c.sharedSecret, a, c.proof⟩) ∧
      (∀ (seed : Seed) (c : Complaint), newComplaint P seed d dealer i k (k • G) ad = .ok c →
        ¬ Accusation.Deceives (fun q : D => codeOracle P q.1) ⟨ct.ephemeral, k, c.sharedSecret, a, c.proof⟩ ∧
        (¬ GoodShare P ad dealer i k (k • G) ct cm → verify P c d dealer i (k • G) ad = .ok ())) := by
  obtain ⟨a, ha⟩ := assocData_ok P ad i dealer (k • G)
  refine ⟨a, ha, fun c hD hv hg => ⟨fun e => ?_, ?_⟩, fun seed c hc => ⟨fun h => ?_, fun hb => ?_⟩⟩
  · have h := C67_true_secret_rejected P d ct cm hm dealer i k (k • G) ad hg c.proof
    have e' : c.sharedSecret = k • ct.ephemeral := e
    rw [← e', hv] at h
    cases h
  · rw [verify, ha, Res.ok_bind] at hv
    obtain ⟨ct', hct', hv⟩ := Res.bind_eq_ok.1 hv
    rw [hm.1] at hct'
    cases hct'
    obtain ⟨⟨⟩, hz, -⟩ := Res.bind_eq_ok.1 hv
    exact ((C150_verify P D).1 _ hD).1 hz
  · exact h.1 ((newComplaint_cases P seed dealer i k (k • G) ad hm.1).2.2 c hc).1
  · exact C66_justified_accepted P seed d ct cm hm dealer i h0 hi k ad c hpop hb hc

/-- C184 for honest dealers: a complaint that is accepted against a dealing made by `New` deceives. -/
theorem C184_honest_dealer (P : Prim) (D : Finset Question) (shares : Shares) (seed : Seed) (t : Int) (keys : List Fn) (dealer : NodeIndex)
    (ad : Bytes) (d : Dealing) (hs : shares ≠ .other) (h : new P shares seed t (keys.map Point.mulByG) dealer ad = .ok d)
    (i : NodeIndex) (k : Fn) (h0 : 0 ≤ i.toInt) (hk : keys[i.toInt.toNat]? = some k) :
    ∃ ct a, d.ciphertext = some ct ∧ createProofAssocData P ad i dealer (k • G) = .ok a ∧
      ∀ c : Complaint, (∀ x, question (Accusation.claim ⟨ct.ephemeral, k, c.sharedSecret, a, c.proof⟩).asks = some x → x ∈ D) →
        verify P c d dealer i (k • G) ad = .ok () →
        Accusation.Deceives (fun q : D => codeOracle P q.1) ⟨ct.ephemeral, k, c.sharedSecret, a, c.proof⟩ := by
  obtain ⟨ct, hct, hrej⟩ := C67_honest_dealer P shares seed t keys dealer ad d hs h i k h0 hk
  obtain ⟨a, ha⟩ := assocData_ok P ad i dealer (k • G)
  refine ⟨ct, a, hct, ha, fun c hD hv => ⟨fun e => ?_, ?_⟩⟩
  · have h := hrej c.proof
    have e' : c.sharedSecret = k • ct.ephemeral := e
    rw [← e', hv] at h
    cases h
  · rw [verify, ha, Res.ok_bind] at hv
    obtain ⟨ct', hct', hv⟩ := Res.bind_eq_ok.1 hv
    rw [hct] at hct'
    cases hct'
    obtain ⟨⟨⟩, hz, -⟩ := Res.bind_eq_ok.1 hv
    exact ((C150_verify P D).1 _ hD).1 hz

/-- Guessing: a complaint that is fixed before any question is asked, with a wrong secret, deceives for a share of exactly `1 / n` of the
oracles, which is the bound for `q = 0` and `m = 1`. -/
example : ∃ (D : Finset Question) (x : Accusation), share (fun O : D → Fn => ∃ y ∈ (Alg.done [x] : Alg D Fn _).run O, y.Deceives O) =
    ((1 : Nat) : ℚ) * ((((0 : Nat) : ℚ) + 1) / n) := by
  have hex : ∀ x : Accusation, ∃ (D : Finset Question) (y : D), within D x.claim.asks = some y := by
    intro x
    have key : ∀ i c1 c2 ad, ∃ z, question (Dlog.transcript i c1 c2 ad) = some z := by
      intro i c1 c2 ad
      obtain ⟨m, hm⟩ := Ro.form_ok_of_accepted (ds := dlogDst) (dlog_accepted_ne i c1 c2 ad)
      have h := (question_run (ds := dlogDst) (cs := dlogCalls i c1 c2 ad)).2 ⟨m, hm, rfl⟩
      exact ⟨_, h⟩
    obtain ⟨z, hz⟩ := key ⟨x.claim.g, x.claim.h, x.claim.gx, x.claim.hx⟩ _ _ x.claim.ad
    exact ⟨{z}, ⟨z, Finset.mem_singleton_self z⟩, within_eq.2 hz⟩
  have hne : ∃ x : Accusation, x.shared ≠ x.key • x.ephemeral :=
    ⟨⟨G, 1, 0, [7], ⟨3, 5⟩⟩, by simp only [one_smul Fn G]; exact G_ne_zero.symm⟩
  obtain ⟨x, hne⟩ := hne
  obtain ⟨D, y, hy⟩ := hex x
  refine ⟨D, x, ?_⟩
  rw [← card_Fn]
  simp only [Nat.cast_one, Nat.cast_zero, zero_add, one_mul]
  rw [← share_point y x.proof.challenge]
  congr 1
  funext O
  simp only [Alg.run, List.mem_singleton, exists_eq_left, Accusation.Deceives, Accepted, hy, Option.some.injEq, exists_eq_left', hne,
    ne_eq, not_false_eq_true, true_and]

/-- A ciphertext and a commitment that both hold 6: whoever convicts the dealer deceives. -/
example : ∃ (m : Ciphertext Fn) (a : Bytes), ∀ (D : Finset Question) (c : Complaint),
    (∀ x, question (Accusation.claim ⟨m.ephemeralKey, 3, c.sharedSecret, a, c.proof⟩).asks = some x → x ∈ D) →
    verify zeroPrim c ⟨some (.single m), some ⟨.simple, [(6 : Fn) • G]⟩, none⟩ 1 0 ((3 : Fn) • G) [7] = .ok () →
    Accusation.Deceives (fun q : D => codeOracle zeroPrim q.1) ⟨m.ephemeralKey, 3, c.sharedSecret, a, c.proof⟩ := by
  obtain ⟨m, hlen, hpop, hsh⟩ := cipher_exists
  have hsz : (0 : NodeIndex).toInt < (Cipher.single m).size := by simp only [Cipher.size, hlen]; decide
  obtain ⟨a, ha, -⟩ := C184_verdict zeroPrim ∅ ⟨some (.single m), some ⟨.simple, [(6 : Fn) • G]⟩, none⟩ (.single m)
    ⟨.simple, [(6 : Fn) • G]⟩ ⟨rfl, rfl, by simp, rfl⟩ 1 0 (by decide) hsz 3 [7] hpop
  refine ⟨m, a, fun D c hD hv => ?_⟩
  obtain ⟨a', ha', h, -⟩ := C184_verdict zeroPrim D ⟨some (.single m), some ⟨.simple, [(6 : Fn) • G]⟩, none⟩ (.single m)
    ⟨.simple, [(6 : Fn) • G]⟩ ⟨rfl, rfl, by simp, rfl⟩ 1 0 (by decide) hsz 3 [7] hpop
  rw [ha] at ha'
  cases ha'
  exact h c hD hv ⟨hpop, _, hsh, rfl, by simp [valueAtNode, valueAt]⟩

end Verif
