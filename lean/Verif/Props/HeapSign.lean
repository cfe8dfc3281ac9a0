import Verif.Lemmas.HeapSign
import Verif.Props.Complaints
import Verif.Props.HeapDealings
import Verif.Props.Sign

/-!
C124, C125: the pointer code of key derivation, signing and complaints.

As in C112–C114 and C119–C123 the statements quantify over every memory and every choice of existing arguments, which may
be the same object or share objects in any way.
-/

set_option autoImplicit false

namespace Verif.Heap

open Mega (zeroPrim)

attribute [local irreducible] Key.deriveTweak Sign.derivePublicKey Sign.deriveRho Sign.SigShare.new Sign.SigShare.verify
  Sign.combine Sign.Signature.verify Complaints.newComplaint Complaints.generateComplaints Complaints.verify

section

variable (P : Prim) (m : Mem) (path : List Key.Index) (hashedMsg randomness ad : Bytes)

/-! ### C124 -/

/-- C124: derivation of keys and of the values of a signature.  Whether a derivation ends is the same as on values. -/
theorem C124_derivation (pk : Addr) (master : Bytes) (keyT presigT : Option ComObj) (hpk : pk < m.next)
    (hk : Has View.com.opt m keyT) (hp : Has View.com.opt m presigT) :
    Outcome (Writes ∅ m) (deriveTweak P path pk) m (Key.deriveTweak P path (m.pt pk))
      (Ret (View.sc.prod View.data) m) ∧
    Outcome (Writes ∅ m) (derivePublicKey P master path) m (Sign.derivePublicKey P master path) (Ret View.data m) ∧
    Outcome (Writes ∅ m) (deriveRho P hashedMsg randomness path keyT presigT) m
      (Sign.deriveRho P hashedMsg randomness path (View.com.opt.val m keyT) (View.com.opt.val m presigT))
      (Ret View.derived m) :=
  ⟨deriveTweak_ret path (has_pt hpk), derivePublicKey_ret, deriveRho_ret hk.at hp.at⟩

/-- C124: signature shares and signatures are made of new objects, no two the same; the signers' openings and the shares
are left alone. -/
theorem C124_sign (keyT presigT : Option ComObj) (lambda kappaTimesLambda keyTimesLambda : Option OpeningObj)
    (threshold : Int) (shares : List (NodeIndex × SigShareObj)) (hk : Has View.com.opt m keyT)
    (hp : Has View.com.opt m presigT) (hl : Has View.opening.opt m lambda) (hkl : Has View.opening.opt m kappaTimesLambda)
    (hxl : Has View.opening.opt m keyTimesLambda) (hs : Has (View.omap View.sigShare) m shares) :
    Outcome (Writes ∅ m) (newSigShare P path hashedMsg randomness keyT presigT lambda kappaTimesLambda keyTimesLambda) m
      (Sign.SigShare.new P path hashedMsg randomness (View.com.opt.val m keyT) (View.com.opt.val m presigT)
        (View.opening.opt.val m lambda) (View.opening.opt.val m kappaTimesLambda) (View.opening.opt.val m keyTimesLambda))
      (Ret View.sigShare m) ∧
    Outcome (Writes ∅ m) (combineShares P path hashedMsg randomness keyT presigT threshold shares) m
      (Sign.combine P path hashedMsg randomness (View.com.opt.val m keyT) (View.com.opt.val m presigT) threshold
        ((View.omap View.sigShare).val m shares)) (Ret View.signature m) :=
  ⟨newSigShare_ret hk.at hp.at hl.at hkl.at hxl.at, combineShares_ret hk.at hp.at hs.at⟩

/-- C124: the verification of shares and signatures. -/
theorem C124_verify (share : SigShareObj) (sig : SignatureObj) (signer : NodeIndex)
    (keyT presigT lambda kappaTimesLambda keyTimesLambda : Option ComObj) (hsh : Has View.sigShare m share)
    (hsig : Has View.signature m sig) (hk : Has View.com.opt m keyT) (hp : Has View.com.opt m presigT)
    (hl : Has View.com.opt m lambda) (hkl : Has View.com.opt m kappaTimesLambda)
    (hxl : Has View.com.opt m keyTimesLambda) :
    Outcome (Writes ∅ m)
      (verifySigShare P share path hashedMsg randomness signer keyT presigT lambda kappaTimesLambda keyTimesLambda) m
      ((View.sigShare.val m share).verify P path hashedMsg randomness signer (View.com.opt.val m keyT)
        (View.com.opt.val m presigT) (View.com.opt.val m lambda) (View.com.opt.val m kappaTimesLambda)
        (View.com.opt.val m keyTimesLambda)) (Ret View.data m) ∧
    Outcome (Writes ∅ m) (verifySignature P sig path hashedMsg randomness keyT presigT) m
      ((View.signature.val m sig).verify P path hashedMsg randomness (View.com.opt.val m keyT)
        (View.com.opt.val m presigT)) (Ret View.data m) :=
  ⟨verifySigShare_ret hsh.at hk.at hp.at hl.at hkl.at hxl.at, verifySignature_ret hsig.at hk.at hp.at⟩

/-- C124, one after the other: the same shares are combined twice.  Both signatures stand for the same numbers and have no
object in common, and nothing that existed at the beginning has changed. -/
theorem C124_combine_twice (keyT presigT : Option ComObj) (threshold : Int) (shares : List (NodeIndex × SigShareObj))
    (hk : Has View.com.opt m keyT) (hp : Has View.com.opt m presigT) (hs : Has (View.omap View.sigShare) m shares)
    (sig : SignatureObj) (m1 : Mem)
    (h1 : combineShares P path hashedMsg randomness keyT presigT threshold shares m = (.ok sig, m1)) :
    ∃ sig' m2, combineShares P path hashedMsg randomness keyT presigT threshold shares m1 = (.ok sig', m2) ∧
      View.signature.val m2 sig' = View.signature.val m2 sig ∧ View.signature.val m2 sig = View.signature.val m1 sig ∧
      (∀ x ∈ View.signature.objs sig', x ∉ View.signature.objs sig) ∧ Writes ∅ m m2 := by
  obtain ⟨v, e, r⟩ := (combineShares_ret (P := P) (path := path) (msg := hashedMsg) (rand := randomness)
    (threshold := threshold) hk.at hp.at hs.at).ran h1
  have h2 := combineShares_ret (P := P) (path := path) (msg := hashedMsg) (rand := randomness) (threshold := threshold)
    (hk.at.mono r.1) (hp.at.mono r.1) (hs.at.mono r.1)
  rw [e] at h2
  obtain ⟨sig', m2, e2, r2⟩ := h2
  have e3 := (r.upto r2.1).2.2.2
  refine ⟨sig', m2, e2, r2.2.2.2.trans e3.symm, e3.trans r.2.2.2.symm, fun x hx hx' => ?_, r.1.trans_empty r2.1⟩
  have := (r2.2.1 x hx).1
  have := (r.2.1 x hx').2
  omega

/-- C124, one after the other: at least `t` honest shares that lie in memory are combined; unless one of its numbers is
zero, the signature verifies in every later memory in which the objects that existed after the combination are as they
were. -/
theorem C124_combine_then_verify (keyT presigT : Option ComObj) (shares : List (NodeIndex × SigShareObj))
    (hk : Has View.com.opt m keyT) (hp : Has View.com.opt m presigT) (hs : Has (View.omap View.sigShare) m shares)
    (S : Sign.Secrets) (t : Nat) (x0 k0 l0 : Fn) (hS : S.Consistent t x0 k0 l0) (signers : List NodeIndex) (ht : 0 < t)
    (hc : t ≤ signers.length) (hn : signers.Nodup) (sh : NodeIndex → Sign.SigShare)
    (hsh : Sign.HonestShares P path hashedMsg randomness S signers sh)
    (ek : View.com.opt.val m keyT = Sign.unmasked S.x) (ep : View.com.opt.val m presigT = Sign.unmasked S.kappa)
    (es : (View.omap View.sigShare).val m shares = signers.map fun i => (i, sh i)) :
    ∃ sig m1, combineShares P path hashedMsg randomness keyT presigT t shares m = (.ok sig, m1) ∧ Writes ∅ m m1 ∧
      (m1.sc sig.r ≠ 0 → m1.sc sig.s ≠ 0 → ∀ later, Writes ∅ m1 later →
        ∃ m2, verifySignature P sig path hashedMsg randomness keyT presigT later = (.ok (), m2) ∧ Writes ∅ later m2) := by
  obtain ⟨v, tweak, rnd, c, e, -, -, -, -, hv⟩ := C68_threshold_signature P path hashedMsg randomness S t x0 k0 l0 hS
    signers ht hc hn sh hsh
  have h := combineShares_ret (P := P) (path := path) (msg := hashedMsg) (rand := randomness) (threshold := t) hk.at hp.at
    hs.at
  rw [ek, ep, es, e] at h
  obtain ⟨sig, m1, e1, r⟩ := h
  refine ⟨sig, m1, e1, r.1, fun hr0 hs0 later hl => ?_⟩
  obtain ⟨a1, a2⟩ := at_signature.1 r.at
  rw [(at_sc.1 a1).2] at hr0
  rw [(at_sc.1 a2).2] at hs0
  have w := r.1.trans_empty hl
  have h2 := verifySignature_ret (P := P) (path := path) (msg := hashedMsg) (rand := randomness) (r.upto hl).at
    (hk.at.mono w) (hp.at.mono w)
  rw [ek, ep, (hv hr0 hs0).1] at h2
  obtain ⟨_, m2, e2, r2⟩ := h2
  exact ⟨m2, e2, r2.1⟩

/-- C124: key and nonce are one object, and value and mask of both openings of the share are one object. -/
example : ∃ sig m', combineShares zeroPrim [] [5] [] (some ⟨.interpolation, ⟨.simple, [1]⟩⟩)
    (some ⟨.interpolation, ⟨.simple, [1]⟩⟩) 1 [(4, ⟨some (.pedersen 0 0), some (.pedersen 0 0)⟩)]
    ⟨fun _ => 3, fun _ => (1 : Fn) • G, fun _ => [], fun _ => 0, 2, ∅⟩ = (.ok sig, m') ∧ m'.sc 0 = 3 ∧
    m'.pt 1 = (1 : Fn) • G ∧ sig.r ≠ sig.s := by
  have h := (C124_sign zeroPrim ⟨fun _ => 3, fun _ => (1 : Fn) • G, fun _ => [], fun _ => 0, 2, ∅⟩ [] [5] []
    (some ⟨.interpolation, ⟨.simple, [1]⟩⟩) (some ⟨.interpolation, ⟨.simple, [1]⟩⟩) none none none 1
    [(4, ⟨some (.pedersen 0 0), some (.pedersen 0 0)⟩)]
    (by simp [Has, View.opt, View.com, View.via, View.prod, View.data, View.commitment, View.list, View.pt, Obj.addr])
    (by simp [Has, View.opt, View.com, View.via, View.prod, View.data, View.commitment, View.list, View.pt, Obj.addr])
    (by simp [Has, View.opt]) (by simp [Has, View.opt]) (by simp [Has, View.opt])
    (by simp [Has, View.omap, View.opt, View.sigShare, View.via, View.prod, View.data, View.opening, View.list,
      Obj.addr])).2
  obtain ⟨w, -, e⟩ := Sign.combine_eq (threshold := 1) (signers := [4])
    (Sign.zeroPrim_deriveRho [5] [] (x := [1]) (k := [1]) rfl rfl) (by omega) (by simp) (by simp)
    (fun _ => ⟨some (.pedersen 3 3), some (.pedersen 3 3)⟩) (fun _ => 3) (fun _ => 3) (fun _ => 3) (fun _ => 3)
    (fun _ _ => rfl)
  change Outcome _ _ _ (Sign.combine zeroPrim [] [5] [] (Sign.unmasked [1]) (Sign.unmasked [1]) 1
    ([4].map fun i => (i, ⟨some (.pedersen 3 3), some (.pedersen 3 3)⟩))) _ at h
  rw [e] at h
  obtain ⟨sig, m', r, hr⟩ := h
  refine ⟨sig, m', r, hr.1.sc0 (by simp), hr.1.pt0 (by simp), fun e => ?_⟩
  have := hr.2.2.1
  simp [View.signature, View.via, View.prod, View.sc, e] at this

/-! ### C125 -/

/-- C125: making complaints. -/
theorem C125_complain (seed : Seed) (d : DealingObj) (dealings : List (NodeIndex × DealingObj))
    (dealer receiver : NodeIndex) (sk pk : Addr) (hd : Has View.dealing m d)
    (hds : Has (View.omap View.dealing) m dealings) (hs : sk < m.next) (hk : pk < m.next) :
    Outcome (Writes ∅ m) (newComplaint P seed d dealer receiver sk pk ad) m
      (Complaints.newComplaint P seed (View.dealing.val m d) dealer receiver (m.sc sk) (m.pt pk) ad)
      (Ret View.complaint m) ∧
    Outcome (Writes ∅ m) (generateComplaints P dealings ad receiver sk pk seed) m
      (Complaints.generateComplaints P ((View.omap View.dealing).val m dealings) ad receiver (m.sc sk) (m.pt pk) seed)
      (Ret (View.omap View.complaint) m) :=
  ⟨newComplaint_ret hd.at (has_sc hs) (has_pt hk), generateComplaints_ret hds.at (has_sc hs) (has_pt hk)⟩

/-- C125: verifying complaints. -/
theorem C125_verify (c : ComplaintObj) (d : DealingObj) (dealer complainer : NodeIndex) (pk : Addr)
    (hc : Has View.complaint m c) (hd : Has View.dealing m d) (hk : pk < m.next) :
    Outcome (Writes ∅ m) (verifyComplaint P c d dealer complainer pk ad) m
      (Complaints.verify P (View.complaint.val m c) (View.dealing.val m d) dealer complainer (m.pt pk) ad)
      (Ret View.data m) :=
  verifyComplaint_ret hc.at hd.at (has_pt hk)

/-- C125, one after the other: a justified complaint is made and verifies in every later memory in which the objects that
existed after its making are as they were; making it has not changed the dealing it is about. -/
theorem C125_complain_then_verify (seed : Seed) (d : DealingObj) (dealer i : NodeIndex) (sk pk : Addr)
    (hd : Has View.dealing m d) (hs : sk < m.next) (hk : pk < m.next) (epk : m.pt pk = m.sc sk • G)
    (ct : Dealings.Cipher) (cm : Commitment) (hm : Dealings.Matched (View.dealing.val m d) ct cm) (h0 : 0 ≤ i.toInt)
    (hi : i.toInt < ct.size) (hpop : ct.popAccepted P ad dealer)
    (hbad : ¬ Dealings.GoodShare P ad dealer i (m.sc sk) (m.sc sk • G) ct cm) (c : ComplaintObj) (m1 : Mem)
    (h1 : newComplaint P seed d dealer i sk pk ad m = (.ok c, m1)) (later : Mem) (hl : Writes ∅ m1 later) :
    View.dealing.val later d = View.dealing.val m d ∧
    ∃ m2, verifyComplaint P c d dealer i pk ad later = (.ok (), m2) ∧ Writes ∅ later m2 := by
  obtain ⟨v, e, r⟩ := (newComplaint_ret (P := P) (seed := seed) (ad := ad) (dealer := dealer) (receiver := i) hd.at
    (has_sc hs) (has_pt hk)).ran h1
  rw [epk] at e
  have hv := C66_justified_accepted P seed _ ct cm hm dealer i h0 hi _ ad v hpop hbad e
  have w := r.1.trans_empty hl
  refine ⟨(hd.at.mono w).2, ?_⟩
  have h2 := verifyComplaint_ret (P := P) (ad := ad) (dealer := dealer) (complainer := i) (r.upto hl).at (hd.at.mono w)
    ((has_pt hk).mono w)
  rw [epk, hv] at h2
  obtain ⟨_, m2, e2, r2⟩ := h2
  exact ⟨m2, e2, r2.1⟩

end

/-- C125: the complaint about a ciphertext that holds 6 under a commitment to 5 (`Complaints.cipher_exists`) is made, and
accepted in the memory it leaves. -/
example : ∃ (m m1 m2 : Mem) (d : DealingObj) (c : ComplaintObj),
    newComplaint zeroPrim ⟨[]⟩ d 1 0 0 0 [7] m = (.ok c, m1) ∧ verifyComplaint zeroPrim c d 1 0 0 [7] m1 = (.ok (), m2) := by
  obtain ⟨ct, hlen, hpop, hsh⟩ := Complaints.cipher_exists
  obtain ⟨e, he⟩ := List.length_eq_one_iff.1 hlen
  obtain ⟨v, pop, ⟨ch, rs⟩, es⟩ := ct
  obtain rfl : es = [e] := he
  have hbad : ¬ Dealings.GoodShare zeroPrim [7] 1 0 3 (Point.mulByG 3) (.single ⟨v, pop, ⟨ch, rs⟩, [e]⟩)
      ⟨.simple, [(5 : Fn) • G]⟩ := by
    rintro ⟨-, o, ho, hop⟩
    rw [← Dealings.shareUnder_unique hsh ho] at hop
    exact Complaints.six_not_five 0 hop
  let m : Mem := ⟨fun a => [3, ch, rs, e].getD a 0, fun a => [(3 : Fn) • G, v, pop, (5 : Fn) • G].getD a 0, fun _ => [],
    fun _ => 0, 4, ∅⟩
  let d : DealingObj := ⟨some (.single ⟨1, 2, ⟨1, 2⟩, [3]⟩), some ⟨.simple, [3]⟩, none⟩
  have hd : Has View.dealing m d := by
    simp [Has, d, m, View.dealing, View.via, View.prod, View.data, View.cipher, View.ciphertext, View.proof, View.opt,
      View.commitment, View.list, View.pt, View.sc, Obj.addr]
  obtain ⟨c, hc⟩ := (Complaints.newComplaint_cases zeroPrim ⟨[]⟩ 1 0 3 ((3 : Fn) • G) [7] (d := View.dealing.val m d)
    (ct := .single ⟨v, pop, ⟨ch, rs⟩, [e]⟩) rfl).2.1 _ _ (Mega.zeroPrim_random _)
  have h := (C125_complain zeroPrim m [7] ⟨[]⟩ d [] 1 0 0 0 hd (by simp [Has, View.omap, View.list])
    (by simp [m]) (by simp [m])).1
  rw [show m.sc 0 = 3 from rfl, show m.pt 0 = (3 : Fn) • G from rfl, hc] at h
  obtain ⟨co, m1, e1, r1⟩ := h
  obtain ⟨-, m2, e2, -⟩ := C125_complain_then_verify zeroPrim m [7] ⟨[]⟩ d 1 0 0 0 hd (by simp [m]) (by simp [m]) rfl
    (.single ⟨v, pop, ⟨ch, rs⟩, [e]⟩) ⟨.simple, [(5 : Fn) • G]⟩ ⟨rfl, rfl, by simp, rfl⟩ (by decide)
    (by simp only [Dealings.Cipher.size, List.length_singleton]; decide) hpop hbad
    co m1 e1 m1 (Writes.refl _ _)
  exact ⟨m, m1, m2, d, co, e1, e2⟩

end Verif.Heap
