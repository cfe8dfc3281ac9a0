import Verif.Spec.ComplaintLeak
import Verif.Props.Complaints

/-! C194: complaints about dealings that were not verified publicly. -/

set_option autoImplicit false

namespace Verif

open Mega Dealings Complaints

/-- What a node decrypts is what anybody decrypts who has its Diffie-Hellman value. -/
theorem openWith_of_openDealing {P : Prim} {d : Dealing} {ct : Cipher} {cm : Commitment} (hm : Matched d ct cm) {ad : Bytes}
    {A i : NodeIndex} {k : Fn} {pk : Pt} {o : Opening} (h : openDealing P d ad A i k pk = .ok o) :
    ct.openWith P ad A i pk (k • ct.ephemeral) = .ok o := by
  obtain ⟨h1, h2, -, -⟩ := hm
  rw [openDealing.eq_def, h1, h2] at h
  simp only [nonNil, Res.ok_bind] at h
  cases ct with
  | single m =>
    simp only [Cipher.decryptAndCheck, Single.decryptAndCheck, Single.decrypt] at h
    obtain ⟨s, hs, h⟩ := Res.bind_eq_ok.1 h
    obtain ⟨-, -, hs⟩ := Res.bind_eq_ok.1 hs
    obtain ⟨b, -, h⟩ := Res.bind_eq_ok.1 h
    have hs' : Single.decryptFromSharedSecret P m ad A i pk (k • m.ephemeralKey) = .ok s := hs
    simp only [Cipher.openWith, Cipher.ephemeral, hs', Res.ok_bind]
    split_ifs at h
    exact h
  | pair m =>
    simp only [Cipher.decryptAndCheck, Pair.decryptAndCheck, Pair.decrypt] at h
    obtain ⟨s, hs, h⟩ := Res.bind_eq_ok.1 h
    obtain ⟨-, -, hs⟩ := Res.bind_eq_ok.1 hs
    obtain ⟨b, -, h⟩ := Res.bind_eq_ok.1 h
    have hs' : Pair.decryptFromSharedSecret P m ad A i pk (k • m.ephemeralKey) = .ok s := hs
    simp only [Cipher.openWith, Cipher.ephemeral, hs', Res.ok_bind]
    split_ifs at h
    exact h

/-- C194: a complaint about a dealing shows to everybody what all other dealings with the same ephemeral key hold for the complaining node, whoever
dealt them. -/
theorem C194_gives_away (P : Prim) (ds : DealingMap) (ad : Bytes) (i : NodeIndex) (k : Fn) (pk : Pt) (seed : Seed)
    (hs : OMap.Sorted BitVec.toInt ds) (ct : NodeIndex → Cipher) (cm : NodeIndex → Commitment)
    (hm : ∀ x ∈ ds, Matched x.2 (ct x.1) (cm x.1)) (h0 : 0 ≤ i.toInt) (cs : List (NodeIndex × Complaint))
    (hcs : generateComplaints P ds ad i k pk seed = .ok cs) (j : NodeIndex) (c : Complaint) (hc : (j, c) ∈ cs)
    (d : Dealing) (ct' : Cipher) (cm' : Commitment) (hd : Matched d ct' cm') (he : ct'.ephemeral = (ct j).ephemeral)
    (A : NodeIndex) (ad' : Bytes) (o : Opening) (ho : openDealing P d ad' A i k pk = .ok o) :
    ct'.openWith P ad' A i pk c.sharedSecret = .ok o := by
  obtain ⟨-, -, h3, -⟩ := C65_exactly_bad_partial P ds ad i k pk seed hs ct cm hm h0
  rw [((h3 cs hcs).2.2 j c hc).1, ← he]
  exact openWith_of_openDealing hd ho

theorem emptied_matched {d : Dealing} {ct : Cipher} {cm : Commitment} (h : Matched d ct cm) : Matched d.emptied ct.emptied cm := by
  obtain ⟨h1, h2, h3, h4⟩ := h
  refine ⟨by rw [Dealing.emptied, h1]; rfl, h2, h3, ?_⟩
  rw [h4]
  cases ct <;> rfl

theorem emptied_ephemeral (ct : Cipher) : ct.emptied.ephemeral = ct.ephemeral := by cases ct <;> rfl

theorem emptied_size (ct : Cipher) : ct.emptied.size = 0 := by cases ct <;> rfl

/-- C194: of every dealing anybody can make another one that makes `GenerateComplaints` publish what the first one holds for the node: it is
enough to send it, without entries, under some other index. -/
theorem C194_anybody (P : Prim) (d : Dealing) (ct : Cipher) (cm : Commitment) (hd : Matched d ct cm) (A m : NodeIndex) (ad : Bytes)
    (i : NodeIndex) (k : Fn) (pk : Pt) (seed : Seed) (h0 : 0 ≤ i.toInt) (ds : DealingMap) (hs : OMap.Sorted BitVec.toInt ds)
    (hm : ∀ x ∈ ds, ∃ c c', Matched x.2 c c') (hin : (m, d.emptied) ∈ ds)
    (hgen : ∀ x ∈ ds, ∀ s, seed.derive P (label x.1) = .ok s → ∃ y r, Scalar.random (s.rng P) = .ok (y, r)) :
    ∃ cs c, generateComplaints P ds ad i k pk seed = .ok cs ∧ (m, c) ∈ cs ∧
      ∀ o, openDealing P d ad A i k pk = .ok o → ct.openWith P ad A i pk c.sharedSecret = .ok o := by
  classical
  have hu : ∀ x ∈ ds, ∀ y ∈ ds, x.1 = y.1 → x = y := by
    have hn := OMap.nodup_keys hs
    intro x hx y hy e
    exact List.inj_on_of_nodup_map hn hx hy e
  have hsel : ∀ j : NodeIndex, ∃ (c : Cipher) (c' : Commitment), ∀ x ∈ ds, x.1 = j → Matched x.2 c c' := by
    intro j
    by_cases hj : ∃ x ∈ ds, x.1 = j
    · obtain ⟨x, hx, rfl⟩ := hj
      obtain ⟨c, c', h⟩ := hm x hx
      exact ⟨c, c', fun y hy e => by rw [hu y hy x hx e]; exact h⟩
    · exact ⟨ct, cm, fun x hx e => absurd ⟨x, hx, e⟩ hj⟩
  choose C C' hC using hsel
  have hm' : ∀ x ∈ ds, Matched x.2 (C x.1) (C' x.1) := fun x hx => hC _ x hx rfl
  have hmm := hm' _ hin
  have hCm : C m = ct.emptied := by
    have := hmm.1
    rw [(emptied_matched hd).1] at this
    exact (Option.some.inj this).symm
  have hbad : ¬ GoodShare P ad m i k pk (C m) (C' m) := by
    rw [hCm]
    rintro ⟨-, o, ho, -⟩
    have := (shareUnder_lt ho).2
    rw [emptied_size] at this
    omega
  obtain ⟨-, -, h3, h4⟩ := C65_exactly_bad_partial P ds ad i k pk seed hs C C' hm' h0
  obtain ⟨cs, hcs⟩ := h4 hgen ⟨_, hin, hbad⟩
  obtain ⟨c, hc⟩ := ((h3 cs hcs).2.1 m).2 ⟨_, hin, hbad⟩
  refine ⟨cs, c, hcs, hc, fun o ho => ?_⟩
  exact C194_gives_away P ds ad i k pk seed hs C C' hm' h0 cs hcs m c hc d ct cm hd (by rw [hCm, emptied_ephemeral]) A ad o ho

/-- C194: such a dealing is not accepted by `PubliclyVerify`. -/
theorem C194_refused (P : Prim) (d : Dealing) (curve : CurveType) (op : Op) (t : Int) (m : NodeIndex) (receivers : Int) (ad : Bytes)
    (hr : receivers ≠ 0) : publiclyVerify P d.emptied curve op t m receivers ad ≠ .ok () := by
  intro h
  obtain ⟨-, cm, ct, c0, -, h2, -, -, hsz, -⟩ := (C57_accepted_iff P _ curve op t m receivers ad).1 h
  rw [Dealing.emptied] at h2
  rcases hc : d.ciphertext with _ | c
  · rw [hc] at h2; cases h2
  · rw [hc] at h2
    obtain rfl : c.emptied = ct := Option.some.inj h2
    rw [emptied_size] at hsz
    exact hr (by simpa using hsz.symm)

/-- C194: a dealing with the keys of the proof of possession of somebody else's proves something false (which C150 says cannot be done), unless the
bases that are hashed from the two dealers' indices are equal.  Different indices are hashed in different ways. -/
theorem C194_verified (P : Prim) (ct ct' : Cipher) (ad : Bytes) (A m : NodeIndex) (B B' : Pt)
    (hB : computePopBase P ct.ctype ad A ct.ephemeral = .ok B) (hB' : computePopBase P ct'.ctype ad m ct'.ephemeral = .ok B')
    (he : ct'.ephemeral = ct.ephemeral) (hne : ct.ephemeral ≠ 0) (hp : ct'.popPublic = ct.popPublic) (ht : ct.popTrue B) :
    (ct'.popTrue B' ↔ computePopBase P ct.ctype ad A ct.ephemeral = computePopBase P ct'.ctype ad m ct'.ephemeral) ∧
    (A.toNat % 2 ^ 32 ≠ m.toNat % 2 ^ 32 → Ro.Disjoint (popTranscript ct.ctype ad A ct.ephemeral)
      (popTranscript ct'.ctype ad m ct'.ephemeral)) := by
  refine ⟨?_, fun h => C78_pop_base_binding_partial _ _ _ _ _ _ _ _ fun hh => h hh.2.1⟩
  obtain ⟨b, h1, h2⟩ := ht
  rw [hB, hB']
  constructor
  · rintro ⟨b', h1', h2'⟩
    obtain rfl : b' = b := by
      rw [he, h1] at h1'
      exact (smul_left_injective Fn G_ne_zero h1').symm
    have hb : b' ≠ 0 := by
      rintro rfl
      exact hne (by rw [h1]; exact zero_smul Fn G)
    rw [hp, h2] at h2'
    have := congrArg (fun X : Pt => b'⁻¹ • X) h2'
    simp only [smul_smul, inv_mul_cancel₀ hb, one_smul] at this
    rw [this]
  · intro h
    cases h
    exact ⟨b, by rw [he, h1], by rw [hp, h2]⟩

/-- A case: dealer 1 deals 6 to the nodes with keys 3, 4, 5; somebody sends the same without entries as dealer 2's, and node 1 (with
key 4) complains. -/
example : ∃ (d : Dealing) (ct : Cipher) (cs : List (NodeIndex × Complaint)) (c : Complaint) (o : Opening), d.ciphertext = some ct ∧
    new zeroPrim (.reshareUnmasked 6) ⟨[]⟩ 2 (([3, 4, 5] : List Fn).map Point.mulByG) 1 [7] = .ok d ∧
    generateComplaints zeroPrim [(2, d.emptied)] [7] 1 4 ((4 : Fn) • G) ⟨[]⟩ = .ok cs ∧ (2, c) ∈ cs ∧
    openDealing zeroPrim d [7] 1 1 4 ((4 : Fn) • G) = .ok o ∧ ct.openWith zeroPrim [7] 1 1 ((4 : Fn) • G) c.sharedSecret = .ok o := by
  obtain ⟨d, hd⟩ := dealing_exists (.reshareUnmasked 6) ⟨[]⟩ 2 (([3, 4, 5] : List Fn).map Point.mulByG) 1 [7] (by omega) (by simp)
  obtain ⟨values, mask, ct, cm, h1, h2, h3, -, -, -, h6, h7, h8⟩ := C85_dealing_contents zeroPrim _ _ _ [3, 4, 5] 1 [7] d (by simp) hd
  have hpair : ct.isPair = false := h6
  have h7' : cm.kind = .simple ∧ cm.points = values.map fun v : Fn => v • G := h7
  have hm : Matched d ct cm := ⟨h2, h1, fun e => by
    have := h7'.2 ▸ congrArg List.length e
    simp at this
    rw [this] at h3
    simp at h3, by rw [hpair]; exact h7'.1⟩
  have ho := h8 1 4 (by decide) rfl
  have hopen : openDealing zeroPrim d [7] 1 1 4 ((4 : Fn) • G) = .ok (.simple ((toPoly values).eval (place 1))) := by
    rw [openDealing.eq_def, h2, h1]
    exact ho
  obtain ⟨cs, c, hcs, hc, hall⟩ := C194_anybody zeroPrim d ct cm hm 1 2 [7] 1 4 ((4 : Fn) • G) ⟨[]⟩ (by decide) [(2, d.emptied)]
    (by simp [OMap.Sorted]) (by simpa using ⟨_, _, emptied_matched hm⟩) (by simp) (fun x _ s _ => ⟨_, _, zeroPrim_random s⟩)
  exact ⟨d, ct, cs, c, _, h2, hd, hcs, hc, hopen, hall _ hopen⟩

end Verif
