import Verif.Spec.Altered
import Verif.Lemmas.ProtocolLive
import Verif.Props.Complaints

/-!
C201: what happens to dealings whose encrypted entries were changed on the way.
-/

set_option autoImplicit false

namespace Verif

open Mega Dealings Complaints

theorem Altered.checked {P : Prim} {d d' : Dealing} (h : Altered d d') : d'.commitment = d.commitment ∧ d'.proof = d.proof ∧
    ∃ c c', d.ciphertext = some c ∧ d'.ciphertext = some c' ∧ c'.size = c.size ∧ c'.isPair = c.isPair ∧ c'.ephemeral = c.ephemeral ∧
      (∀ ad j, c'.popAccepted P ad j ↔ c.popAccepted P ad j) ∧ (∀ n ad j, c'.checkValidity P n ad j = c.checkValidity P n ad j) ∧
      ∀ t curve, c'.verifyIs t curve = c.verifyIs t curve := by
  cases h with
  | single eph pop pf es es' cm proof h =>
    refine ⟨rfl, rfl, _, _, rfl, rfl, h.symm, rfl, rfl, fun _ _ => Iff.rfl, fun n ad j => ?_, fun _ _ => rfl⟩
    simp only [Cipher.checkValidity, Single.checkValidity, h]
  | pair eph pop pf es es' cm proof h =>
    refine ⟨rfl, rfl, _, _, rfl, rfl, h.symm, rfl, rfl, fun _ _ => Iff.rfl, fun n ad j => ?_, fun _ _ => rfl⟩
    simp only [Cipher.checkValidity, Pair.checkValidity, h]

/-- C201: public verification does not see changes of encrypted entries: it ends in the same way, whatever they are. -/
theorem C201_public (P : Prim) (d d' : Dealing) (h : Altered d d') (curve : CurveType) (op : Op) (t : Int) (dealer : NodeIndex)
    (receivers : Int) (ad : Bytes) :
    publiclyVerify P d' curve op t dealer receivers ad = publiclyVerify P d curve op t dealer receivers ad := by
  obtain ⟨h1, h2, c, c', hc, hc', -, -, -, -, hv, hi⟩ := Altered.checked (P := P) h
  simp only [publiclyVerify, h1, h2, hc, hc', nonNil, Res.ok_bind, hv, hi]

theorem Altered.matched {P : Prim} {d : Dealing} {k : Fn} {pk : Pt} {ad : Bytes} {j i : NodeIndex}
    (h : privateVerify P d K256 k pk ad j i = .ok ()) : ∃ ct cm, Matched d ct cm := by
  rw [privateVerify, if_neg (by simp)] at h
  obtain ⟨cm, hcm, h⟩ := Res.bind_eq_ok.1 h
  obtain ⟨c0, hc0, h⟩ := Res.bind_eq_ok.1 h
  obtain ⟨ct, hct, h⟩ := Res.bind_eq_ok.1 h
  obtain ⟨o, ho, -⟩ := Res.bind_eq_ok.1 h
  have e1 : d.commitment = some cm := by
    cases hd : d.commitment with
    | none => rw [hd] at hcm; cases hcm
    | some x => rw [hd] at hcm; cases hcm; rfl
  have e2 : d.ciphertext = some ct := by
    cases hd : d.ciphertext with
    | none => rw [hd] at hct; cases hct
    | some x => rw [hd] at hct; cases hct; rfl
  refine ⟨ct, cm, e2, e1, ?_, ?_⟩
  · intro hp
    rw [Commitment.constantTerm, hp] at hc0
    cases hc0
  · cases ct with
    | single m =>
      obtain ⟨s, -, hk, -⟩ := ((C79_decrypt_and_check P cm ad j i k pk o).1 m).1 ho
      exact hk
    | pair m =>
      obtain ⟨s, x, -, hk, -⟩ := ((C79_decrypt_and_check P cm ad j i k pk o).2 m).1 ho
      exact hk

theorem Altered.verify_iff {P : Prim} {d : Dealing} {ct : Cipher} {cm : Commitment} (hm : Matched d ct cm) {i : NodeIndex} (h0 : 0 ≤ i.toInt)
    (k : Fn) (pk : Pt) (ad : Bytes) (j : NodeIndex) :
    (privateVerify P d K256 k pk ad j i = .ok () ∧ GoodShare P ad j i k pk ct cm) ∨
    ((privateVerify P d K256 k pk ad j i).isErr = true ∧ ¬ GoodShare P ad j i k pk ct cm) := by
  rw [Protocol.privateVerify_eq hm]
  rcases openDealing_cases P ad j k pk hm h0 with ⟨⟨o, ho⟩, hg⟩ | ⟨he, hg⟩
  · exact .inl ⟨by rw [ho]; rfl, hg⟩
  · refine .inr ⟨?_, hg⟩
    cases ho : openDealing P d ad j i k pk <;> simp_all [Res.isErr]

theorem Altered.relation {a b a' b' : Fn} (h : a • G + b • Point.H = a' • G + b' • Point.H) (hne : b ≠ b') :
    Point.H = ((a - a') / (b' - b)) • G := by
  have hd : b' - b ≠ 0 := sub_ne_zero.2 (Ne.symm hne)
  have e : (b' - b) • Point.H = (a - a') • G := by
    have : (b' - b) • Point.H - (a - a') • G = (a' • G + b' • Point.H) - (a • G + b • Point.H) := by module
    rw [← h, sub_self] at this
    exact sub_eq_zero.1 this
  calc Point.H = (b' - b)⁻¹ • ((b' - b) • Point.H) := by rw [smul_smul, inv_mul_cancel₀ hd, one_smul]
    _ = ((a - a') / (b' - b)) • G := by rw [e, smul_smul, div_eq_inv_mul]

/-- C201: let a recipient accept a dealing.  They accept it also after changes of other entries.  If theirs was changed, they get an error,
or old and new entry give away the discrete logarithm of `H`, which they cannot if there are no masks. -/
theorem C201_recipient (P : Prim) (d d' : Dealing) (h : Altered d d') (dealer i : NodeIndex) (h0 : 0 ≤ i.toInt) (k : Fn) (pk : Pt) (ad : Bytes)
    (hok : privateVerify P d K256 k pk ad dealer i = .ok ()) :
    (d'.entry i = d.entry i → privateVerify P d' K256 k pk ad dealer i = .ok ()) ∧
    (d'.entry i ≠ d.entry i → (privateVerify P d' K256 k pk ad dealer i).isErr = true ∨ Relates d d' i) := by
  obtain ⟨ct, cm, hm⟩ := Altered.matched hok
  have hg : GoodShare P ad dealer i k pk ct cm := by
    rcases Altered.verify_iff (P := P) hm h0 k pk ad dealer with ⟨-, hg⟩ | ⟨he, -⟩
    · exact hg
    · rw [hok] at he; cases he
  obtain ⟨hc, hcm, hne, hk⟩ := hm
  obtain ⟨hpop, o, hsh, hop⟩ := hg
  cases h with
  | single eph pop pf es es' cm' proof hl =>
    cases hc
    cases hcm
    have hm' : Matched ⟨some (.single ⟨eph, pop, pf, es'⟩), some cm, proof⟩ (.single ⟨eph, pop, pf, es'⟩) cm := ⟨rfl, rfl, hne, hk⟩
    obtain ⟨e, x, -, he, hx, rfl⟩ := hsh
    have he' : ∃ e', es'[i.toInt.toNat]? = some e' := by
      have := (List.getElem?_eq_some_iff.1 he).1
      exact ⟨_, List.getElem?_eq_getElem (hl ▸ this)⟩
    obtain ⟨e', he'⟩ := he'
    have hv := Altered.verify_iff (P := P) hm' h0 k pk ad dealer
    refine ⟨fun hs => ?_, fun hs => .inl ?_⟩
    · have hee : e' = e := by simpa [Dealing.entry, he, he'] using hs
      subst hee
      rcases hv with hv | hv
      · exact hv.1
      · exact absurd ⟨hpop, _, ⟨e', x, h0, he', hx, rfl⟩, hop⟩ hv.2
    · rcases hv with ⟨-, -, o', ⟨e2, x', -, h2, hx', rfl⟩, hop'⟩ | hv
      · exfalso
        have hxx := hx.symm.trans hx'
        cases hxx
        rw [he'] at h2
        cases h2
        have := (smul_left_inj G_ne_zero).1 (hop.2.symm.trans hop'.2)
        exact hs (by simp [Dealing.entry, he, he', sub_left_injective this])
      · exact hv.1
  | pair eph pop pf es es' cm' proof hl =>
    cases hc
    cases hcm
    have hm' : Matched ⟨some (.pair ⟨eph, pop, pf, es'⟩), some cm, proof⟩ (.pair ⟨eph, pop, pf, es'⟩) cm := ⟨rfl, rfl, hne, hk⟩
    obtain ⟨e, f, x, y, -, he, hx, rfl⟩ := hsh
    have he' : ∃ e', es'[i.toInt.toNat]? = some e' := by
      have := (List.getElem?_eq_some_iff.1 he).1
      exact ⟨_, List.getElem?_eq_getElem (hl ▸ this)⟩
    obtain ⟨⟨e', f'⟩, he'⟩ := he'
    have hv := Altered.verify_iff (P := P) hm' h0 k pk ad dealer
    refine ⟨fun hs => ?_, fun hs => ?_⟩
    · have hee : (e', f') = (e, f) := by simpa [Dealing.entry, he, he'] using hs
      cases hee
      rcases hv with hv | hv
      · exact hv.1
      · exact absurd ⟨hpop, _, ⟨_, _, x, y, h0, he', hx, rfl⟩, hop⟩ hv.2
    · rcases hv with ⟨-, -, o', ⟨e2, f2, x', y', -, h2, hx', rfl⟩, hop'⟩ | hv
      · right
        have hxx := hx.symm.trans hx'
        cases hxx
        rw [he'] at h2
        cases h2
        have key := hop.2.symm.trans hop'.2
        have key' : e • G + f • Point.H = e' • G + f' • Point.H := by
          have : e • G + f • Point.H = ((e - x) • G + (f - y) • Point.H) + (x • G + y • Point.H) := by module
          rw [this, key]
          module
        refine ⟨(e, f), (e', f'), he, he', ?_, ?_⟩
        · intro hf
          simp only at hf
          subst hf
          have := (smul_left_inj G_ne_zero).1 (add_right_cancel key')
          subst this
          exact hs (by simp [Dealing.entry, he, he'])
        · refine Altered.relation key' ?_
          intro hf
          subst hf
          have := (smul_left_inj G_ne_zero).1 (add_right_cancel key')
          subst this
          exact hs (by simp [Dealing.entry, he, he'])
      · exact .inl hv.1

/-- C201: the complaint of a recipient whose entry was changed so is accepted, although the dealer's own dealing was good. -/
theorem C201_blamed (P : Prim) (d d' : Dealing) (h : Altered d d') (dealer i : NodeIndex) (h0 : 0 ≤ i.toInt) (k : Fn) (ad : Bytes)
    (hok : privateVerify P d K256 k (k • G) ad dealer i = .ok ())
    (hbad : (privateVerify P d' K256 k (k • G) ad dealer i).isErr = true) (seed : Seed) (c : Complaint)
    (hc : newComplaint P seed d' dealer i k (k • G) ad = .ok c) : Complaints.verify P c d' dealer i (k • G) ad = .ok () := by
  obtain ⟨ct, cm, hm⟩ := Altered.matched hok
  have hg : GoodShare P ad dealer i k (k • G) ct cm := by
    rcases Altered.verify_iff (P := P) hm h0 k (k • G) ad dealer with ⟨-, hg⟩ | ⟨he, -⟩
    · exact hg
    · rw [hok] at he; cases he
  obtain ⟨h1, h2, x, x', hx, hx', hsz, hp, hE, hpop, -, -⟩ := Altered.checked (P := P) h
  obtain ⟨hct, hcm, hne, hk⟩ := hm
  rw [hct, Option.some.injEq] at hx
  subst hx
  have hm' : Matched d' x' cm := ⟨hx', h1.trans hcm, hne, by rw [hp]; exact hk⟩
  obtain ⟨hpa, o, hsh, -⟩ := hg
  refine C66_justified_accepted P seed d' x' cm hm' dealer i h0 (by rw [hsz]; exact (shareUnder_lt hsh).2) k ad c ((hpop ad dealer).2 hpa) ?_ hc
  rcases Altered.verify_iff (P := P) hm' h0 k (k • G) ad dealer with ⟨he, -⟩ | ⟨-, hg⟩
  · rw [he] at hbad; cases hbad
  · exact hg

/-- C201 for a dealing that was made as it should be: after any change of encrypted entries it still passes public verification.  Every
recipient whose entry was not changed accepts it.  Every other one gets an error and has a complaint against the dealer that is accepted,
whatever its seed, unless old and new entry give away the discrete logarithm of `H`. -/
theorem C201_honest (P : Prim) (shares : Shares) (op : Op) (seed : Seed) (t : Int) (keys : List Fn) (dealer : NodeIndex) (ad : Bytes)
    (d d' : Dealing) (hs : Matches dealer shares op) (hd : new P shares seed t (keys.map Point.mulByG) dealer ad = .ok d) (h : Altered d d') :
    publiclyVerify P d' K256 op t dealer keys.length ad = .ok () ∧
    ∀ (i : NodeIndex) (k : Fn), 0 ≤ i.toInt → keys[i.toInt.toNat]? = some k →
      (d'.entry i = d.entry i → privateVerify P d' K256 k (k • G) ad dealer i = .ok ()) ∧
      (d'.entry i ≠ d.entry i → Relates d d' i ∨
        (privateVerify P d' K256 k (k • G) ad dealer i).isErr = true ∧
        ∀ seed' c, newComplaint P seed' d' dealer i k (k • G) ad = .ok c → Complaints.verify P c d' dealer i (k • G) ad = .ok ()) := by
  obtain ⟨hpub, hpriv⟩ := C54_honest_dealings_verify P shares op seed t keys dealer ad d hs hd
  refine ⟨(C201_public P d d' h ..).trans hpub, fun i k h0 hk => ?_⟩
  have hok : privateVerify P d K256 k (k • G) ad dealer i = .ok () := hpriv i k h0 hk
  obtain ⟨h1, h2⟩ := C201_recipient P d d' h dealer i h0 k (k • G) ad hok
  refine ⟨h1, fun hne => ?_⟩
  rcases h2 hne with hbad | hr
  · exact .inr ⟨hbad, fun seed' c hc => C201_blamed P d d' h dealer i h0 k ad hok hbad seed' c hc⟩
  · exact .inl hr

/-- A dealing of 6 whose entry was increased by one. -/
example : ∃ d d' : Dealing, Altered d d' ∧ privateVerify zeroPrim d K256 3 ((3 : Fn) • G) [7] 1 0 = .ok () ∧ d'.entry 0 ≠ d.entry 0 ∧
    (privateVerify zeroPrim d' K256 3 ((3 : Fn) • G) [7] 1 0).isErr = true ∧
    ∃ c, newComplaint zeroPrim ⟨[]⟩ d' 1 0 3 ((3 : Fn) • G) [7] = .ok c ∧ Complaints.verify zeroPrim c d' 1 0 ((3 : Fn) • G) [7] = .ok () := by
  obtain ⟨m, hlen, hpop, hsh⟩ := cipher_exists
  obtain ⟨eph, pop, pf, es⟩ := m
  obtain ⟨e, rfl⟩ := List.length_eq_one_iff.1 hlen
  have hA := Altered.single eph pop pf [e] [e + 1] (some ⟨.simple, [(6 : Fn) • G]⟩) none rfl
  have hm : Matched ⟨some (.single ⟨eph, pop, pf, [e]⟩), some ⟨.simple, [(6 : Fn) • G]⟩, none⟩ (.single ⟨eph, pop, pf, [e]⟩)
    ⟨.simple, [(6 : Fn) • G]⟩ := ⟨rfl, rfl, by simp, rfl⟩
  have hok : privateVerify zeroPrim ⟨some (.single ⟨eph, pop, pf, [e]⟩), some ⟨.simple, [(6 : Fn) • G]⟩, none⟩ K256 3 ((3 : Fn) • G) [7] 1 0 =
      .ok () := by
    rcases Altered.verify_iff (P := zeroPrim) hm (i := 0) (by decide) 3 ((3 : Fn) • G) [7] 1 with hv | hv
    · exact hv.1
    · exact absurd ⟨hpop, _, hsh, rfl, by simp [valueAtNode, valueAt]⟩ hv.2
  have hne : (⟨some (.single ⟨eph, pop, pf, [e + 1]⟩), some ⟨.simple, [(6 : Fn) • G]⟩, none⟩ : Dealing).entry 0 ≠
      (⟨some (.single ⟨eph, pop, pf, [e]⟩), some ⟨.simple, [(6 : Fn) • G]⟩, none⟩ : Dealing).entry 0 := by
    simp [Dealing.entry]
  have hbad := ((C201_recipient zeroPrim _ _ hA 1 0 (by decide) 3 ((3 : Fn) • G) [7] hok).2 hne).resolve_right (by
    rintro ⟨a, b, ha, hb, hab, -⟩
    simp [Dealing.entry] at ha hb
    exact hab (by rw [← ha, ← hb]))
  obtain ⟨c, hc⟩ := (newComplaint_cases zeroPrim ⟨[]⟩ (d := ⟨some (.single ⟨eph, pop, pf, [e + 1]⟩), some ⟨.simple, [(6 : Fn) • G]⟩, none⟩)
    1 0 3 ((3 : Fn) • G) [7] rfl).2.1 _ _ (zeroPrim_random _)
  exact ⟨_, _, hA, hok, hne, hbad, c, hc, C201_blamed zeroPrim _ _ hA 1 0 (by decide) 3 [7] hok hbad ⟨[]⟩ c hc⟩

end Verif
