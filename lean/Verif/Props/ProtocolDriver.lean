import Verif.Model.ProtocolChecks
import Verif.Props.Dealings
import Verif.Lemmas.Complaints
import Verif.Kat.Concrete

/-!
C137, C138: the checks the protocol driver makes on every dealing, and the seed it starts from.
-/

set_option autoImplicit false

namespace Verif

open Protocol Mega Dealings Complaints Sign

/-- A dealing that is accepted for some dealer, number of receivers and data is accepted or refused for every other, without
a panic. -/
theorem Protocol.accepted_total {P : Prim} {d : Dealing} {op : Op} {t : Int} {dealer : NodeIndex} {n : Int} {ad : Bytes}
    (h : publiclyVerify P d K256 op t dealer n ad = .ok ()) (dealer' : NodeIndex) (n' : Int) (ad' : Bytes) :
    publiclyVerify P d K256 op t dealer' n' ad' = .ok () ∨ (publiclyVerify P d K256 op t dealer' n' ad').isErr = true := by
  obtain ⟨-, cm, c, c0, hcm, hc, hl, hc0, -, -, hp⟩ := (C57_accepted_iff ..).1 h
  obtain ⟨ct, co, pf⟩ := d
  obtain rfl : co = some cm := hcm
  obtain rfl : ct = some c := hc
  dsimp only at hp
  refine C56_no_panic_partial P cm c pf K256 op t dealer' n' ad' (.inr ?_) ?_ ?_ ?_
  · rintro e; rw [e] at hc0; cases hc0
  · cases op with
    | random => trivial
    | reshareMasked p => exact hp.2.2.1
    | reshareUnmasked p => exact hp.2.2.1
    | unmaskedTimesMasked l r => exact ⟨hp.2.2.1, hp.2.2.2.1⟩
    | other => trivial
  · intro p hpf
    cases op with
    | random => rw [hp.2.2] at hpf; cases hpf
    | reshareMasked q => obtain ⟨x, hx, -⟩ := hp.2.2.2; rw [hx] at hpf; cases hpf; exact .inl ⟨x, rfl⟩
    | reshareUnmasked q => rw [hp.2.2.2.2.1] at hpf; cases hpf
    | unmaskedTimesMasked l r => obtain ⟨x, hx, -⟩ := hp.2.2.2.2.2.2; rw [hx] at hpf; cases hpf; exact .inr ⟨x, rfl⟩
    | other => exact hp.elim
  · rintro hn l r rfl
    obtain ⟨x, hx, -⟩ := hp.2.2.2.2.2.2
    rw [hn] at hx; cases hx

/-- A dealing is accepted for one number of receivers only. -/
theorem Protocol.accepted_receivers {P : Prim} {d : Dealing} {op : Op} {t : Int} {dealer dealer' : NodeIndex} {n n' : Int}
    {ad ad' : Bytes} (h : publiclyVerify P d K256 op t dealer n ad = .ok ())
    (h' : publiclyVerify P d K256 op t dealer' n' ad' = .ok ()) : n' = n := by
  obtain ⟨-, cm, c, c0, -, hc, -, -, hs, -⟩ := (C57_accepted_iff ..).1 h
  obtain ⟨-, cm', c', c0', -, hc', -, -, hs', -⟩ := (C57_accepted_iff ..).1 h'
  rw [hc] at hc'
  cases hc'
  omega

/-- C137: the four checks of a dealing come to two: it has to be accepted for its dealer and refused for the next one.  The
other two, with one more receiver, always pass then. -/
theorem C137_checks (P : Prim) (s : Setup) (d : Dealing) (op : Op) (dealer : NodeIndex) :
    (testPublicDealingVerification P s d op dealer = .ok () ↔
      publiclyVerify P d K256 op s.threshold dealer s.sk.length s.ad = .ok () ∧
      publiclyVerify P d K256 op s.threshold (dealer + 1) s.sk.length s.ad ≠ .ok ()) ∧
    (publiclyVerify P d K256 op s.threshold dealer s.sk.length s.ad = .ok () →
      publiclyVerify P d K256 op s.threshold (dealer + 1) s.sk.length s.ad = .ok () →
      testPublicDealingVerification P s d op dealer = .panic "created a publicly invalid dealing") := by
  have refused : ∀ {m : String} {r : Res Unit}, r.isErr = true → mustRefuse m r = .ok () := by
    intro m r h
    cases r <;> first | rfl | cases h
  refine ⟨⟨fun h => ?_, fun ⟨h1, h2⟩ => ?_⟩, fun h1 h2 => ?_⟩
  · rw [testPublicDealingVerification] at h
    obtain ⟨_, h1, h⟩ := Res.bind_eq_ok.1 h
    obtain ⟨_, h2, -⟩ := Res.bind_eq_ok.1 h
    constructor
    · revert h1
      cases publiclyVerify P d K256 op s.threshold dealer s.sk.length s.ad <;> intro h1 <;> first | rfl | cases h1
    · intro e; rw [e] at h2; cases h2
  · rw [testPublicDealingVerification, h1, refused ((accepted_total h1 (dealer + 1) _ _).resolve_left h2),
      refused ((accepted_total h1 (dealer + 1) _ _).resolve_left fun e => by have := accepted_receivers h1 e; omega),
      refused ((accepted_total h1 (dealer + 1) _ _).resolve_left fun e => by have := accepted_receivers h1 e; omega)]
    rfl
  · rw [testPublicDealingVerification, h1, h2]; rfl

/-- Some dealing the driver makes is accepted in the name of the next dealer. -/
def Protocol.Confusable (P : Prim) (s : Setup) (op : Op) (start : Nat) (shares : List Shares) : Prop :=
  ∃ (i : Nat) (share : Shares) (sd : Seed) (d : Dealing), shares[i]? = some share ∧
    Dealings.new P share sd s.threshold s.pk (node (start + i)) s.ad = .ok d ∧
    publiclyVerify P d K256 op s.threshold (node (start + i)) s.sk.length s.ad = .ok () ∧
    publiclyVerify P d K256 op s.threshold (node (start + i) + 1) s.sk.length s.ad = .ok ()

theorem Protocol.dealLoop_checked (P : Prim) (s : Setup) (op : Op) (shares : List Shares) : ∀ i rng,
    dealLoopChecked P s op i shares rng = dealLoop P s op i shares rng ∨
    (dealLoopChecked P s op i shares rng).isPanic = true ∧ Confusable P s op i shares := by
  induction shares with
  | nil => exact fun _ _ => .inl rfl
  | cons share rest ih =>
    intro i rng
    rw [dealLoopChecked, dealLoop]
    cases hs : Seed.fromRng P rng with
    | err e => exact .inl rfl
    | panic e => exact .inl rfl
    | diverge => exact .inl rfl
    | ok x =>
      obtain ⟨sd, rng'⟩ := x
      simp only [Res.ok_bind]
      cases hn : Dealings.new P share sd s.threshold s.pk (node i) s.ad with
      | err e => exact .inl rfl
      | panic e => exact .inl rfl
      | diverge => exact .inl rfl
      | ok d =>
        simp only [Res.ok_bind]
        cases hv : publiclyVerify P d K256 op s.threshold (node i) s.sk.length s.ad with
        | err e => left; rw [testPublicDealingVerification, hv]; rfl
        | panic e => left; rw [testPublicDealingVerification, hv]; rfl
        | diverge => left; rw [testPublicDealingVerification, hv]; rfl
        | ok u =>
          cases u
          by_cases h2 : publiclyVerify P d K256 op s.threshold (node i + 1) s.sk.length s.ad = .ok ()
          · right
            rw [(C137_checks P s d op (node i)).2 hv h2]
            exact ⟨rfl, 0, share, sd, d, rfl, hn, hv, h2⟩
          · rw [(C137_checks P s d op (node i)).1.2 ⟨hv, h2⟩]
            simp only [orPanic, Res.ok_bind]
            cases Res.mapM' (fun x : NodeIndex × Fn =>
                privateVerify P d K256 x.2 (Point.mulByG x.2) s.ad (node i) x.1) s.receivers with
            | err e => exact .inl rfl
            | panic e => exact .inl rfl
            | diverge => exact .inl rfl
            | ok v =>
              simp only [Res.ok_bind]
              rcases ih (i + 1) rng' with h | ⟨h, j, sh, sd', d', h1, h2', h3, h4⟩
              · left; rw [h]
              · right
                refine ⟨?_, j + 1, sh, sd', d', by simpa using h1, ?_⟩
                · cases hd : dealLoopChecked P s op (i + 1) rest rng' <;> rw [hd] at h <;> first | rfl | cases h
                · rw [show i + (j + 1) = i + 1 + j by ring]
                  exact ⟨h2', h3, h4⟩

theorem Protocol.ends_bind {α β : Type} {r : Res α} {f : α → Res β} (h : r ≠ .diverge) (hf : ∀ a, f a ≠ .diverge) :
    (r >>= f) ≠ .diverge := by
  rcases r with a | e | e | _
  · exact hf a
  · intro h'; cases h'
  · intro h'; cases h'
  · exact absurd rfl h

theorem Protocol.ends_of_cases {α : Type} {r : Res α} {a : α} (h : r = .ok a ∨ r.isErr = true) : r ≠ .diverge := by
  rintro rfl
  rcases h with h | h <;> cases h

/-- Public verification always ends. -/
theorem Protocol.publiclyVerify_ends (P : Prim) (d : Dealing) (curve : CurveType) (op : Op) (t : Int) (dealer : NodeIndex)
    (n : Int) (ad : Bytes) : publiclyVerify P d curve op t dealer n ad ≠ .diverge := by
  have hnil : ∀ {α : Type} (x : Option α), nonNil x ≠ .diverge := by
    rintro α (_ | x) h <;> cases h
  have hct : ∀ c : Commitment, c.curveType ≠ .diverge := by
    rintro ⟨k, _ | ⟨x, l⟩⟩ h <;> cases h
  have hcon : ∀ c : Commitment, c.constantTerm ≠ .diverge := by
    rintro ⟨k, _ | ⟨x, l⟩⟩ h <;> cases h
  have hev : ∀ (c : Commitment) i, c.evaluateAt i ≠ .diverge := fun c i => ends_bind (hct c) fun _ h => by cases h
  have hvis : ∀ (c : Commitment) k, c.verifyIs k curve ≠ .diverge := fun c k => ends_bind (hct c) fun x => by
    split_ifs <;> intro h <;> cases h
  have hcis : ∀ (c : Cipher) k, c.verifyIs k curve ≠ .diverge := by
    rintro (c | c) k <;> simp only [Cipher.verifyIs, Single.verifyIs, Pair.verifyIs] <;> split_ifs <;> intro h <;> cases h
  rw [publiclyVerify]
  refine ends_bind (hnil _) fun cm => ?_
  split_ifs
  · intro h; cases h
  refine ends_bind (hct _) fun ct => ?_
  split_ifs
  · intro h; cases h
  refine ends_bind (hnil _) fun c => ends_bind (ends_of_cases (checkValidity_cases P c n ad dealer)) fun _ => ?_
  cases op with
  | random =>
    dsimp only
    split
    · exact ends_bind (hvis _ _) fun _ => hcis _ _
    · intro h; cases h
  | reshareMasked p1 =>
    dsimp only
    split
    · intro h; cases h
    · rename_i pf _
      split_ifs
      · refine ends_bind (hvis _ _) fun _ => ends_bind (hcis _ _) fun _ => ends_bind ?_ fun _ => ends_bind (hev _ _) fun _ =>
          ends_bind (hcon _) fun _ => ends_of_cases (Zk.eqOpen_verify_cases ..)
        cases pf <;> first | exact hnil _ | (intro h; cases h)
      · intro h; cases h
  | reshareUnmasked p1 =>
    dsimp only
    split
    · refine ends_bind (hvis _ _) fun _ => ends_bind (hvis _ _) fun _ => ends_bind (hcis _ _) fun _ => ?_
      split
      · intro h; cases h
      · refine ends_bind (hev _ _) fun _ => ends_bind (hcon _) fun _ => ?_
        split_ifs <;> intro h <;> cases h
      · intro h; cases h
    · intro h; cases h
  | unmaskedTimesMasked l r =>
    dsimp only
    refine ends_bind (hnil _) fun pf => ?_
    split_ifs
    · refine ends_bind (hvis _ _) fun _ => ends_bind (hcis _ _) fun _ => ends_bind (hvis _ _) fun _ => ends_bind (hvis _ _) fun _ =>
        ends_bind ?_ fun _ => ends_bind (hev _ _) fun _ => ends_bind (hev _ _) fun _ =>
        ends_bind (hcon _) fun _ => ends_of_cases (Zk.product_verify_cases ..)
      cases pf <;> first | exact hnil _ | (intro h; cases h)
    · intro h; cases h
  | other => intro h; cases h

/-- C137: a dealing that does not pass the checks makes the driver panic; there is no other way for them to end. -/
theorem C137_panics (P : Prim) (s : Setup) (d : Dealing) (op : Op) (dealer : NodeIndex) :
    testPublicDealingVerification P s d op dealer = .ok () ∨
      (testPublicDealingVerification P s d op dealer).isPanic = true := by
  have key : ∀ (dealer : NodeIndex) n ad m, mustRefuse m (publiclyVerify P d K256 op s.threshold dealer n ad) = .ok () ∨
      (mustRefuse m (publiclyVerify P d K256 op s.threshold dealer n ad)).isPanic = true := by
    intro dealer n ad m
    have h := publiclyVerify_ends P d K256 op s.threshold dealer n ad
    rcases e : publiclyVerify P d K256 op s.threshold dealer n ad with u | x | x | _
    · exact .inr rfl
    · exact .inl rfl
    · exact .inr rfl
    · exact absurd e h
  have step : ∀ {r r' : Res Unit}, (r = .ok () ∨ r.isPanic = true) → (r' = .ok () ∨ r'.isPanic = true) →
      ((r >>= fun _ => r') = .ok () ∨ (r >>= fun _ => r').isPanic = true) := by
    rintro r r' (rfl | h) h'
    · exact h'
    · rcases r with _ | _ | _ | _ <;> first | exact .inr rfl | cases h
  refine step ?_ (step (key _ _ _ _) (step (key _ _ _ _) (key _ _ _ _)))
  have h := publiclyVerify_ends P d K256 op s.threshold dealer s.sk.length s.ad
  rcases e : publiclyVerify P d K256 op s.threshold dealer s.sk.length s.ad with u | x | x | _
  · exact .inl rfl
  · exact .inr rfl
  · exact .inr rfl
  · exact absurd e h

/-- C137, the driver: with all its checks it does what the model of C103–C110 does, or it panics because a dealing it made is
accepted in the name of the next dealer. -/
theorem C137_driver (P : Prim) (s : Setup) (shares : List Shares) (numberOfDealers corrupted : Nat) (op : Op) (seed : Seed) :
    createDealingsChecked P s shares numberOfDealers corrupted op seed =
      createDealings P s shares numberOfDealers corrupted op seed ∨
    (createDealingsChecked P s shares numberOfDealers corrupted op seed).isPanic = true ∧ Confusable P s op 0 shares := by
  rw [createDealingsChecked, createDealings]
  rcases dealLoop_checked P s op shares 0 (seed.rng P) with h | ⟨h, hc⟩
  · left; rw [h]
  · right
    refine ⟨?_, hc⟩
    cases hd : dealLoopChecked P s op 0 shares (seed.rng P) <;> rw [hd] at h <;> first | rfl | cases h

/-- That can happen: with a constant hash function every random dealing that is accepted is accepted in every dealer's name, and
the driver panics. -/
theorem C137_constant_hash (s : Setup) (d : Dealing) (dealer : NodeIndex)
    (h : publiclyVerify zeroPrim d K256 .random s.threshold dealer s.sk.length s.ad = .ok ()) :
    (testPublicDealingVerification zeroPrim s d .random dealer).isPanic = true := by
  obtain ⟨hK, cm, c, c0, hcm, hc, hl, hc0, hs, hp, ha⟩ := (C57_accepted_iff ..).1 h
  have pop : ∀ (t : CType) (eph pub : Pt) (pf : Zk.Proof) (d d' : NodeIndex),
      verifyPop zeroPrim t s.ad d eph pub pf = .ok () → verifyPop zeroPrim t s.ad d' eph pub pf = .ok () := by
    intro t eph pub pf d d' h
    obtain ⟨B, hB⟩ := computePopBase_ok zeroPrim t s.ad d eph
    obtain ⟨B', hB'⟩ := computePopBase_ok zeroPrim t s.ad d' eph
    rw [verifyPop, hB, Res.ok_bind, zeroPrim_dlog_verify] at h
    rw [verifyPop, hB', Res.ok_bind, zeroPrim_dlog_verify]
    exact h
  have h' : publiclyVerify zeroPrim d K256 .random s.threshold (dealer + 1) s.sk.length s.ad = .ok () := by
    refine (C57_accepted_iff ..).2 ⟨hK, cm, c, c0, hcm, hc, hl, hc0, hs, ?_, ha⟩
    cases c with
    | single m => exact pop _ _ _ _ _ _ hp
    | pair m => exact pop _ _ _ _ _ _ hp
  rw [(C137_checks zeroPrim s d .random dealer).2 h h']
  rfl

/-- Such a dealing exists. -/
example : ∃ d, publiclyVerify zeroPrim d K256 .random 1 0 1 [] = .ok () := by
  obtain ⟨d, hd⟩ := dealing_exists .random ⟨[]⟩ 1 [Point.mulByG 3] 0 [] (by norm_num) (by simp)
  exact ⟨d, (C54_honest_dealings_verify zeroPrim .random .random ⟨[]⟩ 1 [3] 0 [] d trivial hd).1⟩

/-! ### C138 -/

/-- C138 is false: `RandomSeed` always returns the same seed, which this is. -/
theorem C138_false : randomSeed Kat.prim = .ok ⟨toBE 32 0x0c30c3d7b05ef6557add900e0c0d9982635cb4cd0ed1e1e2c75d006a52116fff⟩ := by decide +kernel

/-- C138 holds in this form: whatever the primitives, `RandomSeed` returns a seed of 32 bytes. -/
theorem C138_random_seed_partial (P : Prim) : ∃ s, randomSeed P = .ok s ∧ s.value.length = 32 := by
  rw [randomSeed, Seed.fromRng]
  obtain ⟨out, h, hl, -⟩ := (C19_expand_message_xmd_rfc P (({ stream := P.chacha20 (List.replicate 32 0), pos := 0 } :
    Rng).xorKeyStream (List.replicate 32 0)).1 (ascii "ic-crypto-seed-from-rng")).1 32 (by norm_num)
  refine ⟨⟨copyInto 32 out⟩, ?_, by simp [copyInto, hl]⟩
  have h' : Xmd.expandMessageXmd P (({ stream := P.chacha20 (List.replicate 32 0), pos := 0 } :
    Rng).xorKeyStream (List.replicate 32 0)).1 (ascii "ic-crypto-seed-from-rng") 32 = .ok out := h
  simp only [Seed.new, h', Res.ok_bind]

end Verif
