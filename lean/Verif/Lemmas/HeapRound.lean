import Verif.Lemmas.HeapProtocol

/-! Opening dealings and making rounds with the protocol driver on memory. -/

set_option autoImplicit false

namespace Verif.Heap

open Protocol (node)

variable {ο ν ο' ν' α β γ δ : Type} {E : Mem → Prop} {m m0 m' : Mem}
variable {P : Prim} {s : SetupObj} {vs : Protocol.Setup} {ds : List (NodeIndex × DealingObj)} {vds : Dealings.DealingMap}
variable {T : Option ComObj} {vT : Option Dealings.Com} {cbor : Commitment → Res Bytes}

theorem receivers_cases {l : List (NodeIndex × Addr × Addr)} {l' : List (NodeIndex × Fn)}
    (h : At View.receiver.list m l (l'.map withPk)) :
    (l = [] ∧ l' = []) ∨ ∃ i sk pk k rest rest', l = (i, sk, pk) :: rest ∧ l' = (i, k) :: rest' ∧ At View.sc m sk k ∧
      At View.pt m pk (Point.mulByG k) ∧ At View.receiver.list m rest (rest'.map withPk) := by
  rcases h.cases with ⟨h0, h1⟩ | ⟨⟨i, sk, pk⟩, os, w, ws, rfl, hw, hx, h1⟩
  · exact .inl ⟨h0, List.map_eq_nil_iff.1 h1⟩
  · obtain ⟨⟨j, k⟩, l1, rfl, rfl, rfl⟩ := List.map_eq_cons_iff.1 hw
    obtain ⟨hi, hk⟩ := at_prod.1 hx
    obtain rfl : i = j := at_data.1 hi
    obtain ⟨hk1, hk2⟩ := at_prod.1 hk
    exact .inr ⟨i, sk, pk, k, os, l1, rfl, rfl, hk1, hk2, h1⟩

theorem openersLoop_ret {d : DealingObj} {vd : Dealings.Dealing} {dealer receiver : NodeIndex}
    {l : List (NodeIndex × Addr × Addr)} {l' : List (NodeIndex × Fn)} (he : s.Same vs) (hd : At View.dealing m d vd)
    (hl : At View.receiver.list m l (l'.map withPk)) :
    Outcome (Writes ∅ m) (openersLoop P s d dealer receiver l) m (Protocol.openersLoop P vs vd dealer receiver l')
      (Ret (View.omap View.opening) m) := by
  induction l' generalizing m l with
  | nil =>
    rcases receivers_cases hl with ⟨rfl, -⟩ | ⟨_, _, _, _, _, _, -, h, -⟩
    · exact Outcome.pure (Ret.nil (Writes.refl _ _))
    · cases h
  | cons x l' ih =>
    rcases receivers_cases hl with ⟨-, h⟩ | ⟨i, sk, pk, k, rest, rest', rfl, h, hsk, hpk, hr⟩
    · cases h
    cases h
    rw [openersLoop, Protocol.openersLoop, he.ad]
    split_ifs with hi
    · exact ih hd hr
    refine Outcome.branch (privateVerify_ret hd hsk hpk) (Writes.refl _ _) (k := fun r => match r with
      | .err _ => Protocol.openersLoop P vs vd dealer receiver l'
      | .panic e => .panic e
      | .diverge => .diverge
      | .ok _ => do
        let o ← Protocol.orPanic "unable to open dealing" (Dealings.openDealing P vd vs.ad dealer i k (Point.mulByG k))
        let cm ← Dealings.nonNil vd.commitment
        if ← cm.checkOpening i o then do
          let os ← Protocol.openersLoop P vs vd dealer receiver l'
          .ok ((i, o) :: os)
        else .err "verify dealing opening failed") (fun _ => rfl) rfl (fun _ m1 w => ?_) fun _ _ m1 hv => ?_
    · exact ((ih (hd.mono w) (hr.mono w)).after w).mono fun _ _ _ h => h.since w
    dsimp only
    have w := hv.1
    refine (openDealing_ret (hd.mono w) (hsk.mono w) (hpk.mono w)).orPanic.call w fun vo o m2 ho w2 => ?_
    refine (nonNil_at (at_dealing.1 (hd.mono w2)).2.1 w2).bind fun vc c m3 ⟨e3, hc⟩ => ?_
    subst e3
    refine (checkOpening_ret hc ho.at).call w2 fun vb b m4 hb w4 => ?_
    obtain rfl : b = vb := hb.2.2.2
    split_ifs
    · refine (ih (hd.mono w4) (hr.mono w4)).call w4 fun vos os m5 hos w5 => ?_
      exact Outcome.pure (Ret.cons (V := View.data.prod View.opening)
        ((Ret.data (v := i) (Writes.refl _ _)).pair ((ho.since w).upto hb.1)) hos)
    · exact ⟨m4, rfl, w4⟩

theorem complaintLoop_ret {receiver : NodeIndex} {pk : Addr} {vpk : Pt} {cs : List (NodeIndex × ComplaintObj)}
    {vcs : List (NodeIndex × Complaints.Complaint)} {rng : Rng} (hs : SetupAt m s vs)
    (hd : At (View.omap View.dealing) m ds vds) (hk : At View.pt m pk vpk) (hc : At (View.omap View.complaint) m cs vcs) :
    Outcome (Writes ∅ m) (complaintLoop P s ds receiver pk cs rng) m
      (Protocol.complaintLoop P vs vds receiver vpk vcs rng) (Ret ((View.omap (View.omap View.opening)).prod View.data) m) := by
  induction cs generalizing m vcs rng with
  | nil =>
    obtain rfl := at_nil.1 hc
    exact Outcome.pure ((Ret.nil (Writes.refl _ _)).pair (Ret.data (Writes.refl _ _)))
  | cons x cs ih =>
    rcases hc.cases with ⟨h0, -⟩ | ⟨o, os, w, ws, h0, rfl, hx, hr⟩
    · cases h0
    cases h0
    obtain ⟨dealer, c⟩ := x
    obtain ⟨vdealer, vc⟩ := w
    obtain ⟨hi, hx⟩ := at_prod.1 hx
    obtain rfl : dealer = vdealer := at_data.1 hi
    rw [complaintLoop, Protocol.complaintLoop]
    rcases at_opt.1 (get_at hd dealer) with ⟨e1, e2⟩ | ⟨d, vd, e1, e2, hdd⟩
    · rw [e1, e2]
      exact ⟨m, rfl, Writes.refl _ _⟩
    rw [e1, e2]
    dsimp only
    rw [hs.1.ad]
    refine (verifyComplaint_ret hx hdd hk).call (Writes.refl _ _) fun _ _ m1 h1 w1 => ?_
    refine (openersLoop_ret hs.1 (hdd.mono w1) (hs.mono w1).receivers).call w1 fun vos os m2 h2 w2 => ?_
    rw [hs.1.threshold]
    refine (thin_ret (h2.since w1) vs.threshold rng).bind fun vt t m3 ⟨e3, h3, e4, _⟩ => ?_
    subst e3
    rw [e4]
    refine (ih (hs.mono w2) (hd.mono w2) (hk.mono w2) (hr.mono w2)).call w2 fun vp p m4 h4 w4 => ?_
    have e5 : p.2 = vp.2 := h4.snd.2.2.2
    change Outcome _ _ _ (.ok ((dealer, vt.1) :: vp.1, vp.2)) _
    rw [e5]
    exact Outcome.pure ((Ret.cons (V := View.data.prod (View.omap View.opening))
      ((Ret.data (v := dealer) (Writes.refl _ _)).pair h3) h4.fst).pair (Ret.data (Writes.refl _ _)))

theorem openByComplaints_ret {seed : Seed} {receiver : NodeIndex} {sk pk : Addr} {k : Fn} {vpk : Pt} {rng : Rng}
    (hs : SetupAt m s vs) (hd : At (View.omap View.dealing) m ds vds) (hT : At View.com.opt m T vT) (hsk : At View.sc m sk k)
    (hpk : At View.pt m pk vpk) :
    Outcome (Writes ∅ m) (openByComplaints P s ds T seed receiver sk pk rng) m
      (do
        let cs ← seed.derive P (ascii "complaint-" ++ decimal receiver.toNat)
        let complaints ← Complaints.generateComplaints P vds vs.ad receiver k vpk cs
        let provided ← Protocol.complaintLoop P vs vds receiver vpk complaints rng
        let o ← Protocol.orPanic "unable to open dealing using provided openings"
          (Dealings.fromDealingsAndOpenings P vds provided.1 vT vs.ad receiver k vpk)
        Res.ok (o, provided.2)) (Ret (View.opening.prod View.data) m) := by
  rw [openByComplaints, hs.1.ad]
  refine Outcome.lift (Writes.refl _ _) fun cs _ => ?_
  refine (generateComplaints_ret hd hsk hpk).call (Writes.refl _ _) fun vc c m1 h1 w1 => ?_
  refine (complaintLoop_ret (hs.mono w1) (hd.mono w1) (hpk.mono w1) h1.at).call w1 fun vp p m2 h2 w2 => ?_
  refine (fromDealingsAndOpenings_ret (hd.mono w2) h2.fst.at (hT.mono w2) (hsk.mono w2) (hpk.mono w2)).orPanic.call w2
    fun vo o m3 h3 w3 => ?_
  have e : p.2 = vp.2 := h2.snd.2.2.2
  rw [e]
  exact Outcome.pure ((h3.since w2).pair (Ret.data (Writes.refl _ _)))

theorem openLoop_ret {seed : Seed} {l : List (NodeIndex × Addr × Addr)} {l' : List (NodeIndex × Fn)} {rng : Rng}
    (hs : SetupAt m s vs) (hd : At (View.omap View.dealing) m ds vds) (hT : At View.com.opt m T vT)
    (hl : At View.receiver.list m l (l'.map withPk)) :
    Outcome (Writes ∅ m) (openLoop P s ds T seed l rng) m (Protocol.openLoop P vs vds vT seed l' rng)
      (Ret View.opening.list m) := by
  induction l' generalizing m l rng with
  | nil =>
    rcases receivers_cases hl with ⟨rfl, -⟩ | ⟨_, _, _, _, _, _, -, h, -⟩
    · exact Outcome.pure (Ret.nil (Writes.refl _ _))
    · cases h
  | cons x l' ih =>
    rcases receivers_cases hl with ⟨-, h⟩ | ⟨i, sk, pk, k, rest, rest', rfl, h, hsk, hpk, hr⟩
    · cases h
    cases h
    rw [openLoop, Protocol.openLoop, hs.1.ad]
    refine Outcome.branch (fromDealings_ret hd hT hsk hpk) (Writes.refl _ _) (k := fun r => match r with
      | .ok o => do
        let os ← Protocol.openLoop P vs vds vT seed l' rng
        .ok (o :: os)
      | .err _ => do
        let cs ← seed.derive P (ascii "complaint-" ++ decimal i.toNat)
        let complaints ← Complaints.generateComplaints P vds vs.ad i k (Point.mulByG k) cs
        let (provided, rng) ← Protocol.complaintLoop P vs vds i (Point.mulByG k) complaints rng
        let o ← Protocol.orPanic "unable to open dealing using provided openings"
          (Dealings.fromDealingsAndOpenings P vds provided vT vs.ad i k (Point.mulByG k))
        let os ← Protocol.openLoop P vs vds vT seed l' rng
        .ok (o :: os)
      | .panic e => .panic e
      | .diverge => .diverge) (fun _ => rfl) rfl (fun _ m1 w => ?_) fun vo o m1 ho => ?_
    · have h1 := (openByComplaints_ret (P := P) (seed := seed) (receiver := i) (rng := rng) (hs.mono w) (hd.mono w) (hT.mono w)
        (hsk.mono w) (hpk.mono w)).call w (f := fun o => do
          let os ← openLoop P s ds T seed rest o.2
          pure (o.1 :: os)) (k := fun o => do
          let os ← Protocol.openLoop P vs vds vT seed l' o.2
          Res.ok (o.1 :: os)) (S := Ret View.opening.list m) fun vo o m2 ho w2 => by
        have e : o.2 = vo.2 := ho.snd.2.2.2
        rw [e]
        refine (ih (hs.mono w2) (hd.mono w2) (hT.mono w2) (hr.mono w2)).call w2 fun vos os m3 hos w3 => ?_
        exact Outcome.pure ((ho.fst.since w).cons hos)
      refine h1.use ?_ fun _ _ _ h => h
      simp only [bind_assoc]
      rfl
    · refine (ih (hs.mono ho.1) (hd.mono ho.1) (hT.mono ho.1) (hr.mono ho.1)).call ho.1 fun vos os m3 hos w3 => ?_
      exact Outcome.pure (ho.cons hos)

theorem readCommitment_at {c : CommitmentObj} {v : Commitment} (h : At View.commitment m c v) :
    Outcome E (readCommitment c) m (.ok v) (fun v a m' => a = v ∧ m' = m) := by
  obtain ⟨h1, h2⟩ := at_commitment.1 h
  obtain ⟨h3, h4⟩ := at_list_pt.1 h2
  have e : ∀ ps : List Addr, Go.mapM' readPt ps m = (.ok (ps.map m.pt), m) := by
    intro ps
    induction ps with
    | nil => rfl
    | cons p ps ih =>
      rw [Go.mapM', run_bind]
      change Go.andThen (.ok (m.pt p), m) _ = _
      rw [Go.andThen_ok, run_bind, ih, Go.andThen_ok]
      rfl
  refine ⟨v, m, ?_, rfl, rfl⟩
  rw [readCommitment, run_bind, e, Go.andThen_ok, h4, h1]
  rfl

theorem openDealings_ret (hs : SetupAt m s vs) (hd : At (View.omap View.dealing) m ds vds) (hT : At View.com.opt m T vT) :
    Outcome (Writes ∅ m) (openDealings P cbor s ds T) m (Protocol.openDealings P cbor vs vds vT)
      (Ret View.opening.list m) := by
  rw [openDealings, Protocol.openDealings]
  refine (nonNil_at hT (Writes.refl _ _)).bind fun vc c m1 ⟨e1, hc⟩ => ?_
  subst e1
  refine (readCommitment_at (at_com.1 hc).2).bind_ok fun a m2 ⟨e2, e3⟩ => ?_
  subst e2 e3
  refine Outcome.lift (Writes.refl _ _) fun bytes _ => ?_
  refine Outcome.lift (Writes.refl _ _) fun seed _ => ?_
  refine Outcome.lift (Writes.refl _ _) fun rs _ => ?_
  exact openLoop_ret hs hd hT hs.receivers

/-! ### Rounds -/

theorem cloneCom_ret {c : ComObj} {v : Dealings.Com} (h : At View.com m c v) :
    Outcome E (cloneCom c) m (.ok v.clone) (Ret View.com m) := by
  obtain ⟨h1, h2⟩ := at_list_pt.1 (at_commitment.1 (at_com.1 h).2).2
  refine (cloneCommitment_spec _ _ h1).bind_ok fun a m' ha => ?_
  have := ret_com (w := .plain) (ret_commitment (k := c.c.kind) ha.ret)
  rw [h2, (at_commitment.1 (at_com.1 h).2).1] at this
  rw [(at_commitment.1 (at_com.1 h).2).1]
  exact Outcome.pure this

theorem newRound_ret (hs : SetupAt m s vs) (hd : At (View.omap View.dealing) m ds vds) (hT : At View.com.opt m T vT) :
    Outcome (Writes ∅ m) (newRound P cbor s ds T) m
      (do
        let os ← Protocol.openDealings P cbor vs vds vT
        let c ← Dealings.nonNil vT
        Res.ok (⟨c, os, vds⟩ : Protocol.Round))
      (fun v o m' => ∃ c, T = some c ∧ vT = some v.transcript ∧ v.dealings = vds ∧ o.transcript = c ∧ o.dealings = ds ∧
        Ret (View.opening.list.prod View.com) m (v.openings, v.commitment) (o.openings, o.commitment) m') := by
  rw [newRound]
  refine (openDealings_ret hs hd hT).call (Writes.refl _ _) fun vos os m1 h1 w1 => ?_
  rcases at_opt.1 hT with ⟨rfl, rfl⟩ | ⟨c, vc, rfl, rfl, hc⟩
  · exact ⟨m1, rfl, w1⟩
  change Outcome _ (cloneCom c >>= _) _ _ _
  refine (cloneCom_ret (hc.mono w1)).bind_ok fun cl m2 h2 => ?_
  exact Outcome.pure ⟨c, rfl, rfl, rfl, rfl, rfl, h1.pair h2⟩

theorem perm_parts (a b c d : List α) : (a ++ (b ++ (c ++ d))).Perm ((d ++ b) ++ (c ++ a)) := by
  classical
  rw [List.perm_iff_count]
  intro x
  simp only [List.count_append]
  omega

theorem makeRound_ret {op : OpObj} {vop : Dealings.Op} {shares : List SharesObj} {vshares : List Dealings.Shares}
    {dealers corrupted : Nat} (hs : SetupAt m s vs) (ho : At View.op m op vop) (hsh : At View.shares.list m shares vshares)
    (hn : vs.sk.length ≤ 2 ^ 63) (hl : vshares.length ≤ 2 ^ 63) :
    Outcome (Writes ∅ m) (makeRound P cbor s shares op dealers corrupted) m
      (Protocol.Round.make P cbor vs vshares vop dealers corrupted) (RetStep m s) := by
  obtain ⟨threshold, ad, pk, sk, seed, round⟩ := s
  obtain ⟨vthreshold, vad, vsk, vseed, vround⟩ := vs
  obtain ⟨⟨e1, e2, e3, e4⟩, hk⟩ := hs
  dsimp only at e1 e2 e3 e4
  subst e1 e2 e3 e4
  rw [makeRound, Protocol.Round.make, nextDealingSeed, Protocol.Setup.nextDealingSeed]
  simp only [bind_assoc]
  refine Outcome.lift (Writes.refl _ _) fun seed' _ => ?_
  have hs' : SetupAt m ⟨threshold, ad, pk, sk, seed, round + 1⟩ ⟨threshold, ad, vsk, seed, round + 1⟩ :=
    ⟨⟨rfl, rfl, rfl, rfl⟩, hk⟩
  rw [pure_bind]
  refine (createDealings_ret hs' ho hsh hn hl).call (Writes.refl _ _) fun vds ds m1 h1 w1 => ?_
  refine (newTranscript_ret h1.at (ho.mono w1)).call w1 fun vT T m2 h2 w2 => ?_
  have h3 := (newRound_ret (P := P) (cbor := cbor) (hs'.mono w2) (h1.at.mono h2.1) h2.at).after w2
  have h4 := h3.bind (f := fun r => pure (r, ⟨threshold, ad, pk, sk, seed, round + 1⟩))
    (k := fun r => Res.ok (r, ⟨threshold, ad, vsk, seed, round + 1⟩)) (S := RetStep m ⟨threshold, ad, pk, sk, seed, round⟩)
    fun v o m3 ⟨c, e1, e2, e3, e4, e5, h⟩ => by
      obtain ⟨oc, ot, oo, od⟩ := o
      obtain ⟨vt, vo, vd⟩ := v
      subst e1 e2 e3 e4 e5
      have h5 := (h1.pair h2).pair h
      refine Outcome.pure ⟨?_, hs'.mono h5.1, rfl, rfl⟩
      refine h5.perm ?_ ?_
      · change (View.com.objs oc ++ (View.com.objs ot ++ (View.opening.list.objs oo ++ (View.omap View.dealing).objs od))).Perm
          (((View.omap View.dealing).objs od ++ View.com.objs ot) ++ (View.opening.list.objs oo ++ View.com.objs oc))
        exact perm_parts _ _ _ _
      · have e := h5.2.2.2
        exact Prod.ext (congrArg (·.2.2) e) (Prod.ext (Option.some.inj (congrArg (·.1.2) e)) (Prod.ext (congrArg (·.2.1) e) (congrArg (·.1.1) e)))
  refine (h4.use ?_ fun _ _ _ h => h)
  simp only [bind_assoc]
  rfl

end Verif.Heap
