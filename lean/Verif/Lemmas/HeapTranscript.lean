import Verif.Lemmas.HeapDealings

/-!
Combining dealings and openings on memory does what it does on values, and changes nothing that existed.
-/

set_option autoImplicit false

namespace Verif.Heap

variable {ο ν ο' ν' α β γ δ : Type} {E : Mem → Prop} {m m0 m1 m' : Mem}

theorem at_data {x y : α} : At View.data m x y ↔ x = y := by simp [At, Has, View.data]

theorem Outcome.map {g : Go α} {r : Res β} {R : β → α → Mem → Prop} {f : β → δ} (h : Outcome E g m r R) :
    Outcome E g m (r >>= fun v => .ok (f v)) (fun v' a m' => ∃ v, v' = f v ∧ R v a m') := by
  cases r with
  | ok v =>
    obtain ⟨a, m', e, h⟩ := h
    exact ⟨a, m', e, v, rfl, h⟩
  | err e => exact h
  | panic e => exact h
  | diverge => exact h

theorem omap_keys {V : View ο ν} {os : List (NodeIndex × ο)} {vs : List (NodeIndex × ν)} (h : At (View.omap V) m os vs) :
    os.map Prod.fst = vs.map Prod.fst := by
  rw [← h.2]
  simp [View.omap, View.list, View.prod, View.data]

theorem Ret.pts {vs : List Pt} {cs : List Addr} (h : Ret View.pt.list m vs cs m') : RetPts m vs cs m' := by
  refine ⟨h.1, fun c hc => ?_, ?_, h.2.2.2⟩
  · exact h.2.1 (.pt c) (by rw [objs_list_pt]; exact List.mem_map_of_mem hc)
  · have := h.2.2.1
    rw [objs_list_pt] at this
    exact List.Nodup.of_map _ this

/-! ### Interpolation -/

theorem interpolatePoint_ret {l y : List Addr} {vl : List Fn} {vy : List Pt} (hl : At View.sc.list m l vl)
    (hy : At View.pt.list m y vy) :
    Outcome (Writes ∅ m) (interpolatePoint l y) m (Lagr.interpolatePoint vl vy) (Ret View.pt m) := by
  obtain ⟨h1, rfl⟩ := at_list_sc.1 hl
  obtain ⟨h2, rfl⟩ := at_list_pt.1 hy
  exact (interpolatePoint_spec l y m h1 h2).mono fun _ _ _ h => h.ret

theorem interpolateScalar_ret {l y : List Addr} {vl vy : List Fn} (hl : At View.sc.list m l vl)
    (hy : At View.sc.list m y vy) :
    Outcome (Writes ∅ m) (interpolateScalar l y) m (Lagr.interpolateScalar vl vy) (Ret View.sc m) := by
  obtain ⟨h1, rfl⟩ := at_list_sc.1 hl
  obtain ⟨h2, rfl⟩ := at_list_sc.1 hy
  exact (interpolateScalar_spec l y m h1 h2).mono fun _ _ _ h => h.ret

theorem atZero_ret (xs : List NodeIndex) :
    Outcome (Writes ∅ m) (atZero xs) m (Lagr.atZero xs) (Ret View.sc.list m) :=
  (atZero_spec xs m).mono fun _ _ _ h => h.ret

theorem atValue_ret {x : Addr} {v : Fn} (hx : At View.sc m x v) (xs : List NodeIndex) :
    Outcome (Writes ∅ m) (atValue x xs) m (Lagr.atValue v xs) (Ret View.sc.list m) := by
  obtain ⟨h1, rfl⟩ := at_sc.1 hx
  exact (atValue_spec x xs m h1).mono fun _ _ _ h => h.ret

theorem interpolateAll_ret {l : List Addr} {vl : List Fn} {cs : List CommitmentObj} {vcs : List Commitment} (n : Nat)
    (hl : At View.sc.list m l vl) (hc : At View.commitment.list m cs vcs) :
    Outcome (Writes ∅ m) (interpolateAll l cs n) m (Dealings.interpolateAll vl vcs n) (Ret View.pt.list m) := by
  refine mapM'_ret (I := fun m' => Writes ∅ m m') (fun _ _ h h' => h.trans_empty h') ?_ (Writes.refl _ _)
  intro i _ m1 w1
  refine Outcome.bind (mapM'_pick (V' := View.pt) ?_ (hc.mono w1)) ?_
  · intro o v h
    exact (index_at (at_commitment.1 h).2 i (Writes.refl _ _)).mono fun _ _ _ h => ⟨h.1, h.2.2.2⟩
  · rintro vs os m1 ⟨rfl, h⟩
    exact interpolatePoint_ret (hl.mono w1) h

attribute [local irreducible] Lagr.atZero Lagr.atValue Dealings.interpolateAll Lagr.interpolateScalar Lagr.interpolatePoint

theorem ret_com {w : Dealings.Wrap} {o : CommitmentObj} {v : Commitment} (h : Ret View.commitment m v o m') :
    Ret View.com m ⟨w, v⟩ ⟨w, o⟩ m' := by
  refine ⟨h.1, ?_, ?_, ?_⟩
  · intro x hx
    exact h.2.1 x (by simpa [View.com, View.via, View.prod, View.data] using hx)
  · simpa [View.com, View.via, View.prod, View.data] using h.2.2.1
  · exact congrArg (Dealings.Com.mk w) h.2.2.2

theorem at_dealings_cases {i : NodeIndex} {o : DealingObj} {rest : List (NodeIndex × DealingObj)}
    {vs : List (NodeIndex × Dealings.Dealing)} (h : At (View.omap View.dealing) m ((i, o) :: rest) vs) :
    ∃ v vrest, vs = (i, v) :: vrest ∧ At View.dealing m o v ∧ At (View.omap View.dealing) m rest vrest := by
  rcases At.cases h with ⟨e, -⟩ | ⟨_, _, ⟨j, v⟩, vs', e, rfl, h1, h2⟩
  · cases e
  cases e
  obtain ⟨h3, h4⟩ := at_prod.1 h1
  obtain rfl : i = j := at_data.1 h3
  exact ⟨v, vs', rfl, h4, h2⟩

theorem combineViaInterpolation_ret {k : Kind} {threshold : Int} {ds : List (NodeIndex × DealingObj)}
    {vds : Dealings.DealingMap} (hd : At (View.omap View.dealing) m ds vds) :
    Outcome (Writes ∅ m) (combineViaInterpolation k threshold ds) m
      (Dealings.combineViaInterpolation k threshold vds) (Ret View.com m) := by
  unfold combineViaInterpolation Dealings.combineViaInterpolation
  rw [omap_keys hd]
  refine Outcome.call (mapM'_at (V' := View.commitment) (I := fun _ => True) (fun _ _ _ _ => trivial) ?_ trivial hd)
    (Writes.refl _ _) fun vcs cs m1 r1 w1 => ?_
  · rintro ⟨i, d⟩ ⟨j, vd⟩ m _ h
    have hn := nonNil_at (at_dealing.1 (at_prod.1 h).2).2.1 (Writes.refl ∅ m)
    have hb : Dealings.nonNil vd.commitment = Dealings.nonNil vd.commitment >>= fun c => .ok c := by
      cases vd.commitment <;> rfl
    change Outcome _ _ _ (Dealings.nonNil vd.commitment) _
    rw [hb]
    refine Outcome.bind hn ?_
    · rintro ⟨k, vs⟩ ⟨k', ps⟩ m ⟨rfl, hc⟩
      obtain ⟨rfl, hp⟩ : k' = k ∧ At View.pt.list m ps vs := at_commitment.1 hc
      obtain ⟨h1, rfl⟩ := at_list_pt.1 hp
      refine Outcome.call_ok (V := View.pt.list) ((cloneCommitment_spec ps m h1).mono fun _ _ _ h => h.ret)
        (Writes.refl _ _) fun qs m1 r1 w1 => ?_
      exact Outcome.pure (ret_commitment r1)
  refine Outcome.call (atZero_ret _) w1 fun vl l m2 r2 w2 => ?_
  by_cases h : threshold < 0
  · rw [if_pos h, if_pos h]
    exact Outcome.panic w2
  rw [if_neg h, if_neg h]
  refine Outcome.call (interpolateAll_ret _ r2.at (r1.upto r2.1).at) w2 fun vs ps m3 r3 w3 => ?_
  exact Outcome.pure (ret_com (ret_commitment (r3.since w2)))

/-! ### Sums of commitments -/

theorem checkLengths_at {threshold : Int} {ds : List (NodeIndex × DealingObj)} {vds : Dealings.DealingMap}
    (hd : At (View.omap View.dealing) m ds vds) (w : Writes ∅ m0 m) :
    Outcome (Writes ∅ m0) (checkLengths threshold ds) m (Dealings.checkLengths threshold vds)
      (fun _ _ m' => m' = m) := by
  induction ds generalizing vds with
  | nil =>
    rw [at_nil.1 hd]
    exact Outcome.pure rfl
  | cons x ds ih =>
    obtain ⟨i, d⟩ := x
    obtain ⟨v, vrest, rfl, h1, h2⟩ := at_dealings_cases hd
    refine Outcome.bind (nonNil_at (at_dealing.1 h1).2.1 w) ?_
    rintro vcm cm m ⟨rfl, hcm⟩
    rw [(at_commitment.1 hcm).2.length]
    by_cases h : (vcm.points.length : Int) ≠ threshold
    · rw [if_pos h, if_pos h]
      exact Outcome.err w
    · rw [if_neg h, if_neg h]
      exact ih h2

/-- The objects in `as` were made since `m0`. -/
theorem addInto_spec {as bs : List Addr} {vas vbs : List Pt} (h : RetPts m0 vas as m) (hb : At View.pt.list m0 bs vbs) :
    Outcome (Writes ∅ m0) (addInto as bs) m (Dealings.addInto vas vbs)
      (fun v _ m' => RetPts m0 v as m' ∧ Writes {o | ∃ a ∈ as, o = .pt a} m m') := by
  induction as generalizing m bs vas vbs with
  | nil =>
    obtain rfl : [] = vas := h.2.2.2
    exact Outcome.pure ⟨h, Writes.refl _ _⟩
  | cons a as ih =>
    obtain ⟨w, hn, hd, rfl⟩ := h
    rcases hb.cases with ⟨rfl, rfl⟩ | ⟨b, bs', vb, vbs', rfl, rfl, h1, h2⟩
    · exact ⟨m, rfl, w⟩
    obtain ⟨hna, hda⟩ := List.nodup_cons.1 hd
    have ha := hn a (by simp)
    refine Outcome.addPt ?_
    have hb1 := at_pt.1 (h1.mono w)
    rw [hb1.2]
    have w1 : Writes ∅ m0 (m.setPt a (m.pt a + vb)) := w.setPt (.inr ha.1)
    have hne : ∀ c ∈ as, c ≠ a := fun c hc e => hna (e ▸ hc)
    have htail : RetPts m0 (as.map m.pt) as (m.setPt a (m.pt a + vb)) := by
      refine ⟨w1, fun c hc => ?_, hda, ?_⟩
      · have := hn c (List.mem_cons_of_mem _ hc)
        simpa [New] using this
      · refine List.map_congr_left fun c hc => ?_
        simp [Mem.setPt, hne c hc]
    refine (Outcome.map (f := fun rest => (m.pt a + vb) :: rest) (ih htail h2)).mono ?_
    rintro _ _ m2 ⟨v, rfl, r2, w2⟩
    have e : m2.pt a = m.pt a + vb := by
      rw [w2.pt a (by simpa using ha.2) (by rintro ⟨c, hc, e⟩; cases e; exact hna hc)]
      simp [Mem.setPt]
    refine ⟨⟨r2.1, fun c hc => ?_, hd, by simp [e, r2.2.2.2]⟩, ?_⟩
    · have h3 := hn c hc
      have h4 := w2.next
      simp only [New, Mem.setPt_next] at h3 h4 ⊢
      omega
    · have w3 : Writes {o | ∃ c ∈ a :: as, o = .pt c} m (m.setPt a (m.pt a + vb)) :=
        (Writes.refl _ m).setPt (.inl ⟨a, by simp, rfl⟩)
      refine w3.trans w2 ?_
      rintro o - ⟨c, hc, rfl⟩
      exact ⟨c, List.mem_cons_of_mem _ hc, rfl⟩

theorem sumLoop_spec {as : List Addr} {vas : List Pt} {ds : List (NodeIndex × DealingObj)} {vds : Dealings.DealingMap}
    (h : RetPts m0 vas as m) (hd : At (View.omap View.dealing) m0 ds vds) :
    Outcome (Writes ∅ m0) (sumLoop as ds) m (Dealings.sumLoop vas vds) (fun v _ m' => RetPts m0 v as m') := by
  induction ds generalizing m vas vds with
  | nil =>
    rw [at_nil.1 hd]
    exact Outcome.pure h
  | cons x ds ih =>
    obtain ⟨i, d⟩ := x
    obtain ⟨v, vrest, rfl, h1, h2⟩ := at_dealings_cases hd
    have hc0 := (at_dealing.1 h1).2.1
    rcases at_opt.1 hc0 with ⟨e1, e2⟩ | ⟨cm, vcm, e1, e2, hcm⟩
    · unfold sumLoop Dealings.sumLoop
      rw [e1, e2]
      exact ⟨m, rfl, h.1⟩
    unfold sumLoop Dealings.sumLoop
    rw [e1, e2]
    refine Outcome.bind (R := fun v o m' => v = vcm ∧ o = cm ∧ m' = m) ⟨cm, m, rfl, rfl, rfl, rfl⟩ ?_
    rintro vcm cm m ⟨rfl, rfl, rfl⟩
    rw [(at_commitment.1 hcm).1]
    by_cases hk : vcm.kind ≠ .pedersen
    · rw [if_pos hk, if_pos hk]
      exact Outcome.err h.1
    rw [if_neg hk, if_neg hk]
    refine Outcome.bind (addInto_spec h (at_commitment.1 hcm).2) ?_
    rintro v _ m2 ⟨h3, -⟩
    exact ih h3 h2

attribute [local irreducible] Dealings.combineViaInterpolation Dealings.sumLoop Dealings.checkLengths

theorem newTranscript_ret {threshold : Int} {ds : List (NodeIndex × DealingObj)} {vds : Dealings.DealingMap}
    {op : OpObj} {vop : Dealings.Op} (hd : At (View.omap View.dealing) m ds vds) (hop : At View.op m op vop) :
    Outcome (Writes ∅ m) (newTranscript threshold ds op) m (Dealings.newTranscript threshold vds vop)
      (Ret View.com.opt m) := by
  unfold newTranscript Dealings.newTranscript
  have w0 := Writes.refl ∅ m
  refine Outcome.bind (checkLengths_at hd w0) ?_
  rintro _ _ m rfl
  have hop' := at_op hop
  have hlen : ds.length = vds.length := At.length hd
  rcases op with _ | p | p | ⟨l, r⟩ | _ <;> rcases vop with _ | x | x | ⟨x, y⟩ | _ <;> first | exact hop'.elim | skip
  · dsimp only
    by_cases h : threshold < 0
    · rw [if_pos h, if_pos h]
      exact Outcome.panic w0
    rw [if_neg h, if_neg h]
    have hloop : Outcome (Writes ∅ m) (Go.mapM' (fun _ => newPt 0) (List.range threshold.toNat)) m
        (.ok (List.replicate threshold.toNat (0 : Pt))) (Ret View.pt.list m) := by
      have e : List.replicate threshold.toNat (0 : Pt) = (List.range threshold.toNat).map fun _ => 0 := by simp
      rw [e, ← Res.mapM'_ok (g := fun _ : Nat => (0 : Pt)) fun _ _ => rfl]
      exact mapM'_ret (I := fun _ => True) (fun _ _ _ _ => trivial) (fun _ _ _ _ => newPt_ret 0) trivial
    refine Outcome.call_ok hloop w0 fun cs m1 r1 w1 => ?_
    refine Outcome.bind (sumLoop_spec r1.pts hd) fun vs _ m2 r2 => ?_
    exact Outcome.pure (ret_com (ret_commitment r2.ret)).some
  · obtain ⟨hk, hp⟩ := at_commitment.1 (at_com.1 hop').2
    dsimp only
    rw [hk, hp.length, hlen]
    by_cases h1 : x.c.kind ≠ .pedersen
    · rw [if_pos h1, if_pos h1]
      exact Outcome.err w0
    rw [if_neg h1, if_neg h1]
    by_cases h2 : vds.length < x.c.points.length
    · rw [if_pos h2, if_pos h2]
      exact Outcome.err w0
    rw [if_neg h2, if_neg h2]
    refine Outcome.call (combineViaInterpolation_ret hd) w0 fun c c' m1 r1 w1 => ?_
    exact Outcome.pure r1.some
  · obtain ⟨hk, hp⟩ := at_commitment.1 (at_com.1 hop').2
    dsimp only
    rw [hk, hp.length, hlen]
    by_cases h1 : x.c.kind ≠ .simple
    · rw [if_pos h1, if_pos h1]
      exact Outcome.err w0
    rw [if_neg h1, if_neg h1]
    by_cases h2 : vds.length < x.c.points.length
    · rw [if_pos h2, if_pos h2]
      exact Outcome.err w0
    rw [if_neg h2, if_neg h2]
    refine Outcome.call (combineViaInterpolation_ret hd) w0 fun c c' m1 r1 w1 => ?_
    refine Outcome.bind (index_at (hp.mono w1) 0 w1) ?_
    rintro a a' m1 ⟨rfl, -, -, ha⟩
    refine Outcome.bind (index_at (at_commitment.1 (at_com.1 r1.at).2).2 0 w1) ?_
    rintro b b' m1 ⟨rfl, -, -, hb⟩
    refine Outcome.getPt ha (Outcome.getPt hb ?_)
    by_cases h3 : a ≠ b
    · rw [if_pos h3, if_pos h3]
      exact Outcome.err w1
    · rw [if_neg h3, if_neg h3]
      exact Outcome.pure r1.some
  · obtain ⟨hk, hp⟩ := at_commitment.1 (at_com.1 hop'.1).2
    obtain ⟨hk', hp'⟩ := at_commitment.1 (at_com.1 hop'.2).2
    dsimp only
    rw [hk, hp.length, hk', hp'.length, hlen]
    by_cases h1 : x.c.kind ≠ .simple ∨ y.c.kind ≠ .pedersen
    · rw [if_pos h1, if_pos h1]
      exact Outcome.err w0
    rw [if_neg h1, if_neg h1]
    by_cases h2 : (vds.length : Int) < x.c.points.length + y.c.points.length - 1
    · rw [if_pos h2, if_pos h2]
      exact Outcome.err w0
    rw [if_neg h2, if_neg h2]
    refine Outcome.call (combineViaInterpolation_ret hd) w0 fun c c' m1 r1 w1 => ?_
    exact Outcome.pure r1.some
  · exact Outcome.pure (Ret.none w0)

/-! ### Openings -/

theorem at_opening {o : OpeningObj} {v : Opening} (h : At View.opening m o v) :
    match (generalizing := false) o, v with
    | .simple s, .simple x => At View.sc m s x
    | .simplePtr s, .simplePtr x => At View.sc m s x
    | .pedersen s k, .pedersen x y => At View.sc m s x ∧ At View.sc m k y
    | .pedersenPtr s k, .pedersenPtr x y => At View.sc m s x ∧ At View.sc m k y
    | _, _ => False := by
  obtain ⟨h, rfl⟩ := h
  cases o with
  | simple s => exact ⟨h, rfl⟩
  | simplePtr s => exact ⟨h, rfl⟩
  | pedersen s k =>
    have h' : Has (View.sc.prod View.sc) m (s, k) := h
    exact at_prod.1 h'.at
  | pedersenPtr s k =>
    have h' : Has (View.sc.prod View.sc) m (s, k) := h
    exact at_prod.1 h'.at

theorem collectSimple_at {os : List (NodeIndex × OpeningObj)} {vs : Dealings.OpeningMap}
    (h : At (View.omap View.opening) m os vs) (w : Writes ∅ m0 m) :
    Outcome (Writes ∅ m0) (collectSimple os) m (Dealings.collectSimple vs)
      (fun v o m' => m' = m ∧ o.1 = v.1 ∧ At View.sc.list m o.2 v.2) := by
  induction os generalizing vs with
  | nil =>
    rw [at_nil.1 h]
    exact Outcome.pure ⟨rfl, rfl, at_nil.2 rfl⟩
  | cons x os ih =>
    obtain ⟨i, o⟩ := x
    rcases At.cases h with ⟨e, -⟩ | ⟨_, _, ⟨j, v⟩, vs', e, rfl, h1, h2⟩
    · cases e
    cases e
    obtain ⟨h3, h4⟩ := at_prod.1 h1
    obtain rfl : i = j := at_data.1 h3
    have h5 := at_opening h4
    have ih' := ih h2
    cases o <;> cases v <;> first | exact h5.elim | exact Outcome.err w | exact ih' | skip
    refine Outcome.bind ih' ?_
    rintro ⟨xs, vs⟩ ⟨ys, os⟩ m ⟨rfl, e, h6⟩
    exact Outcome.pure ⟨rfl, congrArg _ e, at_cons.2 ⟨h5, h6⟩⟩

theorem collectPedersen_at {os : List (NodeIndex × OpeningObj)} {vs : Dealings.OpeningMap}
    (h : At (View.omap View.opening) m os vs) (w : Writes ∅ m0 m) :
    Outcome (Writes ∅ m0) (collectPedersen os) m (Dealings.collectPedersen vs)
      (fun v o m' => m' = m ∧ o.1 = v.1 ∧ At View.sc.list m o.2.1 v.2.1 ∧ At View.sc.list m o.2.2 v.2.2) := by
  induction os generalizing vs with
  | nil =>
    rw [at_nil.1 h]
    exact Outcome.pure ⟨rfl, rfl, at_nil.2 rfl, at_nil.2 rfl⟩
  | cons x os ih =>
    obtain ⟨i, o⟩ := x
    rcases At.cases h with ⟨e, -⟩ | ⟨_, _, ⟨j, v⟩, vs', e, rfl, h1, h2⟩
    · cases e
    cases e
    obtain ⟨h3, h4⟩ := at_prod.1 h1
    obtain rfl : i = j := at_data.1 h3
    have h5 := at_opening h4
    have ih' := ih h2
    cases o <;> cases v <;> first | exact h5.elim | exact Outcome.err w | exact ih' | skip
    refine Outcome.bind ih' ?_
    rintro ⟨xs, vs, ms⟩ ⟨ys, os, ks⟩ m ⟨rfl, e, h6, h7⟩
    exact Outcome.pure ⟨rfl, congrArg _ e, at_cons.2 ⟨h5.1, h6⟩, at_cons.2 ⟨h5.2, h7⟩⟩

/-- The opening was made since `m0`. -/
theorem returnOpening_new {c : CommitmentObj} {o : OpeningObj} {vc : Commitment} {vo : Opening} {i : NodeIndex}
    (hc : At View.commitment m c vc) (ho : Ret View.opening m0 vo o m) :
    Outcome (Writes ∅ m0) (returnOpeningIfConsistent c i o) m (vc.returnOpeningIfConsistent i vo)
      (Ret View.opening m0) := by
  refine ((returnOpeningIfConsistent_ret hc ho.at).after ho.1).mono ?_
  rintro v o m' ⟨w, rfl, h⟩
  exact ⟨ho.1.trans_empty w, (ho.upto w).2.1, ho.2.2.1, h.2⟩

theorem reconstructShare_ret {d : DealingObj} {vd : Dealings.Dealing} {os : List (NodeIndex × OpeningObj)}
    {vos : Dealings.OpeningMap} {i : NodeIndex} (hd : At View.dealing m d vd) (ho : At (View.omap View.opening) m os vos) :
    Outcome (Writes ∅ m) (reconstructShare d os i) m (Dealings.reconstructShare vd vos i) (Ret View.opening m) := by
  unfold reconstructShare Dealings.reconstructShare
  have w0 := Writes.refl ∅ m
  refine Outcome.bind (nonNil_at (at_dealing.1 hd).2.1 w0) ?_
  rintro vcm cm m ⟨rfl, hcm⟩
  obtain ⟨hk, hp⟩ := at_commitment.1 hcm
  have hlen : os.length = vos.length := At.length ho
  rw [hk, hp.length, hlen]
  by_cases h1 : vos.length < vcm.points.length
  · rw [if_pos h1, if_pos h1]
    exact Outcome.err w0
  rw [if_neg h1, if_neg h1]
  refine Outcome.bind (curveType_at hcm w0) ?_
  rintro _ _ m ⟨rfl, -⟩
  refine Outcome.call_ok (newSc_ret _) w0 fun x m1 r1 w1 => ?_
  rcases hk' : vcm.kind with _ | _ <;> dsimp only
  · refine Outcome.bind (collectSimple_at (ho.mono w1) w1) ?_
    rintro ⟨xs, vs⟩ ⟨ys, ps⟩ m1 ⟨rfl, e, h2⟩
    obtain rfl : ys = xs := e
    refine Outcome.call (atValue_ret r1.at _) w1 fun vl l m2 r2 w2 => ?_
    refine Outcome.call (interpolateScalar_ret r2.at (h2.mono r2.1)) w2 fun v o m3 r3 w3 => ?_
    exact returnOpening_new (hcm.mono w3) (ret_simple (r3.since w2))
  · refine Outcome.bind (collectPedersen_at (ho.mono w1) w1) ?_
    rintro ⟨xs, vs, ms⟩ ⟨ys, ps, ks⟩ m1 ⟨rfl, e, h2, h3⟩
    obtain rfl : ys = xs := e
    refine Outcome.call (atValue_ret r1.at _) w1 fun vl l m2 r2 w2 => ?_
    refine Outcome.call (interpolateScalar_ret r2.at (h2.mono r2.1)) w2 fun v o m3 r3 w3 => ?_
    refine Outcome.call (interpolateScalar_ret (r2.upto r3.1).at ((h3.mono r2.1).mono r3.1)) w3
      fun k q m4 r4 w4 => ?_
    exact returnOpening_new (hcm.mono w4) (ret_pedersen ((r3.pair r4).since w2))

theorem transcriptConstantTerm_ret {t : Option ComObj} {vt : Option Dealings.Com} (h : At View.com.opt m t vt) :
    Outcome (Writes ∅ m) (transcriptConstantTerm t) m (Dealings.constantTerm vt) (Ret View.pt m) := by
  refine Outcome.bind (nonNil_at h (Writes.refl _ _)) ?_
  rintro v o m ⟨rfl, h⟩
  exact constantTerm_ret (at_com.1 h).2

theorem transcriptEvaluateAt_ret {t : Option ComObj} {vt : Option Dealings.Com} (h : At View.com.opt m t vt)
    (i : NodeIndex) :
    Outcome (Writes ∅ m) (transcriptEvaluateAt t i) m (Dealings.transcriptEvaluateAt vt i) (Ret View.pt m) := by
  refine Outcome.bind (nonNil_at h (Writes.refl _ _)) ?_
  rintro v o m ⟨rfl, h⟩
  exact commitment_evaluateAt_ret (at_com.1 h).2 i

/-! ### dealings/commitment.go -/

section Open

variable {P : Prim} {ad : Bytes} {sk pk : Addr} {vsk : Fn} {vpk : Pt}

attribute [local irreducible] Mega.Single.decrypt Mega.Pair.decrypt Mega.Single.decryptAndCheck
  Mega.Pair.decryptAndCheck Dealings.Cipher.decryptAndCheck

theorem openDealing_ret {d : DealingObj} {vd : Dealings.Dealing} {dealer opener : NodeIndex}
    (hd : At View.dealing m d vd) (hs : At View.sc m sk vsk) (hk : At View.pt m pk vpk) :
    Outcome (Writes ∅ m) (openDealing P d ad dealer opener sk pk) m
      (Dealings.openDealing P vd ad dealer opener vsk vpk) (Ret View.opening m) := by
  unfold openDealing Dealings.openDealing
  have w0 := Writes.refl ∅ m
  obtain ⟨hct, hcm, -⟩ := at_dealing.1 hd
  refine Outcome.bind (nonNil_at hct w0) ?_
  rintro vct ct m ⟨rfl, hct⟩
  rcases at_opt.1 hcm with ⟨e1, e2⟩ | ⟨cm, vcm, e1, e2, hcm⟩ <;> rw [e1, e2]
  · have h' := at_cipher hct
    cases ct <;> cases vct <;> first | exact h'.elim | skip
    · refine Outcome.call (decryptSingle_ret h' hs hk) w0 fun _ _ m1 _ w1 => ?_
      exact Outcome.panic w1
    · refine Outcome.call (decryptPair_ret h' hs hk) w0 fun _ _ m1 _ w1 => ?_
      exact Outcome.panic w1
  · exact decryptAndCheck_ret hct hcm hs hk

/-- The objects `v` and `k` were made since `m0`. -/
theorem sumOpenings_spec {v k : Addr} {x y : Fn} {os : List OpeningObj} {vos : List Opening}
    (ho : At View.opening.list m0 os vos) (w : Writes ∅ m0 m) (hv : At View.sc m v x) (hk : At View.sc m k y)
    (nv : m0.next ≤ v) (nk : m0.next ≤ k) (hne : v ≠ k) :
    Outcome (Writes ∅ m0) (sumOpenings v k os) m (Dealings.sumOpenings x y vos)
      (fun r _ m' => Writes ∅ m0 m' ∧ At View.sc m' v r.1 ∧ At View.sc m' k r.2) := by
  induction os generalizing m vos x y with
  | nil =>
    rw [at_nil.1 ho]
    exact Outcome.pure ⟨w, hv, hk⟩
  | cons o os ih =>
    rcases ho.cases with ⟨e, -⟩ | ⟨_, _, u, vos', e, rfl, h1, h2⟩
    · cases e
    cases e
    have h3 := at_opening h1
    cases o <;> cases u <;> first | exact h3.elim | exact Outcome.err w | skip
    refine Outcome.addSc_step hv (h3.1.mono w) nv w fun m1 w1 w01 hv1 => ?_
    refine Outcome.addSc_step (hk.write_sc w1 (at_notMem_sc hne)) (h3.2.mono w01) nk w01 fun m2 w2 w02 hk2 => ?_
    have ih' := ih h2 w02 (hv1.write_sc w2 (at_notMem_sc (Ne.symm hne))) hk2
    exact ih'

theorem gatherSimple_at {ds : List NodeIndex} {os : List OpeningObj} {vs : List Opening}
    (h : At View.opening.list m os vs) (w : Writes ∅ m0 m) :
    Outcome (Writes ∅ m0) (gatherSimple ds os) m (Dealings.gatherSimple ds vs)
      (fun v o m' => m' = m ∧ o.1 = v.1 ∧ At View.sc.list m o.2 v.2) := by
  induction os generalizing vs ds with
  | nil =>
    rw [at_nil.1 h]
    cases ds <;> exact Outcome.pure ⟨rfl, rfl, at_nil.2 rfl⟩
  | cons o os ih =>
    rcases h.cases with ⟨e, -⟩ | ⟨_, _, v, vs', e, rfl, h1, h2⟩
    · cases e
    cases e
    have h5 := at_opening h1
    cases ds with
    | nil => exact ⟨m, rfl, w⟩
    | cons i ds =>
      cases o <;> cases v <;> first | exact h5.elim | exact Outcome.err w | skip
      refine Outcome.bind (ih h2) ?_
      rintro ⟨xs, vs⟩ ⟨ys, os⟩ m ⟨rfl, e, h6⟩
      exact Outcome.pure ⟨rfl, congrArg _ e, at_cons.2 ⟨h5, h6⟩⟩

theorem gatherPedersen_at {ds : List NodeIndex} {os : List OpeningObj} {vs : List Opening}
    (h : At View.opening.list m os vs) (w : Writes ∅ m0 m) :
    Outcome (Writes ∅ m0) (gatherPedersen ds os) m (Dealings.gatherPedersen ds vs)
      (fun v o m' => m' = m ∧ o.1 = v.1 ∧ At View.sc.list m o.2.1 v.2.1 ∧ At View.sc.list m o.2.2 v.2.2) := by
  induction os generalizing vs ds with
  | nil =>
    rw [at_nil.1 h]
    cases ds <;> exact Outcome.pure ⟨rfl, rfl, at_nil.2 rfl, at_nil.2 rfl⟩
  | cons o os ih =>
    rcases h.cases with ⟨e, -⟩ | ⟨_, _, v, vs', e, rfl, h1, h2⟩
    · cases e
    cases e
    have h5 := at_opening h1
    cases ds with
    | nil => exact ⟨m, rfl, w⟩
    | cons i ds =>
      cases o <;> cases v <;> first | exact h5.elim | exact Outcome.err w | skip
      refine Outcome.bind (ih h2) ?_
      rintro ⟨xs, vs, ms⟩ ⟨ys, os, ks⟩ m ⟨rfl, e, h6, h7⟩
      exact Outcome.pure ⟨rfl, congrArg _ e, at_cons.2 ⟨h5.1, h6⟩, at_cons.2 ⟨h5.2, h7⟩⟩

theorem combineOpenings_ret {ds : List NodeIndex} {os : List OpeningObj} {vos : List Opening} {t : Option ComObj}
    {vt : Option Dealings.Com} {i : NodeIndex} (ho : At View.opening.list m os vos) (ht : At View.com.opt m t vt) :
    Outcome (Writes ∅ m) (combineOpenings ds os t i) m (Dealings.combineOpenings ds vos vt i) (Ret View.opening m) := by
  have w0 := Writes.refl ∅ m
  rcases at_opt.1 ht with ⟨rfl, rfl⟩ | ⟨⟨w, c⟩, ⟨w', vc⟩, rfl, rfl, hw⟩
  · exact ⟨m, rfl, w0⟩
  obtain ⟨e, hc⟩ := at_com.1 hw
  obtain rfl : w = w' := e
  have hk : c.kind = vc.kind := (at_commitment.1 hc).1
  dsimp only at hc
  cases w
  · exact ⟨m, rfl, w0⟩
  · refine Outcome.call_ok (newSc_ret 0) w0 fun v m1 r1 w1 => ?_
    refine Outcome.call_ok (newSc_ret 0) w1 fun k m2 r2 w2 => ?_
    have hne : v ≠ k := by
      have := r1.new_sc
      have := r2.new_sc
      omega
    have nk : m.next ≤ k := w1.next.trans r2.new_sc.1
    refine Outcome.bind (sumOpenings_spec ho w2 (r1.upto r2.1).at r2.at r1.new_sc.1 nk hne) ?_
    rintro ⟨x, y⟩ _ m3 ⟨w3, hv, hk⟩
    exact returnOpening_new (hc.mono w3) (ret_pedersen (ret_scs w3 hv hk r1.new_sc.1 nk hne))
  · unfold combineOpenings Dealings.combineOpenings
    dsimp only
    rw [hk]
    rcases hk' : vc.kind with _ | _ <;> dsimp only
    · refine Outcome.bind (gatherSimple_at ho w0) ?_
      rintro ⟨xs, vs⟩ ⟨ys, ps⟩ m ⟨rfl, e, h2⟩
      obtain rfl : ys = xs := e
      refine Outcome.call (atZero_ret _) w0 fun vl l m2 r2 w2 => ?_
      refine Outcome.call (interpolateScalar_ret r2.at (h2.mono r2.1)) w2 fun v o m3 r3 w3 => ?_
      exact returnOpening_new (hc.mono w3) (ret_simple (r3.since w2))
    · refine Outcome.bind (gatherPedersen_at ho w0) ?_
      rintro ⟨xs, vs, ms⟩ ⟨ys, ps, ks⟩ m ⟨rfl, e, h2, h3⟩
      obtain rfl : ys = xs := e
      refine Outcome.call (atZero_ret _) w0 fun vl l m2 r2 w2 => ?_
      refine Outcome.call (interpolateScalar_ret r2.at (h2.mono r2.1)) w2 fun v o m3 r3 w3 => ?_
      refine Outcome.call (interpolateScalar_ret (r2.upto r3.1).at ((h3.mono r2.1).mono r3.1)) w3
        fun k q m4 r4 w4 => ?_
      exact returnOpening_new (hc.mono w4) (ret_pedersen ((r3.pair r4).since w2))

attribute [local irreducible] Dealings.openDealing Dealings.combineOpenings Dealings.reconstructShare

theorem fromDealings_ret {ds : List (NodeIndex × DealingObj)} {vds : Dealings.DealingMap} {t : Option ComObj}
    {vt : Option Dealings.Com} {i : NodeIndex} (hd : At (View.omap View.dealing) m ds vds) (ht : At View.com.opt m t vt)
    (hs : At View.sc m sk vsk) (hk : At View.pt m pk vpk) :
    Outcome (Writes ∅ m) (fromDealings P ds t ad i sk pk) m (Dealings.fromDealings P vds vt ad i vsk vpk)
      (Ret View.opening m) := by
  unfold fromDealings Dealings.fromDealings
  rw [omap_keys hd]
  refine Outcome.call (mapM'_at (V' := View.opening) (I := fun m' => Writes ∅ m m')
    (fun _ _ h h' => h.trans_empty h') ?_ (Writes.refl _ _) hd) (Writes.refl _ _) fun vos os m1 r1 w1 => ?_
  · rintro ⟨j, d⟩ ⟨j', vd⟩ m1 w1 h
    obtain ⟨h1, h2⟩ := at_prod.1 h
    obtain rfl : j = j' := at_data.1 h1
    exact openDealing_ret h2 (hs.mono w1) (hk.mono w1)
  · exact ((combineOpenings_ret r1.at (ht.mono w1)).after w1).mono fun _ _ _ h => h.since w1

theorem get_at {V : View ο ν} {os : List (NodeIndex × ο)} {vs : List (NodeIndex × ν)} (h : At (View.omap V) m os vs)
    (i : NodeIndex) : At V.opt m (OMap.get BitVec.toInt i os) (OMap.get BitVec.toInt i vs) := by
  induction os generalizing vs with
  | nil =>
    rw [at_nil.1 h]
    exact at_opt.2 (.inl ⟨rfl, rfl⟩)
  | cons x os ih =>
    obtain ⟨j, o⟩ := x
    rcases At.cases h with ⟨e, -⟩ | ⟨_, _, ⟨j', v⟩, vs', e, rfl, h1, h2⟩
    · cases e
    cases e
    obtain ⟨h3, h4⟩ := at_prod.1 h1
    obtain rfl : j = j' := at_data.1 h3
    unfold OMap.get
    by_cases h5 : i.toInt = j.toInt
    · rw [if_pos h5, if_pos h5]
      exact at_opt.2 (.inr ⟨o, v, rfl, rfl, h4⟩)
    · rw [if_neg h5, if_neg h5]
      exact ih h2

theorem fromDealingsAndOpenings_ret {ds : List (NodeIndex × DealingObj)} {vds : Dealings.DealingMap}
    {provided : List (NodeIndex × List (NodeIndex × OpeningObj))} {vprovided : List (NodeIndex × Dealings.OpeningMap)}
    {t : Option ComObj} {vt : Option Dealings.Com} {i : NodeIndex} (hd : At (View.omap View.dealing) m ds vds)
    (hp : At (View.omap (View.omap View.opening)) m provided vprovided) (ht : At View.com.opt m t vt)
    (hs : At View.sc m sk vsk) (hk : At View.pt m pk vpk) :
    Outcome (Writes ∅ m) (fromDealingsAndOpenings P ds provided t ad i sk pk) m
      (Dealings.fromDealingsAndOpenings P vds vprovided vt ad i vsk vpk) (Ret View.opening m) := by
  unfold fromDealingsAndOpenings Dealings.fromDealingsAndOpenings
  rw [omap_keys hd]
  refine Outcome.call (mapM'_at (V' := View.opening) (I := fun m' => Writes ∅ m m')
    (fun _ _ h h' => h.trans_empty h') ?_ (Writes.refl _ _) hd) (Writes.refl _ _) fun vos os m1 r1 w1 => ?_
  · rintro ⟨j, d⟩ ⟨j', vd⟩ m1 w1 h
    obtain ⟨h1, h2⟩ := at_prod.1 h
    obtain rfl : j = j' := at_data.1 h1
    have hg := get_at (hp.mono w1) j
    dsimp only at hg ⊢
    rcases at_opt.1 hg with ⟨e1, e2⟩ | ⟨o, v, e1, e2, h3⟩ <;> rw [e1, e2]
    · exact openDealing_ret h2 (hs.mono w1) (hk.mono w1)
    · exact reconstructShare_ret h2 h3
  · exact ((combineOpenings_ret r1.at (ht.mono w1)).after w1).mono fun _ _ _ h => h.since w1

end Open

end Verif.Heap
