import Verif.Lemmas.HeapZk

/-!
Encryption, decryption and opening checks on memory do what they do on values, and change nothing that existed.
-/

set_option autoImplicit false

namespace Verif.Heap

variable {ο ν α β γ δ : Type} {E : Mem → Prop} {m m0 m' : Mem}

attribute [local irreducible] Zk.Dlog.verify Zk.Dlog.create Scalar.random Scalar.fromSeed Seed.derive
  Mega.hashToScalars Mega.computePopBase

/-! ### Steps -/

theorem at_commitment {o : CommitmentObj} {v : Commitment} :
    At View.commitment m o v ↔ o.kind = v.kind ∧ At View.pt.list m o.points v.points := by
  obtain ⟨k, ps⟩ := v
  simp [At, Has, View.commitment, View.via, View.prod, View.data, Commitment.mk.injEq]
  tauto

theorem at_ciphertext {V : View ο ν} {o : CiphertextObj ο} {v : Mega.Ciphertext ν} :
    At (View.ciphertext V) m o v ↔ At View.pt m o.ephemeralKey v.ephemeralKey ∧
      At View.pt m o.popPublicKey v.popPublicKey ∧ At View.proof m o.popProof v.popProof ∧
      At V.list m o.ctexts v.ctexts := by
  obtain ⟨a, b, c, d⟩ := v
  constructor
  · rintro ⟨h, e⟩
    obtain ⟨e1, e2, e3, e4⟩ := Mega.Ciphertext.mk.inj e
    have h' : At (View.pt.prod (View.pt.prod (View.proof.prod V.list))) m
        (o.ephemeralKey, o.popPublicKey, o.popProof, o.ctexts) (a, b, c, d) :=
      ⟨h, Prod.ext e1 (Prod.ext e2 (Prod.ext e3 e4))⟩
    exact ⟨(at_prod.1 h').1, (at_prod.1 (at_prod.1 h').2).1, (at_prod.1 (at_prod.1 (at_prod.1 h').2).2).1,
      (at_prod.1 (at_prod.1 (at_prod.1 h').2).2).2⟩
  · rintro ⟨h1, h2, h3, h4⟩
    have h' : At (View.pt.prod (View.pt.prod (View.proof.prod V.list))) m
        (o.ephemeralKey, o.popPublicKey, o.popProof, o.ctexts) (a, b, c, d) :=
      at_prod.2 ⟨h1, at_prod.2 ⟨h2, at_prod.2 ⟨h3, h4⟩⟩⟩
    exact ⟨h'.1, congrArg (fun v : Pt × Pt × Zk.Proof × List ν => (⟨v.1, v.2.1, v.2.2.1, v.2.2.2⟩ : Mega.Ciphertext ν))
      h'.2⟩

theorem ret_ciphertext {V : View ο ν} {a b : Addr} {c : ProofObj} {d : List ο} {va vb : Pt} {vc : Zk.Proof}
    {vd : List ν} (h : Ret (View.pt.prod (View.pt.prod (View.proof.prod V.list))) m (va, vb, vc, vd) (a, b, c, d) m') :
    Ret (View.ciphertext V) m ⟨va, vb, vc, vd⟩ ⟨a, b, c, d⟩ m' :=
  ⟨h.1, h.2.1, h.2.2.1,
    congrArg (fun v : Pt × Pt × Zk.Proof × List ν => (⟨v.1, v.2.1, v.2.2.1, v.2.2.2⟩ : Mega.Ciphertext ν)) h.2.2.2⟩

/-- The entry of a list of pointers is found when the entry of the list of values is. -/
theorem index_at {V : View ο ν} {os : List ο} {vs : List ν} (h : At V.list m os vs) (i : Int) (w : Writes ∅ m0 m) :
    Outcome (Writes ∅ m0) (Go.index os i) m (Mega.index vs i)
      (fun v o m' => m' = m ∧ os[i.toNat]? = some o ∧ vs[i.toNat]? = some v ∧ At V m o v) := by
  unfold Go.index Mega.index
  by_cases hi : i < 0
  · rw [if_pos hi, if_pos hi]
    exact ⟨m, rfl, w⟩
  · rw [if_neg hi, if_neg hi]
    rcases h.getElem? i.toNat with ⟨e1, e2⟩ | ⟨o, v, e1, e2, ha⟩
    · rw [e1, e2]
      exact ⟨m, rfl, w⟩
    · rw [e1, e2]
      exact ⟨o, m, rfl, rfl, rfl, rfl, ha⟩

/-- An entry of a list of new objects is new. -/
theorem Ret.elem {V : View ο ν} {os : List ο} {vs : List ν} (h : Ret V.list m vs os m') {i : Nat} {o : ο} {v : ν}
    (ho : os[i]? = Option.some o) (hv : vs[i]? = Option.some v) : Ret V m v o m' := by
  have hm : o ∈ os := List.mem_of_getElem? ho
  refine ⟨h.1, fun x hx => h.2.1 x (List.mem_flatMap.2 ⟨o, hm, hx⟩), ?_, ?_⟩
  · exact (List.nodup_flatMap.1 h.2.2.1).1 o hm
  · have e' : os.map (V.val m') = vs := h.2.2.2
    rw [← e', List.getElem?_map, ho] at hv
    exact Option.some.inj hv

/-- Adding in place to an object made since `m0`. -/
theorem Outcome.addSc_step {s a : Addr} {x y : Fn} {f : Addr → Go γ} {r : Res δ} {S : δ → γ → Mem → Prop}
    (hs : At View.sc m s x) (ha : At View.sc m a y) (hn : m0.next ≤ s) (w : Writes ∅ m0 m)
    (hf : ∀ m'', Writes {.sc s} m m'' → Writes ∅ m0 m'' → At View.sc m'' s (x + y) →
      Outcome E (f s) m'' r S) : Outcome E (Heap.addSc s s a >>= f) m r S := by
  refine Outcome.addSc (hf _ ((Writes.refl _ _).setSc (.inl rfl)) (w.setSc (.inr hn)) ?_)
  rw [at_sc, Mem.setSc_self, (at_sc.1 hs).2, (at_sc.1 ha).2]
  exact ⟨(at_sc.1 hs).1, rfl⟩

theorem ret_scs {a b : Addr} {x y : Fn} (w : Writes ∅ m m') (ha : At View.sc m' a x) (hb : At View.sc m' b y)
    (na : m.next ≤ a) (nb : m.next ≤ b) (ne : a ≠ b) : Ret (View.sc.prod View.sc) m (x, y) (a, b) m' := by
  refine ⟨w, fun o ho => ?_, ?_, Prod.ext ha.2 hb.2⟩
  · have ho' : o = .sc a ∨ o = .sc b := by simpa [View.prod, View.sc] using ho
    rcases ho' with rfl | rfl
    · exact ⟨na, (at_sc.1 ha).1⟩
    · exact ⟨nb, (at_sc.1 hb).1⟩
  · simpa [View.prod, View.sc] using ne

theorem at_notMem_sc {a s : Addr} (h : s ≠ a) : Obj.sc s ∉ View.sc.objs a := by simpa [View.sc] using h

theorem newScs_ret (vs : List Fn) (m : Mem) :
    Outcome (Writes ∅ m) (Go.mapM' newSc vs) m (.ok vs) (Ret View.sc.list m) := by
  induction vs generalizing m with
  | nil => exact Outcome.pure (Ret.nil (Writes.refl _ _))
  | cons v vs ih =>
    refine Outcome.call_ok (newSc_ret v) (Writes.refl _ _) fun o m1 r1 w1 => ?_
    refine Outcome.call_ok (ih m1) w1 fun os m2 r2 w2 => ?_
    exact Outcome.pure (r1.cons r2)

theorem cloneScs_ret {cs : List Addr} {vs : List Fn} (h : At View.sc.list m cs vs) :
    Outcome (Writes ∅ m) (Go.mapM' cloneSc cs) m (.ok vs) (Ret View.sc.list m) := by
  induction cs generalizing vs m with
  | nil =>
    rw [at_nil.1 h]
    exact Outcome.pure (Ret.nil (Writes.refl _ _))
  | cons c cs ih =>
    rcases h.cases with ⟨e, -⟩ | ⟨o, os, v, vs', e, rfl, h1, h2⟩
    · cases e
    · cases e
      refine Outcome.call_ok (cloneSc_ret h1) (Writes.refl _ _) fun o m1 r1 w1 => ?_
      refine Outcome.call_ok (ih (h2.mono w1)) w1 fun os m2 r2 w2 => ?_
      exact Outcome.pure (r1.cons r2)

/-! ### Openings -/

theorem evaluatePointsAt_ret {ps : List Addr} {vs : List Pt} (h : At View.pt.list m ps vs) (i : NodeIndex) (k : Kind) :
    Outcome (Writes ∅ m) (evaluatePointsAt ps i) m (Commitment.evaluateAt ⟨k, vs⟩ i) (Ret View.pt m) := by
  obtain ⟨h1, h2⟩ := at_list_pt.1 h
  rw [← h2]
  exact (evaluatePointsAt_spec ps i k m h1).mono fun _ _ _ h => h.ret

theorem checkOpening_ret {c : CommitmentObj} {o : OpeningObj} {vc : Commitment} {vo : Opening} {i : NodeIndex}
    (hc : At View.commitment m c vc) (ho : At View.opening m o vo) :
    Outcome (Writes ∅ m) (checkOpening c i o) m (vc.checkOpening i vo) (Ret View.data m) := by
  obtain ⟨k, ps⟩ := c
  obtain ⟨k', vs⟩ := vc
  obtain ⟨rfl, hp⟩ : k = k' ∧ At View.pt.list m ps vs := at_commitment.1 hc
  obtain ⟨hh, rfl⟩ := ho
  cases k <;> cases o
  case simple.simple v =>
    have hv : At View.sc m v (m.sc v) := at_sc.2 ⟨hh (.sc v) (by simp [View.opening]), rfl⟩
    refine Outcome.call (evaluatePointsAt_ret hp i .simple) (Writes.refl _ _) fun e e' m1 re w1 => ?_
    refine Outcome.call_ok (mulByG_ret (hv.mono w1)) w1 fun b m2 rb w2 => ?_
    refine Outcome.getPt (re.upto rb.1).at (Outcome.getPt rb.at ?_)
    exact Outcome.pure (Ret.data w2)
  case pedersen.pedersen v k =>
    have hv : At View.sc m v (m.sc v) := at_sc.2 ⟨hh (.sc v) (by simp [View.opening]), rfl⟩
    have hk : At View.sc m k (m.sc k) := at_sc.2 ⟨hh (.sc k) (by simp [View.opening]), rfl⟩
    refine Outcome.call (evaluatePointsAt_ret hp i .pedersen) (Writes.refl _ _) fun e e' m1 re w1 => ?_
    refine Outcome.call_ok (pedersen_ret (hv.mono w1) (hk.mono w1)) w1 fun b m2 rb w2 => ?_
    refine Outcome.getPt (re.upto rb.1).at (Outcome.getPt rb.at ?_)
    exact Outcome.pure (Ret.data w2)
  all_goals exact ⟨m, rfl, Writes.refl _ _⟩

/-- What is returned is the argument itself, not a copy. -/
theorem returnOpeningIfConsistent_ret {c : CommitmentObj} {o : OpeningObj} {vc : Commitment} {vo : Opening}
    {i : NodeIndex} (hc : At View.commitment m c vc) (ho : At View.opening m o vo) :
    Outcome (Writes ∅ m) (returnOpeningIfConsistent c i o) m (vc.returnOpeningIfConsistent i vo)
      (fun v o' m' => Writes ∅ m m' ∧ o' = o ∧ At View.opening m' o v) := by
  refine Outcome.call (checkOpening_ret hc ho) (Writes.refl _ _) fun b b' m1 rb w1 => ?_
  obtain rfl : b' = b := rb.2.2.2
  cases b'
  · exact Outcome.err w1
  · exact Outcome.pure ⟨w1, rfl, ho.mono w1⟩

/-! ### mega/mega.go -/

section Mega

variable {P : Prim} {ad : Bytes} {t : Mega.CType} {dealer recipient : NodeIndex}

theorem hashToScalars_ret {pk e s : Addr} {vpk ve vs : Pt} (h1 : At View.pt m pk vpk) (h2 : At View.pt m e ve)
    (h3 : At View.pt m s vs) :
    Outcome (Writes ∅ m) (hashToScalars P t dealer recipient ad pk e s) m
      (Mega.hashToScalars P t dealer recipient ad vpk ve vs) (Ret View.sc.list m) :=
  Outcome.getPt h1 <| Outcome.getPt h2 <| Outcome.getPt h3 <| Outcome.lift_new fun v => newScs_ret v m

theorem computePopBase_ret {e : Addr} {ve : Pt} (h : At View.pt m e ve) :
    Outcome (Writes ∅ m) (computePopBase P t ad dealer e) m (Mega.computePopBase P t ad dealer ve) (Ret View.pt m) :=
  Outcome.getPt h <| Outcome.lift_new fun v => newPt_ret v

theorem verifyPop_ret {e p : Addr} {ve vp : Pt} {pf : ProofObj} {v : Zk.Proof} (he : At View.pt m e ve)
    (hp : At View.pt m p vp) (hpf : At View.proof m pf v) :
    Outcome (Writes ∅ m) (verifyPop P t ad dealer e p pf) m (Mega.verifyPop P t ad dealer ve vp v)
      (Ret View.data m) := by
  refine Outcome.call (computePopBase_ret he) (Writes.refl _ _) fun b b' m1 rb w1 => ?_
  refine Outcome.call_ok (newPt_ret G) w1 fun g m2 rg w2 => ?_
  exact ((dlogVerify_ret rg.at (rb.upto rg.1).at (he.mono w2) (hp.mono w2) (hpf.mono w2)).after w2).mono
    fun _ _ _ h => h.since w2

theorem computeEphKeyAndPop_ret {seed : Seed} :
    Outcome (Writes ∅ m) (computeEphKeyAndPop P t seed ad dealer) m (Mega.computeEphKeyAndPop P t seed ad dealer)
      (Ret View.eph m) := by
  refine Outcome.lift (Writes.refl _ _) fun s _ => ?_
  refine Outcome.lift (Writes.refl _ _) fun beta _ => ?_
  refine Outcome.call_ok (newSc_ret beta) (Writes.refl _ _) fun b m1 rb w1 => ?_
  refine Outcome.call_ok (mulByG_ret rb.at) w1 fun v m2 rv w2 => ?_
  refine Outcome.call (computePopBase_ret rv.at) w2 fun base base' m3 rbase w3 => ?_
  have hb3 := ((rb.upto rv.1).upto rbase.1).at
  refine Outcome.call_ok (smulNew_ret rbase.at hb3) w3 fun p m4 rp w4 => ?_
  refine Outcome.lift w4 fun s' _ => ?_
  refine Outcome.call_ok (newPt_ret G) w4 fun g m5 rg w5 => ?_
  have w35 := rp.1.trans_empty rg.1
  refine Outcome.call (dlogCreate_ret (hb3.mono w35) rg.at (rbase.upto w35).at) w5 fun pf pf' m6 rpf w6 => ?_
  have h := rb.pair ((rv.upto rbase.1).pair ((rp.upto rg.1).pair rpf))
  exact Outcome.pure ⟨h.1, h.2.1, h.2.2.1, h.2.2.2⟩

theorem eph_split {o : EphObj} {v : Fn × Pt × Pt × Zk.Proof} (h : Ret View.eph m v o m') :
    Ret (View.sc.prod (View.pt.prod (View.pt.prod View.proof))) m v (o.beta, o.v, o.popPublic, o.proof) m' :=
  ⟨h.1, h.2.1, h.2.2.1, h.2.2.2⟩

/-! ### mega/ciphertext.go -/

theorem encryptSingleLoop_ret {beta v : Addr} {vb : Fn} {vv : Pt} (i : Nat) (pks pts : List Addr) {vpks : List Pt}
    {vpts : List Fn} (hb : At View.sc m beta vb) (hv : At View.pt m v vv) (hk : At View.pt.list m pks vpks)
    (hp : At View.sc.list m pts vpts) :
    Outcome (Writes ∅ m) (encryptSingleLoop P dealer ad beta v i pks pts) m
      (Mega.Single.encryptLoop P dealer ad vb vv i vpks vpts) (Ret View.sc.list m) := by
  induction pks generalizing i pts vpks vpts m with
  | nil =>
    rw [at_nil.1 hk]
    exact Outcome.pure (Ret.nil (Writes.refl _ _))
  | cons pk pks ih =>
    rcases hk.cases with ⟨e, -⟩ | ⟨_, _, vk, vks, e, rfl, hk1, hk2⟩
    · cases e
    cases e
    rcases hp.cases with ⟨rfl, rfl⟩ | ⟨x, xs, vx, vxs, rfl, rfl, hx1, hx2⟩
    · exact ⟨m, rfl, Writes.refl _ _⟩
    refine Outcome.call_ok (smulNew_ret hk1 hb) (Writes.refl _ _) fun u m1 ru w1 => ?_
    refine Outcome.call (hashToScalars_ret (hk1.mono w1) (hv.mono w1) ru.at) w1 fun hm hm' m2 rh w2 => ?_
    refine Outcome.bind (index_at rh.at 0 w2) ?_
    rintro y y' _ ⟨rfl, e1, e2, -⟩
    refine Outcome.upd (addSc_in (rh.elem e1 e2) (hx1.mono w2)) w1 fun z m3 rz w3 => ?_
    refine Outcome.call (ih (i + 1) xs (hb.mono w3) (hv.mono w3) (hk2.mono w3) (hx2.mono w3)) w3
      fun vs os m4 r4 w4 => ?_
    exact Outcome.pure ((rz.since w1).cons r4)

theorem encryptPairLoop_ret {beta v : Addr} {vb : Fn} {vv : Pt} (i : Nat) (pks : List Addr) (pts : List (Addr × Addr))
    {vpks : List Pt} {vpts : List (Fn × Fn)} (hb : At View.sc m beta vb) (hv : At View.pt m v vv)
    (hk : At View.pt.list m pks vpks) (hp : At (View.sc.prod View.sc).list m pts vpts) :
    Outcome (Writes ∅ m) (encryptPairLoop P dealer ad beta v i pks pts) m
      (Mega.Pair.encryptLoop P dealer ad vb vv i vpks vpts) (Ret (View.sc.prod View.sc).list m) := by
  induction pks generalizing i pts vpks vpts m with
  | nil =>
    rw [at_nil.1 hk]
    exact Outcome.pure (Ret.nil (Writes.refl _ _))
  | cons pk pks ih =>
    rcases hk.cases with ⟨e, -⟩ | ⟨_, _, vk, vks, e, rfl, hk1, hk2⟩
    · cases e
    cases e
    rcases hp.cases with ⟨rfl, rfl⟩ | ⟨x, xs, vx, vxs, rfl, rfl, hx1, hx2⟩
    · exact ⟨m, rfl, Writes.refl _ _⟩
    obtain ⟨hx0, hx1⟩ := at_prod.1 hx1
    refine Outcome.call_ok (smulNew_ret hk1 hb) (Writes.refl _ _) fun u m1 ru w1 => ?_
    refine Outcome.call (hashToScalars_ret (hk1.mono w1) (hv.mono w1) ru.at) w1 fun hm hm' m2 rh w2 => ?_
    refine Outcome.bind (index_at rh.at 0 w2) ?_
    rintro y y' _ ⟨rfl, e1, e2, -⟩
    have r0 := rh.elem e1 e2
    refine Outcome.addSc_step r0.at (hx0.mono w2) r0.new_sc.1 rh.1 fun m3 u3 w13 hy3 => ?_
    have w3 := w1.trans_empty w13
    have hne : ∀ o, hm'[1]? = some o → y' ≠ o := by
      intro o ho e
      have nd := rh.2.2.1
      rw [objs_list_sc] at nd
      obtain ⟨h0, e0⟩ := List.getElem?_eq_some_iff.1 e1
      obtain ⟨h1, e1'⟩ := List.getElem?_eq_some_iff.1 ho
      have := (List.Nodup.of_map _ nd).getElem_inj_iff.1 ((e0.trans e).trans e1'.symm)
      simp at this
    have hi : Outcome (Writes ∅ m) (Go.index hm' 1) m3 (Mega.index hm 1)
        (fun v o m' => m' = m3 ∧ y' ≠ o ∧ m1.next ≤ o ∧ At View.sc m3 o v) := by
      unfold Go.index Mega.index
      rw [if_neg (by omega), if_neg (by omega)]
      rcases rh.at.getElem? 1 with ⟨e3, e4⟩ | ⟨o, v, e3, e4, ha⟩
      · rw [show (1 : Int).toNat = 1 from rfl, e3, e4]
        exact ⟨m3, rfl, w3⟩
      · rw [show (1 : Int).toNat = 1 from rfl, e3, e4]
        exact ⟨o, m3, rfl, rfl, hne o e3, (rh.elem e3 e4).new_sc.1, ha.write_sc u3 (at_notMem_sc (hne o e3))⟩
    refine Outcome.bind hi ?_
    rintro z z' _ ⟨rfl, ne, nz, hz⟩
    refine Outcome.addSc_step hz (hx1.mono w3) nz w13 fun m4 u4 w14 hz4 => ?_
    have w4 := w1.trans_empty w14
    have r4 : Ret (View.sc.prod View.sc) m1 (y + vx.1, z + vx.2) (y', z') m4 :=
      ret_scs w14 (hy3.write_sc u4 (at_notMem_sc ne.symm)) hz4 r0.new_sc.1 nz ne
    refine Outcome.call (ih (i + 1) xs (hb.mono w4) (hv.mono w4) (hk2.mono w4) (hx2.mono w4)) w4
      fun vs os m5 r5 w5 => ?_
    exact Outcome.pure ((r4.since w1).cons r5)

theorem encryptSingle_ret {seed : Seed} {pts pks : List Addr} {vpts : List Fn} {vpks : List Pt}
    (hp : At View.sc.list m pts vpts) (hk : At View.pt.list m pks vpks) :
    Outcome (Writes ∅ m) (encryptSingle P seed pts pks dealer ad) m
      (Mega.Single.encrypt P seed vpts vpks dealer ad) (Ret (View.ciphertext View.sc) m) := by
  unfold encryptSingle Mega.Single.encrypt Mega.checkPlaintexts
  rw [hp.length, hk.length]
  by_cases h1 : vpts.length ≠ vpks.length
  · rw [if_pos h1, if_pos h1]
    exact ⟨m, rfl, Writes.refl _ _⟩
  by_cases h2 : vpts.length = 0
  · rw [if_neg h1, if_neg h1, if_pos h2, if_pos h2]
    exact ⟨m, rfl, Writes.refl _ _⟩
  rw [if_neg h1, if_neg h1, if_neg h2, if_neg h2]
  change Outcome _ _ _ (Mega.computeEphKeyAndPop P .single seed ad dealer >>= _) _
  refine Outcome.call computeEphKeyAndPop_ret (Writes.refl _ _) fun e e' m1 re w1 => ?_
  have re' := eph_split re
  obtain ⟨b, v, p, pf⟩ := e
  refine Outcome.call (encryptSingleLoop_ret 0 pks pts re'.fst.at re'.snd.fst.at (hk.mono w1) (hp.mono w1)) w1
    fun vs os m2 rs w2 => ?_
  have h := re'.snd.pair rs
  refine Outcome.pure (ret_ciphertext ⟨h.1, fun x hx => h.2.1 x ?_, ?_, ?_⟩)
  · simpa [View.prod] using hx
  · simpa [View.prod] using h.2.2.1
  · have e := h.2.2.2
    simp only [View.prod, Prod.mk.injEq] at e ⊢
    tauto

theorem encryptPair_ret {seed : Seed} {pts : List (Addr × Addr)} {pks : List Addr} {vpts : List (Fn × Fn)}
    {vpks : List Pt} (hp : At (View.sc.prod View.sc).list m pts vpts) (hk : At View.pt.list m pks vpks) :
    Outcome (Writes ∅ m) (encryptPair P seed pts pks dealer ad) m
      (Mega.Pair.encrypt P seed vpts vpks dealer ad) (Ret (View.ciphertext (View.sc.prod View.sc)) m) := by
  unfold encryptPair Mega.Pair.encrypt Mega.checkPlaintexts
  rw [hp.length, hk.length]
  by_cases h1 : vpts.length ≠ vpks.length
  · rw [if_pos h1, if_pos h1]
    exact ⟨m, rfl, Writes.refl _ _⟩
  by_cases h2 : vpts.length = 0
  · rw [if_neg h1, if_neg h1, if_pos h2, if_pos h2]
    exact ⟨m, rfl, Writes.refl _ _⟩
  rw [if_neg h1, if_neg h1, if_neg h2, if_neg h2]
  change Outcome _ _ _ (Mega.computeEphKeyAndPop P .pairs seed ad dealer >>= _) _
  refine Outcome.call computeEphKeyAndPop_ret (Writes.refl _ _) fun e e' m1 re w1 => ?_
  have re' := eph_split re
  obtain ⟨b, v, p, pf⟩ := e
  refine Outcome.call (encryptPairLoop_ret 0 pks pts re'.fst.at re'.snd.fst.at (hk.mono w1) (hp.mono w1)) w1
    fun vs os m2 rs w2 => ?_
  have h := re'.snd.pair rs
  refine Outcome.pure (ret_ciphertext ⟨h.1, fun x hx => h.2.1 x ?_, ?_, ?_⟩)
  · simpa [View.prod] using hx
  · simpa [View.prod] using h.2.2.1
  · have e := h.2.2.2
    simp only [View.prod, Prod.mk.injEq] at e ⊢
    tauto

theorem decryptSharedSingle_ret {c : CiphertextObj Addr} {vc : Mega.Ciphertext Fn} {pk s : Addr} {vpk vs : Pt}
    (hc : At (View.ciphertext View.sc) m c vc) (hk : At View.pt m pk vpk) (hs : At View.pt m s vs) :
    Outcome (Writes ∅ m) (decryptSharedSingle P c ad dealer recipient pk s) m
      (Mega.Single.decryptFromSharedSecret P vc ad dealer recipient vpk vs) (Ret View.sc m) := by
  obtain ⟨he, -, -, hct⟩ := at_ciphertext.1 hc
  unfold decryptSharedSingle Mega.Single.decryptFromSharedSecret
  rw [hct.length]
  by_cases h1 : (vc.ctexts.length : Int) ≤ recipient.toInt
  · rw [if_pos h1, if_pos h1]
    exact ⟨m, rfl, Writes.refl _ _⟩
  rw [if_neg h1, if_neg h1]
  refine Outcome.call (hashToScalars_ret hk he hs) (Writes.refl _ _) fun hm hm' m1 rh w1 => ?_
  refine Outcome.bind (index_at (hct.mono w1) _ w1) ?_
  rintro x x' _ ⟨rfl, -, -, hx⟩
  refine Outcome.call_ok (cloneSc_ret hx) w1 fun r m2 rr w2 => ?_
  refine Outcome.bind (index_at (rh.upto rr.1).at 0 w2) ?_
  rintro y y' _ ⟨rfl, -, -, hy⟩
  exact (subSc_to rr (hx.mono rr.1) hy).mono fun _ _ _ h => h.since w1

theorem decryptSharedPair_ret {c : CiphertextObj (Addr × Addr)} {vc : Mega.Ciphertext (Fn × Fn)} {pk s : Addr}
    {vpk vs : Pt} (hc : At (View.ciphertext (View.sc.prod View.sc)) m c vc) (hk : At View.pt m pk vpk)
    (hs : At View.pt m s vs) :
    Outcome (Writes ∅ m) (decryptSharedPair P c ad dealer recipient pk s) m
      (Mega.Pair.decryptFromSharedSecret P vc ad dealer recipient vpk vs) (Ret (View.sc.prod View.sc) m) := by
  obtain ⟨he, -, -, hct⟩ := at_ciphertext.1 hc
  unfold decryptSharedPair Mega.Pair.decryptFromSharedSecret
  rw [hct.length]
  by_cases h1 : (vc.ctexts.length : Int) ≤ recipient.toInt
  · rw [if_pos h1, if_pos h1]
    exact ⟨m, rfl, Writes.refl _ _⟩
  rw [if_neg h1, if_neg h1]
  refine Outcome.call (hashToScalars_ret hk he hs) (Writes.refl _ _) fun hm hm' m1 rh w1 => ?_
  refine Outcome.bind (index_at (hct.mono w1) _ w1) ?_
  rintro x x' _ ⟨rfl, -, -, hx⟩
  obtain ⟨hx0, hx1⟩ := at_prod.1 hx
  refine Outcome.call_ok (cloneSc_ret hx0) w1 fun r m2 rr w2 => ?_
  refine Outcome.bind (index_at (rh.upto rr.1).at 0 w2) ?_
  rintro y y' _ ⟨rfl, -, -, hy⟩
  refine Outcome.upd (subSc_to rr (hx0.mono rr.1) hy) w1 fun r' m3 rr3 w3 => ?_
  refine Outcome.call_ok (cloneSc_ret (hx1.mono rr3.1)) w3 fun q m4 rq w4 => ?_
  refine Outcome.bind (index_at ((rh.upto rr3.1).upto rq.1).at 1 w4) ?_
  rintro z z' _ ⟨rfl, -, -, hz⟩
  refine Outcome.upd (subSc_to rq ((hx1.mono rr3.1).mono rq.1) hz) w3 fun q' m5 rq5 w5 => ?_
  exact Outcome.pure ((rr3.pair rq5).since w1)

theorem decryptSingle_ret {c : CiphertextObj Addr} {vc : Mega.Ciphertext Fn} {sk pk : Addr} {vsk : Fn} {vpk : Pt}
    (hc : At (View.ciphertext View.sc) m c vc) (hs : At View.sc m sk vsk) (hk : At View.pt m pk vpk) :
    Outcome (Writes ∅ m) (decryptSingle P c ad dealer recipient sk pk) m
      (Mega.Single.decrypt P vc ad dealer recipient vsk vpk) (Ret View.sc m) := by
  obtain ⟨he, hp, hpf, -⟩ := at_ciphertext.1 hc
  refine Outcome.call (verifyPop_ret he hp hpf) (Writes.refl _ _) fun _ _ m1 _ w1 => ?_
  refine Outcome.call_ok (smulNew_ret (he.mono w1) (hs.mono w1)) w1 fun u m2 ru w2 => ?_
  exact ((decryptSharedSingle_ret (hc.mono w2) (hk.mono w2) ru.at).after w2).mono fun _ _ _ h => h.since w2

theorem decryptPair_ret {c : CiphertextObj (Addr × Addr)} {vc : Mega.Ciphertext (Fn × Fn)} {sk pk : Addr} {vsk : Fn}
    {vpk : Pt} (hc : At (View.ciphertext (View.sc.prod View.sc)) m c vc) (hs : At View.sc m sk vsk)
    (hk : At View.pt m pk vpk) :
    Outcome (Writes ∅ m) (decryptPair P c ad dealer recipient sk pk) m
      (Mega.Pair.decrypt P vc ad dealer recipient vsk vpk) (Ret (View.sc.prod View.sc) m) := by
  obtain ⟨he, hp, hpf, -⟩ := at_ciphertext.1 hc
  refine Outcome.call (verifyPop_ret he hp hpf) (Writes.refl _ _) fun _ _ m1 _ w1 => ?_
  refine Outcome.call_ok (smulNew_ret (he.mono w1) (hs.mono w1)) w1 fun u m2 ru w2 => ?_
  exact ((decryptSharedPair_ret (hc.mono w2) (hk.mono w2) ru.at).after w2).mono fun _ _ _ h => h.since w2

theorem ret_simple {s : Addr} {v : Fn} (h : Ret View.sc m v s m') :
    Ret View.opening m (.simple v) (.simple s) m' := ⟨h.1, h.2.1, h.2.2.1, congrArg _ h.2.2.2⟩

theorem ret_pedersen {s : Addr × Addr} {v : Fn × Fn} (h : Ret (View.sc.prod View.sc) m v s m') :
    Ret View.opening m (.pedersen v.1 v.2) (.pedersen s.1 s.2) m' :=
  ⟨h.1, h.2.1, h.2.2.1, congrArg (fun v : Fn × Fn => Opening.pedersen v.1 v.2) h.2.2.2⟩

theorem decryptAndCheckSingle_ret {c : CiphertextObj Addr} {vc : Mega.Ciphertext Fn} {com : CommitmentObj}
    {vcom : Commitment} {sk pk : Addr} {vsk : Fn} {vpk : Pt} (hc : At (View.ciphertext View.sc) m c vc)
    (hcom : At View.commitment m com vcom) (hs : At View.sc m sk vsk) (hk : At View.pt m pk vpk) :
    Outcome (Writes ∅ m) (decryptAndCheckSingle P c com ad dealer recipient sk pk) m
      (Mega.Single.decryptAndCheck P vc vcom ad dealer recipient vsk vpk) (Ret View.opening m) := by
  refine Outcome.call (decryptSingle_ret hc hs hk) (Writes.refl _ _) fun x x' m1 rx w1 => ?_
  refine Outcome.call (checkOpening_ret (hcom.mono w1) (ret_simple rx).at) w1 fun b b' m2 rb w2 => ?_
  obtain rfl : b' = b := rb.2.2.2
  cases b'
  · exact Outcome.err w2
  · exact Outcome.pure ((ret_simple rx).upto rb.1)

theorem decryptAndCheckPair_ret {c : CiphertextObj (Addr × Addr)} {vc : Mega.Ciphertext (Fn × Fn)}
    {com : CommitmentObj} {vcom : Commitment} {sk pk : Addr} {vsk : Fn} {vpk : Pt}
    (hc : At (View.ciphertext (View.sc.prod View.sc)) m c vc)
    (hcom : At View.commitment m com vcom) (hs : At View.sc m sk vsk) (hk : At View.pt m pk vpk) :
    Outcome (Writes ∅ m) (decryptAndCheckPair P c com ad dealer recipient sk pk) m
      (Mega.Pair.decryptAndCheck P vc vcom ad dealer recipient vsk vpk) (Ret View.opening m) := by
  refine Outcome.call (decryptPair_ret hc hs hk) (Writes.refl _ _) fun x x' m1 rx w1 => ?_
  refine Outcome.call (checkOpening_ret (hcom.mono w1) (ret_pedersen rx).at) w1 fun b b' m2 rb w2 => ?_
  obtain rfl : b' = b := rb.2.2.2
  cases b'
  · exact Outcome.err w2
  · exact Outcome.pure ((ret_pedersen rx).upto rb.1)

theorem checkValiditySingle_ret {c : CiphertextObj Addr} {vc : Mega.Ciphertext Fn} {n : Int}
    (hc : At (View.ciphertext View.sc) m c vc) :
    Outcome (Writes ∅ m) (checkValiditySingle P c n ad dealer) m (Mega.Single.checkValidity P vc n ad dealer)
      (Ret View.data m) := by
  obtain ⟨he, hp, hpf, hct⟩ := at_ciphertext.1 hc
  unfold checkValiditySingle Mega.Single.checkValidity
  rw [hct.length]
  by_cases h : (vc.ctexts.length : Int) ≠ n
  · rw [if_pos h, if_pos h]
    exact ⟨m, rfl, Writes.refl _ _⟩
  · rw [if_neg h, if_neg h]
    exact verifyPop_ret he hp hpf

theorem checkValidityPair_ret {c : CiphertextObj (Addr × Addr)} {vc : Mega.Ciphertext (Fn × Fn)} {n : Int}
    (hc : At (View.ciphertext (View.sc.prod View.sc)) m c vc) :
    Outcome (Writes ∅ m) (checkValidityPair P c n ad dealer) m (Mega.Pair.checkValidity P vc n ad dealer)
      (Ret View.data m) := by
  obtain ⟨he, hp, hpf, hct⟩ := at_ciphertext.1 hc
  unfold checkValidityPair Mega.Pair.checkValidity
  rw [hct.length]
  by_cases h : (vc.ctexts.length : Int) ≠ n
  · rw [if_pos h, if_pos h]
    exact ⟨m, rfl, Writes.refl _ _⟩
  · rw [if_neg h, if_neg h]
    exact verifyPop_ret he hp hpf

theorem cloneCiphertextSingle_ret {c : CiphertextObj Addr} {vc : Mega.Ciphertext Fn}
    (hc : At (View.ciphertext View.sc) m c vc) :
    Outcome (Writes ∅ m) (cloneCiphertextSingle c) m (.ok vc) (Ret (View.ciphertext View.sc) m) := by
  obtain ⟨he, hp, hpf, hct⟩ := at_ciphertext.1 hc
  refine Outcome.call_ok (cloneScs_ret hct) (Writes.refl _ _) fun cs m1 rc w1 => ?_
  refine Outcome.call_ok (clonePt_ret (he.mono w1)) w1 fun e m2 re w2 => ?_
  refine Outcome.call_ok (clonePt_ret (hp.mono w2)) w2 fun p m3 rp w3 => ?_
  refine Outcome.call_ok (cloneProof_ret (hpf.mono w3)) w3 fun pf m4 rpf w4 => ?_
  have h := (rc.pair (re.pair (rp.pair rpf))).swap
  refine Outcome.pure (ret_ciphertext (va := vc.ephemeralKey) (vb := vc.popPublicKey) (vc := vc.popProof)
    (vd := vc.ctexts) ⟨h.1, fun x hx => h.2.1 x ?_, ?_, ?_⟩)
  · simpa [View.prod] using hx
  · simpa [View.prod] using h.2.2.1
  · have e := h.2.2.2
    simp only [View.prod, Prod.mk.injEq] at e ⊢
    tauto

theorem genKeypair_ret {seed : Seed} :
    Outcome (Writes ∅ m) (genKeypair P seed) m (Mega.genKeypair P seed) (Ret (View.pt.prod View.sc) m) := by
  refine Outcome.lift (Writes.refl _ _) fun r _ => ?_
  obtain ⟨r, st⟩ := r
  refine Outcome.call_ok (newSc_ret r) (Writes.refl _ _) fun s m1 rs w1 => ?_
  refine Outcome.call_ok (mulByG_ret rs.at) w1 fun p m2 rp w2 => ?_
  exact Outcome.pure (rs.pair rp).swap

end Mega

end Verif.Heap
