import Verif.Lemmas.HeapMega
import Verif.Spec.HeapDealings

/-!
Making and verifying dealings on memory does what it does on values, and changes nothing that existed.
-/

set_option autoImplicit false

namespace Verif.Heap

variable {ο ν ο' ν' α β γ δ : Type} {E : Mem → Prop} {m m0 m1 m' : Mem}

/-! ### Steps -/

theorem at_opt {V : View ο ν} {o : Option ο} {v : Option ν} :
    At V.opt m o v ↔ (o = none ∧ v = none) ∨ ∃ o' v', o = some o' ∧ v = some v' ∧ At V m o' v' := by
  cases o with
  | none => cases v <;> simp [At, Has, View.opt]
  | some o => cases v <;> simp [At, Has, View.opt]

theorem nonNil_at {V : View ο ν} {o : Option ο} {v : Option ν} (h : At V.opt m o v) (w : Writes ∅ m0 m) :
    Outcome (Writes ∅ m0) (Go.nonNil o) m (Dealings.nonNil v) (fun v o m' => m' = m ∧ At V m o v) := by
  rcases at_opt.1 h with ⟨rfl, rfl⟩ | ⟨o, v, rfl, rfl, hv⟩
  · exact ⟨m, rfl, w⟩
  · exact ⟨o, m, rfl, rfl, hv⟩

/-- What is returned comes from the result on values. -/
theorem Outcome.eq {g : Go α} {r : Res β} {R : β → α → Mem → Prop} (h : Outcome E g m r R) :
    Outcome E g m r (fun v a m' => R v a m' ∧ r = .ok v) := by
  cases r with
  | ok v =>
    obtain ⟨a, m', e, h⟩ := h
    exact ⟨a, m', e, h, rfl⟩
  | err e => exact h
  | panic e => exact h
  | diverge => exact h

theorem Outcome.ignoreErr {g : Go α} {r : Res β} {R : β → α → Mem → Prop} {F : Mem → Prop} (h : Outcome E g m r R)
    (hE : ∀ m', E m' → F m') :
    Outcome F (Go.ignoreErr g) m (Dealings.ignoreErr r) (fun v o m' =>
      (v = none ∧ o = none ∧ F m') ∨ ∃ v' o', v = some v' ∧ o = some o' ∧ R v' o' m') := by
  cases r with
  | ok v =>
    obtain ⟨a, m', e, h⟩ := h
    exact ⟨Option.some a, m', by simp [Go.ignoreErr, e], .inr ⟨v, a, rfl, rfl, h⟩⟩
  | err s =>
    obtain ⟨m', e, h⟩ := h
    exact ⟨Option.none, m', by simp [Go.ignoreErr, e], .inl ⟨rfl, rfl, hE _ h⟩⟩
  | panic s =>
    obtain ⟨m', e, h⟩ := h
    exact ⟨m', by simp [Go.ignoreErr, e], hE _ h⟩
  | diverge =>
    obtain ⟨m', e, h⟩ := h
    exact ⟨m', by simp [Go.ignoreErr, e], hE _ h⟩

/-- A loop over objects whose every step returns something new. -/
theorem mapM'_at {V : View ο ν} {V' : View ο' ν'} {f : ο → Go ο'} {g : ν → Res ν'} {I : Mem → Prop}
    (hI : ∀ m m', I m → Writes ∅ m m' → I m')
    (h : ∀ o v m, I m → At V m o v → Outcome (Writes ∅ m) (f o) m (g v) (Ret V' m)) {os : List ο} {vs : List ν}
    (hm : I m) (hl : At V.list m os vs) :
    Outcome (Writes ∅ m) (Go.mapM' f os) m (Res.mapM' g vs) (Ret V'.list m) := by
  induction os generalizing m vs with
  | nil =>
    rw [at_nil.1 hl]
    exact Outcome.pure (Ret.nil (Writes.refl _ _))
  | cons o os ih =>
    rcases hl.cases with ⟨e, -⟩ | ⟨_, _, v, vs', e, rfl, h1, h2⟩
    · cases e
    cases e
    refine Outcome.call (h o v m hm h1) (Writes.refl _ _) fun u o' m1 hr w => ?_
    refine Outcome.call (ih (hI _ _ hm w) (h2.mono w)) w fun us os' m2 hr2 w2 => ?_
    exact Outcome.pure (hr.cons hr2)

/-- A loop over objects that picks objects and writes nothing. -/
theorem mapM'_pick {V : View ο ν} {V' : View ο' ν'} {f : ο → Go ο'} {g : ν → Res ν'}
    (h : ∀ o v, At V m o v → Outcome E (f o) m (g v) (fun v' o' m' => m' = m ∧ At V' m o' v')) {os : List ο}
    {vs : List ν} (hl : At V.list m os vs) :
    Outcome E (Go.mapM' f os) m (Res.mapM' g vs) (fun v' o' m' => m' = m ∧ At V'.list m o' v') := by
  induction os generalizing vs with
  | nil =>
    rw [at_nil.1 hl]
    exact Outcome.pure ⟨rfl, at_nil.2 rfl⟩
  | cons o os ih =>
    rcases hl.cases with ⟨e, -⟩ | ⟨_, _, v, vs', e, rfl, h1, h2⟩
    · cases e
    cases e
    refine Outcome.bind (h o v h1) ?_
    rintro u o' _ ⟨rfl, hu⟩
    refine Outcome.bind (ih h2) ?_
    rintro us os' _ ⟨rfl, hus⟩
    exact Outcome.pure ⟨rfl, at_cons.2 ⟨hu, hus⟩⟩

/-! ### Structures -/

theorem at_com {o : ComObj} {v : Dealings.Com} :
    At View.com m o v ↔ o.wrap = v.wrap ∧ At View.commitment m o.c v.c := by
  obtain ⟨w, c⟩ := v
  simp [At, Has, View.com, View.via, View.prod, View.data, Dealings.Com.mk.injEq]
  tauto

theorem at_dealing {o : DealingObj} {v : Dealings.Dealing} :
    At View.dealing m o v ↔ At View.cipher.opt m o.ciphertext v.ciphertext ∧
      At View.commitment.opt m o.commitment v.commitment ∧ At View.proofVal.opt m o.proof v.proof := by
  obtain ⟨a, b, c⟩ := v
  constructor
  · rintro ⟨h, e⟩
    obtain ⟨e1, e2, e3⟩ := Dealings.Dealing.mk.inj e
    have h' : At (View.cipher.opt.prod (View.commitment.opt.prod View.proofVal.opt)) m
        (o.ciphertext, o.commitment, o.proof) (a, b, c) := ⟨h, Prod.ext e1 (Prod.ext e2 e3)⟩
    exact ⟨(at_prod.1 h').1, (at_prod.1 (at_prod.1 h').2).1, (at_prod.1 (at_prod.1 h').2).2⟩
  · rintro ⟨h1, h2, h3⟩
    have h' : At (View.cipher.opt.prod (View.commitment.opt.prod View.proofVal.opt)) m
        (o.ciphertext, o.commitment, o.proof) (a, b, c) := at_prod.2 ⟨h1, at_prod.2 ⟨h2, h3⟩⟩
    exact ⟨h'.1, congrArg (fun v : Option Dealings.Cipher × Option Commitment × Option Dealings.ProofVal =>
      (⟨v.1, v.2.1, v.2.2⟩ : Dealings.Dealing)) h'.2⟩

theorem ret_dealing {a : Option CipherObj} {b : Option CommitmentObj} {c : Option ProofValObj}
    {va : Option Dealings.Cipher} {vb : Option Commitment} {vc : Option Dealings.ProofVal}
    (h : Ret (View.cipher.opt.prod (View.commitment.opt.prod View.proofVal.opt)) m (va, vb, vc) (a, b, c) m') :
    Ret View.dealing m ⟨va, vb, vc⟩ ⟨a, b, c⟩ m' :=
  ⟨h.1, h.2.1, h.2.2.1, congrArg (fun v : Option Dealings.Cipher × Option Commitment × Option Dealings.ProofVal =>
      (⟨v.1, v.2.1, v.2.2⟩ : Dealings.Dealing)) h.2.2.2⟩

theorem ret_single {o : CiphertextObj Addr} {v : Mega.Ciphertext Fn} (h : Ret (View.ciphertext View.sc) m v o m') :
    Ret View.cipher m (.single v) (.single o) m' := ⟨h.1, h.2.1, h.2.2.1, congrArg _ h.2.2.2⟩

theorem ret_pair {o : CiphertextObj (Addr × Addr)} {v : Mega.Ciphertext (Fn × Fn)}
    (h : Ret (View.ciphertext (View.sc.prod View.sc)) m v o m') :
    Ret View.cipher m (.pair v) (.pair o) m' := ⟨h.1, h.2.1, h.2.2.1, congrArg _ h.2.2.2⟩

theorem ret_masked {o : Option ProofObj} {v : Option Zk.Proof} (h : Ret View.proof.opt m v o m') :
    Ret View.proofVal m (.masked v) (.masked o) m' := ⟨h.1, h.2.1, h.2.2.1, congrArg _ h.2.2.2⟩

theorem ret_product {o : Option ProductProofObj} {v : Option Zk.Product.Proof} (h : Ret View.productProof.opt m v o m') :
    Ret View.proofVal m (.product v) (.product o) m' := ⟨h.1, h.2.1, h.2.2.1, congrArg _ h.2.2.2⟩

theorem Ret.none {V : View ο ν} (w : Writes ∅ m m') : Ret V.opt m Option.none Option.none m' :=
  ⟨w, by simp [View.opt], by simp [View.opt], rfl⟩

theorem ret_commitment {k : Kind} {ps : List Addr} {vs : List Pt} (h : Ret View.pt.list m vs ps m') :
    Ret View.commitment m ⟨k, vs⟩ ⟨k, ps⟩ m' :=
  ⟨h.1, h.2.1, h.2.2.1, congrArg (Commitment.mk k) h.2.2.2⟩

theorem Ret.assoc {ο'' ν'' : Type} {V : View ο ν} {V' : View ο' ν'} {V'' : View ο'' ν''} {v : ν} {v' : ν'} {v'' : ν''}
    {o : ο} {o' : ο'} {o'' : ο''} (h : Ret ((V.prod V').prod V'') m ((v, v'), v'') ((o, o'), o'') m') :
    Ret (V.prod (V'.prod V'')) m (v, v', v'') (o, o', o'') m' := by
  refine ⟨h.1, fun x hx => h.2.1 x ?_, ?_, ?_⟩
  · simpa [View.prod] using hx
  · simpa [View.prod] using h.2.2.1
  · have e := h.2.2.2
    simp only [View.prod, Prod.mk.injEq] at e ⊢
    tauto

theorem dealing_single {c : CiphertextObj Addr × CommitmentObj} {vc : Mega.Ciphertext Fn × Commitment}
    {p : Option ProofValObj} {vp : Option Dealings.ProofVal}
    (h : Ret ((View.ciphertext View.sc).prod View.commitment) m vc c m1) (hp : Ret View.proofVal.opt m1 vp p m') :
    Ret View.dealing m ⟨some (.single vc.1), some vc.2, vp⟩ ⟨some (.single c.1), some c.2, p⟩ m' := by
  have h' := (h.pair hp).assoc
  refine ret_dealing ⟨h'.1, h'.2.1, h'.2.2.1, ?_⟩
  exact congrArg (fun v : Mega.Ciphertext Fn × Commitment × Option Dealings.ProofVal =>
    (Option.some (Dealings.Cipher.single v.1), Option.some v.2.1, v.2.2)) h'.2.2.2

theorem dealing_pair {c : CiphertextObj (Addr × Addr) × CommitmentObj} {vc : Mega.Ciphertext (Fn × Fn) × Commitment}
    {p : Option ProofValObj} {vp : Option Dealings.ProofVal}
    (h : Ret ((View.ciphertext (View.sc.prod View.sc)).prod View.commitment) m vc c m1)
    (hp : Ret View.proofVal.opt m1 vp p m') :
    Ret View.dealing m ⟨some (.pair vc.1), some vc.2, vp⟩ ⟨some (.pair c.1), some c.2, p⟩ m' := by
  have h' := (h.pair hp).assoc
  refine ret_dealing ⟨h'.1, h'.2.1, h'.2.2.1, ?_⟩
  exact congrArg (fun v : Mega.Ciphertext (Fn × Fn) × Commitment × Option Dealings.ProofVal =>
    (Option.some (Dealings.Cipher.pair v.1), Option.some v.2.1, v.2.2)) h'.2.2.2

/-- Shares by dynamic type. -/
theorem at_shares {o : SharesObj} {v : Dealings.Shares} (h : At View.shares m o v) :
    match (generalizing := false) o, v with
    | .random, .random => True
    | .reshareUnmasked s, .reshareUnmasked x => At View.sc m s x
    | .reshareMasked s k, .reshareMasked x y => At View.sc m s x ∧ At View.sc m k y
    | .unmaskedTimesMasked l r k, .unmaskedTimesMasked x y z => At View.sc m l x ∧ At View.sc m r y ∧ At View.sc m k z
    | .other, .other => True
    | _, _ => False := by
  obtain ⟨h, rfl⟩ := h
  cases o with
  | random => trivial
  | other => trivial
  | reshareUnmasked s => exact ⟨h, rfl⟩
  | reshareMasked s k =>
    have h' : Has (View.sc.prod View.sc) m (s, k) := h
    exact at_prod.1 h'.at
  | unmaskedTimesMasked l r k =>
    have h' : Has (View.sc.prod (View.sc.prod View.sc)) m (l, r, k) := h
    exact ⟨(at_prod.1 h'.at).1, at_prod.1 (at_prod.1 h'.at).2⟩

/-! ### Polynomials -/

/-- A polynomial made since `m`, which may have an old constant. -/
def GotPo (m : Mem) (v : List Fn) (p : Addr) (m' : Mem) : Prop := Writes ∅ m m' ∧ HasPo m' p ∧ polyVal m' p = v

/-- A polynomial that exists, with its value. -/
def IsPo (m : Mem) (p : Addr) (v : List Fn) : Prop := HasPo m p ∧ polyVal m p = v

theorem IsPo.mono {p : Addr} {v : List Fn} (h : IsPo m p v) (w : Writes ∅ m m') : IsPo m' p v :=
  ⟨h.1.keep0 w, (polyVal_keep0 h.1 w).trans h.2⟩

attribute [local irreducible] Zk.Dlog.verify Zk.Dlog.create Zk.EqOpen.create Zk.EqOpen.verify Zk.Product.create
  Zk.Product.verify Scalar.random Scalar.fromSeed Seed.derive Mega.Single.encrypt Mega.Pair.encrypt
  Mega.Single.decrypt Mega.Pair.decrypt Mega.Single.decryptAndCheck Mega.Pair.decryptAndCheck
  Mega.Single.checkValidity Mega.Pair.checkValidity Poly.random Poly.randomWithConstant

theorem randomScs_ret (k : Nat) (r : Rng) (m : Mem) :
    Outcome (Writes ∅ m) (randomScs r k) m (Poly.randomCoeffs r k) (Ret (View.sc.list.prod View.data) m) := by
  induction k generalizing r m with
  | zero => exact Outcome.pure ((Ret.nil (Writes.refl _ _)).pair (Ret.data (Writes.refl _ _)))
  | succ k ih =>
    refine Outcome.lift (Writes.refl _ _) fun c _ => ?_
    obtain ⟨c, r⟩ := c
    refine Outcome.call_ok (newSc_ret c) (Writes.refl _ _) fun a m1 ra w1 => ?_
    refine Outcome.call (ih r m1) w1 fun x y m2 r2 w2 => ?_
    obtain ⟨xs, r'⟩ := x
    obtain ⟨ys, r''⟩ := y
    obtain rfl : r'' = r' := r2.snd.2.2.2
    exact Outcome.pure ((ra.cons r2.fst).pair (Ret.data (Writes.refl _ _)))

section

attribute [local semireducible] Poly.random Poly.randomWithConstant

theorem randomPo_spec (num : Int) (r : Rng) (m : Mem) :
    Outcome (Writes ∅ m) (randomPo num r) m (Poly.random num r)
      (fun v o m' => Writes ∅ m m' ∧ IsPo m' o.1 v.1 ∧ o.2 = v.2) := by
  unfold randomPo Poly.random
  by_cases h : num < 0
  · rw [if_pos h, if_pos h]
    exact Outcome.panic (Writes.refl _ _)
  rw [if_neg h, if_neg h]
  have hl := randomScs_ret num.toNat r m
  revert hl
  rcases Poly.randomCoeffs r num.toNat with v | e | e | _ <;> intro hl
  · obtain ⟨cs, m1, e, hr⟩ := hl
    refine Outcome.step e (Outcome.newPo (Outcome.pure ?_))
    refine ⟨hr.1.newPo hr.1.next, ⟨⟨by simp, ?_⟩, ?_⟩, hr.snd.2.2.2⟩
    · intro c hc
      have := (at_list_sc.1 hr.fst.at).1 c (by simpa using hc)
      simp only [Mem.bump_next, Mem.setPo_next]
      omega
    · have e := (at_list_sc.1 hr.fst.at).2
      simpa [polyVal] using e
  all_goals
    obtain ⟨m1, e, hr⟩ := hl
    exact ⟨m1, by simp [run_bind, e, Go.andThen], hr⟩

theorem randomPoWithConstant_spec {s : Addr} {x : Fn} (hs : At View.sc m s x) (num : Int) (r : Rng) :
    Outcome (Writes ∅ m) (randomPoWithConstant s num r) m (Poly.randomWithConstant x num r)
      (fun v o m' => Writes ∅ m m' ∧ IsPo m' o.1 v.1 ∧ o.2 = v.2) := by
  unfold randomPoWithConstant Poly.randomWithConstant
  by_cases h : num = 0
  · rw [if_pos h, if_pos h]
    exact Outcome.err (Writes.refl _ _)
  rw [if_neg h, if_neg h]
  by_cases h : num < 0
  · rw [if_pos h, if_pos h]
    exact Outcome.panic (Writes.refl _ _)
  rw [if_neg h, if_neg h]
  refine Outcome.call (randomScs_ret (num.toNat - 1) r m) (Writes.refl _ _) fun v cs m1 hr w => ?_
  obtain ⟨vs, r'⟩ := v
  refine Outcome.newPo (Outcome.pure ?_)
  have hs1 := at_sc.1 (hs.mono w)
  refine ⟨hr.1.newPo hr.1.next, ⟨⟨by simp, ?_⟩, ?_⟩, hr.snd.2.2.2⟩
  · intro c hc
    have hc' : c = s ∨ c ∈ cs.1 := by simpa using hc
    simp only [Mem.bump_next, Mem.setPo_next]
    rcases hc' with rfl | hc'
    · omega
    · have := (at_list_sc.1 hr.fst.at).1 c hc'
      omega
  · have e := (at_list_sc.1 hr.fst.at).2
    simpa [polyVal, hs1.2] using e

end

theorem evaluateAt_ret {p x : Addr} {v : List Fn} {y : Fn} (hp : IsPo m p v) (hx : At View.sc m x y) :
    Outcome E (evaluateAt p x) m (.ok (Poly.evaluateAt v y)) (Ret View.sc m) := by
  rw [← hp.2, ← (at_sc.1 hx).2]
  exact (evaluateAt_spec p x m hp.1 (at_sc.1 hx).1).mono fun _ _ _ h => h.ret

theorem createSimple_ret {p : Addr} {v : List Fn} (hp : IsPo m p v) (num : Int) :
    Outcome (Writes ∅ m) (createSimple p num) m (Commitment.createSimple v num)
      (fun c o m' => Ret View.commitment m c ⟨.simple, o⟩ m') := by
  rw [← hp.2]
  refine (createSimple_spec p num m hp.1).eq.mono fun c o m' h => ?_
  have hk : c = ⟨.simple, c.points⟩ := by
    have h' := h.2
    unfold Commitment.createSimple at h'
    split at h'
    · cases h'
    · exact (Res.ok.inj h') ▸ rfl
  rw [hk]
  exact ret_commitment h.1.ret

theorem createPedersen_ret {p q : Addr} {v u : List Fn} (hp : IsPo m p v) (hq : IsPo m q u) (num : Int) :
    Outcome (Writes ∅ m) (createPedersen p q num) m (Commitment.createPedersen v u num)
      (fun c o m' => Ret View.commitment m c ⟨.pedersen, o⟩ m') := by
  rw [← hp.2, ← hq.2]
  refine (createPedersen_spec p q num m hp.1 hq.1).eq.mono fun c o m' h => ?_
  have hk : c = ⟨.pedersen, c.points⟩ := by
    have h' := h.2
    unfold Commitment.createPedersen at h'
    split at h'
    · cases h'
    · exact (Res.ok.inj h') ▸ rfl
  rw [hk]
  exact ret_commitment h.1.ret

/-! ### dealings/dealings.go -/

section Make

variable {P : Prim} {dealer : NodeIndex} {ad : Bytes} {seed : Seed}

theorem encryptAndCommitSingle_ret {p : Addr} {v : List Fn} {num : Int} {pks : List Addr} {vpks : List Pt}
    (hp : IsPo m p v) (hk : At View.pt.list m pks vpks) :
    Outcome (Writes ∅ m) (encryptAndCommitSingle P p num pks dealer ad seed) m
      (Dealings.encryptAndCommitSingle P v num vpks dealer ad seed)
      (Ret ((View.ciphertext View.sc).prod View.commitment) m) := by
  unfold encryptAndCommitSingle Dealings.encryptAndCommitSingle
  rw [hk.length]
  have hloop : Outcome (Writes ∅ m) (Go.mapM' (fun idx : Nat => do
      let x ← newSc (Scalar.fromNodeIndex (BitVec.ofNat 64 idx))
      evaluateAt p x) (List.range vpks.length)) m
      (.ok ((List.range vpks.length).map fun idx =>
        Poly.evaluateAt v (Scalar.fromNodeIndex (BitVec.ofNat 64 idx)))) (Ret View.sc.list m) := by
    rw [← Res.mapM'_ok (g := fun idx : Nat => Poly.evaluateAt v (Scalar.fromNodeIndex (BitVec.ofNat 64 idx)))
      fun _ _ => rfl]
    refine mapM'_ret (I := fun m' => Writes ∅ m m') (fun _ _ h h' => h.trans_empty h') ?_ (Writes.refl _ _)
    intro i _ m1 w1
    refine Outcome.call_ok (newSc_ret _) (Writes.refl _ _) fun x m2 rx w2 => ?_
    exact (evaluateAt_ret ((hp.mono w1).mono w2) rx.at).mono fun _ _ _ h => h.since w2
  refine Outcome.call_ok hloop (Writes.refl _ _) fun pts m1 r1 w1 => ?_
  refine Outcome.call (encryptSingle_ret r1.at (hk.mono w1)) w1 fun c c' m2 r2 w2 => ?_
  refine Outcome.bind ((createSimple_ret (hp.mono w2) num).after w2) fun x o m3 r3 => ?_
  exact Outcome.pure ((r2.pair r3).since w1)

theorem encryptAndCommitPair_ret {p q : Addr} {v u : List Fn} {num : Int} {pks : List Addr} {vpks : List Pt}
    (hp : IsPo m p v) (hq : IsPo m q u) (hk : At View.pt.list m pks vpks) :
    Outcome (Writes ∅ m) (encryptAndCommitPair P p q num pks dealer ad seed) m
      (Dealings.encryptAndCommitPair P v u num vpks dealer ad seed)
      (Ret ((View.ciphertext (View.sc.prod View.sc)).prod View.commitment) m) := by
  unfold encryptAndCommitPair Dealings.encryptAndCommitPair
  rw [hk.length]
  have hloop : Outcome (Writes ∅ m) (Go.mapM' (fun idx : Nat => do
      let x ← newSc (Scalar.fromNodeIndex (BitVec.ofNat 64 idx))
      let vs ← evaluateAt p x
      let ms ← evaluateAt q x
      pure (vs, ms)) (List.range vpks.length)) m
      (.ok ((List.range vpks.length).map fun idx =>
        (Poly.evaluateAt v (Scalar.fromNodeIndex (BitVec.ofNat 64 idx)),
          Poly.evaluateAt u (Scalar.fromNodeIndex (BitVec.ofNat 64 idx))))) (Ret (View.sc.prod View.sc).list m) := by
    rw [← Res.mapM'_ok (g := fun idx : Nat => (Poly.evaluateAt v (Scalar.fromNodeIndex (BitVec.ofNat 64 idx)),
      Poly.evaluateAt u (Scalar.fromNodeIndex (BitVec.ofNat 64 idx)))) fun _ _ => rfl]
    refine mapM'_ret (I := fun m' => Writes ∅ m m') (fun _ _ h h' => h.trans_empty h') ?_ (Writes.refl _ _)
    intro i _ m1 w1
    refine Outcome.call_ok (newSc_ret _) (Writes.refl _ _) fun x m2 rx w2 => ?_
    refine Outcome.call_ok (evaluateAt_ret ((hp.mono w1).mono w2) rx.at) w2 fun y m3 ry w3 => ?_
    refine Outcome.call_ok (evaluateAt_ret ((hq.mono w1).mono w3) (rx.upto ry.1).at) w3 fun z m4 rz w4 => ?_
    exact Outcome.pure ((ry.pair rz).since w2)
  refine Outcome.call_ok hloop (Writes.refl _ _) fun pts m1 r1 w1 => ?_
  refine Outcome.call (encryptPair_ret r1.at (hk.mono w1)) w1 fun c c' m2 r2 w2 => ?_
  refine Outcome.bind ((createPedersen_ret (hp.mono w2) (hq.mono w2) num).after w2) fun x o m3 r3 => ?_
  exact Outcome.pure ((r2.pair r3).since w1)

attribute [local irreducible] Dealings.encryptAndCommitSingle Dealings.encryptAndCommitPair

theorem newDealing_ret {s : SharesObj} {x : Dealings.Shares} {threshold : Int} {pks : List Addr} {vpks : List Pt}
    (hs : At View.shares m s x) (hk : At View.pt.list m pks vpks) :
    Outcome (Writes ∅ m) (newDealing P s seed threshold pks dealer ad) m
      (Dealings.new P x seed threshold vpks dealer ad) (Ret View.dealing m) := by
  unfold newDealing Dealings.new
  rw [hk.length]
  by_cases h : threshold = 0 ∨ threshold > vpks.length
  · rw [if_pos h, if_pos h]
    exact Outcome.err (Writes.refl _ _)
  rw [if_neg h, if_neg h]
  have hs' := at_shares hs
  clear hs
  refine Outcome.lift (Writes.refl _ _) fun polySeed _ => ?_
  refine Outcome.lift (Writes.refl _ _) fun megaSeed _ => ?_
  rcases s with _ | s1 | ⟨s1, s2⟩ | ⟨l, r, k⟩ | _ <;> rcases x with _ | x1 | ⟨x1, x2⟩ | ⟨y, z, u⟩ | _ <;>
    first | exact hs'.elim | dsimp only at hs' ⊢
  · refine Outcome.bind (randomPo_spec _ _ _) fun v o m1 ⟨w1, h1, e1⟩ => ?_
    obtain ⟨v, rng⟩ := v
    obtain ⟨p, rng'⟩ := o
    obtain rfl : rng' = rng := e1
    refine Outcome.bind ((randomPo_spec _ _ _).after w1) fun v2 o2 m2 ⟨w2, h2, e2⟩ => ?_
    have w02 := w1.trans_empty w2
    refine Outcome.call (encryptAndCommitPair_ret (h1.mono w2) h2 (hk.mono w02)) w02 fun c c' m3 r3 w3 => ?_
    exact Outcome.pure ((dealing_pair r3 (Ret.none (Writes.refl _ _))).since w02)
  · refine Outcome.bind (randomPoWithConstant_spec hs' _ _) fun v o m1 ⟨w1, h1, e1⟩ => ?_
    refine Outcome.call (encryptAndCommitSingle_ret h1 (hk.mono w1)) w1 fun c c' m2 r2 w2 => ?_
    exact Outcome.pure ((dealing_single r2 (Ret.none (Writes.refl _ _))).since w1)
  · refine Outcome.bind (randomPoWithConstant_spec hs'.1 _ _) fun v o m1 ⟨w1, h1, e1⟩ => ?_
    refine Outcome.call (encryptAndCommitSingle_ret h1 (hk.mono w1)) w1 fun c c' m2 r2 w2 => ?_
    refine Outcome.lift w2 fun proofSeed _ => ?_
    refine Outcome.call (eqCreate_ret (hs'.1.mono w2) (hs'.2.mono w2)) w2 fun pf pf' m3 r3 w3 => ?_
    exact Outcome.pure ((dealing_single r2 (ret_masked r3.some).some).since w1)
  · obtain ⟨hl, hr, hm⟩ := hs'
    refine Outcome.call_ok (mulNew_ret hl hr) (Writes.refl _ _) fun q m1 r1 w1 => ?_
    refine Outcome.lift w1 fun masking _ => ?_
    obtain ⟨masking, rng⟩ := masking
    refine Outcome.call_ok (newSc_ret masking) w1 fun t m2 r2 w2 => ?_
    refine Outcome.bind ((randomPoWithConstant_spec (r1.upto r2.1).at _ _).after w2) fun v o m3 ⟨w3, h3, e3⟩ => ?_
    obtain ⟨v, rng1⟩ := v
    obtain ⟨p, rng2⟩ := o
    obtain rfl : rng2 = rng1 := e3
    have w03 := w2.trans_empty w3
    have ht3 := (r2.upto w3).at
    have hq3 := ((r1.upto r2.1).upto w3).at
    refine Outcome.bind ((randomPoWithConstant_spec ht3 _ _).ignoreErr fun m' h => w03.trans_empty h) fun v2 o2 m4 h4 => ?_
    rcases h4 with ⟨rfl, rfl, w4⟩ | ⟨v2, o2, rfl, rfl, w34, h4, -⟩
    · exact ⟨m4, rfl, w4⟩
    have w4 := w03.trans_empty w34
    refine Outcome.bind (R := fun v o m' => v = v2 ∧ o = o2 ∧ m' = m4) ⟨o2, m4, rfl, rfl, rfl, rfl⟩ ?_
    rintro _ _ _ ⟨rfl, rfl, rfl⟩
    refine Outcome.call (encryptAndCommitPair_ret (h3.mono w34) h4 (hk.mono w4)) w4 fun c c' m5 r5 w5 => ?_
    refine Outcome.lift w5 fun proofSeed _ => ?_
    have w35 := w34.trans_empty r5.1
    refine Outcome.bind (((productCreate_ret (hl.mono w5) (hr.mono w5) (hm.mono w5) (hq3.mono w35)
      (ht3.mono w35)).ignoreErr (F := Writes ∅ m5) fun m' h => h).after w5) fun pf pf' m6 h6 => ?_
    rcases h6 with ⟨rfl, rfl, w6⟩ | ⟨pf, pf', rfl, rfl, r6⟩
    · exact Outcome.pure ((dealing_pair r5 (ret_product (Ret.none w6)).some).since w4)
    · exact Outcome.pure ((dealing_pair r5 (ret_product r6.some).some).since w4)
  · refine Outcome.pure (ret_dealing ?_)
    exact (Ret.none (Writes.refl _ _)).pair ((Ret.none (Writes.refl _ _)).pair (Ret.none (Writes.refl _ _)))

end Make

/-! ### Values by dynamic type -/

theorem at_cipher {o : CipherObj} {v : Dealings.Cipher} (h : At View.cipher m o v) :
    match (generalizing := false) o, v with
    | .single c, .single x => At (View.ciphertext View.sc) m c x
    | .pair c, .pair x => At (View.ciphertext (View.sc.prod View.sc)) m c x
    | _, _ => False := by
  obtain ⟨h, rfl⟩ := h
  cases o with
  | single c => exact ⟨h, rfl⟩
  | pair c => exact ⟨h, rfl⟩

theorem at_proofVal {o : ProofValObj} {v : Dealings.ProofVal} (h : At View.proofVal m o v) :
    match (generalizing := false) o, v with
    | .masked c, .masked x => At View.proof.opt m c x
    | .product c, .product x => At View.productProof.opt m c x
    | .maskedVal c, .maskedVal x => At View.proof.opt m c x
    | .productVal c, .productVal x => At View.productProof.opt m c x
    | _, _ => False := by
  obtain ⟨h, rfl⟩ := h
  cases o <;> exact ⟨h, rfl⟩

theorem at_op {o : OpObj} {v : Dealings.Op} (h : At View.op m o v) :
    match (generalizing := false) o, v with
    | .random, .random => True
    | .reshareMasked p, .reshareMasked x => At View.com m p x
    | .reshareUnmasked p, .reshareUnmasked x => At View.com m p x
    | .unmaskedTimesMasked l r, .unmaskedTimesMasked x y => At View.com m l x ∧ At View.com m r y
    | .other, .other => True
    | _, _ => False := by
  obtain ⟨h, rfl⟩ := h
  cases o with
  | random => trivial
  | other => trivial
  | reshareMasked p => exact ⟨h, rfl⟩
  | reshareUnmasked p => exact ⟨h, rfl⟩
  | unmaskedTimesMasked l r =>
    have h' : Has (View.com.prod View.com) m (l, r) := h
    exact at_prod.1 h'.at

/-! ### Verifying a dealing -/

section Verify

variable {P : Prim} {dealer : NodeIndex} {ad : Bytes} {curve : CurveType}

theorem curveType_at {o : CommitmentObj} {v : Commitment} (h : At View.commitment m o v) (w : Writes ∅ m0 m) :
    Outcome (Writes ∅ m0) o.curveType m v.curveType (fun x y m' => m' = m ∧ y = x) := by
  obtain ⟨k, ps⟩ := o
  obtain ⟨k', vs⟩ := v
  obtain ⟨rfl, hp⟩ : k = k' ∧ At View.pt.list m ps vs := at_commitment.1 h
  rcases hp.cases with ⟨rfl, rfl⟩ | ⟨_, _, _, _, rfl, rfl, -, -⟩
  · exact ⟨m, rfl, w⟩
  · exact ⟨_, m, rfl, rfl, rfl⟩

theorem verifyIs_at {o : CommitmentObj} {v : Commitment} (h : At View.commitment m o v) (w : Writes ∅ m0 m) (k : Kind) :
    Outcome (Writes ∅ m0) (o.verifyIs k curve) m (v.verifyIs k curve) (fun _ _ m' => m' = m) := by
  refine Outcome.bind (curveType_at h w) ?_
  rintro _ x m ⟨rfl, rfl⟩
  rw [(at_commitment.1 h).1]
  by_cases h1 : x ≠ curve
  · rw [if_pos h1, if_pos h1]
    exact Outcome.err w
  rw [if_neg h1, if_neg h1]
  by_cases h2 : v.kind ≠ k
  · rw [if_pos h2, if_pos h2]
    exact Outcome.err w
  rw [if_neg h2, if_neg h2]
  exact Outcome.pure rfl

theorem cipher_verifyIs_at {o : CipherObj} {v : Dealings.Cipher} (h : At View.cipher m o v) (w : Writes ∅ m0 m)
    (t : Mega.CType) :
    Outcome (Writes ∅ m0) (o.verifyIs t curve) m (v.verifyIs t curve) (fun _ _ m' => m' = m) := by
  have h' := at_cipher h
  cases o <;> cases v <;> first | exact h'.elim | skip
  all_goals
    unfold CipherObj.verifyIs Dealings.Cipher.verifyIs
    dsimp only
    first | unfold Mega.Single.verifyIs | unfold Mega.Pair.verifyIs
    split_ifs
    · exact Outcome.err w
    · exact Outcome.err w
    · exact Outcome.pure rfl

theorem checkValidity_ret {o : CipherObj} {v : Dealings.Cipher} (h : At View.cipher m o v) (n : Int) :
    Outcome (Writes ∅ m) (o.checkValidity P n ad dealer) m (v.checkValidity P n ad dealer) (Ret View.data m) := by
  have h' := at_cipher h
  cases o <;> cases v <;> first | exact h'.elim | skip
  · exact checkValiditySingle_ret h'
  · exact checkValidityPair_ret h'

theorem decryptAndCheck_ret {o : CipherObj} {v : Dealings.Cipher} {c : CommitmentObj} {vc : Commitment}
    {receiver : NodeIndex} {sk pk : Addr} {vsk : Fn} {vpk : Pt} (h : At View.cipher m o v)
    (hc : At View.commitment m c vc) (hs : At View.sc m sk vsk) (hk : At View.pt m pk vpk) :
    Outcome (Writes ∅ m) (o.decryptAndCheck P c ad dealer receiver sk pk) m
      (v.decryptAndCheck P vc ad dealer receiver vsk vpk) (Ret View.opening m) := by
  have h' := at_cipher h
  cases o <;> cases v <;> first | exact h'.elim | skip
  · exact decryptAndCheckSingle_ret h' hc hs hk
  · exact decryptAndCheckPair_ret h' hc hs hk

theorem proofType_at {o : ProofValObj} {v : Dealings.ProofVal} (h : At View.proofVal m o v) : o.type = v.type := by
  have h' := at_proofVal h
  cases o <;> cases v <;> first | exact h'.elim | rfl

theorem asMasked_at {o : ProofValObj} {v : Dealings.ProofVal} (h : At View.proofVal m o v) (w : Writes ∅ m0 m) :
    Outcome (Writes ∅ m0) o.asMasked m v.asMasked (fun v o m' => m' = m ∧ At View.proof m o v) := by
  have h' := at_proofVal h
  cases o <;> cases v <;> first | exact h'.elim | exact nonNil_at h' w | exact ⟨m, rfl, w⟩

theorem asProduct_at {o : ProofValObj} {v : Dealings.ProofVal} (h : At View.proofVal m o v) (w : Writes ∅ m0 m) :
    Outcome (Writes ∅ m0) o.asProduct m v.asProduct (fun v o m' => m' = m ∧ At View.productProof m o v) := by
  have h' := at_proofVal h
  cases o <;> cases v <;> first | exact h'.elim | exact nonNil_at h' w | exact ⟨m, rfl, w⟩

theorem commitment_evaluateAt_ret {o : CommitmentObj} {v : Commitment} (h : At View.commitment m o v) (i : NodeIndex) :
    Outcome (Writes ∅ m) (evaluatePointsAt o.points i) m (v.evaluateAt i) (Ret View.pt m) :=
  evaluatePointsAt_ret (at_commitment.1 h).2 i v.kind

theorem constantTerm_ret {o : CommitmentObj} {v : Commitment} (h : At View.commitment m o v) :
    Outcome (Writes ∅ m) (constantTerm o.points) m v.constantTerm (Ret View.pt m) := by
  obtain ⟨-, hp⟩ := at_commitment.1 h
  obtain ⟨k, vs⟩ := v
  obtain ⟨-, e⟩ := at_list_pt.1 hp
  have e' : vs = o.points.map m.pt := e.symm
  rw [e']
  exact (constantTerm_spec o.points k m).mono fun _ _ _ h => h.ret

attribute [local irreducible] Dealings.Cipher.checkValidity Dealings.Cipher.decryptAndCheck

theorem publiclyVerify_ret {d : DealingObj} {vd : Dealings.Dealing} {op : OpObj} {vop : Dealings.Op}
    {threshold receivers : Int} (hd : At View.dealing m d vd) (hop : At View.op m op vop) :
    Outcome (Writes ∅ m) (publiclyVerify P d curve op threshold dealer receivers ad) m
      (Dealings.publiclyVerify P vd curve vop threshold dealer receivers ad) (Ret View.data m) := by
  obtain ⟨hct, hcm, hpf⟩ := at_dealing.1 hd
  obtain ⟨ct, cm, pf⟩ := d
  obtain ⟨vct, vcm, vpf⟩ := vd
  dsimp only at hct hcm hpf
  unfold publiclyVerify Dealings.publiclyVerify
  have w0 := Writes.refl ∅ m
  refine Outcome.bind (nonNil_at hcm w0) ?_
  rintro vcm cm _ ⟨rfl, hcm⟩
  rw [(at_commitment.1 hcm).2.length]
  by_cases h1 : (vcm.points.length : Int) ≠ threshold
  · rw [if_pos h1, if_pos h1]
    exact Outcome.err w0
  rw [if_neg h1, if_neg h1]
  refine Outcome.bind (curveType_at hcm w0) ?_
  rintro _ x m ⟨rfl, rfl⟩
  by_cases h2 : x ≠ curve
  · rw [if_pos h2, if_pos h2]
    exact Outcome.err w0
  rw [if_neg h2, if_neg h2]
  refine Outcome.bind (nonNil_at hct w0) ?_
  rintro vct ct m ⟨rfl, hct⟩
  refine Outcome.call (checkValidity_ret hct receivers) w0 fun _ _ m1 _ w1 => ?_
  have hct1 := hct.mono w1
  have hcm1 := hcm.mono w1
  have hop' := at_op hop
  rcases op with _ | p | p | ⟨l, r⟩ | _ <;> rcases vop with _ | x | x | ⟨x, y⟩ | _ <;> first | exact hop'.elim | skip
  · rcases at_opt.1 hpf with ⟨rfl, rfl⟩ | ⟨pf, vpf, rfl, rfl, -⟩
    · refine Outcome.bind (verifyIs_at hcm1 w1 .pedersen) ?_
      rintro _ _ _ rfl
      exact (cipher_verifyIs_at hct1 w1 .pairs).mono fun _ _ _ h => h ▸ Ret.data w1
    · exact Outcome.err w1
  · rcases at_opt.1 hpf with ⟨rfl, rfl⟩ | ⟨pf, vpf, rfl, rfl, hpf1⟩
    · exact Outcome.err w1
    · clear hpf
      rename At View.proofVal _ pf vpf => hpf
      dsimp only
      rw [proofType_at hpf]
      by_cases h3 : vpf.type = .maskedResharing
      · rw [if_pos h3, if_pos h3]
        refine Outcome.bind (verifyIs_at hcm1 w1 .simple) ?_
        rintro _ _ _ rfl
        refine Outcome.bind (cipher_verifyIs_at hct1 w1 .single) ?_
        rintro _ _ _ rfl
        refine Outcome.bind (asMasked_at (hpf.mono w1) w1) ?_
        rintro vpf pf _ ⟨rfl, hpf⟩
        refine Outcome.call (commitment_evaluateAt_ret ((at_com.1 hop').2.mono w1) dealer) w1 fun a a' m2 ra w2 => ?_
        refine Outcome.call (constantTerm_ret (hcm.mono w2)) w2 fun b b' m3 rb w3 => ?_
        exact ((eqVerify_ret (ra.upto rb.1).at rb.at ((hpf.mono ra.1).mono rb.1)).mono fun _ _ _ h => h.since w3).after w3
      · rw [if_neg h3, if_neg h3]
        exact Outcome.err w1
  · rcases at_opt.1 hpf with ⟨rfl, rfl⟩ | ⟨pf, vpf, rfl, rfl, hpf⟩
    · obtain ⟨hw, hc⟩ := at_com.1 hop'
      refine Outcome.bind (verifyIs_at hcm1 w1 .simple) ?_
      rintro _ _ _ rfl
      refine Outcome.bind (verifyIs_at (hc.mono w1) w1 .simple) ?_
      rintro _ _ _ rfl
      refine Outcome.bind (cipher_verifyIs_at hct1 w1 .single) ?_
      rintro _ _ m1 rfl
      have hk := (at_commitment.1 hc).1
      obtain ⟨w, c⟩ := p
      obtain ⟨w', c'⟩ := x
      obtain rfl : w = w' := hw
      dsimp only at hk hc ⊢
      rw [hk]
      rcases w with _ | _ | _ <;> rcases hk' : c'.kind with _ | _ <;> dsimp only <;>
        first | exact Outcome.err w1 | exact Outcome.pure (Ret.data w1) | skip
      refine Outcome.call (commitment_evaluateAt_ret (hc.mono w1) dealer) w1 fun a a' m2 ra w2 => ?_
      refine Outcome.call (constantTerm_ret (hcm.mono w2)) w2 fun b b' m3 rb w3 => ?_
      refine Outcome.getPt (ra.upto rb.1).at (Outcome.getPt rb.at ?_)
      by_cases h4 : a ≠ b
      · rw [if_pos h4, if_pos h4]
        exact Outcome.err w3
      · rw [if_neg h4, if_neg h4]
        exact Outcome.pure (Ret.data w3)
    · exact Outcome.err w1
  · refine Outcome.bind (nonNil_at (hpf.mono w1) w1) ?_
    rintro vpf pf _ ⟨rfl, hpf⟩
    rw [proofType_at hpf]
    by_cases h3 : vpf.type = .product
    · rw [if_pos h3, if_pos h3]
      refine Outcome.bind (verifyIs_at hcm1 w1 .pedersen) ?_
      rintro _ _ _ rfl
      refine Outcome.bind (cipher_verifyIs_at hct1 w1 .pairs) ?_
      rintro _ _ _ rfl
      refine Outcome.bind (verifyIs_at ((at_com.1 hop'.1).2.mono w1) w1 .simple) ?_
      rintro _ _ _ rfl
      refine Outcome.bind (verifyIs_at ((at_com.1 hop'.2).2.mono w1) w1 .pedersen) ?_
      rintro _ _ _ rfl
      refine Outcome.bind (asProduct_at hpf w1) ?_
      rintro vpf pf _ ⟨rfl, hpf⟩
      refine Outcome.call (commitment_evaluateAt_ret ((at_com.1 hop'.1).2.mono w1) dealer) w1 fun a a' m2 ra w2 => ?_
      refine Outcome.call (commitment_evaluateAt_ret ((at_com.1 hop'.2).2.mono w2) dealer) w2 fun b b' m3 rb w3 => ?_
      refine Outcome.call (constantTerm_ret (hcm.mono w3)) w3 fun c c' m4 rc w4 => ?_
      exact ((productVerify_ret ((ra.upto rb.1).upto rc.1).at (rb.upto rc.1).at rc.at
        (((hpf.mono ra.1).mono rb.1).mono rc.1)).mono fun _ _ _ h => h.since w4).after w4
    · rw [if_neg h3, if_neg h3]
      exact Outcome.err w1
  · exact Outcome.err w1

theorem privateVerify_ret {d : DealingObj} {vd : Dealings.Dealing} {sk pk : Addr} {vsk : Fn} {vpk : Pt}
    {recipient : NodeIndex} (hd : At View.dealing m d vd) (hs : At View.sc m sk vsk) (hk : At View.pt m pk vpk) :
    Outcome (Writes ∅ m) (privateVerify P d curve sk pk ad dealer recipient) m
      (Dealings.privateVerify P vd curve vsk vpk ad dealer recipient) (Ret View.data m) := by
  obtain ⟨hct, hcm, hpf⟩ := at_dealing.1 hd
  unfold privateVerify Dealings.privateVerify
  have w0 := Writes.refl ∅ m
  by_cases h2 : K256 ≠ curve
  · rw [if_pos h2, if_pos h2]
    exact Outcome.err w0
  rw [if_neg h2, if_neg h2]
  refine Outcome.bind (nonNil_at hcm w0) ?_
  rintro vcm cm _ ⟨rfl, hcm⟩
  refine Outcome.call (constantTerm_ret hcm) w0 fun _ _ m1 _ w1 => ?_
  refine Outcome.bind (nonNil_at (hct.mono w1) w1) ?_
  rintro vct ct _ ⟨rfl, hct⟩
  refine Outcome.call (decryptAndCheck_ret hct (hcm.mono w1) (hs.mono w1) (hk.mono w1)) w1 fun _ _ m2 _ w2 => ?_
  exact Outcome.pure (Ret.data w2)

end Verify

end Verif.Heap
