import Verif.Lemmas.HeapAt
import Verif.Spec.HeapZk

/-!
The proofs of zk on memory do what they do on values, and change nothing that existed.
-/

set_option autoImplicit false

namespace Verif.Heap

variable {ο ν α β γ δ : Type} {E : Mem → Prop} {m m0 m' : Mem}

/-! ### Steps -/

/-- A call whose result was made since `m`, an earlier memory. -/
theorem Outcome.upd {V : View ο ν} {g : Go ο} {v : ν} {f : ο → Go γ} {r : Res δ} {S : δ → γ → Mem → Prop}
    (h : Outcome (Writes ∅ m) g m' (.ok v) (Ret V m)) (w : Writes ∅ m0 m)
    (hf : ∀ o m'', Ret V m v o m'' → Writes ∅ m0 m'' → Outcome (Writes ∅ m0) (f o) m'' r S) :
    Outcome (Writes ∅ m0) (g >>= f) m' r S :=
  Outcome.bind_ok (h.errs fun _ e => w.trans_empty e) fun o m'' hr => hf o m'' hr (w.trans_empty hr.1)

theorem Outcome.getPt {a : Addr} {v : Pt} {f : Pt → Go γ} {r : Res δ} {S : δ → γ → Mem → Prop} (h : At View.pt m a v)
    (hf : Outcome E (f v) m r S) : Outcome E (Heap.readPt a >>= f) m r S := by
  refine Outcome.readPt ?_
  rwa [(at_pt.1 h).2]

theorem Outcome.getSc {a : Addr} {v : Fn} {f : Fn → Go γ} {r : Res δ} {S : δ → γ → Mem → Prop} (h : At View.sc m a v)
    (hf : Outcome E (f v) m r S) : Outcome E (Heap.readSc a >>= f) m r S := by
  refine Outcome.readSc ?_
  rwa [(at_sc.1 h).2]

/-- A new object for a value computed without memory. -/
theorem Outcome.lift_new {V : View ο ν} {r : Res ν} {mk : ν → Go ο}
    (h : ∀ v, Outcome (Writes ∅ m) (mk v) m (.ok v) (Ret V m)) :
    Outcome (Writes ∅ m) (Go.lift r >>= mk) m r (Ret V m) := by
  cases r with
  | ok v => exact h v
  | err e => exact ⟨m, rfl, Writes.refl _ _⟩
  | panic e => exact ⟨m, rfl, Writes.refl _ _⟩
  | diverge => exact ⟨m, rfl, Writes.refl _ _⟩

theorem smulNew_ret {p k : Addr} {x : Pt} {y : Fn} (hp : At View.pt m p x) (hk : At View.sc m k y) :
    Outcome (Writes ∅ m) (smulNew p k) m (.ok (Point.scalarMul x y)) (Ret View.pt m) := by
  refine Outcome.call_ok (clonePt_ret hp) (Writes.refl _ _) fun c m1 hc w => ?_
  exact smulPt_to hc (hp.mono w) (hk.mono w)

theorem mulNew_ret {a b : Addr} {x y : Fn} (ha : At View.sc m a x) (hb : At View.sc m b y) :
    Outcome (Writes ∅ m) (mulNew a b) m (.ok (x * y)) (Ret View.sc m) := by
  refine Outcome.call_ok (cloneSc_ret ha) (Writes.refl _ _) fun c m1 hc w => ?_
  exact mulSc_to hc (ha.mono w) (hb.mono w)

/-! ### Structures -/

theorem at_proof {o : ProofObj} {v : Zk.Proof} :
    At View.proof m o v ↔ At View.sc m o.challenge v.challenge ∧ At View.sc m o.response v.response := by
  obtain ⟨c, r⟩ := v
  simp [At, Has, View.proof, View.via, View.prod, View.sc, Zk.Proof.mk.injEq]
  tauto

theorem at_productProof {o : ProductProofObj} {v : Zk.Product.Proof} :
    At View.productProof m o v ↔ At View.sc m o.challenge v.challenge ∧ At View.sc m o.response1 v.response1 ∧
      At View.sc m o.response2 v.response2 := by
  obtain ⟨c, r, s⟩ := v
  simp [At, Has, View.productProof, View.via, View.prod, View.sc, Zk.Product.Proof.mk.injEq]
  tauto

theorem ret_proof {c r : Addr} {x y : Fn} (h : Ret (View.sc.prod View.sc) m (x, y) (c, r) m') :
    Ret View.proof m ⟨x, y⟩ ⟨c, r⟩ m' :=
  ⟨h.1, h.2.1, h.2.2.1, congrArg (fun v : Fn × Fn => (⟨v.1, v.2⟩ : Zk.Proof)) h.2.2.2⟩

theorem ret_productProof {c r s : Addr} {x y z : Fn}
    (h : Ret (View.sc.prod (View.sc.prod View.sc)) m (x, y, z) (c, r, s) m') :
    Ret View.productProof m ⟨x, y, z⟩ ⟨c, r, s⟩ m' :=
  ⟨h.1, h.2.1, h.2.2.1, congrArg (fun v : Fn × Fn × Fn => (⟨v.1, v.2.1, v.2.2⟩ : Zk.Product.Proof)) h.2.2.2⟩

theorem Ret.new_pt {v : Pt} {c : Addr} (h : Ret View.pt m v c m') : m.next ≤ c ∧ c < m'.next :=
  h.2.1 _ (List.mem_singleton_self _)

theorem Ret.new_sc {v : Fn} {c : Addr} (h : Ret View.sc m v c m') : m.next ≤ c ∧ c < m'.next :=
  h.2.1 _ (List.mem_singleton_self _)

theorem At.write_pt {V : View ο ν} {o : ο} {v : ν} {s : Addr} (h : At V m o v) (w : Writes {.pt s} m m')
    (hs : .pt s ∉ V.objs o) : At V m' o v :=
  h.write w fun x hx e => hs (by rw [Set.mem_singleton_iff] at e; exact e ▸ hx)

theorem At.write_sc {V : View ο ν} {o : ο} {v : ν} {s : Addr} (h : At V m o v) (w : Writes {.sc s} m m')
    (hs : .sc s ∉ V.objs o) : At V m' o v :=
  h.write w fun x hx e => hs (by rw [Set.mem_singleton_iff] at e; exact e ▸ hx)

/-- Subtracting in place from an object made since `m0`. -/
theorem Outcome.subPt_step {s a : Addr} {x y : Pt} {f : Addr → Go γ} {r : Res δ} {S : δ → γ → Mem → Prop}
    (hs : At View.pt m s x) (ha : At View.pt m a y) (hn : m0.next ≤ s) (w : Writes ∅ m0 m)
    (hf : ∀ m'', Writes {.pt s} m m'' → Writes ∅ m0 m'' → At View.pt m'' s (x - y) →
      Outcome E (f s) m'' r S) : Outcome E (Heap.subPt s s a >>= f) m r S := by
  refine Outcome.subPt (hf _ ((Writes.refl _ _).setPt (.inl rfl)) (w.setPt (.inr hn)) ?_)
  rw [at_pt, Mem.setPt_self, (at_pt.1 hs).2, (at_pt.1 ha).2]
  exact ⟨(at_pt.1 hs).1, rfl⟩

/-- Two points. -/
theorem ret_pts {a b : Addr} {x y : Pt} (w : Writes ∅ m m') (ha : At View.pt m' a x) (hb : At View.pt m' b y)
    (na : m.next ≤ a) (nb : m.next ≤ b) (ne : a ≠ b) : Ret (View.pt.prod View.pt) m (x, y) (a, b) m' := by
  refine ⟨w, fun o ho => ?_, ?_, Prod.ext ha.2 hb.2⟩
  · have ho' : o = .pt a ∨ o = .pt b := by simpa [View.prod, View.pt] using ho
    rcases ho' with rfl | rfl
    · exact ⟨na, (at_pt.1 ha).1⟩
    · exact ⟨nb, (at_pt.1 hb).1⟩
  · simpa [View.prod, View.pt] using ne

theorem at_notMem_pt {a s : Addr} (h : s ≠ a) : Obj.pt s ∉ View.pt.objs a := by simpa [View.pt] using h

/-! ### zk/dlog.go -/

attribute [local irreducible] Zk.Dlog.hashToChallenge Zk.EqOpen.hashToChallenge Zk.Product.hashToChallenge
  Scalar.random

section Dlog

variable {P : Prim} {ad : Bytes} {g h gx hx c1 c2 : Addr} {vg vh vgx vhx v1 v2 : Pt}

theorem dlogHash_ret (hg : At View.pt m g vg) (hh : At View.pt m h vh) (hgx : At View.pt m gx vgx)
    (hhx : At View.pt m hx vhx) (h1 : At View.pt m c1 v1) (h2 : At View.pt m c2 v2) :
    Outcome (Writes ∅ m) (dlogHash P ⟨g, h, gx, hx⟩ c1 c2 ad) m
      (Zk.Dlog.hashToChallenge P ⟨vg, vh, vgx, vhx⟩ v1 v2 ad) (Ret View.sc m) :=
  Outcome.getPt hg <| Outcome.getPt hh <| Outcome.getPt hgx <| Outcome.getPt hhx <| Outcome.getPt h1 <|
    Outcome.getPt h2 <| Outcome.lift_new fun v => newSc_ret v

theorem dlogRecover_ret {pf : ProofObj} {v : Zk.Proof} (hg : At View.pt m g vg) (hh : At View.pt m h vh)
    (hgx : At View.pt m gx vgx) (hhx : At View.pt m hx vhx) (hp : At View.proof m pf v) :
    Outcome (Writes ∅ m) (dlogRecover ⟨g, h, gx, hx⟩ pf) m (.ok (Zk.Dlog.recoverCommitments ⟨vg, vh, vgx, vhx⟩ v))
      (Ret (View.pt.prod View.pt) m) := by
  obtain ⟨hc, hr⟩ := at_proof.1 hp
  refine Outcome.call_ok (smulNew_ret hg hr) (Writes.refl _ _) fun gz m1 rg w1 => ?_
  refine Outcome.call_ok (smulNew_ret (hh.mono w1) (hr.mono w1)) w1 fun hz m2 rh w2 => ?_
  refine Outcome.call_ok (smulNew_ret (hgx.mono w2) (hc.mono w2)) w2 fun t m3 rt w3 => ?_
  have ng := rg.new_pt
  have nh := rh.new_pt
  refine Outcome.subPt_step ((rg.upto rh.1).upto rt.1).at rt.at ng.1 w3 fun m4 u4 w4 hg4 => ?_
  have hz4 := (rh.upto rt.1).at.write_pt u4 (at_notMem_pt (by omega))
  refine Outcome.call_ok (smulNew_ret (hhx.mono w4) (hc.mono w4)) w4 fun t' m5 rt' w5 => ?_
  refine Outcome.subPt_step (hz4.mono rt'.1) rt'.at (by have := w1.next; omega) w5 fun m6 u6 w6 hz6 => ?_
  refine Outcome.pure (ret_pts w6 ?_ hz6 ng.1 (by have := w1.next; omega) (by omega))
  exact (hg4.mono rt'.1).write_pt u6 (at_notMem_pt (by omega))

theorem dlogVerify_ret {pf : ProofObj} {v : Zk.Proof} (hg : At View.pt m g vg) (hh : At View.pt m h vh)
    (hgx : At View.pt m gx vgx) (hhx : At View.pt m hx vhx) (hp : At View.proof m pf v) :
    Outcome (Writes ∅ m) (dlogVerify P pf g h gx hx ad) m (Zk.Dlog.verify P v vg vh vgx vhx ad)
      (Ret View.data m) := by
  refine Outcome.call_ok (dlogRecover_ret hg hh hgx hhx hp) (Writes.refl _ _) fun r m1 rr w1 => ?_
  refine Outcome.call (dlogHash_ret (hg.mono w1) (hh.mono w1) (hgx.mono w1) (hhx.mono w1) rr.fst.at rr.snd.at) w1
    fun e c m2 rc w2 => ?_
  refine Outcome.getSc rc.at (Outcome.getSc ((at_proof.1 hp).1.mono w2) ?_)
  by_cases he : e = v.challenge
  · rw [if_pos he, if_pos he]
    exact Outcome.pure (Ret.data w2)
  · rw [if_neg he, if_neg he]
    exact Outcome.err w2

theorem dlogCreate_ret {x : Addr} {vx : Fn} {seed : Seed} (hx : At View.sc m x vx) (hg : At View.pt m g vg)
    (hh : At View.pt m h vh) :
    Outcome (Writes ∅ m) (dlogCreate P seed x g h ad) m (Zk.Dlog.create P seed vx vg vh ad) (Ret View.proof m) := by
  unfold dlogCreate dlogFromWitness
  simp only [bind_assoc, pure_bind]
  refine Outcome.call_ok (smulNew_ret hg hx) (Writes.refl _ _) fun gx m1 rgx w1 => ?_
  refine Outcome.call_ok (smulNew_ret (hh.mono w1) (hx.mono w1)) w1 fun hx' m2 rhx w2 => ?_
  refine Outcome.lift w2 fun r _ => ?_
  obtain ⟨r, st⟩ := r
  refine Outcome.call_ok (newSc_ret r) w2 fun r' m3 rr w3 => ?_
  refine Outcome.call_ok (smulNew_ret (hg.mono w3) rr.at) w3 fun rG m4 rrG w4 => ?_
  refine Outcome.call_ok (smulNew_ret (hh.mono w4) (rr.upto rrG.1).at) w4 fun rH m5 rrH w5 => ?_
  have hr5 := ((rr.upto rrG.1).upto rrH.1).at
  have hgx5 := ((((rgx.upto rhx.1).upto rr.1).upto rrG.1).upto rrH.1).at
  have hhx5 := (((rhx.upto rr.1).upto rrG.1).upto rrH.1).at
  have hh5 := dlogHash_ret (P := P) (ad := ad) (hg.mono w5) (hh.mono w5) hgx5 hhx5 (rrG.upto rrH.1).at rrH.at
  dsimp only [Zk.Dlog.fromWitness]
  generalize Zk.Dlog.hashToChallenge P _ _ _ ad = e at hh5 ⊢
  cases e with
  | ok c =>
    obtain ⟨c', m6, e6, rc⟩ := hh5
    have w6 := w5.trans_empty rc.1
    refine Outcome.step (a := some c') (m' := m6) (by simp [Go.ignoreErr, e6]) ?_
    refine Outcome.call_ok (cloneSc_ret (hx.mono w6)) w6 fun s m7 rs w7 => ?_
    refine Outcome.step (a := c') (m' := m7) rfl ?_
    refine Outcome.upd (mulSc_to rs (hx.mono w7) (rc.upto rs.1).at) w6 fun s' m8 rs8 w8 => ?_
    refine Outcome.upd (addSc_in rs8 ((hr5.mono rc.1).mono rs8.1)) w6 fun s'' m9 rs9 w9 => ?_
    exact Outcome.pure (ret_proof ((rc.pair rs9).since w5))
  | err e =>
    obtain ⟨m6, e6, w56⟩ := hh5
    have w6 := w5.trans_empty w56
    refine Outcome.step (a := none) (m' := m6) (by simp [Go.ignoreErr, e6]) ?_
    refine Outcome.call_ok (cloneSc_ret (hx.mono w6)) w6 fun s m7 rs w7 => ?_
    exact ⟨m7, rfl, w7⟩
  | panic e =>
    obtain ⟨m6, e6, w56⟩ := hh5
    exact ⟨m6, by simp [run_bind, Go.ignoreErr, e6, Go.andThen], w5.trans_empty w56⟩
  | diverge =>
    obtain ⟨m6, e6, w56⟩ := hh5
    exact ⟨m6, by simp [run_bind, Go.ignoreErr, e6, Go.andThen], w5.trans_empty w56⟩

end Dlog

theorem cloneProof_ret {pf : ProofObj} {v : Zk.Proof} (hp : At View.proof m pf v) :
    Outcome (Writes ∅ m) (cloneProof pf) m (.ok v) (Ret View.proof m) := by
  obtain ⟨hc, hr⟩ := at_proof.1 hp
  refine Outcome.call_ok (cloneSc_ret hc) (Writes.refl _ _) fun c m1 rc w1 => ?_
  refine Outcome.call_ok (cloneSc_ret (hr.mono w1)) w1 fun r m2 rr w2 => ?_
  exact Outcome.pure (ret_proof (rc.pair rr))

/-! ### zk/equal_opening.go -/

section EqOpen

variable {P : Prim} {ad : Bytes} {g h a b c : Addr} {vg vh va vb vc : Pt}

theorem eqHash_ret (hg : At View.pt m g vg) (hh : At View.pt m h vh) (ha : At View.pt m a va)
    (hb : At View.pt m b vb) (hc : At View.pt m c vc) :
    Outcome (Writes ∅ m) (eqHash P ⟨g, h, a, b⟩ c ad) m
      (Zk.EqOpen.hashToChallenge P ⟨vg, vh, va, vb⟩ vc ad) (Ret View.sc m) :=
  Outcome.getPt hg <| Outcome.getPt hh <| Outcome.getPt ha <| Outcome.getPt hb <| Outcome.getPt hc <|
    Outcome.lift_new fun v => newSc_ret v

theorem eqRecover_ret {pf : ProofObj} {v : Zk.Proof} (hh : At View.pt m h vh) (ha : At View.pt m a va)
    (hb : At View.pt m b vb) (hp : At View.proof m pf v) :
    Outcome (Writes ∅ m) (eqRecover ⟨g, h, a, b⟩ pf) m (.ok (Zk.EqOpen.recoverCommitments ⟨vg, vh, va, vb⟩ v))
      (Ret View.pt m) := by
  obtain ⟨hc, hr⟩ := at_proof.1 hp
  refine Outcome.call_ok (clonePt_ret ha) (Writes.refl _ _) fun x m1 rx w1 => ?_
  refine Outcome.upd (subPt_to rx (ha.mono w1) (hb.mono w1)) (Writes.refl _ _) fun x' m2 rx2 w2 => ?_
  refine Outcome.call_ok (smulNew_ret rx2.at (hc.mono w2)) w2 fun y m3 ry w3 => ?_
  refine Outcome.call_ok (smulNew_ret (hh.mono w3) (hr.mono w3)) w3 fun z m4 rz w4 => ?_
  exact (subPt_in rz (ry.upto rz.1).at).mono fun _ _ _ h => h.since w3

theorem eqVerify_ret {pf : ProofObj} {v : Zk.Proof} (ha : At View.pt m a va) (hb : At View.pt m b vb)
    (hp : At View.proof m pf v) :
    Outcome (Writes ∅ m) (eqVerify P pf a b ad) m (Zk.EqOpen.verify P v va vb ad) (Ret View.data m) := by
  unfold eqVerify eqFromCommitments
  simp only [bind_assoc, pure_bind]
  refine Outcome.call_ok (newPt_ret G) (Writes.refl _ _) fun g m1 rg w1 => ?_
  refine Outcome.call_ok (newPt_ret Point.H) w1 fun h m2 rh w2 => ?_
  refine Outcome.call_ok (clonePt_ret (ha.mono w2)) w2 fun a' m3 ra w3 => ?_
  refine Outcome.call_ok (clonePt_ret (hb.mono w3)) w3 fun b' m4 rb w4 => ?_
  have hg4 := (((rg.upto rh.1).upto ra.1).upto rb.1).at
  have hh4 := ((rh.upto ra.1).upto rb.1).at
  have ha4 := (ra.upto rb.1).at
  refine Outcome.call_ok (eqRecover_ret (vg := G) hh4 ha4 rb.at (hp.mono w4)) w4 fun c m5 rc w5 => ?_
  refine Outcome.call (eqHash_ret (hg4.mono rc.1) (hh4.mono rc.1) (ha4.mono rc.1) (rb.upto rc.1).at rc.at) w5
    fun e c' m6 re w6 => ?_
  refine Outcome.getSc ((at_proof.1 hp).1.mono w6) (Outcome.getSc re.at ?_)
  by_cases he : v.challenge = e
  · rw [if_pos he, if_pos he]
    exact Outcome.pure (Ret.data w6)
  · rw [if_neg he, if_neg he]
    exact Outcome.err w6

theorem eqCreate_ret {s k : Addr} {vs vk : Fn} {seed : Seed} (hs : At View.sc m s vs) (hk : At View.sc m k vk) :
    Outcome (Writes ∅ m) (eqCreate P seed s k ad) m (Zk.EqOpen.create P seed vs vk ad) (Ret View.proof m) := by
  unfold eqCreate eqFromWitness
  simp only [bind_assoc, pure_bind]
  refine Outcome.call_ok (newPt_ret G) (Writes.refl _ _) fun g m1 rg w1 => ?_
  refine Outcome.call_ok (newPt_ret Point.H) w1 fun h m2 rh w2 => ?_
  refine Outcome.call_ok (pedersen_ret (hs.mono w2) (hk.mono w2)) w2 fun a m3 ra w3 => ?_
  refine Outcome.call_ok (mulByG_ret (hs.mono w3)) w3 fun b m4 rb w4 => ?_
  refine Outcome.lift w4 fun r _ => ?_
  obtain ⟨r, st⟩ := r
  refine Outcome.call_ok (newSc_ret r) w4 fun r' m5 rr w5 => ?_
  have hg5 := ((((rg.upto rh.1).upto ra.1).upto rb.1).upto rr.1).at
  have hh5 := (((rh.upto ra.1).upto rb.1).upto rr.1).at
  have ha5 := ((ra.upto rb.1).upto rr.1).at
  have hb5 := (rb.upto rr.1).at
  refine Outcome.call_ok (smulNew_ret hh5 rr.at) w5 fun c m6 rc w6 => ?_
  refine Outcome.call (eqHash_ret (hg5.mono rc.1) (hh5.mono rc.1) (ha5.mono rc.1) (hb5.mono rc.1) rc.at) w6
    fun e c' m7 re w7 => ?_
  refine Outcome.call_ok (mulNew_ret (hk.mono w7) re.at) w7 fun z m8 rz w8 => ?_
  refine Outcome.upd (addSc_in rz (((rr.upto rc.1).upto re.1).upto rz.1).at) w7 fun z' m9 rz9 w9 => ?_
  exact Outcome.pure (ret_proof ((re.pair rz9).since w6))

end EqOpen

/-! ### zk/product.go -/

section Product

variable {P : Prim} {ad : Bytes} {g h l r p c1 c2 : Addr} {vg vh vl vr vp v1 v2 : Pt}

theorem productHash_ret (hg : At View.pt m g vg) (hh : At View.pt m h vh) (hl : At View.pt m l vl)
    (hr : At View.pt m r vr) (hp : At View.pt m p vp) (h1 : At View.pt m c1 v1) (h2 : At View.pt m c2 v2) :
    Outcome (Writes ∅ m) (productHash P ⟨g, h, l, r, p⟩ c1 c2 ad) m
      (Zk.Product.hashToChallenge P ⟨vg, vh, vl, vr, vp⟩ v1 v2 ad) (Ret View.sc m) :=
  Outcome.getPt hg <| Outcome.getPt hh <| Outcome.getPt hl <| Outcome.getPt hr <| Outcome.getPt hp <|
    Outcome.getPt h1 <| Outcome.getPt h2 <| Outcome.lift_new fun v => newSc_ret v

theorem productRecover_ret {pf : ProductProofObj} {v : Zk.Product.Proof} (hh : At View.pt m h vh)
    (hl : At View.pt m l vl) (hr : At View.pt m r vr) (hp : At View.pt m p vp) (hpf : At View.productProof m pf v) :
    Outcome (Writes ∅ m) (productRecover ⟨g, h, l, r, p⟩ pf) m
      (.ok (Zk.Product.recoverCommitment ⟨vg, vh, vl, vr, vp⟩ v)) (Ret (View.pt.prod View.pt) m) := by
  obtain ⟨hc, h1, h2⟩ := at_productProof.1 hpf
  refine Outcome.call_ok (mulByG_ret h1) (Writes.refl _ _) fun x m1 rx w1 => ?_
  refine Outcome.call_ok (smulNew_ret (hl.mono w1) (hc.mono w1)) w1 fun t m2 rt w2 => ?_
  refine Outcome.upd (subPt_in (rx.upto rt.1) rt.at) (Writes.refl _ _) fun x' m3 rx3 w3 => ?_
  refine Outcome.call_ok (mulPoints_ret (hr.mono w3) (h1.mono w3) (hh.mono w3) (h2.mono w3)) w3 fun y m4 ry w4 => ?_
  refine Outcome.call_ok (smulNew_ret (hp.mono w4) (hc.mono w4)) w4 fun t' m5 rt' w5 => ?_
  refine Outcome.upd (subPt_in (ry.upto rt'.1) rt'.at) w3 fun y' m6 ry6 w6 => ?_
  exact Outcome.pure (rx3.pair ry6)

theorem productVerify_ret {pf : ProductProofObj} {v : Zk.Product.Proof} (hl : At View.pt m l vl)
    (hr : At View.pt m r vr) (hp : At View.pt m p vp) (hpf : At View.productProof m pf v) :
    Outcome (Writes ∅ m) (productVerify P pf l r p ad) m (Zk.Product.verify P v vl vr vp ad) (Ret View.data m) := by
  unfold productVerify productFromCommitments
  simp only [bind_assoc, pure_bind]
  refine Outcome.call_ok (newPt_ret G) (Writes.refl _ _) fun g m1 rg w1 => ?_
  refine Outcome.call_ok (newPt_ret Point.H) w1 fun h m2 rh w2 => ?_
  refine Outcome.call_ok (productRecover_ret (vg := G) rh.at (hl.mono w2) (hr.mono w2) (hp.mono w2) (hpf.mono w2)) w2
    fun c m3 rc w3 => ?_
  refine Outcome.call (productHash_ret ((rg.upto rh.1).upto rc.1).at (rh.upto rc.1).at (hl.mono w3) (hr.mono w3)
    (hp.mono w3) rc.fst.at rc.snd.at) w3 fun e c' m4 re w4 => ?_
  refine Outcome.getSc ((at_productProof.1 hpf).1.mono w4) (Outcome.getSc re.at ?_)
  by_cases he : v.challenge = e
  · rw [if_pos he, if_pos he]
    exact Outcome.pure (Ret.data w4)
  · rw [if_neg he, if_neg he]
    exact Outcome.err w4

theorem productCreate_ret {a b bm c cm : Addr} {va vb vbm vc vcm : Fn} {seed : Seed} (ha : At View.sc m a va)
    (hb : At View.sc m b vb) (hbm : At View.sc m bm vbm) (hc : At View.sc m c vc) (hcm : At View.sc m cm vcm) :
    Outcome (Writes ∅ m) (productCreate P seed a b bm c cm ad) m (Zk.Product.create P seed va vb vbm vc vcm ad)
      (Ret View.productProof m) := by
  unfold productCreate productFromWitness
  simp only [bind_assoc, pure_bind]
  refine Outcome.call_ok (newPt_ret G) (Writes.refl _ _) fun g m1 rg w1 => ?_
  refine Outcome.call_ok (newPt_ret Point.H) w1 fun h m2 rh w2 => ?_
  have hg2 := (rg.upto rh.1).at
  refine Outcome.call_ok (smulNew_ret hg2 (ha.mono w2)) w2 fun l m3 rl w3 => ?_
  refine Outcome.call_ok (mulPoints_ret (hg2.mono rl.1) (hb.mono w3) (rh.upto rl.1).at (hbm.mono w3)) w3
    fun r m4 rr w4 => ?_
  refine Outcome.call_ok (mulPoints_ret ((hg2.mono rl.1).mono rr.1) (hc.mono w4) ((rh.upto rl.1).upto rr.1).at
    (hcm.mono w4)) w4 fun p m5 rp w5 => ?_
  have hg5 := ((hg2.mono rl.1).mono rr.1).mono rp.1
  have hh5 := (((rh.upto rl.1).upto rr.1).upto rp.1).at
  have hl5 := ((rl.upto rr.1).upto rp.1).at
  have hr5 := (rr.upto rp.1).at
  refine Outcome.lift w5 fun r1 _ => ?_
  obtain ⟨r1, st⟩ := r1
  refine Outcome.call_ok (newSc_ret r1) w5 fun r1' m6 rr1 w6 => ?_
  refine Outcome.call_ok (smulNew_ret (hg5.mono rr1.1) rr1.at) w6 fun c1 m7 rc1 w7 => ?_
  refine Outcome.lift w7 fun r2 _ => ?_
  obtain ⟨r2, st'⟩ := r2
  refine Outcome.call_ok (newSc_ret r2) w7 fun r2' m8 rr2 w8 => ?_
  have w58 : Writes ∅ m5 m8 := (rr1.1.trans_empty rc1.1).trans_empty rr2.1
  have hr18 := ((rr1.upto rc1.1).upto rr2.1).at
  refine Outcome.call_ok (mulPoints_ret (hr5.mono w58) hr18 (hh5.mono w58) rr2.at) w8 fun c2 m9 rc2 w9 => ?_
  have w59 := w58.trans_empty rc2.1
  refine Outcome.call (productHash_ret (hg5.mono w59) (hh5.mono w59) (hl5.mono w59) (hr5.mono w59) (rp.at.mono w59)
    ((rc1.upto rr2.1).upto rc2.1).at rc2.at) w9 fun e ch m10 re w10 => ?_
  have w810 := rc2.1.trans_empty re.1
  refine Outcome.call_ok (mulNew_ret (ha.mono w10) re.at) w10 fun z m11 rz w11 => ?_
  refine Outcome.upd (addSc_in rz ((hr18.mono w810).mono rz.1)) w10 fun z' m12 rz12 w12 => ?_
  refine Outcome.call_ok (cloneSc_ret (hcm.mono w12)) w12 fun y m13 ry w13 => ?_
  refine Outcome.call_ok (mulNew_ret (ha.mono w13) (hbm.mono w13)) w13 fun t m14 rt w14 => ?_
  refine Outcome.upd (subSc_to (ry.upto rt.1) (hcm.mono w14) rt.at) w12 fun y' m15 ry15 w15 => ?_
  refine Outcome.upd (mulSc_in ry15 ((re.upto rz12.1).upto ry15.1).at) w12 fun y'' m16 ry16 w16 => ?_
  refine Outcome.upd (addSc_in ry16 (((rr2.at.mono w810).mono rz12.1).mono ry16.1)) w12 fun y3 m17 ry17 w17 => ?_
  exact Outcome.pure (ret_productProof ((re.pair (rz12.pair ry17)).since w9))

end Product

end Verif.Heap
