import Verif.Lemmas.HeapRound
import Verif.Props.Protocol

/-! The four operations of the protocol driver on memory, its setups, and signing with it. -/

set_option autoImplicit false

namespace Verif.Heap

open Protocol (node)

variable {ο ν ο' ν' α β γ δ : Type} {E : Mem → Prop} {m m0 m' : Mem}
variable {P : Prim} {s : SetupObj} {vs : Protocol.Setup} {cbor : Commitment → Res Bytes}
variable {r r1 r2 : RoundObj} {v v1 v2 : Protocol.Round} {dealers corrupted : Nat}

/-! ### Rounds -/

structure RoundAt' (m : Mem) (r : RoundObj) (v : Protocol.Round) : Prop where
  commitment : At View.com m r.commitment v.commitment
  transcript : At View.com m r.transcript v.transcript
  openings : At View.opening.list m r.openings v.openings
  dealings : At (View.omap View.dealing) m r.dealings v.dealings

theorem RoundAt.split (h : RoundAt m r v) : RoundAt' m r v := by
  have h' : At View.roundParts m r.parts (roundVals v) := h
  obtain ⟨h1, h2⟩ := at_prod.1 h'
  obtain ⟨h2, h3⟩ := at_prod.1 h2
  obtain ⟨h3, h4⟩ := at_prod.1 h3
  exact ⟨h1, h2, h3, h4⟩

theorem RoundAt.mono (h : RoundAt m r v) (w : Writes ∅ m m') : RoundAt m' r v := At.mono (V := View.roundParts) h w

theorem RetRound.at (h : RetRound m v r m') : RoundAt m' r v := Ret.at (V := View.roundParts) h

theorem maskedShare_at {o : OpeningObj} {x : Opening} (h : At View.opening m o x) (w : Writes ∅ m0 m) :
    Outcome (Writes ∅ m0) (maskedShare o) m (Protocol.maskedShare x) (fun v o m' => m' = m ∧ At View.shares m o v) := by
  have := at_opening h
  rcases o with a | a | ⟨a, b⟩ | ⟨a, b⟩ <;> rcases x with x | x | ⟨x, y⟩ | ⟨x, y⟩ <;> try exact this.elim
  · exact ⟨m, rfl, w⟩
  · exact ⟨m, rfl, w⟩
  · refine ⟨_, m, rfl, rfl, ?_⟩
    exact at_prod (V := View.sc) (V' := View.sc) (o := (a, b)) (v := (x, y)) |>.2 this |> fun h =>
      ⟨h.1, congrArg (fun z : Fn × Fn => Dealings.Shares.reshareMasked z.1 z.2) h.2⟩
  · exact ⟨m, rfl, w⟩

theorem unmaskedShare_at {o : OpeningObj} {x : Opening} (h : At View.opening m o x) (w : Writes ∅ m0 m) :
    Outcome (Writes ∅ m0) (unmaskedShare o) m (Protocol.unmaskedShare x) (fun v o m' => m' = m ∧ At View.shares m o v) := by
  have := at_opening h
  rcases o with a | a | ⟨a, b⟩ | ⟨a, b⟩ <;> rcases x with x | x | ⟨x, y⟩ | ⟨x, y⟩ <;> try exact this.elim
  · refine ⟨_, m, rfl, rfl, this.1, congrArg Dealings.Shares.reshareUnmasked this.2⟩
  · exact ⟨m, rfl, w⟩
  · exact ⟨m, rfl, w⟩
  · exact ⟨m, rfl, w⟩

theorem productShares_at {ls ks : List OpeningObj} {xs ys : List Opening} (hl : At View.opening.list m ls xs)
    (hk : At View.opening.list m ks ys) (w : Writes ∅ m0 m) :
    Outcome (Writes ∅ m0) (productShares ls ks) m (Protocol.productShares xs ys)
      (fun v o m' => m' = m ∧ At View.shares.list m o v) := by
  induction ls generalizing ks xs ys with
  | nil =>
    obtain rfl := at_nil.1 hl
    rw [productShares, Protocol.productShares]
    exact ⟨[], m, rfl, rfl, at_nil.2 rfl⟩
  | cons l ls ih =>
    rcases hl.cases with ⟨h0, -⟩ | ⟨o, os, x, xs, h0, rfl, hx, hl'⟩
    · cases h0
    cases h0
    have h1 := at_opening hx
    rcases hk.cases with ⟨rfl, rfl⟩ | ⟨k, ks, y, ys, rfl, rfl, hy, hk'⟩
    · rcases l with a | a | ⟨a, b⟩ | ⟨a, b⟩ <;> rcases x with x | x | ⟨x, y⟩ | ⟨x, y⟩ <;> try exact h1.elim
      all_goals exact ⟨m, rfl, w⟩
    have h2 := at_opening hy
    rcases l with a | a | ⟨a, b⟩ | ⟨a, b⟩ <;> rcases x with x | x | ⟨x, x'⟩ | ⟨x, x'⟩ <;> try exact h1.elim
    · rcases k with c | c | ⟨c, d⟩ | ⟨c, d⟩ <;> rcases y with y | y | ⟨y, y'⟩ | ⟨y, y'⟩ <;> try exact h2.elim
      · exact ⟨m, rfl, w⟩
      · exact ⟨m, rfl, w⟩
      · rw [productShares, Protocol.productShares]
        refine (ih hl' hk').bind fun vr rr m1 ⟨e, hr⟩ => ?_
        subst e
        refine ⟨_, m1, rfl, rfl, at_cons.2 ⟨?_, hr⟩⟩
        have h3 : At (View.sc.prod (View.sc.prod View.sc)) m1 (a, c, d) (x, y, y') := at_prod.2 ⟨h1, at_prod.2 h2⟩
        exact ⟨h3.1, congrArg (fun z : Fn × Fn × Fn => Dealings.Shares.unmaskedTimesMasked z.1 z.2.1 z.2.2) h3.2⟩
      · exact ⟨m, rfl, w⟩
    all_goals exact ⟨m, rfl, w⟩

theorem random_at {n : Nat} : At View.shares.list m (List.replicate n .random) (List.replicate n .random) := by
  induction n with
  | zero => exact at_nil.2 rfl
  | succ n ih => exact at_cons.2 ⟨⟨fun x hx => (nomatch hx), rfl⟩, ih⟩

theorem roundRandom_ret (hs : SetupAt m s vs) (hn : vs.sk.length ≤ 2 ^ 63) (hl : dealers ≤ 2 ^ 63) :
    Outcome (Writes ∅ m) (roundRandom P cbor s dealers corrupted) m (Protocol.Round.random P cbor vs dealers corrupted)
      (RetStep m s) := by
  rw [roundRandom, Protocol.Round.random]
  exact makeRound_ret hs ⟨fun x hx => (nomatch hx), rfl⟩ random_at hn (by rwa [List.length_replicate])

theorem RetStep.since {v : Protocol.Round × Protocol.Setup} {o : RoundObj × SetupObj} (h : RetStep m s v o m')
    (w : Writes ∅ m0 m) : RetStep m0 s v o m' := ⟨Ret.since w h.1, h.2⟩

theorem length_mapM' {f : α → Res β} {l : List α} {bs : List β} (h : Res.mapM' f l = .ok bs) : bs.length = l.length :=
  (Res.mapM'_eq_ok.1 h).length_eq.symm

theorem length_products {xs ys : List Opening} {l : List Dealings.Shares} (h : Protocol.productShares xs ys = .ok l) :
    l.length = xs.length := by
  fun_induction Protocol.productShares xs ys generalizing l with
  | case1 => cases h; rfl
  | case2 ls ms x v m ih =>
    obtain ⟨rest, h1, h⟩ := Res.bind_eq_ok.1 h
    cases h
    rw [List.length_cons, List.length_cons, ih h1]
  | case3 => cases h
  | case4 => cases h

theorem roundReshareOfMasked_ret (hs : SetupAt m s vs) (hr : RoundAt m r v) (hn : vs.sk.length ≤ 2 ^ 63)
    (hl : v.openings.length ≤ 2 ^ 63) :
    Outcome (Writes ∅ m) (roundReshareOfMasked P cbor s r dealers corrupted) m
      (Protocol.Round.reshareOfMasked P cbor vs v dealers corrupted) (RetStep m s) := by
  rw [roundReshareOfMasked, Protocol.Round.reshareOfMasked]
  refine (mapM'_pick (fun o x h => maskedShare_at h (Writes.refl _ _)) hr.split.openings).eq.bind
    fun vsh sh m1 ⟨⟨e, hsh⟩, hv⟩ => ?_
  subst e
  refine (cloneCom_ret hr.split.commitment).bind_ok fun c m2 hc => ?_
  exact ((makeRound_ret (op := .reshareMasked c) (hs.mono hc.1) ⟨hc.at.1, congrArg Dealings.Op.reshareMasked hc.at.2⟩ (hsh.mono hc.1) hn
    ((length_mapM' hv).trans_le hl)).after hc.1).mono fun _ _ _ h => h.since hc.1

theorem roundReshareOfUnmasked_ret (hs : SetupAt m s vs) (hr : RoundAt m r v) (hn : vs.sk.length ≤ 2 ^ 63)
    (hl : v.openings.length ≤ 2 ^ 63) :
    Outcome (Writes ∅ m) (roundReshareOfUnmasked P cbor s r dealers corrupted) m
      (Protocol.Round.reshareOfUnmasked P cbor vs v dealers corrupted) (RetStep m s) := by
  rw [roundReshareOfUnmasked, Protocol.Round.reshareOfUnmasked]
  refine (mapM'_pick (fun o x h => unmaskedShare_at h (Writes.refl _ _)) hr.split.openings).eq.bind
    fun vsh sh m1 ⟨⟨e, hsh⟩, hv⟩ => ?_
  subst e
  refine (cloneCom_ret hr.split.commitment).bind_ok fun c m2 hc => ?_
  exact ((makeRound_ret (op := .reshareUnmasked c) (hs.mono hc.1) ⟨hc.at.1, congrArg Dealings.Op.reshareUnmasked hc.at.2⟩ (hsh.mono hc.1) hn
    ((length_mapM' hv).trans_le hl)).after hc.1).mono fun _ _ _ h => h.since hc.1

theorem roundMultiply_ret (hs : SetupAt m s vs) (hr : RoundAt m r v) (hr1 : RoundAt m r1 v1) (hn : vs.sk.length ≤ 2 ^ 63)
    (hl : v1.openings.length ≤ 2 ^ 63) :
    Outcome (Writes ∅ m) (roundMultiply P cbor s r r1 dealers corrupted) m
      (Protocol.Round.multiply P cbor vs v v1 dealers corrupted) (RetStep m s) := by
  rw [roundMultiply, Protocol.Round.multiply]
  refine (productShares_at hr1.split.openings hr.split.openings (Writes.refl _ _)).eq.bind
    fun vsh sh m1 ⟨⟨e, hsh⟩, hv⟩ => ?_
  subst e
  refine (cloneCom_ret hr1.split.commitment).bind_ok fun c m2 hc => ?_
  refine (cloneCom_ret (hr.split.commitment.mono hc.1)).bind_ok fun c' m3 hc' => ?_
  have w := (hc.upto hc'.1).1
  have h3 : At (View.com.prod View.com) m3 (c, c') (v1.commitment.clone, v.commitment.clone) :=
    at_prod.2 ⟨(hc.upto hc'.1).at, hc'.at⟩
  exact ((makeRound_ret (op := .unmaskedTimesMasked c c') (hs.mono w)
    ⟨h3.1, congrArg (fun z : Dealings.Com × Dealings.Com => Dealings.Op.unmaskedTimesMasked z.1 z.2) h3.2⟩ (hsh.mono w) hn
    ((length_products hv).trans_le hl)).after w).mono fun _ _ _ h => h.since w

/-! ### Setups -/

theorem genKeys_ret {n : Nat} {rng : Rng} :
    Outcome (Writes ∅ m) (genKeys n rng) m (Protocol.genKeys n rng)
      (fun v o m' => o.2 = v.2 ∧ Ret (View.sc.prod View.pt).list m (v.1.map fun k => (k, Point.mulByG k)) o.1 m') := by
  induction n generalizing m rng with
  | zero => exact Outcome.pure ⟨rfl, Ret.nil (Writes.refl _ _)⟩
  | succ n ih =>
    rw [genKeys, Protocol.genKeys]
    refine Outcome.lift (Writes.refl _ _) fun x _ => ?_
    refine (newSc_ret x.1).bind_ok fun a m1 h1 => ?_
    refine (mulByG_ret h1.at).call_ok h1.1 (f := fun p => do
      let rest ← genKeys n x.2
      pure ((a, p) :: rest.1, rest.2)) fun p m2 h2 w2 => ?_
    refine ((ih (m := m2) (rng := x.2)).after w2).bind fun vr r m3 ⟨e, h3⟩ => ?_
    exact Outcome.pure ⟨e, Ret.cons (h1.pair h2) h3⟩

theorem keys_perm (l : List (Addr × Addr)) :
    (View.keys.objs (l.map Prod.fst, l.map Prod.snd)).Perm ((View.sc.prod View.pt).list.objs l) := by
  change (View.sc.list.objs (l.map Prod.fst) ++ View.pt.list.objs (l.map Prod.snd)).Perm _
  rw [objs_list_sc, objs_list_pt]
  induction l with
  | nil => exact List.Perm.refl _
  | cons x l ih =>
    change (Obj.sc x.1 :: ((l.map Prod.fst).map Obj.sc ++ (Obj.pt x.2 :: (l.map Prod.snd).map Obj.pt))).Perm
      (Obj.sc x.1 :: Obj.pt x.2 :: (View.sc.prod View.pt).list.objs l)
    exact List.Perm.cons _ (List.perm_middle.trans (List.Perm.cons _ ih))

theorem newSetup_ret {n : Nat} {t : Int} {seed : Seed} :
    Outcome (Writes ∅ m) (newSetup P n t seed) m (Protocol.Setup.new P n t seed) (RetSetup m) := by
  rw [newSetup, Protocol.Setup.new]
  refine genKeys_ret.bind fun v o m1 ⟨_, h⟩ => ?_
  refine Outcome.pure ⟨⟨rfl, rfl, rfl, rfl⟩, h.perm (keys_perm _) ?_⟩
  have e : o.1.map (fun x => (m1.sc x.1, m1.pt x.2)) = v.1.map fun k => (k, Point.mulByG k) := h.2.2.2
  change ((o.1.map Prod.fst).map m1.sc, (o.1.map Prod.snd).map m1.pt) = (v.1, v.1.map Point.mulByG)
  have e1 := congrArg (List.map Prod.fst) e
  have e2 := congrArg (List.map Prod.snd) e
  simp only [List.map_map] at e1 e2 ⊢
  refine Prod.ext (e1.trans ?_) (e2.trans ?_)
  · change v.1.map id = v.1
    rw [List.map_id]
  · rfl

theorem length_openLoop {ds : Dealings.DealingMap} {T : Option Dealings.Com} {seed : Seed} {l : List (NodeIndex × Fn)}
    {rng : Rng} {os : List Opening} (h : Protocol.openLoop P vs ds T seed l rng = .ok os) : os.length = l.length := by
  induction l generalizing rng os with
  | nil => cases h; rfl
  | cons x l ih =>
    rw [Protocol.openLoop] at h
    split at h
    · obtain ⟨os', h1, h⟩ := Res.bind_eq_ok.1 h
      cases h
      rw [List.length_cons, List.length_cons, ih h1]
    · obtain ⟨_, -, h⟩ := Res.bind_eq_ok.1 h
      obtain ⟨_, -, h⟩ := Res.bind_eq_ok.1 h
      obtain ⟨⟨_, _⟩, -, h⟩ := Res.bind_eq_ok.1 h
      obtain ⟨_, -, h⟩ := Res.bind_eq_ok.1 h
      obtain ⟨os', h1, h⟩ := Res.bind_eq_ok.1 h
      cases h
      rw [List.length_cons, List.length_cons, ih h1]
    · cases h
    · cases h

theorem length_make {shares : List Dealings.Shares} {op : Dealings.Op} {x : Protocol.Round × Protocol.Setup}
    (h : Protocol.Round.make P cbor vs shares op dealers corrupted = .ok x) :
    x.1.openings.length = vs.sk.length ∧ x.2.sk.length = vs.sk.length := by
  rw [Protocol.Round.make] at h
  obtain ⟨⟨seed, s'⟩, h1, h⟩ := Res.bind_eq_ok.1 h
  rw [Protocol.Setup.nextDealingSeed] at h1
  obtain ⟨_, -, h1⟩ := Res.bind_eq_ok.1 h1
  cases h1
  obtain ⟨ds, -, h⟩ := Res.bind_eq_ok.1 h
  obtain ⟨T, -, h⟩ := Res.bind_eq_ok.1 h
  obtain ⟨os, h2, h⟩ := Res.bind_eq_ok.1 h
  obtain ⟨c, -, h⟩ := Res.bind_eq_ok.1 h
  cases h
  rw [Protocol.openDealings] at h2
  obtain ⟨_, -, h2⟩ := Res.bind_eq_ok.1 h2
  obtain ⟨_, -, h2⟩ := Res.bind_eq_ok.1 h2
  obtain ⟨_, -, h2⟩ := Res.bind_eq_ok.1 h2
  obtain ⟨_, -, h2⟩ := Res.bind_eq_ok.1 h2
  refine ⟨(length_openLoop h2).trans ?_, rfl⟩
  simp [Protocol.Setup.receivers]

theorem length_random {x : Protocol.Round × Protocol.Setup} (h : Protocol.Round.random P cbor vs dealers corrupted = .ok x) :
    x.1.openings.length = vs.sk.length ∧ x.2.sk.length = vs.sk.length := length_make h

theorem length_reshareOfMasked {x : Protocol.Round × Protocol.Setup}
    (h : Protocol.Round.reshareOfMasked P cbor vs v dealers corrupted = .ok x) :
    x.1.openings.length = vs.sk.length ∧ x.2.sk.length = vs.sk.length := by
  obtain ⟨_, -, h⟩ := Res.bind_eq_ok.1 h
  exact length_make h

theorem length_multiply {x : Protocol.Round × Protocol.Setup}
    (h : Protocol.Round.multiply P cbor vs v v1 dealers corrupted = .ok x) :
    x.1.openings.length = vs.sk.length ∧ x.2.sk.length = vs.sk.length := by
  obtain ⟨_, -, h⟩ := Res.bind_eq_ok.1 h
  exact length_make h

theorem newSigSetup_ret {n : Nat} {t : Int} {seed : Seed} (hn : n ≤ 2 ^ 63) :
    Outcome (Writes ∅ m) (newSigSetup P cbor n t corrupted seed) m (Protocol.SigSetup.new P cbor n t corrupted seed)
      (RetSig m) := by
  rw [newSigSetup, Protocol.SigSetup.new]
  refine newSetup_ret.eq.bind fun vs0 s0 m0 ⟨h0, e0⟩ => ?_
  have w0 := h0.2.1
  have l0 : vs0.sk.length = n := (Protocol.setup_new e0).2
  have a0 : SetupAt m0 s0 vs0 := ⟨h0.1, h0.2.at⟩
  refine ((roundRandom_ret a0 (by omega) hn).after w0).eq.bind fun x1 y1 m1 ⟨h1, e1⟩ => ?_
  obtain ⟨p1, q1⟩ := length_random e1
  have w1 := h1.1.1
  refine ((roundRandom_ret h1.2.1 (by omega) hn).after (w0.trans_empty w1)).eq.bind fun x2 y2 m2 ⟨h2, e2⟩ => ?_
  obtain ⟨p2, q2⟩ := length_random e2
  have w2 := w1.trans_empty h2.1.1
  refine ((roundRandom_ret h2.2.1 (by omega) hn).after (w0.trans_empty w2)).eq.bind fun x3 y3 m3 ⟨h3, e3⟩ => ?_
  obtain ⟨p3, q3⟩ := length_random e3
  have w3 := w2.trans_empty h3.1.1
  refine ((roundReshareOfMasked_ret h3.2.1 (RoundAt.mono h1.1.at (h2.1.1.trans_empty h3.1.1)) (by omega)
    (by omega)).after (w0.trans_empty w3)).eq.bind fun x4 y4 m4 ⟨h4, e4⟩ => ?_
  obtain ⟨p4, q4⟩ := length_reshareOfMasked e4
  have w4 := w3.trans_empty h4.1.1
  refine ((roundReshareOfMasked_ret h4.2.1 (RoundAt.mono h2.1.at (h3.1.1.trans_empty h4.1.1)) (by omega)
    (by omega)).after (w0.trans_empty w4)).eq.bind fun x5 y5 m5 ⟨h5, e5⟩ => ?_
  obtain ⟨p5, q5⟩ := length_reshareOfMasked e5
  have w5 := w4.trans_empty h5.1.1
  refine ((roundMultiply_ret h5.2.1 (RoundAt.mono h3.1.at (h4.1.1.trans_empty h5.1.1)) (RoundAt.mono h4.1.at h5.1.1) (by omega)
    (by omega)).after (w0.trans_empty w5)).eq.bind fun x6 y6 m6 ⟨h6, e6⟩ => ?_
  obtain ⟨p6, q6⟩ := length_multiply e6
  have w6 := w5.trans_empty h6.1.1
  refine ((roundMultiply_ret h6.2.1 (RoundAt.mono h3.1.at ((h4.1.1.trans_empty h5.1.1).trans_empty h6.1.1))
    (RoundAt.mono h5.1.at h6.1.1) (by omega) (by omega)).after (w0.trans_empty w6)).eq.bind fun x7 y7 m7 ⟨h7, e7⟩ => ?_
  refine Outcome.pure ⟨h7.2.1.1, ?_⟩
  have k1 : y7.2.sk = s0.sk := by rw [h7.2.2.1, h6.2.2.1, h5.2.2.1, h4.2.2.1, h3.2.2.1, h2.2.2.1, h1.2.2.1]
  have k2 : y7.2.pk = s0.pk := by rw [h7.2.2.2, h6.2.2.2, h5.2.2.2, h4.2.2.2, h3.2.2.2, h2.2.2.2, h1.2.2.2]
  have r : Ret View.sigParts m ((vs0.sk, vs0.pk), roundVals x3.1, roundVals x4.1, roundVals x5.1, roundVals x6.1, roundVals x7.1)
      ((s0.sk, s0.pk), y3.1.parts, y4.1.parts, y5.1.parts, y6.1.parts, y7.1.parts) m7 :=
    h0.2.pair ((Ret.since w2 h3.1).pair (Ret.pair h4.1 (Ret.pair h5.1 (Ret.pair h6.1 h7.1))))
  have k3 : View.keys.val m7 (y7.2.sk, y7.2.pk) = (x7.2.sk, x7.2.pk) := h7.2.1.2.2
  have k4 : View.keys.val m7 (s0.sk, s0.pk) = (vs0.sk, vs0.pk) := congrArg Prod.fst r.2.2.2
  rw [k1, k2, k4] at k3
  obtain ⟨k5, k6⟩ := Prod.mk.inj k3
  change Ret View.sigParts m ((x7.2.sk, x7.2.pk), roundVals x3.1, roundVals x4.1, roundVals x5.1, roundVals x6.1, roundVals x7.1)
      ((y7.2.sk, y7.2.pk), y3.1.parts, y4.1.parts, y5.1.parts, y6.1.parts, y7.1.parts) m7
  rwa [k1, k2, ← k5, ← k6]

theorem removeNodes_at {k : Nat} (h : SetupAt m s vs) :
    Outcome (Writes ∅ m) (removeNodes s k) m (vs.removeNodes k) (fun v o m' => m' = m ∧ SetupAt m o v) := by
  rw [removeNodes, Protocol.Setup.removeNodes, h.length]
  split_ifs
  · exact ⟨m, rfl, Writes.refl _ _⟩
  obtain ⟨h1, h2⟩ := at_list_sc.1 h.keys.1
  obtain ⟨h3, h4⟩ := at_list_pt.1 h.keys.2
  refine ⟨_, m, rfl, rfl, ⟨h.1.threshold, h.1.ad, h.1.seed, h.1.round⟩, ?_⟩
  refine at_prod (V := View.sc.list) (V' := View.pt.list) |>.2 ⟨at_list_sc.2 ⟨fun c hc => h1 c (List.mem_of_mem_take hc), ?_⟩,
    at_list_pt.2 ⟨fun c hc => h3 c (List.mem_of_mem_take hc), ?_⟩⟩
  · rw [← h2]
    exact List.map_take
  · change _ = (vs.sk.take _).map Point.mulByG
    rw [List.map_take, List.map_take]
    exact congrArg _ h4

/-! ### Openings and commitments -/

theorem simple_at {os : List OpeningObj} {xs : List Opening} (h : At View.opening.list m os xs) (n : Nat) :
    At (View.omap View.sc) m ((os.zipIdx n).filterMap simpleAt) ((xs.zipIdx n).filterMap Protocol.simpleAt) := by
  induction os generalizing xs n with
  | nil =>
    obtain rfl := at_nil.1 h
    exact at_nil.2 rfl
  | cons o os ih =>
    rcases h.cases with ⟨h0, -⟩ | ⟨o', os', x, xs, h0, rfl, hx, h'⟩
    · cases h0
    cases h0
    have h1 := at_opening hx
    rw [List.zipIdx_cons, List.zipIdx_cons]
    rcases o with a | a | ⟨a, b⟩ | ⟨a, b⟩ <;> rcases x with x | x | ⟨x, y⟩ | ⟨x, y⟩ <;> try exact h1.elim
    · exact at_cons.2 ⟨at_prod.2 ⟨at_data.2 rfl, h1⟩, ih h' (n + 1)⟩
    all_goals exact ih h' (n + 1)

theorem pedersen_at {os : List OpeningObj} {xs : List Opening} (h : At View.opening.list m os xs) (n : Nat) :
    At (View.omap (View.sc.prod View.sc)) m ((os.zipIdx n).filterMap pedersenAt) ((xs.zipIdx n).filterMap Protocol.pedersenAt) := by
  induction os generalizing xs n with
  | nil =>
    obtain rfl := at_nil.1 h
    exact at_nil.2 rfl
  | cons o os ih =>
    rcases h.cases with ⟨h0, -⟩ | ⟨o', os', x, xs, h0, rfl, hx, h'⟩
    · cases h0
    cases h0
    have h1 := at_opening hx
    rw [List.zipIdx_cons, List.zipIdx_cons]
    rcases o with a | a | ⟨a, b⟩ | ⟨a, b⟩ <;> rcases x with x | x | ⟨x, y⟩ | ⟨x, y⟩ <;> try exact h1.elim
    · exact ih h' (n + 1)
    · exact ih h' (n + 1)
    · exact at_cons.2 ⟨at_prod.2 ⟨at_data.2 rfl, at_prod.2 h1⟩, ih h' (n + 1)⟩
    · exact ih h' (n + 1)

theorem at_map {V : View ο ν} {V' : View ο' ν'} {f : ο → ο'} {g : ν → ν'} (h : ∀ o v, At V m o v → At V' m (f o) (g v))
    {os : List ο} {vs : List ν} (hl : At V.list m os vs) : At V'.list m (os.map f) (vs.map g) := by
  induction os generalizing vs with
  | nil =>
    obtain rfl := at_nil.1 hl
    exact at_nil.2 rfl
  | cons o os ih =>
    rcases hl.cases with ⟨h0, -⟩ | ⟨o', os', x, xs, h0, rfl, hx, h'⟩
    · cases h0
    cases h0
    exact at_cons.2 ⟨h _ _ hx, ih h'⟩

theorem verifyCommitmentOpenings_ret {c : ComObj} {vc : Dealings.Com} {os : List OpeningObj} {xs : List Opening}
    (hc : At View.com m c vc) (ho : At View.opening.list m os xs) :
    Outcome (Writes ∅ m) (verifyCommitmentOpenings c os) m (Protocol.verifyCommitmentOpenings vc xs) (Ret View.data m) := by
  obtain ⟨e1, h1⟩ := at_com.1 hc
  rw [verifyCommitmentOpenings, Protocol.verifyCommitmentOpenings, e1, (at_commitment.1 h1).1]
  refine (constantTerm_ret h1).call (Writes.refl _ _) fun vt t m1 ht w1 => ?_
  split_ifs
  · have hl := simple_at (ho.mono w1) 0
    dsimp only
    rw [omap_keys hl]
    refine (atZero_ret _).call w1 fun vco co m2 hco w2 => ?_
    have w12 := hco.1
    refine (interpolateScalar_ret hco.at ((at_map (fun _ _ h => (at_prod.1 h).2) hl).mono w12)).call w2
      fun vd d m3 hd w3 => ?_
    refine (mulByG_ret hd.at).call_ok w3 fun p m4 hp w4 => ?_
    refine Outcome.readPt (Outcome.readPt ?_)
    rw [(at_pt.1 hp.at).2, (at_pt.1 (((ht.at.mono w12).mono hd.1).mono hp.1)).2]
    split_ifs
    · exact Outcome.pure (Ret.data w4)
    · exact ⟨m4, rfl, w4⟩
  · have hl := pedersen_at (ho.mono w1) 0
    dsimp only
    rw [omap_keys hl]
    refine (atZero_ret _).call w1 fun vco co m2 hco w2 => ?_
    have w12 := hco.1
    refine (interpolateScalar_ret hco.at
      ((at_map (fun _ _ h => (at_prod.1 (at_prod.1 h).2).1) hl).mono w12)).call w2 fun vd d m3 hd w3 => ?_
    refine (interpolateScalar_ret (hco.at.mono hd.1)
      (((at_map (fun _ _ h => (at_prod.1 (at_prod.1 h).2).2) hl).mono w12).mono hd.1)).call w3 fun vd' d' m4 hd' w4 => ?_
    refine (pedersen_ret (hd.at.mono hd'.1) hd'.at).call_ok w4 fun p m5 hp w5 => ?_
    refine Outcome.readPt (Outcome.readPt ?_)
    rw [(at_pt.1 hp.at).2, (at_pt.1 ((((ht.at.mono w12).mono hd.1).mono hd'.1).mono hp.1)).2]
    split_ifs
    · exact Outcome.pure (Ret.data w5)
    · exact ⟨m5, rfl, w5⟩

/-! ### Signing -/

section Signing

variable {S : SigSetupObj} {vS : Protocol.SigSetup} {path : List Key.Index} {msg rand : Bytes}

structure SigAt' (m : Mem) (S : SigSetupObj) (v : Protocol.SigSetup) : Prop where
  setup : SetupAt m S.setup v.setup
  key : RoundAt' m S.key v.key
  kappa : RoundAt' m S.kappa v.kappa
  lambda : RoundAt' m S.lambda v.lambda
  keyTimesLambda : RoundAt' m S.keyTimesLambda v.keyTimesLambda
  kappaTimesLambda : RoundAt' m S.kappaTimesLambda v.kappaTimesLambda

theorem SigAt.split (h : SigAt m S vS) : SigAt' m S vS := by
  have h' : At View.sigParts m S.parts (sigVals vS) := h.2
  obtain ⟨h1, h2⟩ := at_prod.1 h'
  obtain ⟨h2, h3⟩ := at_prod.1 h2
  obtain ⟨h3, h4⟩ := at_prod.1 h3
  obtain ⟨h4, h5⟩ := at_prod.1 h4
  obtain ⟨h5, h6⟩ := at_prod.1 h5
  exact ⟨⟨h.1, h1⟩, RoundAt.split h3, RoundAt.split h4, RoundAt.split h2, RoundAt.split h5, RoundAt.split h6⟩

theorem SigAt.mono (h : SigAt m S vS) (w : Writes ∅ m m') : SigAt m' S vS := ⟨h.1, At.mono (V := View.sigParts) h.2 w⟩

theorem RetSig.at (h : RetSig m vS S m') : SigAt m' S vS := ⟨h.1, Ret.at (V := View.sigParts) h.2⟩

theorem at_some {V : View ο ν} {o : ο} {v : ν} (h : At V m o v) : At V.opt m (some o) (some v) :=
  at_opt.2 (.inr ⟨o, v, rfl, rfl, h⟩)

theorem publicKey_ret (h : SigAt m S vS) :
    Outcome (Writes ∅ m) (S.publicKey P path) m (vS.publicKey P path) (Ret View.data m) := by
  rw [SigSetupObj.publicKey, Protocol.SigSetup.publicKey]
  refine (constantTerm_ret (at_com.1 h.split.key.transcript).2).call (Writes.refl _ _) fun v o m1 h1 w1 => ?_
  refine Outcome.readPt ?_
  rw [(at_pt.1 h1.at).2]
  exact (derivePublicKey_ret.after w1).mono fun _ _ _ h => h.since w1

theorem share_ret {i : Nat} (h : SigAt m S vS) :
    Outcome (Writes ∅ m) (S.share P path msg rand i) m (vS.share P path msg rand i)
      (Ret (View.data.prod View.sigShare) m) := by
  have hs := h.split
  rw [SigSetupObj.share, Protocol.SigSetup.share]
  refine (index_at hs.lambda.openings i (Writes.refl _ _)).bind fun vl l m1 ⟨e1, _, _, hl⟩ => ?_
  subst e1
  refine (index_at hs.kappaTimesLambda.openings i (Writes.refl _ _)).bind fun vkl kl m2 ⟨e2, _, _, hkl⟩ => ?_
  subst e2
  refine (index_at hs.keyTimesLambda.openings i (Writes.refl _ _)).bind fun vxl xl m3 ⟨e3, _, _, hxl⟩ => ?_
  subst e3
  refine (newSigShare_ret (at_some hs.key.transcript) (at_some hs.kappa.transcript) (at_some hl) (at_some hkl)
    (at_some hxl)).call (Writes.refl _ _) fun vsh sh m4 h4 w4 => ?_
  have hs' := (h.mono w4).split
  refine (verifySigShare_ret h4.at (at_some hs'.key.transcript) (at_some hs'.kappa.transcript)
    (at_some hs'.lambda.transcript) (at_some hs'.kappaTimesLambda.transcript)
    (at_some hs'.keyTimesLambda.transcript)).call w4 fun _ _ m5 h5 w5 => ?_
  exact Outcome.pure ((Ret.data (Writes.refl _ _)).pair (h4.upto h5.1))

theorem generateShares_ret (h : SigAt m S vS) :
    Outcome (Writes ∅ m) (S.generateShares P path msg rand) m (vS.generateShares P path msg rand)
      (Ret (View.omap View.sigShare) m) := by
  rw [SigSetupObj.generateShares, Protocol.SigSetup.generateShares, h.split.setup.length]
  exact mapM'_ret (I := fun m => SigAt m S vS) (fun _ _ h w => h.mono w) (fun i _ m h => share_ret h) h

theorem generateSignature_ret {shares : List (NodeIndex × SigShareObj)} {vshares : Sign.ShareMap} (h : SigAt m S vS)
    (hs : At (View.omap View.sigShare) m shares vshares) :
    Outcome (Writes ∅ m) (S.generateSignature P path msg rand shares) m (vS.generateSignature P path msg rand vshares)
      (Ret View.signature m) := by
  rw [SigSetupObj.generateSignature, Protocol.SigSetup.generateSignature, h.1.threshold]
  exact combineShares_ret (at_some h.split.key.transcript) (at_some h.split.kappa.transcript) hs

theorem verify_ret {sig : SignatureObj} {vsig : Sign.Signature} (h : SigAt m S vS) (hs : At View.signature m sig vsig) :
    Outcome (Writes ∅ m) (S.verifySignature P path msg rand sig) m (vS.verifySignature P path msg rand vsig)
      (Ret View.data m) := by
  rw [SigSetupObj.verifySignature, Protocol.SigSetup.verifySignature]
  refine (verifySignature_ret hs (at_some h.split.key.transcript) (at_some h.split.kappa.transcript)).call (Writes.refl _ _)
    fun _ _ m1 h1 w1 => ?_
  refine (publicKey_ret (h.mono w1)).call w1 fun vpk pk m2 h2 w2 => ?_
  obtain rfl : pk = vpk := h2.2.2.2
  dsimp only
  rcases hraw : Point.deserialize K256 pk.1 with (_ | raw) | e | e | _
  · exact ⟨m2, rfl, w2⟩
  · dsimp only
    rcases hQ : Point.ofRaw? raw with _ | Q
    · exact ⟨m2, rfl, w2⟩
    · dsimp only
      refine (newPt_ret Q).bind_ok fun q m3 h3 => ?_
      have w3 := w2.trans_empty h3.1
      refine Outcome.readPt (Outcome.readSc (Outcome.readSc ?_))
      obtain ⟨g1, g2⟩ := at_signature.1 (hs.mono w3)
      rw [(at_pt.1 h3.at).2, (at_sc.1 g1).2, (at_sc.1 g2).2]
      split_ifs
      · exact Outcome.pure (Ret.data w3)
      · exact ⟨m3, rfl, w3⟩
  · exact ⟨m2, rfl, w2⟩
  · exact ⟨m2, rfl, w2⟩
  · exact ⟨m2, rfl, w2⟩

end Signing

end Verif.Heap
