import Verif.Lemmas.HeapDamageLoop
import Verif.Lemmas.HeapSign
import Verif.Spec.HeapProtocol

/-! Making dealings with the protocol driver on memory. -/

set_option autoImplicit false

namespace Verif.Heap

open Protocol (node)

variable {ο ν ο' ν' α β γ δ : Type} {E : Mem → Prop} {m m0 m' : Mem}

/-! ### Calls -/

theorem Outcome.orPanic {g : Go α} {r : Res β} {R : β → α → Mem → Prop} {msg : String} (h : Outcome E g m r R) :
    Outcome E (Go.orPanic msg g) m (Protocol.orPanic msg r) R := by
  cases r with
  | ok v =>
    obtain ⟨a, m', e, h⟩ := h
    exact ⟨a, m', by simp [Go.orPanic, e], h⟩
  | err s =>
    obtain ⟨m', e, h⟩ := h
    exact ⟨m', by simp [Go.orPanic, e], h⟩
  | panic s =>
    obtain ⟨m', e, h⟩ := h
    exact ⟨m', by simp [Go.orPanic, e], h⟩
  | diverge =>
    obtain ⟨m', e, h⟩ := h
    exact ⟨m', by simp [Go.orPanic, e], h⟩

/-- A call whose failure is not passed on. -/
theorem Outcome.branch {g : Go α} {r : Res β} {R : β → α → Mem → Prop} {f : Option α → Go γ} {k : Res β → Res δ}
    {S : δ → γ → Mem → Prop} (h : Outcome (Writes ∅ m) g m r R) (w : Writes ∅ m0 m)
    (hp : ∀ e, k (.panic e) = .panic e) (hd : k .diverge = .diverge)
    (he : ∀ e m', Writes ∅ m m' → Outcome (Writes ∅ m0) (f none) m' (k (.err e)) S)
    (ho : ∀ v a m', R v a m' → Outcome (Writes ∅ m0) (f (some a)) m' (k (.ok v)) S) :
    Outcome (Writes ∅ m0) (Go.ignoreErr g >>= f) m (k r) S := by
  have h2 := h.ignoreErr (F := Writes ∅ m) fun _ h => h
  cases r with
  | ok v =>
    refine Outcome.bind_ok (h2.after w) ?_
    rintro a m' (⟨h, -⟩ | ⟨v', o', hv, rfl, hr⟩)
    · cases h
    · cases hv
      exact ho _ _ _ hr
  | err s =>
    refine Outcome.bind_ok (h2.after w) ?_
    rintro a m' (⟨-, rfl, hw⟩ | ⟨v', o', hv, -⟩)
    · exact he _ _ hw
    · cases hv
  | panic s =>
    rw [hp]
    obtain ⟨m', e, hw⟩ := h2
    exact ⟨m', by rw [run_bind, e]; rfl, w.trans_empty hw⟩
  | diverge =>
    rw [hd]
    obtain ⟨m', e, hw⟩ := h2
    exact ⟨m', by rw [run_bind, e]; rfl, w.trans_empty hw⟩

/-! ### Lists -/

theorem Ret.sublist {V : View ο ν} {os os' : List ο} {vs : List ν} (h : Ret V.list m0 vs os m) (hs : os'.Sublist os) :
    Ret V.list m0 (V.list.val m os') os' m :=
  ⟨h.1, fun x hx => h.2.1 x ((hs.flatMap _).subset hx), h.2.2.1.sublist (hs.flatMap _), rfl⟩

theorem at_append {V : View ο ν} {os os' : List ο} {vs vs' : List ν} (h : At V.list m os vs) (h' : At V.list m os' vs') :
    At V.list m (os ++ os') (vs ++ vs') := by
  refine ⟨fun x hx => ?_, ?_⟩
  · change x ∈ (os ++ os').flatMap V.objs at hx
    rw [List.flatMap_append] at hx
    exact (List.mem_append.1 hx).elim (h.1 x) (h'.1 x)
  · change (os ++ os').map (V.val m) = _
    rw [List.map_append]
    exact congrArg₂ _ h.2 h'.2

theorem thin_map {V W : Type} (f : V → W) (bound : Int) (n : Nat) (rng : Rng) (l : List (NodeIndex × V)) :
    Protocol.thin bound n rng (l.map fun x => (x.1, f x.2)) =
      (Protocol.thin bound n rng l >>= fun x => .ok (x.1.map fun y => (y.1, f y.2), x.2)) := by
  induction n generalizing rng l with
  | zero =>
    unfold Protocol.thin
    split_ifs <;> rfl
  | succ k ih =>
    unfold Protocol.thin
    split_ifs
    · dsimp only
      rw [← ih, List.eraseIdx_map]
    · rfl

theorem thin_ret {V : View ο ν} {os : List (NodeIndex × ο)} {vs : List (NodeIndex × ν)} (h : Ret (View.omap V) m0 vs os m)
    (bound : Int) (rng : Rng) :
    Outcome (Writes ∅ m0) (Go.lift (Protocol.thin bound os.length rng os)) m (Protocol.thin bound vs.length rng vs)
      (fun v o m' => m' = m ∧ Ret (View.omap V) m0 v.1 o.1 m ∧ o.2 = v.2 ∧ v.1.Sublist vs) := by
  have e : vs = os.map fun x => (x.1, V.val m x.2) := h.2.2.2.symm
  have hl : vs.length = os.length := by rw [e, List.length_map]
  rw [hl]
  have e2 := thin_map (V.val m) bound os.length rng os
  rw [← e] at e2
  rw [e2]
  rcases hr : Protocol.thin bound os.length rng os with ⟨os', rng'⟩ | s | s | _
  · have hs := (Protocol.thin_spec rfl hr).1
    refine ⟨_, m, rfl, rfl, h.sublist hs, rfl, ?_⟩
    rw [e]
    exact hs.map _
  · exact ⟨m, rfl, h.1⟩
  · exact ⟨m, rfl, h.1⟩
  · exact ⟨m, rfl, h.1⟩

theorem set_mid {V : Type} {k : NodeIndex} {v v' : V} {l1 l2 : List (NodeIndex × V)}
    (hs : OMap.Sorted BitVec.toInt (l1 ++ (k, v) :: l2)) :
    OMap.set BitVec.toInt k v' (l1 ++ (k, v) :: l2) = l1 ++ (k, v') :: l2 := by
  induction l1 with
  | nil =>
    rw [List.nil_append, OMap.set, if_neg (lt_irrefl _), if_neg (lt_irrefl _)]
    rfl
  | cons x l1 ih =>
    obtain ⟨j, u⟩ := x
    have h := List.pairwise_cons.1 hs
    have h1 : j.toInt < k.toInt := h.1 (k, v) (by simp)
    rw [List.cons_append, OMap.set, if_neg (not_lt.2 h1.le), if_pos h1, ih h.2]
    rfl

/-- One entry of a map of new objects is replaced by one made of its objects, which may have been written, and new ones. -/
theorem Ret.replace {V : View ο ν} {k : NodeIndex} {os : List (NodeIndex × ο)} {vs : List (NodeIndex × ν)} {d o : ο} {w : ν}
    (h : Ret (View.omap V) m0 vs os m) (hs : OMap.Sorted BitVec.toInt vs) (hg : OMap.get BitVec.toInt k os = Option.some d)
    (hw : Writes {x | x ∈ V.objs d} m m') (ho : At V m' o w) (hn : (V.objs o).Nodup)
    (hr : ∀ x ∈ V.objs o, x ∈ V.objs d ∨ (m.next ≤ x.addr ∧ x.addr < m'.next)) :
    Ret (View.omap V) m0 (OMap.set BitVec.toInt k w vs) (OMap.set BitVec.toInt k o os) m' := by
  obtain ⟨k', hk, hmem⟩ := OMap.mem_of_get hg
  obtain rfl : k' = k := BitVec.toInt_inj.1 hk
  obtain ⟨l1, l2, rfl⟩ := List.append_of_mem hmem
  have e : vs = l1.map (fun x => (x.1, V.val m x.2)) ++ (k', V.val m d) :: l2.map (fun x => (x.1, V.val m x.2)) := by
    have := h.2.2.2.symm
    change vs = (l1 ++ (k', d) :: l2).map (fun x => (x.1, V.val m x.2)) at this
    rw [this]
    simp
  have hs' : OMap.Sorted BitVec.toInt (l1 ++ (k', d) :: l2) := by
    rw [e] at hs
    unfold OMap.Sorted at hs ⊢
    have e3 : ∀ l : List (NodeIndex × ο), l.Pairwise (fun a b => a.1.toInt < b.1.toInt) ↔
        (l.map fun x => (x.1, V.val m x.2)).Pairwise (fun a b => a.1.toInt < b.1.toInt) := fun l => by
      rw [List.pairwise_map]
    rw [e3]
    simpa using hs
  have hobj : ∀ (a : ο), (View.omap V).objs (l1 ++ (k', a) :: l2) =
      (View.omap V).objs l1 ++ (V.objs a ++ (View.omap V).objs l2) := by
    intro a
    change (l1 ++ (k', a) :: l2).flatMap _ = _
    rw [List.flatMap_append, List.flatMap_cons]
    rfl
  obtain ⟨h1, h2, h3, -⟩ := h
  rw [hobj] at h2 h3
  rw [set_mid hs']
  have hd1 := List.nodup_append.1 h3
  have hd2 := List.nodup_append.1 hd1.2.1
  have hold : ∀ x ∈ (View.omap V).objs l1 ++ (V.objs d ++ (View.omap V).objs l2), m0.next ≤ x.addr ∧ x.addr < m'.next :=
    fun x hx => ⟨(h2 x hx).1, (h2 x hx).2.trans_le hw.next⟩
  have hlt : ∀ x ∈ (View.omap V).objs l1 ++ (V.objs d ++ (View.omap V).objs l2), x.addr < m.next := fun x hx => (h2 x hx).2
  have hdisj1 : ∀ x ∈ (View.omap V).objs l1, x ∉ V.objs d := fun x hx hx' =>
    hd1.2.2 x hx x (List.mem_append_left _ hx') rfl
  have hdisj2 : ∀ x ∈ (View.omap V).objs l2, x ∉ V.objs d := fun x hx hx' => hd2.2.2 x hx' x hx rfl
  have hne1 : ∀ x ∈ (View.omap V).objs l1, ∀ y ∈ V.objs o, x ≠ y := by
    rintro x hx y hy rfl
    rcases hr x hy with h | h
    · exact hdisj1 x hx h
    · have := hlt x (List.mem_append_left _ hx)
      omega
  have hne2 : ∀ x ∈ V.objs o, ∀ y ∈ (View.omap V).objs l2, x ≠ y := by
    rintro x hx y hy rfl
    rcases hr x hx with h | h
    · exact hdisj2 x hy h
    · have := hlt x (List.mem_append_right _ (List.mem_append_right _ hy))
      omega
  refine ⟨h1.fresh hw ?_, ?_, ?_, ?_⟩
  · intro x hx
    exact (h2 x (List.mem_append_right _ (List.mem_append_left _ hx))).1
  · rw [hobj]
    intro x hx
    rcases List.mem_append.1 hx with hx | hx
    · exact hold x (List.mem_append_left _ hx)
    rcases List.mem_append.1 hx with hx | hx
    · rcases hr x hx with h | h
      · exact hold x (List.mem_append_right _ (List.mem_append_left _ h))
      · have := h1.next
        exact ⟨by omega, h.2⟩
    · exact hold x (List.mem_append_right _ (List.mem_append_right _ hx))
  · rw [hobj]
    refine List.nodup_append.2 ⟨hd1.1, List.nodup_append.2 ⟨hn, hd2.2.1, hne2⟩, fun x hx y hy => ?_⟩
    rcases List.mem_append.1 hy with hy | hy
    · exact hne1 x hx y hy
    · exact hd1.2.2 x hx y (List.mem_append_right _ hy)
  · have f1 := ((View.omap V).frame (m := m) (m' := m') (o := l1) fun x hx =>
      hw.same (hlt x (List.mem_append_left _ hx)) (hdisj1 x hx))
    have f2 := ((View.omap V).frame (m := m) (m' := m') (o := l2) fun x hx =>
      hw.same (hlt x (List.mem_append_right _ (List.mem_append_right _ hx))) (hdisj2 x hx))
    rw [e] at hs ⊢
    rw [set_mid hs, ← ho.2]
    change (l1 ++ (k', o) :: l2).map (fun x => (x.1, V.val m' x.2)) = _
    rw [List.map_append, List.map_cons]
    exact congrArg₂ _ f1 (congrArg _ f2)

/-! ### Setups -/

theorem SetupAt.mono {s : SetupObj} {v : Protocol.Setup} (h : SetupAt m s v) (w : Writes ∅ m m') : SetupAt m' s v :=
  ⟨h.1, At.mono (V := View.keys) ⟨h.2.1, h.2.2⟩ w⟩

theorem SetupAt.keys {s : SetupObj} {v : Protocol.Setup} (h : SetupAt m s v) :
    At View.sc.list m s.sk v.sk ∧ At View.pt.list m s.pk v.pk :=
  at_prod.1 (show At View.keys m (s.sk, s.pk) (v.sk, v.pk) from h.2)

theorem SetupAt.length {s : SetupObj} {v : Protocol.Setup} (h : SetupAt m s v) : s.sk.length = v.sk.length := h.keys.1.length

theorem SetupAt.nil {s : SetupObj} {v : Protocol.Setup} (h : SetupAt m s v) : s.sk = [] ↔ v.sk = [] := by
  rw [← List.length_eq_zero_iff, ← List.length_eq_zero_iff, h.length]

/-- A receiver: number, secret key and public key. -/
abbrev View.receiver : View (NodeIndex × Addr × Addr) (NodeIndex × Fn × Pt) := View.data.prod (View.sc.prod View.pt)

/-- A receiver on values. -/
def withPk (x : NodeIndex × Fn) : NodeIndex × Fn × Pt := (x.1, x.2, Point.mulByG x.2)

theorem receivers_aux {sks pks : List Addr} {vs : List Fn} (hs : At View.sc.list m sks vs)
    (hp : At View.pt.list m pks (vs.map Point.mulByG)) (n : Nat) :
    At View.receiver.list m (((sks.zip pks).zipIdx n).map fun x => (node x.2, x.1))
      ((vs.zipIdx n).map fun x => withPk (node x.2, x.1)) := by
  induction sks generalizing pks vs n with
  | nil =>
    obtain rfl := at_nil.1 hs
    exact at_nil.2 rfl
  | cons a sks ih =>
    rcases hs.cases with ⟨h, -⟩ | ⟨o, os, v, vs', h, rfl, ha, hs'⟩
    · cases h
    cases h
    rcases hp.cases with ⟨-, h⟩ | ⟨p, ps, q, qs, rfl, h, hp1, hp'⟩
    · cases h
    cases h
    simp only [List.zip_cons_cons, List.zipIdx_cons, List.map_cons]
    exact at_cons.2 ⟨at_prod.2 ⟨at_data.2 rfl, at_prod.2 ⟨ha, hp1⟩⟩, ih hs' hp' (n + 1)⟩

theorem SetupAt.receivers {s : SetupObj} {v : Protocol.Setup} (h : SetupAt m s v) :
    At View.receiver.list m s.receivers (v.receivers.map withPk) := by
  rw [Protocol.Setup.receivers, List.map_map]
  exact receivers_aux h.keys.1 h.keys.2 0

/-- A loop over the receivers. -/
theorem mapM'_receivers {V' : View ο' ν'} {s : SetupObj} {v : Protocol.Setup} {f : NodeIndex × Addr × Addr → Go ο'}
    {g : NodeIndex × Fn → Res ν'} {I : Mem → Prop} (hI : ∀ m m', I m → Writes ∅ m m' → I m')
    (h : ∀ i sk pk k m, I m → At View.sc m sk k → At View.pt m pk (Point.mulByG k) →
      Outcome (Writes ∅ m) (f (i, sk, pk)) m (g (i, k)) (Ret V' m)) (hm : I m) (hs : SetupAt m s v) :
    Outcome (Writes ∅ m) (Go.mapM' f s.receivers) m (Res.mapM' g v.receivers) (Ret V'.list m) := by
  generalize hl : s.receivers = l
  generalize hl' : v.receivers = l'
  have h1 := hs.receivers
  rw [hl, hl'] at h1
  clear hl hl' hs
  induction l generalizing l' m with
  | nil =>
    rw [at_nil, List.map_eq_nil_iff] at h1
    subst h1
    exact Outcome.pure (Ret.nil (Writes.refl _ _))
  | cons x l ih =>
    rcases h1.cases with ⟨h0, -⟩ | ⟨o, os, w, ws, h0, hw, hx, h1'⟩
    · cases h0
    cases h0
    obtain ⟨y, l1, rfl, rfl, rfl⟩ := List.map_eq_cons_iff.1 hw
    obtain ⟨i, sk, pk⟩ := x
    obtain ⟨j, k⟩ := y
    obtain ⟨hi, hk⟩ := at_prod.1 hx
    obtain rfl : i = j := at_data.1 hi
    obtain ⟨hk1, hk2⟩ := at_prod.1 hk
    rw [Go.mapM', Res.mapM']
    refine (h _ _ _ _ _ hm hk1 hk2).call (Writes.refl _ _) fun a b m1 h2 w1 => ?_
    refine ((ih (hI _ _ hm w1) _ (h1'.mono w1))).call w1 fun as bs m2 h3 w2 => ?_
    exact Outcome.pure (h2.cons h3)

/-! ### Dealings -/

/-- What the driver accepts of what `NewIDkgDealingInternal` makes. -/
theorem fit_new {P : Prim} {shares : Dealings.Shares} {seed : Seed} {t : Int} {keys : List Fn} {i : NodeIndex} {ad : Bytes}
    {d : Dealings.Dealing} {op : Dealings.Op} (h : Dealings.new P shares seed t (keys.map Point.mulByG) i ad = .ok d)
    (hv : Dealings.publiclyVerify P d K256 op t i keys.length ad = .ok ()) : Fit keys.length d := by
  obtain ⟨-, cm, c, c0, hcm, hc, hl, hc0, hsz, -⟩ := Dealings.accepted_only hv
  refine ⟨c, cm, hc, hcm, ?_, by exact_mod_cast hsz, ?_⟩
  · rintro e
    rw [e] at hc0
    cases hc0
  by_cases hs : shares = .other
  · subst hs
    rw [Dealings.new] at h
    split_ifs at h
    obtain ⟨_, -, h⟩ := Res.bind_eq_ok.1 h
    obtain ⟨_, -, h⟩ := Res.bind_eq_ok.1 h
    cases h
    cases hc
  obtain ⟨-, -, values, mask, c', cm', -, -, -, -, -, -, -, -, -, hp⟩ := Dealings.new_spec h hs
  cases shares with
  | random => exact .inl hp
  | reshareUnmasked _ => exact .inl hp
  | reshareMasked _ _ =>
    obtain ⟨pf, _, hp, -⟩ := hp
    exact .inr (.inl ⟨pf, hp⟩)
  | unmaskedTimesMasked _ _ _ =>
    obtain ⟨pf, _, hp, -⟩ := hp
    exact .inr (.inr ⟨pf, hp⟩)
  | other => exact (hs rfl).elim

theorem orPanic_ok {msg : String} {r : Res α} {a : α} (h : Protocol.orPanic msg r = .ok a) : r = .ok a := by
  cases r <;> simp_all [Protocol.orPanic]

theorem dealLoop_fit {P : Prim} {s : Protocol.Setup} {op : Dealings.Op} {shares : List Dealings.Shares} {i : Nat}
    {rng rng' : Rng} {ds : Dealings.DealingMap} (hlen : i + shares.length ≤ 2 ^ 63)
    (h : Protocol.dealLoop P s op i shares rng = .ok (ds, rng')) :
    OMap.Sorted BitVec.toInt ds ∧ ∀ x ∈ ds, Fit s.sk.length x.2 := by
  suffices OMap.Sorted BitVec.toInt ds ∧ ∀ x ∈ ds, Fit s.sk.length x.2 ∧ ∃ j, i ≤ j ∧ j < i + shares.length ∧ x.1 = node j from
    ⟨this.1, fun x hx => (this.2 x hx).1⟩
  induction shares generalizing i rng rng' ds with
  | nil => cases h; exact ⟨OMap.sorted_nil, by simp⟩
  | cons sh rest ih =>
    rw [Protocol.dealLoop] at h
    obtain ⟨⟨sd, rng1⟩, -, h⟩ := Res.bind_eq_ok.1 h
    obtain ⟨d, hd, h⟩ := Res.bind_eq_ok.1 h
    obtain ⟨⟨⟩, hv, h⟩ := Res.bind_eq_ok.1 h
    obtain ⟨us, -, h⟩ := Res.bind_eq_ok.1 h
    obtain ⟨⟨ds1, rng2⟩, h1, h⟩ := Res.bind_eq_ok.1 h
    rw [List.length_cons] at hlen ⊢
    obtain ⟨ih1, ih2⟩ := ih (by omega) h1
    have ih3 : ∀ x ∈ ds1, Fit s.sk.length x.2 ∧ ∃ j, i ≤ j ∧ j < i + (rest.length + 1) ∧ x.1 = node j := by
      intro x hx
      obtain ⟨h, j, e1, e2, e3⟩ := ih2 x hx
      exact ⟨h, j, by omega, by omega, e3⟩
    simp only at h
    cases h
    split_ifs with hsk
    · exact ⟨ih1, ih3⟩
    · refine ⟨List.pairwise_cons.2 ⟨fun x hx => ?_, ih1⟩, fun x hx => ?_⟩
      · obtain ⟨-, j, e1, e2, e3⟩ := ih2 x hx
        rw [e3, Protocol.toInt_node (by omega), Protocol.toInt_node (by omega)]
        omega
      · rcases List.mem_cons.1 hx with rfl | hx
        · exact ⟨fit_new hd (orPanic_ok hv), i, le_rfl, by omega, rfl⟩
        · exact ih3 x hx

theorem dealLoop_ret {P : Prim} {s : SetupObj} {vs : Protocol.Setup} {op : OpObj} {vop : Dealings.Op} {i : Nat}
    {shares : List SharesObj} {vshares : List Dealings.Shares} {rng : Rng} (hs : SetupAt m s vs) (ho : At View.op m op vop)
    (hsh : At View.shares.list m shares vshares) :
    Outcome (Writes ∅ m) (dealLoop P s op i shares rng) m (Protocol.dealLoop P vs vop i vshares rng)
      (Ret ((View.omap View.dealing).prod View.data) m) := by
  induction shares generalizing m i vshares rng with
  | nil =>
    obtain rfl := at_nil.1 hsh
    exact Outcome.pure ((Ret.nil (Writes.refl _ _)).pair (Ret.data (Writes.refl _ _)))
  | cons sh rest ih =>
    rcases hsh.cases with ⟨h0, -⟩ | ⟨o, os, w, ws, h0, rfl, hx, hr⟩
    · cases h0
    cases h0
    rw [dealLoop, Protocol.dealLoop, hs.1.threshold, hs.1.ad, hs.length]
    refine Outcome.lift (Writes.refl _ _) fun sd _ => ?_
    refine (newDealing_ret hx hs.keys.2).call (Writes.refl _ _) fun vd d m1 hd w1 => ?_
    have hs1 := hs.mono w1
    refine (publiclyVerify_ret hd.at (ho.mono w1)).orPanic.call w1 fun _ _ m2 h2 w2 => ?_
    have w12 := h2.1
    refine (mapM'_receivers (V' := View.data) (I := fun m => At View.dealing m d vd) (fun _ _ h w => h.mono w)
      (fun j sk pk k m h h1 h2 => privateVerify_ret h h1 h2) (hd.at.mono w12) (hs1.mono w12)).call w2
      fun _ _ m3 h3 w3 => ?_
    refine (ih (hs.mono w3) (ho.mono w3) (hr.mono w3)).call w3 fun vr r m4 h4 w4 => ?_
    have hd4 := (hd.upto w12).upto h3.1
    change Outcome _ _ _ (.ok (if vs.sk = [] then vr.1 else (node i, vd) :: vr.1, vr.2)) _
    by_cases e : vs.sk = []
    · rw [if_pos (hs.nil.2 e), if_pos e]
      exact Outcome.pure (h4.since w3)
    · rw [if_neg (hs.nil.not.2 e), if_neg e]
      have e1 := Ret.cons (V := View.data.prod View.dealing) ((Ret.data (v := node i) (Writes.refl _ _)).pair hd4) h4.fst
      have e2 : r.2 = vr.2 := h4.snd.2.2.2
      rw [e2]
      exact Outcome.pure (e1.pair (Ret.data (Writes.refl _ _)))

/-! ### Damaged dealings -/

theorem checkCorrupted_ret {P : Prim} {s : SetupObj} {vs : Protocol.Setup} {bad : DealingObj} {vbad : Dealings.Dealing}
    {i : NodeIndex} {targets : List NodeIndex} (hs : SetupAt m s vs) (hb : At View.dealing m bad vbad) :
    Outcome (Writes ∅ m) (checkCorrupted P s bad i targets) m (Protocol.checkCorrupted P vs vbad i targets)
      (Ret View.data m) := by
  rw [checkCorrupted, Protocol.checkCorrupted, hs.1.ad]
  refine (mapM'_receivers (V' := View.data) (I := fun m => At View.dealing m bad vbad) (fun _ _ h w => h.mono w)
    (fun j sk pk k m h h1 h2 => ?_) hb hs).call (Writes.refl _ _) fun _ _ m1 _ w1 => Outcome.pure (Ret.data w1)
  refine Outcome.branch (privateVerify_ret h h1 h2) (Writes.refl _ _) (k := fun r => match r with
    | .ok _ => if j ∈ targets then .panic "private verify failed" else .ok ()
    | .err _ => if j ∈ targets then .ok () else .panic "private verify failed"
    | .panic e => .panic e
    | .diverge => .diverge) (fun _ => rfl) rfl (fun _ m' w => ?_) fun _ _ m' hr => ?_
  · dsimp only
    split_ifs
    · exact Outcome.pure (Ret.data w)
    · exact ⟨m', rfl, w⟩
  · dsimp only
    split_ifs
    · exact ⟨m', rfl, hr.1⟩
    · exact Outcome.pure (Ret.data hr.1)

theorem entry_nodup {V : View ο ν} {os : List (NodeIndex × ο)} {vs : List (NodeIndex × ν)} {i : NodeIndex} {d : ο}
    (h : Ret (View.omap V) m0 vs os m) (hd : OMap.get BitVec.toInt i os = some d) : (V.objs d).Nodup := by
  obtain ⟨i', -, hmem⟩ := OMap.mem_of_get hd
  have h1 := (h.sublist (List.singleton_sublist.2 hmem)).2.2.1
  have e : (View.data.prod V).list.objs [(i', d)] = V.objs d := by
    change ([] ++ V.objs d) ++ [] = _
    simp
  rwa [e] at h1

theorem damageLoop_ret {P : Prim} {s : SetupObj} {vs : Protocol.Setup} (hs : SetupAt m0 s vs) (hn : vs.sk.length ≤ 2 ^ 63)
    {todo : List (NodeIndex × DealingObj)} {rng : Rng} {ds : List (NodeIndex × DealingObj)} {vds : Dealings.DealingMap}
    (h : Ret (View.omap View.dealing) m0 vds ds m) (hsort : OMap.Sorted BitVec.toInt vds)
    (hnd : (todo.map Prod.fst).Nodup) (hget : ∀ x ∈ todo, OMap.get BitVec.toInt x.1 ds = some x.2)
    (hfit : ∀ x ∈ todo, ∀ d, OMap.get BitVec.toInt x.1 vds = some d → Fit vs.sk.length d) :
    Outcome (Writes ∅ m0) (damageLoop P s todo rng ds) m (Protocol.damageLoop P vs (todo.map Prod.fst) rng vds)
      (Ret (View.omap View.dealing) m0) := by
  induction todo generalizing m rng ds vds with
  | nil => exact Outcome.pure h
  | cons x rest ih =>
    obtain ⟨i, d⟩ := x
    have hd : OMap.get BitVec.toInt i ds = some d := hget (i, d) (by simp)
    obtain ⟨vd, hvd, had⟩ : ∃ vd, OMap.get BitVec.toInt i vds = some vd ∧ At View.dealing m d vd := by
      have := get_at h.at i
      rw [hd] at this
      rcases at_opt.1 this with ⟨h0, -⟩ | ⟨d', vd, h0, h1, h2⟩
      · cases h0
      · cases h0
        exact ⟨vd, h1, h2⟩
    rw [List.map_cons, damageLoop, Protocol.damageLoop, hvd, hs.1.threshold, hs.length]
    change Outcome _ _ _ (if vs.threshold = 0 then _ else _) _
    dsimp only
    split_ifs with h0
    · exact ⟨m, rfl, h.1⟩
    refine Outcome.lift h.1 fun t ht => ?_
    refine Outcome.lift h.1 fun sd _ => ?_
    obtain ⟨c1, c2⟩ := Protocol.choose_spec ht
    have hin : InRange vs.sk.length t.1 := by
      intro x hx
      obtain ⟨j, hj, rfl⟩ := List.mem_map.1 (c2 x hx)
      rw [List.mem_range] at hj
      rw [Protocol.toInt_node (by omega)]
      omega
    refine ((corruptDealing_any had (entry_nodup h hd) (hfit (i, d) (by simp) vd hvd) hn c1 hin).after h.1).bind
      fun w bad m1 ⟨hw, hb, hbn, hbo⟩ => ?_
    have h' := h.replace hsort hd hw hb hbn hbo
    refine (checkCorrupted_ret (hs.mono h'.1) hb).call h'.1 fun _ _ m2 h2 w2 => ?_
    have hnd' := List.nodup_cons.1 hnd
    have hne : ∀ x ∈ rest, x.1.toInt ≠ i.toInt := fun x hx e =>
      hnd'.1 (List.mem_map.2 ⟨x, hx, BitVec.toInt_inj.1 e⟩)
    have hsd : OMap.Sorted BitVec.toInt ds := by
      have e := omap_keys h.at
      have e1 : ∀ {V : Type} (l : List (NodeIndex × V)), OMap.Sorted BitVec.toInt l ↔
          (l.map Prod.fst).Pairwise (fun a b => a.toInt < b.toInt) := fun l => by
        rw [List.pairwise_map]
        rfl
      rw [e1] at hsort ⊢
      rwa [e]
    refine ih (h'.upto h2.1) (OMap.sorted_set _ _ hsort) hnd'.2 (fun x hx => ?_) fun x hx dd => ?_
    · rw [OMap.get_set _ _ _ hsd, if_neg (hne x hx)]
      exact hget x (List.mem_cons_of_mem _ hx)
    · rw [OMap.get_set _ _ _ hsort, if_neg (hne x hx)]
      exact hfit x (List.mem_cons_of_mem _ hx) dd

theorem lookUp_get {ds : List (NodeIndex × DealingObj)} {keys : List NodeIndex} {x : NodeIndex × DealingObj}
    (h : x ∈ lookUp ds keys) : OMap.get BitVec.toInt x.1 ds = some x.2 := by
  obtain ⟨i, -, h⟩ := List.mem_filterMap.1 h
  obtain ⟨d, hd, rfl⟩ := Option.map_eq_some_iff.1 h
  exact hd

theorem lookUp_keys {ds : List (NodeIndex × DealingObj)} {keys : List NodeIndex}
    (h : ∀ k ∈ keys, ∃ d, OMap.get BitVec.toInt k ds = some d) : (lookUp ds keys).map Prod.fst = keys := by
  induction keys with
  | nil => rfl
  | cons k keys ih =>
    obtain ⟨d, hd⟩ := h k (by simp)
    rw [lookUp, List.filterMap_cons_some (b := (k, d)) (by rw [hd]; rfl), List.map_cons]
    exact congrArg _ (ih fun k hk => h k (List.mem_cons_of_mem _ hk))

theorem createDealings_ret {P : Prim} {s : SetupObj} {vs : Protocol.Setup} {op : OpObj} {vop : Dealings.Op}
    {shares : List SharesObj} {vshares : List Dealings.Shares} {dealers corrupted : Nat} {seed : Seed} (hs : SetupAt m s vs)
    (ho : At View.op m op vop) (hsh : At View.shares.list m shares vshares) (hn : vs.sk.length ≤ 2 ^ 63)
    (hl : vshares.length ≤ 2 ^ 63) :
    Outcome (Writes ∅ m) (createDealings P s shares dealers corrupted op seed) m
      (Protocol.createDealings P vs vshares dealers corrupted vop seed) (Ret (View.omap View.dealing) m) := by
  rw [createDealings, Protocol.createDealings]
  refine (dealLoop_ret hs ho hsh).eq.bind fun vr r m1 ⟨h1, e1⟩ => ?_
  obtain ⟨hsort, hfit⟩ := dealLoop_fit (by omega) (e1.trans (by rfl : _ = Res.ok (vr.1, vr.2)))
  have e2 : r.2 = vr.2 := h1.snd.2.2.2
  rw [e2]
  refine (thin_ret h1.fst dealers vr.2).bind fun vt t m2 ⟨hm2, h2, e3, hsub⟩ => ?_
  subst hm2
  have hsort' := Protocol.sorted_of_sublist hsub hsort
  change Outcome _ _ _ (Protocol.choose (vt.1.map Prod.fst) corrupted vt.2 >>= fun c => Protocol.damageLoop P vs c.1 c.2 vt.1) _
  rw [omap_keys h2.at, e3]
  refine Outcome.lift h2.1 fun c hc => ?_
  obtain ⟨c1, c2⟩ := Protocol.choose_spec hc
  have hk : (lookUp t.1 c.1).map Prod.fst = c.1 := lookUp_keys fun k hk => by
    obtain ⟨⟨k', d⟩, hd, rfl⟩ := List.mem_map.1 (c2 k hk)
    have := get_at h2.at k'
    rw [OMap.get_of_mem hsort' hd] at this
    rcases at_opt.1 this with ⟨-, h0⟩ | ⟨o, -, h0, -⟩
    · cases h0
    · exact ⟨o, h0⟩
  rw [← hk] at c1
  have h3 := damageLoop_ret (P := P) hs hn (rng := c.2) h2 hsort' c1 (fun x hx => lookUp_get hx) fun x _ d hd => by
    obtain ⟨k', -, hm⟩ := OMap.mem_of_get hd
    exact hfit _ (hsub.subset hm)
  rwa [hk] at h3

end Verif.Heap
