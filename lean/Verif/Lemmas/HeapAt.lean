import Verif.Lemmas.HeapLagrange

/-!
Objects that hold known values, and how they survive calls that write nothing old.
-/

set_option autoImplicit false

namespace Verif.Heap

variable {ο ν ο' ν' α β γ δ : Type} {E : Mem → Prop}

/-- `o` refers to objects that exist and stands for `v`. -/
def At (V : View ο ν) (m : Mem) (o : ο) (v : ν) : Prop := Has V m o ∧ V.val m o = v

theorem Writes.same {W : Set Obj} {m m' : Mem} (w : Writes W m m') {x : Obj} (hx : x.addr < m.next) (hw : x ∉ W) :
    x.Same m m' := by
  cases x with
  | sc a => exact w.sc a hx hw
  | pt a => exact w.pt a hx hw
  | po a => exact w.po a hx hw
  | fe a => exact w.fe a hx hw

theorem At.write {V : View ο ν} {m m' : Mem} {o : ο} {v : ν} {W : Set Obj} (h : At V m o v) (w : Writes W m m')
    (hW : ∀ x ∈ V.objs o, x ∉ W) : At V m' o v :=
  ⟨fun x hx => (h.1 x hx).trans_le w.next, (V.frame fun x hx => w.same (h.1 x hx) (hW x hx)).trans h.2⟩

theorem At.mono {V : View ο ν} {m m' : Mem} {o : ο} {v : ν} (h : At V m o v) (w : Writes ∅ m m') : At V m' o v :=
  h.write w fun _ _ => Set.notMem_empty _

theorem Has.at {V : View ο ν} {m : Mem} {o : ο} (h : Has V m o) : At V m o (V.val m o) := ⟨h, rfl⟩

/-- Facts `h` about an earlier memory hold after `w`. -/
macro "keep " w:term " at " hs:(ppSpace colGt ident)+ : tactic => do
  let ts ← hs.mapM fun h => `(tactic| replace $h:ident := At.mono $h:ident $w)
  `(tactic| ($[$ts:tactic];*))

/-! ### Results -/

theorem Ret.at {V : View ο ν} {m m' : Mem} {o : ο} {v : ν} (h : Ret V m v o m') : At V m' o v :=
  ⟨fun x hx => (h.2.1 x hx).2, h.2.2.2⟩

/-- What is made later is new. -/
theorem Ret.since {V : View ο ν} {m0 m m' : Mem} {o : ο} {v : ν} (w : Writes ∅ m0 m) (h : Ret V m v o m') :
    Ret V m0 v o m' :=
  ⟨w.trans_empty h.1, fun x hx => ⟨w.next.trans (h.2.1 x hx).1, (h.2.1 x hx).2⟩, h.2.2.1, h.2.2.2⟩

/-- What was made earlier stays. -/
theorem Ret.upto {V : View ο ν} {m m' m'' : Mem} {o : ο} {v : ν} (h : Ret V m v o m') (w : Writes ∅ m' m'') :
    Ret V m v o m'' :=
  ⟨h.1.trans_empty w, fun x hx => ⟨(h.2.1 x hx).1, (h.2.1 x hx).2.trans_le w.next⟩, h.2.2.1, (h.at.mono w).2⟩

/-- Two results, the first made before the second. -/
theorem Ret.pair {V : View ο ν} {V' : View ο' ν'} {m m1 m2 : Mem} {o : ο} {v : ν} {o' : ο'} {v' : ν'}
    (h : Ret V m v o m1) (h' : Ret V' m1 v' o' m2) : Ret (V.prod V') m (v, v') (o, o') m2 := by
  refine ⟨h.1.trans_empty h'.1, fun x hx => ?_, ?_, Prod.ext (h.upto h'.1).2.2.2 h'.2.2.2⟩
  · rcases List.mem_append.1 hx with hx | hx
    · exact (h.upto h'.1).2.1 x hx
    · exact (h'.since h.1).2.1 x hx
  · refine List.nodup_append.2 ⟨h.2.2.1, h'.2.2.1, fun x hx y hy e => ?_⟩
    subst e
    have h1 := (h.2.1 x hx).2
    have h2 := (h'.2.1 x hy).1
    omega

theorem Ret.swap {V : View ο ν} {V' : View ο' ν'} {m m' : Mem} {o : ο} {v : ν} {o' : ο'} {v' : ν'}
    (h : Ret (V.prod V') m (v, v') (o, o') m') : Ret (V'.prod V) m (v', v) (o', o) m' := by
  refine ⟨h.1, fun x hx => h.2.1 x ?_, ?_, ?_⟩
  · exact (List.perm_append_comm.mem_iff).1 hx
  · exact (List.perm_append_comm.nodup_iff).1 h.2.2.1
  · exact Prod.ext (congrArg Prod.snd h.2.2.2) (congrArg Prod.fst h.2.2.2)

theorem Ret.fst {V : View ο ν} {V' : View ο' ν'} {m m' : Mem} {o : ο × ο'} {v : ν × ν'}
    (h : Ret (V.prod V') m v o m') : Ret V m v.1 o.1 m' :=
  ⟨h.1, fun x hx => h.2.1 x (List.mem_append_left _ hx), (List.nodup_append.1 h.2.2.1).1, congrArg Prod.fst h.2.2.2⟩

theorem Ret.snd {V : View ο ν} {V' : View ο' ν'} {m m' : Mem} {o : ο × ο'} {v : ν × ν'}
    (h : Ret (V.prod V') m v o m') : Ret V' m v.2 o.2 m' :=
  ⟨h.1, fun x hx => h.2.1 x (List.mem_append_right _ hx), (List.nodup_append.1 h.2.2.1).2.1,
    congrArg Prod.snd h.2.2.2⟩

theorem Ret.via {ο₁ ν₁ : Type} {V : View ο ν} {f : ο₁ → ο} {g : ν → ν₁} {m m' : Mem} {o : ο₁} {v : ν}
    (h : Ret V m v (f o) m') : Ret (V.via f g) m (g v) o m' := ⟨h.1, h.2.1, h.2.2.1, congrArg g h.2.2.2⟩

theorem Ret.some {V : View ο ν} {m m' : Mem} {o : ο} {v : ν} (h : Ret V m v o m') :
    Ret V.opt m (some v) (some o) m' := ⟨h.1, h.2.1, h.2.2.1, congrArg _ h.2.2.2⟩

theorem Ret.data {m m' : Mem} {v : ν} (w : Writes ∅ m m') : Ret View.data m v v m' :=
  ⟨w, by simp [View.data], by simp [View.data], rfl⟩

theorem Ret.nil {V : View ο ν} {m m' : Mem} (w : Writes ∅ m m') : Ret V.list m [] [] m' :=
  ⟨w, by simp [View.list], by simp [View.list], rfl⟩

theorem Ret.cons {V : View ο ν} {m m1 m2 : Mem} {o : ο} {v : ν} {os : List ο} {vs : List ν}
    (h : Ret V m v o m1) (h' : Ret V.list m1 vs os m2) : Ret V.list m (v :: vs) (o :: os) m2 := by
  have h2 := h.pair h'
  exact ⟨h2.1, h2.2.1, h2.2.2.1, congrArg (fun x : ν × List ν => x.1 :: x.2) h2.2.2.2⟩

theorem RetSc.ret {m m' : Mem} {v : Fn} {c : Addr} (h : RetSc m v c m') : Ret View.sc m v c m' :=
  ⟨h.1, by simpa [View.sc, Obj.addr, New] using h.2.1, by simp [View.sc], h.2.2⟩

theorem RetPt.ret {m m' : Mem} {v : Pt} {c : Addr} (h : RetPt m v c m') : Ret View.pt m v c m' :=
  ⟨h.1, by simpa [View.pt, Obj.addr, New] using h.2.1, by simp [View.pt], h.2.2⟩

theorem RetFe.ret {m m' : Mem} {v : Fp} {c : Addr} (h : RetFe m v c m') : Ret View.fe m v c m' :=
  ⟨h.1, by simpa [View.fe, Obj.addr, New] using h.2.1, by simp [View.fe], h.2.2⟩

theorem objs_list_sc (cs : List Addr) : View.sc.list.objs cs = cs.map Obj.sc := by
  induction cs with
  | nil => rfl
  | cons c cs ih =>
    change Obj.sc c :: View.sc.list.objs cs = _
    rw [ih, List.map_cons]

theorem objs_list_pt (cs : List Addr) : View.pt.list.objs cs = cs.map Obj.pt := by
  induction cs with
  | nil => rfl
  | cons c cs ih =>
    change Obj.pt c :: View.pt.list.objs cs = _
    rw [ih, List.map_cons]

theorem RetScs.ret {m m' : Mem} {vs : List Fn} {cs : List Addr} (h : RetScs m vs cs m') :
    Ret View.sc.list m vs cs m' := by
  refine ⟨h.1, ?_, ?_, h.2.2.2⟩
  · rw [objs_list_sc]
    simpa [Obj.addr, New] using h.2.1
  · rw [objs_list_sc]
    exact h.2.2.1.map fun _ _ e => Obj.sc.inj e

theorem RetPts.ret {m m' : Mem} {vs : List Pt} {cs : List Addr} (h : RetPts m vs cs m') :
    Ret View.pt.list m vs cs m' := by
  refine ⟨h.1, ?_, ?_, h.2.2.2⟩
  · rw [objs_list_pt]
    simpa [Obj.addr, New] using h.2.1
  · rw [objs_list_pt]
    exact h.2.2.1.map fun _ _ e => Obj.pt.inj e

/-! ### Facts about single objects and structures -/

section At

variable {m : Mem}

theorem at_sc {a : Addr} {v : Fn} : At View.sc m a v ↔ a < m.next ∧ m.sc a = v := by
  simp [At, Has, View.sc, Obj.addr]

theorem at_pt {a : Addr} {v : Pt} : At View.pt m a v ↔ a < m.next ∧ m.pt a = v := by
  simp [At, Has, View.pt, Obj.addr]

theorem at_fe {a : Addr} {v : Fp} : At View.fe m a v ↔ a < m.next ∧ m.fe a = v := by
  simp [At, Has, View.fe, Obj.addr]

theorem at_prod {V : View ο ν} {V' : View ο' ν'} {o : ο × ο'} {v : ν × ν'} :
    At (V.prod V') m o v ↔ At V m o.1 v.1 ∧ At V' m o.2 v.2 := by
  constructor
  · rintro ⟨h, e⟩
    exact ⟨⟨fun x hx => h x (List.mem_append_left _ hx), congrArg Prod.fst e⟩,
      ⟨fun x hx => h x (List.mem_append_right _ hx), congrArg Prod.snd e⟩⟩
  · rintro ⟨⟨h, e⟩, h', e'⟩
    exact ⟨fun x hx => (List.mem_append.1 hx).elim (h x) (h' x), Prod.ext e e'⟩

theorem at_list_sc {cs : List Addr} {vs : List Fn} :
    At View.sc.list m cs vs ↔ (∀ c ∈ cs, c < m.next) ∧ cs.map m.sc = vs := by
  unfold At Has
  rw [objs_list_sc]
  simp [Obj.addr, View.list, View.sc]

theorem at_list_pt {cs : List Addr} {vs : List Pt} :
    At View.pt.list m cs vs ↔ (∀ c ∈ cs, c < m.next) ∧ cs.map m.pt = vs := by
  unfold At Has
  rw [objs_list_pt]
  simp [Obj.addr, View.list, View.pt]

theorem at_nil {V : View ο ν} {vs : List ν} : At V.list m [] vs ↔ vs = [] := by
  simp [At, Has, View.list, eq_comm]

theorem At.length {V : View ο ν} {os : List ο} {vs : List ν} (h : At V.list m os vs) : os.length = vs.length := by
  rw [← h.2]
  simp [View.list]

theorem At.mem {V : View ο ν} {os : List ο} {vs : List ν} (h : At V.list m os vs) {o : ο} (ho : o ∈ os) : Has V m o :=
  fun x hx => h.1 x (List.mem_flatMap.2 ⟨o, ho, hx⟩)

theorem at_cons {V : View ο ν} {o : ο} {os : List ο} {v : ν} {vs : List ν} :
    At V.list m (o :: os) (v :: vs) ↔ At V m o v ∧ At V.list m os vs := by
  constructor
  · rintro ⟨h, e⟩
    have e' : V.val m o :: os.map (V.val m) = v :: vs := e
    obtain ⟨e1, e2⟩ := List.cons.inj e'
    exact ⟨⟨fun x hx => h x (List.mem_append_left _ hx), e1⟩, ⟨fun x hx => h x (List.mem_append_right _ hx), e2⟩⟩
  · rintro ⟨⟨h, e⟩, h', e'⟩
    refine ⟨fun x hx => (List.mem_append.1 hx).elim (h x) (h' x), ?_⟩
    change V.val m o :: os.map (V.val m) = v :: vs
    rw [e]
    exact congrArg _ e'

/-- A list of pointers and the list of their values have the same shape. -/
theorem At.cases {V : View ο ν} {os : List ο} {vs : List ν} (h : At V.list m os vs) :
    (os = [] ∧ vs = []) ∨ ∃ o os' v vs', os = o :: os' ∧ vs = v :: vs' ∧ At V m o v ∧ At V.list m os' vs' := by
  have hl := h.length
  cases os with
  | nil =>
    cases vs with
    | nil => exact .inl ⟨rfl, rfl⟩
    | cons v vs => simp at hl
  | cons o os =>
    cases vs with
    | nil => simp at hl
    | cons v vs => exact .inr ⟨o, os, v, vs, rfl, rfl, (at_cons.1 h).1, (at_cons.1 h).2⟩

theorem At.getElem? {V : View ο ν} {os : List ο} {vs : List ν} (h : At V.list m os vs) (i : Nat) :
    (os[i]? = none ∧ vs[i]? = none) ∨ ∃ o v, os[i]? = some o ∧ vs[i]? = some v ∧ At V m o v := by
  have e : vs = os.map (V.val m) := h.2.symm
  rcases ho : os[i]? with _ | o
  · exact .inl ⟨rfl, by rw [e, List.getElem?_map, ho]; rfl⟩
  · exact .inr ⟨o, V.val m o, rfl, by rw [e, List.getElem?_map, ho]; rfl,
      h.mem (List.mem_of_getElem? ho), rfl⟩

end At

/-! ### Calls -/

/-- A call whose result is new. -/
theorem Outcome.call {V : View ο ν} {g : Go ο} {r : Res ν} {f : ο → Go γ} {k : ν → Res δ} {S : δ → γ → Mem → Prop}
    {m0 m : Mem} (h : Outcome (Writes ∅ m) g m r (Ret V m)) (w : Writes ∅ m0 m)
    (hf : ∀ v o m', Ret V m v o m' → Writes ∅ m0 m' → Outcome (Writes ∅ m0) (f o) m' (k v) S) :
    Outcome (Writes ∅ m0) (g >>= f) m (r >>= k) S :=
  Outcome.bind (h.after w) fun v o m' hr => hf v o m' hr (w.trans_empty hr.1)

/-- A call that returns normally and whose result is new. -/
theorem Outcome.call_ok {V : View ο ν} {g : Go ο} {v : ν} {f : ο → Go γ} {r : Res δ} {S : δ → γ → Mem → Prop}
    {m0 m : Mem} (h : Outcome (Writes ∅ m) g m (.ok v) (Ret V m)) (w : Writes ∅ m0 m)
    (hf : ∀ o m', Ret V m v o m' → Writes ∅ m0 m' → Outcome (Writes ∅ m0) (f o) m' r S) :
    Outcome (Writes ∅ m0) (g >>= f) m r S :=
  Outcome.bind_ok (h.after w) fun o m' hr => hf o m' hr (w.trans_empty hr.1)

theorem Outcome.lift {r : Res α} {f : α → Go γ} {k : α → Res δ} {S : δ → γ → Mem → Prop} {m0 m : Mem}
    (w : Writes ∅ m0 m) (hf : ∀ v, r = .ok v → Outcome (Writes ∅ m0) (f v) m (k v) S) :
    Outcome (Writes ∅ m0) (Go.lift r >>= f) m (r >>= k) S := by
  refine Outcome.bind (R := fun v a m' => r = .ok v ∧ a = v ∧ m' = m) ?_ ?_
  · cases r with
    | ok v => exact ⟨v, m, rfl, rfl, rfl, rfl⟩
    | err e => exact ⟨m, rfl, w⟩
    | panic e => exact ⟨m, rfl, w⟩
    | diverge => exact ⟨m, rfl, w⟩
  · rintro v a m' ⟨h, rfl, rfl⟩
    exact hf _ h

theorem Outcome.lift' {r : Res α} {m0 m : Mem} (w : Writes ∅ m0 m) :
    Outcome (Writes ∅ m0) (Go.lift r) m r (fun v a m' => a = v ∧ m' = m) := by
  cases r with
  | ok v => exact ⟨v, m, rfl, rfl, rfl⟩
  | err e => exact ⟨m, rfl, w⟩
  | panic e => exact ⟨m, rfl, w⟩
  | diverge => exact ⟨m, rfl, w⟩

/-- A loop whose every step returns something new. -/
theorem mapM'_ret {V : View ο ν} {f : α → Go ο} {g : α → Res ν} {I : Mem → Prop}
    (hI : ∀ m m', I m → Writes ∅ m m' → I m') {l : List α}
    (h : ∀ a ∈ l, ∀ m, I m → Outcome (Writes ∅ m) (f a) m (g a) (Ret V m)) {m : Mem} (hm : I m) :
    Outcome (Writes ∅ m) (Go.mapM' f l) m (Res.mapM' g l) (Ret V.list m) := by
  induction l generalizing m with
  | nil => exact Outcome.pure (Ret.nil (Writes.refl _ _))
  | cons a as ih =>
    refine Outcome.call (h a (by simp) m hm) (Writes.refl _ _) ?_
    intro v o m1 hr w
    refine Outcome.call (ih (fun a ha => h a (List.mem_cons_of_mem _ ha)) (hI _ _ hm w)) w ?_
    intro vs os m2 hr2 w2
    exact Outcome.pure (hr.cons hr2)

/-! ### Expressions -/

section Expr

variable {m : Mem}

theorem newSc_ret (v : Fn) : Outcome E (newSc v) m (.ok v) (Ret View.sc m) :=
  (newSc_spec v m).mono fun _ _ _ h => h.ret

theorem newPt_ret (v : Pt) : Outcome E (newPt v) m (.ok v) (Ret View.pt m) :=
  ⟨m.next, _, rfl, RetPt.ret ⟨(Writes.refl ∅ m).newPt (le_refl _), ⟨le_refl _, by simp⟩, by simp⟩⟩

theorem clonePt_ret {p : Addr} {v : Pt} (h : At View.pt m p v) : Outcome E (clonePt p) m (.ok v) (Ret View.pt m) := by
  rw [← h.2]
  exact (clonePt_spec p m).mono fun _ _ _ h => h.ret

theorem cloneSc_ret {p : Addr} {v : Fn} (h : At View.sc m p v) : Outcome E (cloneSc p) m (.ok v) (Ret View.sc m) := by
  rw [← h.2]
  exact (cloneSc_spec p m (at_sc.1 h).1).mono fun _ _ _ h => h.ret

theorem mulByG_ret {k : Addr} {v : Fn} (h : At View.sc m k v) :
    Outcome E (mulByG k) m (.ok (Point.mulByG v)) (Ret View.pt m) := by
  rw [← h.2]
  exact (mulByG_spec k m).mono fun _ _ _ h => h.ret

theorem pedersen_ret {k l : Addr} {v w : Fn} (h : At View.sc m k v) (h' : At View.sc m l w) :
    Outcome E (pedersen k l) m (.ok (Point.pedersen v w)) (Ret View.pt m) := by
  rw [← h.2, ← h'.2]
  exact (pedersen_spec k l m).mono fun _ _ _ h => h.ret

theorem mulPoints_ret {p k q l : Addr} {vp vq : Pt} {vk vl : Fn} (hp : At View.pt m p vp) (hk : At View.sc m k vk)
    (hq : At View.pt m q vq) (hl : At View.sc m l vl) :
    Outcome E (mulPoints p k q l) m (.ok (Point.mulPoints vp vk vq vl)) (Ret View.pt m) := by
  rw [← hp.2, ← hk.2, ← hq.2, ← hl.2]
  exact (mulPoints_spec p k q l m (at_pt.1 hp).1 (at_pt.1 hq).1).mono fun _ _ _ h => h.ret

/-! The receiver of these calls was made since `m`. -/

variable {m' : Mem}

theorem addSc_in {s a : Addr} {x y : Fn} (hs : Ret View.sc m x s m') (ha : At View.sc m' a y) :
    Outcome E (addSc s s a) m' (.ok (x + y)) (Ret View.sc m) := by
  have h1 := at_sc.1 hs.at
  have h2 := at_sc.1 ha
  refine ⟨s, _, rfl, RetSc.ret ⟨hs.1.setSc (.inr ?_), ⟨?_, ?_⟩, ?_⟩⟩
  · exact (hs.2.1 _ (List.mem_singleton_self _)).1
  · exact (hs.2.1 _ (List.mem_singleton_self _)).1
  · exact h1.1
  · rw [Mem.setSc_self, h1.2, h2.2]

theorem addPt_in {s a : Addr} {x y : Pt} (hs : Ret View.pt m x s m') (ha : At View.pt m' a y) :
    Outcome E (addPt s s a) m' (.ok (x + y)) (Ret View.pt m) := by
  have h1 := at_pt.1 hs.at
  have h2 := at_pt.1 ha
  refine ⟨s, _, rfl, RetPt.ret ⟨hs.1.setPt (.inr ?_), ⟨?_, ?_⟩, ?_⟩⟩
  · exact (hs.2.1 _ (List.mem_singleton_self _)).1
  · exact (hs.2.1 _ (List.mem_singleton_self _)).1
  · exact h1.1
  · rw [Mem.setPt_self, h1.2, h2.2]

theorem subPt_in {s a : Addr} {x y : Pt} (hs : Ret View.pt m x s m') (ha : At View.pt m' a y) :
    Outcome E (subPt s s a) m' (.ok (x - y)) (Ret View.pt m) := by
  have h1 := at_pt.1 hs.at
  have h2 := at_pt.1 ha
  refine ⟨s, _, rfl, RetPt.ret ⟨hs.1.setPt (.inr ?_), ⟨?_, ?_⟩, ?_⟩⟩
  · exact (hs.2.1 _ (List.mem_singleton_self _)).1
  · exact (hs.2.1 _ (List.mem_singleton_self _)).1
  · exact h1.1
  · rw [Mem.setPt_self, h1.2, h2.2]

theorem mulSc_in {s a : Addr} {x y : Fn} (hs : Ret View.sc m x s m') (ha : At View.sc m' a y) :
    Outcome E (mulSc s s a) m' (.ok (x * y)) (Ret View.sc m) := by
  have h1 := at_sc.1 hs.at
  have h2 := at_sc.1 ha
  refine ⟨s, _, rfl, RetSc.ret ⟨hs.1.setSc (.inr ?_), ⟨?_, ?_⟩, ?_⟩⟩
  · exact (hs.2.1 _ (List.mem_singleton_self _)).1
  · exact (hs.2.1 _ (List.mem_singleton_self _)).1
  · exact h1.1
  · rw [Mem.setSc_self, h1.2, h2.2]

/-- The receiver is new; both operands are anything. -/
theorem mulSc_to {s a b : Addr} {z x y : Fn} (hs : Ret View.sc m z s m') (ha : At View.sc m' a x)
    (hb : At View.sc m' b y) : Outcome E (mulSc s a b) m' (.ok (x * y)) (Ret View.sc m) := by
  refine ⟨s, _, rfl, RetSc.ret ⟨hs.1.setSc (.inr ?_), ⟨?_, ?_⟩, ?_⟩⟩
  · exact (hs.2.1 _ (List.mem_singleton_self _)).1
  · exact (hs.2.1 _ (List.mem_singleton_self _)).1
  · exact (at_sc.1 hs.at).1
  · rw [Mem.setSc_self, (at_sc.1 ha).2, (at_sc.1 hb).2]

theorem subSc_to {s a b : Addr} {z x y : Fn} (hs : Ret View.sc m z s m') (ha : At View.sc m' a x)
    (hb : At View.sc m' b y) : Outcome E (subSc s a b) m' (.ok (x - y)) (Ret View.sc m) := by
  refine ⟨s, _, rfl, RetSc.ret ⟨hs.1.setSc (.inr ?_), ⟨?_, ?_⟩, ?_⟩⟩
  · exact (hs.2.1 _ (List.mem_singleton_self _)).1
  · exact (hs.2.1 _ (List.mem_singleton_self _)).1
  · exact (at_sc.1 hs.at).1
  · rw [Mem.setSc_self, (at_sc.1 ha).2, (at_sc.1 hb).2]

theorem addPt_to {s a b : Addr} {z x y : Pt} (hs : Ret View.pt m z s m') (ha : At View.pt m' a x)
    (hb : At View.pt m' b y) : Outcome E (addPt s a b) m' (.ok (x + y)) (Ret View.pt m) := by
  refine ⟨s, _, rfl, RetPt.ret ⟨hs.1.setPt (.inr ?_), ⟨?_, ?_⟩, ?_⟩⟩
  · exact (hs.2.1 _ (List.mem_singleton_self _)).1
  · exact (hs.2.1 _ (List.mem_singleton_self _)).1
  · exact (at_pt.1 hs.at).1
  · rw [Mem.setPt_self, (at_pt.1 ha).2, (at_pt.1 hb).2]

theorem subPt_to {s a b : Addr} {z x y : Pt} (hs : Ret View.pt m z s m') (ha : At View.pt m' a x)
    (hb : At View.pt m' b y) : Outcome E (subPt s a b) m' (.ok (x - y)) (Ret View.pt m) := by
  refine ⟨s, _, rfl, RetPt.ret ⟨hs.1.setPt (.inr ?_), ⟨?_, ?_⟩, ?_⟩⟩
  · exact (hs.2.1 _ (List.mem_singleton_self _)).1
  · exact (hs.2.1 _ (List.mem_singleton_self _)).1
  · exact (at_pt.1 hs.at).1
  · rw [Mem.setPt_self, (at_pt.1 ha).2, (at_pt.1 hb).2]

theorem smulPt_to {s a k : Addr} {z x : Pt} {y : Fn} (hs : Ret View.pt m z s m') (ha : At View.pt m' a x)
    (hk : At View.sc m' k y) : Outcome E (smulPt s a k) m' (.ok (Point.scalarMul x y)) (Ret View.pt m) := by
  refine ⟨s, _, rfl, RetPt.ret ⟨hs.1.setPt (.inr ?_), ⟨?_, ?_⟩, ?_⟩⟩
  · exact (hs.2.1 _ (List.mem_singleton_self _)).1
  · exact (hs.2.1 _ (List.mem_singleton_self _)).1
  · exact (at_pt.1 hs.at).1
  · rw [Mem.setPt_self, (at_pt.1 ha).2, (at_sc.1 hk).2]; rfl

end Expr

end Verif.Heap
