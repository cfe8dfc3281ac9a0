import Verif.Spec.HeapView

/-!
Running code on memory: how outcomes compose, what keeps what.
-/

set_option autoImplicit false

namespace Verif.Heap

variable {α β γ δ : Type}

/-! ### Memory -/

@[simp] theorem Mem.setSc_next (m : Mem) (a : Addr) (v : Fn) : (m.setSc a v).next = m.next := rfl
@[simp] theorem Mem.setSc_pt (m : Mem) (a : Addr) (v : Fn) : (m.setSc a v).pt = m.pt := rfl
@[simp] theorem Mem.setSc_po (m : Mem) (a : Addr) (v : Fn) : (m.setSc a v).po = m.po := rfl
@[simp] theorem Mem.setPt_next (m : Mem) (a : Addr) (v : Pt) : (m.setPt a v).next = m.next := rfl
@[simp] theorem Mem.setPt_sc (m : Mem) (a : Addr) (v : Pt) : (m.setPt a v).sc = m.sc := rfl
@[simp] theorem Mem.setPt_po (m : Mem) (a : Addr) (v : Pt) : (m.setPt a v).po = m.po := rfl
@[simp] theorem Mem.setPo_next (m : Mem) (a : Addr) (v : List Addr) : (m.setPo a v).next = m.next := rfl
@[simp] theorem Mem.setPo_sc (m : Mem) (a : Addr) (v : List Addr) : (m.setPo a v).sc = m.sc := rfl
@[simp] theorem Mem.setPo_pt (m : Mem) (a : Addr) (v : List Addr) : (m.setPo a v).pt = m.pt := rfl
@[simp] theorem Mem.bump_next (m : Mem) : m.bump.next = m.next + 1 := rfl
@[simp] theorem Mem.bump_sc (m : Mem) : m.bump.sc = m.sc := rfl
@[simp] theorem Mem.bump_pt (m : Mem) : m.bump.pt = m.pt := rfl
@[simp] theorem Mem.bump_po (m : Mem) : m.bump.po = m.po := rfl
@[simp] theorem Mem.setFe_next (m : Mem) (a : Addr) (v : Fp) : (m.setFe a v).next = m.next := rfl
@[simp] theorem Mem.setFe_sc (m : Mem) (a : Addr) (v : Fp) : (m.setFe a v).sc = m.sc := rfl
@[simp] theorem Mem.setFe_pt (m : Mem) (a : Addr) (v : Fp) : (m.setFe a v).pt = m.pt := rfl
@[simp] theorem Mem.setFe_po (m : Mem) (a : Addr) (v : Fp) : (m.setFe a v).po = m.po := rfl
@[simp] theorem Mem.setSc_fe (m : Mem) (a : Addr) (v : Fn) : (m.setSc a v).fe = m.fe := rfl
@[simp] theorem Mem.setPt_fe (m : Mem) (a : Addr) (v : Pt) : (m.setPt a v).fe = m.fe := rfl
@[simp] theorem Mem.setPo_fe (m : Mem) (a : Addr) (v : List Addr) : (m.setPo a v).fe = m.fe := rfl
@[simp] theorem Mem.bump_fe (m : Mem) : m.bump.fe = m.fe := rfl

theorem Mem.setSc_sc (m : Mem) (a b : Addr) (v : Fn) : (m.setSc a v).sc b = if b = a then v else m.sc b := by
  simp [Mem.setSc, Function.update_apply]
theorem Mem.setPt_pt (m : Mem) (a b : Addr) (v : Pt) : (m.setPt a v).pt b = if b = a then v else m.pt b := by
  simp [Mem.setPt, Function.update_apply]
theorem Mem.setPo_po (m : Mem) (a b : Addr) (v : List Addr) : (m.setPo a v).po b = if b = a then v else m.po b := by
  simp [Mem.setPo, Function.update_apply]
theorem Mem.setFe_fe (m : Mem) (a b : Addr) (v : Fp) : (m.setFe a v).fe b = if b = a then v else m.fe b := by
  simp [Mem.setFe, Function.update_apply]

@[simp] theorem Mem.setSc_self (m : Mem) (a : Addr) (v : Fn) : (m.setSc a v).sc a = v := by simp [Mem.setSc_sc]
@[simp] theorem Mem.setPt_self (m : Mem) (a : Addr) (v : Pt) : (m.setPt a v).pt a = v := by simp [Mem.setPt_pt]
@[simp] theorem Mem.setPo_self (m : Mem) (a : Addr) (v : List Addr) : (m.setPo a v).po a = v := by
  simp [Mem.setPo_po]
@[simp] theorem Mem.setFe_self (m : Mem) (a : Addr) (v : Fp) : (m.setFe a v).fe a = v := by simp [Mem.setFe_fe]

theorem Mem.setSc_ne {m : Mem} {a b : Addr} {v : Fn} (h : b ≠ a) : (m.setSc a v).sc b = m.sc b := by
  rw [Mem.setSc_sc, if_neg h]
theorem Mem.setPt_ne {m : Mem} {a b : Addr} {v : Pt} (h : b ≠ a) : (m.setPt a v).pt b = m.pt b := by
  rw [Mem.setPt_pt, if_neg h]
theorem Mem.setPo_ne {m : Mem} {a b : Addr} {v : List Addr} (h : b ≠ a) : (m.setPo a v).po b = m.po b := by
  rw [Mem.setPo_po, if_neg h]
theorem Mem.setFe_ne {m : Mem} {a b : Addr} {v : Fp} (h : b ≠ a) : (m.setFe a v).fe b = m.fe b := by
  rw [Mem.setFe_fe, if_neg h]

/-! ### What is written -/

namespace Writes

variable {W W' : Set Obj} {m m' m'' : Mem}

theorem refl (W : Set Obj) (m : Mem) : Writes W m m :=
  ⟨le_refl _, fun _ _ _ => rfl, fun _ _ _ => rfl, fun _ _ _ => rfl, fun _ _ _ => rfl, fun _ ho => .inl ho⟩

theorem trans (h : Writes W m m') (h' : Writes W' m' m'') (hW : ∀ o : Obj, o.addr < m.next → o ∈ W' → o ∈ W) :
    Writes W m m'' := by
  have hn := h.next
  exact ⟨h.next.trans h'.next,
    fun a ha hw => (h'.sc a (by omega) fun e => hw (hW _ ha e)).trans (h.sc a ha hw),
    fun a ha hw => (h'.pt a (by omega) fun e => hw (hW _ ha e)).trans (h.pt a ha hw),
    fun a ha hw => (h'.po a (by omega) fun e => hw (hW _ ha e)).trans (h.po a ha hw),
    fun a ha hw => (h'.fe a (by omega) fun e => hw (hW _ ha e)).trans (h.fe a ha hw),
    fun o ho => by
      rcases h'.touched o ho with ho | ho | ho
      · exact h.touched o ho
      · by_cases ha : o.addr < m.next
        · exact .inr (.inl (hW o ha ho))
        · exact .inr (.inr (by omega))
      · exact .inr (.inr (by omega))⟩

theorem mono (h : Writes W m m') (hW : ∀ o : Obj, o.addr < m.next → o ∈ W → o ∈ W') : Writes W' m m' :=
  (refl W' m).trans h hW

/-- Nothing is written and then some things. -/
theorem trans_empty (h : Writes ∅ m m') (h' : Writes W m' m'') : Writes W m m'' :=
  (h.mono fun _ _ e => absurd e (Set.notMem_empty _)).trans h' fun _ _ e => e

/-- Some things are written and then nothing. -/
theorem then_empty (h : Writes W m m') (h' : Writes ∅ m' m'') : Writes W m m'' :=
  h.trans h' fun _ _ e => absurd e (Set.notMem_empty _)

/-- A second write to the same things. -/
theorem again (h : Writes W m m') (h' : Writes W m' m'') : Writes W m m'' := h.trans h' fun _ _ e => e

/-- One more object in the record. -/
theorem insert {o : Obj} (h : Writes W m m') (ha : o ∈ W ∨ m.next ≤ o.addr) :
    ∀ x ∈ Insert.insert o m'.touched, x ∈ m.touched ∨ x ∈ W ∨ m.next ≤ x.addr := by
  rintro x (rfl | hx)
  · exact .inr ha
  · exact h.touched x hx

theorem setSc {a : Addr} {v : Fn} (h : Writes W m m') (ha : .sc a ∈ W ∨ m.next ≤ a) : Writes W m (m'.setSc a v) := by
  refine ⟨h.next, fun c hc hw => ?_, h.pt, h.po, h.fe, h.insert ha⟩
  rw [Mem.setSc_ne, h.sc c hc hw]
  rintro rfl
  rcases ha with ha | ha
  · exact hw ha
  · omega

theorem setPt {a : Addr} {v : Pt} (h : Writes W m m') (ha : .pt a ∈ W ∨ m.next ≤ a) : Writes W m (m'.setPt a v) := by
  refine ⟨h.next, h.sc, fun c hc hw => ?_, h.po, h.fe, h.insert ha⟩
  rw [Mem.setPt_ne, h.pt c hc hw]
  rintro rfl
  rcases ha with ha | ha
  · exact hw ha
  · omega

theorem setPo {a : Addr} {v : List Addr} (h : Writes W m m') (ha : .po a ∈ W ∨ m.next ≤ a) :
    Writes W m (m'.setPo a v) := by
  refine ⟨h.next, h.sc, h.pt, fun c hc hw => ?_, h.fe, h.insert ha⟩
  rw [Mem.setPo_ne, h.po c hc hw]
  rintro rfl
  rcases ha with ha | ha
  · exact hw ha
  · omega

theorem setFe {a : Addr} {v : Fp} (h : Writes W m m') (ha : .fe a ∈ W ∨ m.next ≤ a) : Writes W m (m'.setFe a v) := by
  refine ⟨h.next, h.sc, h.pt, h.po, fun c hc hw => ?_, h.insert ha⟩
  rw [Mem.setFe_ne, h.fe c hc hw]
  rintro rfl
  rcases ha with ha | ha
  · exact hw ha
  · omega

theorem bump (h : Writes W m m') : Writes W m m'.bump :=
  ⟨h.next.trans (Nat.le_succ _), h.sc, h.pt, h.po, h.fe, h.touched⟩

/-- A new scalar. -/
theorem newSc {a : Addr} {v : Fn} (h : Writes W m m') (ha : m.next ≤ a) : Writes W m (m'.setSc a v).bump :=
  (h.setSc (.inr ha)).bump
theorem newPt {a : Addr} {v : Pt} (h : Writes W m m') (ha : m.next ≤ a) : Writes W m (m'.setPt a v).bump :=
  (h.setPt (.inr ha)).bump
theorem newPo {a : Addr} {v : List Addr} (h : Writes W m m') (ha : m.next ≤ a) : Writes W m (m'.setPo a v).bump :=
  (h.setPo (.inr ha)).bump
theorem newFe {a : Addr} {v : Fp} (h : Writes W m m') (ha : m.next ≤ a) : Writes W m (m'.setFe a v).bump :=
  (h.setFe (.inr ha)).bump

theorem map_sc (h : Writes W m m') {l : List Addr} (hl : ∀ a ∈ l, a < m.next ∧ .sc a ∉ W) :
    l.map m'.sc = l.map m.sc := List.map_congr_left fun a ha => h.sc a (hl a ha).1 (hl a ha).2
theorem map_pt (h : Writes W m m') {l : List Addr} (hl : ∀ a ∈ l, a < m.next ∧ .pt a ∉ W) :
    l.map m'.pt = l.map m.pt := List.map_congr_left fun a ha => h.pt a (hl a ha).1 (hl a ha).2

theorem sc0 (h : Writes ∅ m m') {a : Addr} (ha : a < m.next) : m'.sc a = m.sc a := h.sc a ha (Set.notMem_empty _)
theorem pt0 (h : Writes ∅ m m') {a : Addr} (ha : a < m.next) : m'.pt a = m.pt a := h.pt a ha (Set.notMem_empty _)
theorem fe0 (h : Writes ∅ m m') {a : Addr} (ha : a < m.next) : m'.fe a = m.fe a := h.fe a ha (Set.notMem_empty _)
theorem po0 (h : Writes ∅ m m') {a : Addr} (ha : a < m.next) : m'.po a = m.po a := h.po a ha (Set.notMem_empty _)

/-- Writing only what is new is writing nothing. -/
theorem fresh (h : Writes ∅ m m') (h' : Writes W m' m'') (hW : ∀ o ∈ W, m.next ≤ o.addr) : Writes ∅ m m'' :=
  h.trans h' fun o ho e => absurd (hW o e) (by omega)

end Writes

/-! ### Outcomes -/

/-- Continue after a normal return. -/
def Go.andThen (x : Res α × Mem) (f : α → Go β) : Res β × Mem :=
  match x with
  | (.ok a, m) => f a m
  | (.err e, m) => (.err e, m)
  | (.panic e, m) => (.panic e, m)
  | (.diverge, m) => (.diverge, m)

@[simp] theorem Go.andThen_ok (a : α) (m : Mem) (f : α → Go β) : Go.andThen (.ok a, m) f = f a m := rfl

theorem run_bind (g : Go α) (f : α → Go β) (m : Mem) : (g >>= f) m = Go.andThen (g m) f := rfl

instance : LawfulMonad Go := LawfulMonad.mk'
  (id_map := fun x => by
    funext m
    change Go.andThen (x m) (fun a m => (.ok a, m)) = x m
    rcases x m with ⟨r, m'⟩
    cases r <;> rfl)
  (pure_bind := fun _ _ => rfl)
  (bind_assoc := fun x f g => by
    funext m
    change Go.andThen (Go.andThen (x m) f) g = Go.andThen (x m) (fun a m => Go.andThen (f a m) g)
    rcases x m with ⟨r, m'⟩
    cases r <;> rfl)

variable {E E' : Mem → Prop}

namespace Outcome

variable {g : Go α} {m : Mem} {r : Res β} {R R' : β → α → Mem → Prop}

theorem ok {v : β} {a : α} {m' : Mem} (h : g m = (.ok a, m')) (hr : R v a m') : Outcome E g m (.ok v) R :=
  ⟨a, m', h, hr⟩

theorem pure {v : β} {a : α} (h : R v a m) : Outcome E (pure a : Go α) m (.ok v) R := ⟨a, m, rfl, h⟩

theorem err {e : String} (h : E m) : Outcome E (Go.err e : Go α) m (.err e) R := ⟨m, rfl, h⟩
theorem panic {e : String} (h : E m) : Outcome E (Go.panic e : Go α) m (.panic e) R := ⟨m, rfl, h⟩

theorem mono (h : Outcome E g m r R) (hR : ∀ v a m', R v a m' → R' v a m') : Outcome E g m r R' := by
  cases r with
  | ok v => obtain ⟨a, m', h, hr⟩ := h; exact ⟨a, m', h, hR _ _ _ hr⟩
  | err e => exact h
  | panic e => exact h
  | diverge => exact h

/-- A weaker statement about the memory after a failure. -/
theorem errs (h : Outcome E g m r R) (hE : ∀ m', E m' → E' m') : Outcome E' g m r R := by
  cases r with
  | ok v => exact h
  | err e => obtain ⟨m', h, he⟩ := h; exact ⟨m', h, hE _ he⟩
  | panic e => obtain ⟨m', h, he⟩ := h; exact ⟨m', h, hE _ he⟩
  | diverge => obtain ⟨m', h, he⟩ := h; exact ⟨m', h, hE _ he⟩

/-- After steps that wrote nothing. -/
theorem after {m0 : Mem} (h : Outcome (Writes ∅ m) g m r R) (w : Writes ∅ m0 m) : Outcome (Writes ∅ m0) g m r R :=
  h.errs fun _ h => w.trans_empty h

theorem bind {f : α → Go γ} {k : β → Res δ} {S : δ → γ → Mem → Prop} (h : Outcome E g m r R)
    (hf : ∀ v a m', R v a m' → Outcome E (f a) m' (k v) S) : Outcome E (g >>= f) m (r >>= k) S := by
  cases r with
  | ok v =>
    obtain ⟨a, m', h, hr⟩ := h
    have := hf v a m' hr
    rw [Res.ok_bind]
    unfold Outcome at this ⊢
    rw [run_bind, h, Go.andThen_ok]
    exact this
  | err e =>
    obtain ⟨m', h, he⟩ := h
    exact ⟨m', by rw [run_bind, h]; rfl, he⟩
  | panic e =>
    obtain ⟨m', h, he⟩ := h
    exact ⟨m', by rw [run_bind, h]; rfl, he⟩
  | diverge =>
    obtain ⟨m', h, he⟩ := h
    exact ⟨m', by rw [run_bind, h]; rfl, he⟩

/-- A step that returns normally. -/
theorem step {f : α → Go γ} {r : Res δ} {S : δ → γ → Mem → Prop} {a : α} {m' : Mem} (h : g m = (.ok a, m'))
    (hf : Outcome E (f a) m' r S) : Outcome E (g >>= f) m r S := by
  unfold Outcome at hf ⊢
  rw [run_bind, h, Go.andThen_ok]
  exact hf

theorem congr {g' : Go α} {m' : Mem} (e : g' m' = g m) (h : Outcome E g m r R) : Outcome E g' m' r R := by
  unfold Outcome at h ⊢
  rw [e]
  exact h

/-- Another way to write the result on values, and a weaker relation. -/
theorem use {r' : Res β} (h : Outcome E g m r' R') (e : r' = r) (hR : ∀ v a m', R' v a m' → R v a m') :
    Outcome E g m r R := e ▸ h.mono hR

theorem ok_iff {v : β} : Outcome E g m (.ok v) R ↔ ∃ a m', g m = (.ok a, m') ∧ R v a m' := Iff.rfl

/-- The value part of a step whose value result cannot fail. -/
theorem bind_ok {f : α → Go γ} {r : Res δ} {v : β} {S : δ → γ → Mem → Prop} (h : Outcome E g m (.ok v) R)
    (hf : ∀ a m', R v a m' → Outcome E (f a) m' r S) : Outcome E (g >>= f) m r S := by
  obtain ⟨a, m', h, hr⟩ := h
  exact step h (hf a m' hr)

end Outcome

/-! ### Single steps -/

section Steps

variable {m : Mem} {r : Res δ} {S : δ → γ → Mem → Prop} {f : Addr → Go γ}

theorem Outcome.newSc {v : Fn} (h : Outcome E (f m.next) (m.setSc m.next v).bump r S) :
    Outcome E (newSc v >>= f) m r S := Outcome.step rfl h
theorem Outcome.newPt {v : Pt} (h : Outcome E (f m.next) (m.setPt m.next v).bump r S) :
    Outcome E (newPt v >>= f) m r S := Outcome.step rfl h
theorem Outcome.newPo {v : List Addr} (h : Outcome E (f m.next) (m.setPo m.next v).bump r S) :
    Outcome E (newPo v >>= f) m r S := Outcome.step rfl h
theorem Outcome.addSc {s a b : Addr} (h : Outcome E (f s) (m.setSc s (m.sc a + m.sc b)) r S) :
    Outcome E (addSc s a b >>= f) m r S := Outcome.step rfl h
theorem Outcome.subSc {s a b : Addr} (h : Outcome E (f s) (m.setSc s (m.sc a - m.sc b)) r S) :
    Outcome E (subSc s a b >>= f) m r S := Outcome.step rfl h
theorem Outcome.mulSc {s a b : Addr} (h : Outcome E (f s) (m.setSc s (m.sc a * m.sc b)) r S) :
    Outcome E (mulSc s a b >>= f) m r S := Outcome.step rfl h
theorem Outcome.negSc {s a : Addr} (h : Outcome E (f s) (m.setSc s (-m.sc a)) r S) :
    Outcome E (negSc s a >>= f) m r S := Outcome.step rfl h
theorem Outcome.addPt {s a b : Addr} (h : Outcome E (f s) (m.setPt s (m.pt a + m.pt b)) r S) :
    Outcome E (addPt s a b >>= f) m r S := Outcome.step rfl h
theorem Outcome.subPt {s a b : Addr} (h : Outcome E (f s) (m.setPt s (m.pt a - m.pt b)) r S) :
    Outcome E (subPt s a b >>= f) m r S := Outcome.step rfl h
theorem Outcome.dblPt {s a : Addr} (h : Outcome E (f s) (m.setPt s (m.pt a + m.pt a)) r S) :
    Outcome E (dblPt s a >>= f) m r S := Outcome.step rfl h
theorem Outcome.smulPt {s a k : Addr} (h : Outcome E (f s) (m.setPt s (m.sc k • m.pt a)) r S) :
    Outcome E (smulPt s a k >>= f) m r S := Outcome.step rfl h
theorem Outcome.clonePt {s : Addr} (h : Outcome E (f m.next) (m.setPt m.next (m.pt s)).bump r S) :
    Outcome E (clonePt s >>= f) m r S := Outcome.step rfl h

theorem Outcome.readSc {a : Addr} {f : Fn → Go γ} (h : Outcome E (f (m.sc a)) m r S) :
    Outcome E (readSc a >>= f) m r S := Outcome.step rfl h
theorem Outcome.readPt {a : Addr} {f : Pt → Go γ} (h : Outcome E (f (m.pt a)) m r S) :
    Outcome E (readPt a >>= f) m r S := Outcome.step rfl h
theorem Outcome.readPo {a : Addr} {f : List Addr → Go γ} (h : Outcome E (f (m.po a)) m r S) :
    Outcome E (readPo a >>= f) m r S := Outcome.step rfl h

end Steps

theorem Mem.setSc_bump_setSc (m : Mem) (a : Addr) (v w : Fn) :
    ((m.setSc a v).bump).setSc a w = (m.setSc a w).bump := by
  simp [Mem.setSc, Mem.bump]

theorem Mem.setPt_bump_setPt (m : Mem) (a : Addr) (v w : Pt) :
    ((m.setPt a v).bump).setPt a w = (m.setPt a w).bump := by
  simp [Mem.setPt, Mem.bump]

theorem Mem.setSc_setSc (m : Mem) (a : Addr) (v w : Fn) : (m.setSc a v).setSc a w = m.setSc a w := by
  simp [Mem.setSc]

theorem Mem.setPt_setPt (m : Mem) (a : Addr) (v w : Pt) : (m.setPt a v).setPt a w = m.setPt a w := by
  simp [Mem.setPt]

theorem cloneSc_run {s : Addr} {m : Mem} (h : s < m.next) :
    cloneSc s m = (.ok m.next, (m.setSc m.next (m.sc s)).bump) := by
  change ((Res.ok m.next, ((m.setSc m.next 0).bump).setSc m.next (((m.setSc m.next 0).bump).sc s)) : Res Addr × Mem) = _
  rw [Mem.bump_sc, Mem.setSc_ne (by omega), Mem.setSc_bump_setSc]

theorem Outcome.cloneSc {m : Mem} {r : Res δ} {S : δ → γ → Mem → Prop} {f : Addr → Go γ} {s : Addr}
    (hs : s < m.next) (h : Outcome E (f m.next) (m.setSc m.next (m.sc s)).bump r S) :
    Outcome E (cloneSc s >>= f) m r S := Outcome.step (cloneSc_run hs) h

/-! ### Loops that fill a slice -/

/-- A loop whose every step returns a new scalar. -/
theorem mapM'_sc {f : α → Go Addr} {g : α → Res Fn} {I : Mem → Prop} (hI : ∀ m m', I m → Writes ∅ m m' → I m')
    {l : List α} (h : ∀ a ∈ l, ∀ m, I m → Outcome (Writes ∅ m) (f a) m (g a) (RetSc m)) {m : Mem} (hm : I m) :
    Outcome (Writes ∅ m) (Go.mapM' f l) m (Res.mapM' g l) (RetScs m) := by
  induction l generalizing m with
  | nil => exact Outcome.pure ⟨Writes.refl _ _, by simp, by simp, rfl⟩
  | cons a as ih =>
    refine Outcome.bind (h a (by simp) m hm) ?_
    rintro v c m1 ⟨w1, n1, e1⟩
    refine Outcome.bind ((ih (fun a ha => h a (List.mem_cons_of_mem _ ha)) (hI _ _ hm w1)).after w1) ?_
    rintro vs cs m2 ⟨w2, n2, nd2, e2⟩
    have l1 := w1.next
    have l2 := w2.next
    refine Outcome.pure ⟨w1.trans_empty w2, ?_, ?_, ?_⟩
    · intro x hx
      rcases List.mem_cons.1 hx with rfl | hx
      · exact ⟨n1.1, lt_of_lt_of_le n1.2 l2⟩
      · exact ⟨l1.trans (n2 x hx).1, (n2 x hx).2⟩
    · refine List.nodup_cons.2 ⟨fun hc => ?_, nd2⟩
      have := (n2 c hc).1
      have := n1.2
      omega
    · rw [List.map_cons, e2, w2.sc0 n1.2, e1]

/-- A loop whose every step returns a new point. -/
theorem mapM'_pt {f : α → Go Addr} {g : α → Res Pt} {I : Mem → Prop} (hI : ∀ m m', I m → Writes ∅ m m' → I m')
    {l : List α} (h : ∀ a ∈ l, ∀ m, I m → Outcome (Writes ∅ m) (f a) m (g a) (RetPt m)) {m : Mem} (hm : I m) :
    Outcome (Writes ∅ m) (Go.mapM' f l) m (Res.mapM' g l) (RetPts m) := by
  induction l generalizing m with
  | nil => exact Outcome.pure ⟨Writes.refl _ _, by simp, by simp, rfl⟩
  | cons a as ih =>
    refine Outcome.bind (h a (by simp) m hm) ?_
    rintro v c m1 ⟨w1, n1, e1⟩
    refine Outcome.bind ((ih (fun a ha => h a (List.mem_cons_of_mem _ ha)) (hI _ _ hm w1)).after w1) ?_
    rintro vs cs m2 ⟨w2, n2, nd2, e2⟩
    have l1 := w1.next
    have l2 := w2.next
    refine Outcome.pure ⟨w1.trans_empty w2, ?_, ?_, ?_⟩
    · intro x hx
      rcases List.mem_cons.1 hx with rfl | hx
      · exact ⟨n1.1, lt_of_lt_of_le n1.2 l2⟩
      · exact ⟨l1.trans (n2 x hx).1, (n2 x hx).2⟩
    · refine List.nodup_cons.2 ⟨fun hc => ?_, nd2⟩
      have := (n2 c hc).1
      have := n1.2
      omega
    · rw [List.map_cons, e2, w2.pt0 n1.2, e1]

/-! ### Points -/

theorem mulNodeLoop_spec (s : Addr) (s64 : Nat) (k : Nat) (res : Addr) (m : Mem) (hs : s < m.next)
    (hr : res < m.next) (hne : s ≠ res) :
    Outcome E (mulNodeLoop s s64 k res) m (.ok (Point.mulLoop (m.pt s) s64 k (m.pt res)))
      (fun v c m' => c = res ∧ Writes {.pt res} m m' ∧ m'.next = m.next ∧ m'.pt res = v) := by
  induction k generalizing m with
  | zero => exact Outcome.pure ⟨rfl, Writes.refl _ _, rfl, rfl⟩
  | succ k ih =>
    unfold mulNodeLoop Point.mulLoop
    refine Outcome.dblPt ?_
    by_cases hb : (s64 >>> k) &&& 1 = 1
    · simp only [if_pos hb]
      refine Outcome.addPt ?_
      refine (ih _ (by simpa using hs) (by simpa using hr)).use (by simp [Mem.setPt_ne hne]) ?_
      rintro v c m' ⟨e, w, n, p⟩
      exact ⟨e, (((Writes.refl {.pt res} m).setPt (.inl rfl)).setPt (.inl rfl)).trans w fun _ _ h => h, n, p⟩
    · simp only [if_neg hb]
      refine (ih _ (by simpa using hs) (by simpa using hr)).use (by simp [Mem.setPt_ne hne]) ?_
      rintro v c m' ⟨e, w, n, p⟩
      exact ⟨e, ((Writes.refl {.pt res} m).setPt (.inl rfl)).trans w fun _ _ h => h, n, p⟩

theorem mulByNodeIndex_spec (s : Addr) (i : NodeIndex) (m : Mem) (hs : s < m.next) :
    Outcome E (mulByNodeIndex s i) m (.ok (Point.mulByNodeIndex (m.pt s) i)) (RetPt m) := by
  unfold mulByNodeIndex Point.mulByNodeIndex
  refine Outcome.newPt ?_
  have h := mulNodeLoop_spec (E := E) s (i + 1#64).toNat (Nat.size (i + 1#64).toNat) m.next (m.setPt m.next 0).bump
    (by simp; omega) (by simp) (by omega)
  simp only [Mem.bump_pt, Mem.setPt_self, Mem.setPt_ne (show s ≠ m.next by omega)] at h
  refine h.mono ?_
  rintro v c m' ⟨rfl, w, n, e⟩
  exact ⟨((Writes.refl ∅ m).newPt (le_refl _)).fresh w (by simp [Obj.addr]), ⟨le_refl _, by simp [n]⟩, e⟩

theorem mulPoints_spec (p k q l : Addr) (m : Mem) (hp : p < m.next) (hq : q < m.next) :
    Outcome E (mulPoints p k q l) m (.ok (Point.mulPoints (m.pt p) (m.sc k) (m.pt q) (m.sc l))) (RetPt m) := by
  refine Outcome.newPt ?_
  refine Outcome.ok rfl ⟨((Writes.refl _ _).newPt (le_refl _)).setPt (.inr (le_refl _)), ⟨le_refl _, by simp⟩, ?_⟩
  rw [Mem.setPt_self, Mem.bump_pt, Mem.setPt_ne (by omega), Mem.setPt_ne (by omega)]
  rfl

theorem pedersen_spec (k l : Addr) (m : Mem) :
    Outcome E (pedersen k l) m (.ok (Point.pedersen (m.sc k) (m.sc l))) (RetPt m) := by
  refine Outcome.newPt (Outcome.newPt ?_)
  refine (mulPoints_spec m.next k (m.setPt m.next G).bump.next l _ (by simp) (by simp)).use
    (by simp [Mem.setPt_ne, Point.pedersen]) ?_
  rintro v c m' ⟨w, n, e⟩
  simp only [New, Mem.bump_next, Mem.setPt_next] at n
  exact ⟨(((Writes.refl ∅ m).newPt (le_refl _)).newPt (by simp)).trans_empty w, ⟨by omega, n.2⟩, e⟩

theorem mulByG_spec (k : Addr) (m : Mem) : Outcome E (mulByG k) m (.ok (Point.mulByG (m.sc k))) (RetPt m) := by
  refine Outcome.newPt ?_
  refine Outcome.ok rfl ⟨((Writes.refl _ _).newPt (le_refl _)).setPt (.inr (le_refl _)), ⟨le_refl _, by simp⟩, ?_⟩
  simp [Point.mulByG]

theorem clonePt_spec (s : Addr) (m : Mem) : Outcome E (clonePt s) m (.ok (m.pt s)) (RetPt m) :=
  Outcome.ok rfl ⟨(Writes.refl _ _).newPt (le_refl _), ⟨le_refl _, by simp⟩, by simp⟩

theorem cloneSc_spec (s : Addr) (m : Mem) (h : s < m.next) : Outcome E (cloneSc s) m (.ok (m.sc s)) (RetSc m) :=
  Outcome.ok (cloneSc_run h) ⟨(Writes.refl _ _).newSc (le_refl _), ⟨le_refl _, by simp⟩, by simp⟩

theorem newSc_spec (v : Fn) (m : Mem) : Outcome E (newSc v) m (.ok v) (RetSc m) :=
  Outcome.ok rfl ⟨(Writes.refl _ _).newSc (le_refl _), ⟨le_refl _, by simp⟩, by simp⟩

/-! ### poly/poly.go -/

theorem HasPo.keep {m m' : Mem} {p : Addr} {W : Set Obj} (h : HasPo m p) (w : Writes W m m') (hp : .po p ∉ W) :
    HasPo m' p := by
  have := w.next
  refine ⟨by have := h.1; omega, fun c hc => ?_⟩
  rw [w.po p h.1 hp] at hc
  have := h.2 c hc; omega

theorem polyVal_keep {m m' : Mem} {p : Addr} {W : Set Obj} (h : HasPo m p) (w : Writes W m m') (hp : .po p ∉ W)
    (hc : ∀ c ∈ m.po p, .sc c ∉ W) : polyVal m' p = polyVal m p := by
  rw [polyVal, polyVal, w.po p h.1 hp, w.map_sc fun a ha => ⟨h.2 a ha, hc a ha⟩]

theorem HasPo.keep0 {m m' : Mem} {p : Addr} (h : HasPo m p) (w : Writes ∅ m m') : HasPo m' p :=
  h.keep w (Set.notMem_empty _)

theorem polyVal_keep0 {m m' : Mem} {p : Addr} (h : HasPo m p) (w : Writes ∅ m m') : polyVal m' p = polyVal m p :=
  polyVal_keep h w (Set.notMem_empty _) fun _ _ => Set.notMem_empty _

theorem coeff_spec (p : Addr) (idx : Nat) (m : Mem) (hp : HasPo m p) :
    Outcome E (coeff p idx) m (.ok (Poly.coeff (polyVal m p) idx)) (RetSc m) := by
  unfold coeff Poly.coeff
  refine Outcome.readPo ?_
  by_cases h : idx < (m.po p).length
  · rw [dif_pos h, dif_pos (by simpa [polyVal] using h)]
    have := hp.2 _ (List.getElem_mem h)
    refine Outcome.ok (cloneSc_run this) ⟨(Writes.refl _ _).newSc (le_refl _), ⟨le_refl _, by simp⟩, ?_⟩
    simp [polyVal]
  · rw [dif_neg h, dif_neg (by simpa [polyVal] using h)]
    exact newSc_spec _ _

theorem polyAdd_spec (p lhs rhs : Addr) (m : Mem) (hl : HasPo m lhs) (hr : HasPo m rhs) :
    Outcome E (polyAdd p lhs rhs) m (.ok (Poly.add (polyVal m lhs) (polyVal m rhs))) (SetPo m p) := by
  unfold polyAdd
  refine Outcome.readPo (Outcome.readPo ?_)
  have hloop := mapM'_sc (I := fun m' => Writes ∅ m m')
    (f := fun i => do
      let x ← coeff lhs i
      let y ← coeff rhs i
      addSc x x y)
    (g := fun i => .ok (Poly.coeff (polyVal m lhs) i + Poly.coeff (polyVal m rhs) i))
    (l := List.range (max (m.po lhs).length (m.po rhs).length)) (m := m)
    (fun _ _ h h' => h.trans_empty h') (by
      intro i _ m1 w1
      refine Outcome.bind_ok (coeff_spec lhs i m1 (hl.keep0 w1)) ?_
      rintro x m2 ⟨w2, n2, e2⟩
      refine Outcome.bind_ok (coeff_spec rhs i m2 (hr.keep0 (w1.trans_empty w2))) ?_
      rintro y m3 ⟨w3, n3, e3⟩
      have := n2.1
      have := n2.2
      have := w3.next
      refine Outcome.ok rfl ⟨(w2.trans_empty w3).setSc (.inr n2.1), ⟨n2.1, by simp; omega⟩, ?_⟩
      rw [Mem.setSc_self, w3.sc0 n2.2, e2, e3, polyVal_keep0 hl w1, polyVal_keep0 hr (w1.trans_empty w2)])
    (Writes.refl _ _)
  rw [Res.mapM'_ok (g := fun i => Poly.coeff (polyVal m lhs) i + Poly.coeff (polyVal m rhs) i) fun _ _ => rfl] at hloop
  refine Outcome.bind_ok hloop ?_
  rintro cs m1 ⟨w, n, nd, e⟩
  refine Outcome.ok rfl ⟨rfl, (w.mono fun _ _ h => absurd h (Set.notMem_empty _)).setPo (.inl rfl), ?_, ?_, ?_⟩
  · rw [Mem.setPo_self]; exact n
  · simpa using nd
  · simpa [Poly.add, polyVal] using e

theorem polyMulScalar_spec (p lhs s : Addr) (m : Mem) (hp : HasPo m p) (hs : s < m.next) :
    Outcome (Writes ∅ m) (polyMulScalar p lhs s) m (Poly.mulScalar (polyVal m p) (polyVal m lhs) (m.sc s)) (SetPo m p) := by
  unfold polyMulScalar
  refine Outcome.readPo (Outcome.readPo ?_)
  have hloop := mapM'_sc (I := fun m' => Writes ∅ m m')
    (f := fun i => do
      let z ← newSc 0
      if h : i < (m.po p).length then mulSc z (m.po p)[i] s else Go.panic "index out of range")
    (g := fun i => if h : i < (polyVal m p).length then .ok ((polyVal m p)[i] * m.sc s) else .panic "index out of range")
    (l := List.range (m.po lhs).length) (m := m)
    (fun _ _ h h' => h.trans_empty h') (by
      intro i _ m1 w1
      refine Outcome.newSc ?_
      have := w1.next
      by_cases h : i < (m.po p).length
      · rw [dif_pos h, dif_pos (by simpa [polyVal] using h)]
        have := hp.2 _ (List.getElem_mem h)
        refine Outcome.ok rfl ⟨((Writes.refl _ _).newSc (le_refl _)).setSc (.inr (le_refl _)), ⟨le_refl _, by simp⟩, ?_⟩
        rw [Mem.setSc_self, Mem.bump_sc, Mem.setSc_ne (by omega), Mem.setSc_ne (by omega), w1.sc0 this, w1.sc0 hs]
        simp [polyVal]
      · rw [dif_neg h, dif_neg (by simpa [polyVal] using h)]
        exact Outcome.panic ((Writes.refl _ _).newSc (le_refl _)))
    (Writes.refl _ _)
  have hlen : (polyVal m lhs).length = (m.po lhs).length := by simp [polyVal]
  rw [Poly.mulScalar, hlen, ← bind_pure (Res.mapM' _ _)]
  refine Outcome.bind hloop ?_
  rintro vs cs m1 ⟨w, n, nd, e⟩
  refine Outcome.ok rfl ⟨rfl, (w.mono fun _ _ h => absurd h (Set.notMem_empty _)).setPo (.inl rfl), ?_, ?_, ?_⟩
  · rw [Mem.setPo_self]; exact n
  · simpa using nd
  · simpa using e

/-- Writing one object of a list of different objects. -/
theorem map_setSc {cs : List Addr} (nd : cs.Nodup) {k : Nat} (hk : k < cs.length) (m : Mem) (v : Fn) :
    cs.map (m.setSc cs[k] v).sc = (cs.map m.sc).set k v := by
  refine List.ext_getElem (by simp) fun i h1 h2 => ?_
  rw [List.getElem_map, List.getElem_set]
  have hi : i < cs.length := by simpa using h1
  by_cases h : k = i
  · subst h; simp
  · rw [if_neg h, Mem.setSc_ne, List.getElem_map]
    intro e
    exact h ((List.Nodup.getElem_inj_iff nd).1 e).symm

theorem mulPairsLoop_spec (cs : List Addr) (nd : cs.Nodup) (es : List (Nat × Addr × Addr)) (m : Mem)
    (hc : ∀ c ∈ cs, c < m.next)
    (he : ∀ e ∈ es, e.1 < cs.length ∧ (e.2.1 < m.next ∧ e.2.1 ∉ cs) ∧ (e.2.2 < m.next ∧ e.2.2 ∉ cs)) :
    Outcome E (Go.forM' (polyMulStep cs) es) m
      (.ok (es.foldl (fun vs e => vs.set e.1 (vs.getD e.1 0 + m.sc e.2.1 * m.sc e.2.2)) (cs.map m.sc)))
      (fun v _ m' => Writes {o | ∃ c ∈ cs, o = .sc c} m m' ∧ cs.map m'.sc = v) := by
  induction es generalizing m with
  | nil => exact Outcome.pure ⟨Writes.refl _ _, rfl⟩
  | cons e es ih =>
    obtain ⟨h1, ⟨h2, h2'⟩, ⟨h3, h3'⟩⟩ := he e (by simp)
    unfold Go.forM'
    have hck := hc _ (List.getElem_mem h1)
    have hm1 : polyMulStep cs e m = (.ok (), (m.setSc m.next (m.sc e.2.1 * m.sc e.2.2)).bump.setSc cs[e.1]
        (m.sc cs[e.1] + m.sc e.2.1 * m.sc e.2.2)) := by
      unfold polyMulStep
      rw [run_bind, newSc, Go.andThen_ok, run_bind, mulSc, Go.andThen_ok, dif_pos h1]
      change (Res.ok _, _) = _
      simp [Mem.setSc_ne (show e.2.1 ≠ m.next by omega), Mem.setSc_ne (show e.2.2 ≠ m.next by omega),
        Mem.setSc_bump_setSc, Mem.setSc_ne (show cs[e.1] ≠ m.next by omega)]
    refine Outcome.step hm1 ?_
    have hw : Writes {o | ∃ c ∈ cs, o = .sc c} m ((m.setSc m.next (m.sc e.2.1 * m.sc e.2.2)).bump.setSc cs[e.1]
        (m.sc cs[e.1] + m.sc e.2.1 * m.sc e.2.2)) :=
      ((Writes.refl _ m).newSc (le_refl _)).setSc (.inl ⟨_, List.getElem_mem h1, rfl⟩)
    have hval : ∀ a < m.next, a ∉ cs → ((m.setSc m.next (m.sc e.2.1 * m.sc e.2.2)).bump.setSc cs[e.1]
        (m.sc cs[e.1] + m.sc e.2.1 * m.sc e.2.2)).sc a = m.sc a := by
      intro a ha hac
      exact hw.sc a ha (by rintro ⟨c, hc, e⟩; cases e; exact hac hc)
    refine (ih _ (fun c hc' => by have := hc c hc'; simp; omega) (fun e' he' => ?_)).use ?_ ?_
    · obtain ⟨g1, ⟨g2, g2'⟩, ⟨g3, g3'⟩⟩ := he e' (List.mem_cons_of_mem _ he')
      exact ⟨g1, ⟨by simp; omega, g2'⟩, ⟨by simp; omega, g3'⟩⟩
    · rw [List.foldl_cons, map_setSc nd h1]
      have e1 : cs.map (m.setSc m.next (m.sc e.2.1 * m.sc e.2.2)).bump.sc = cs.map m.sc :=
        List.map_congr_left fun a ha => by
          rw [Mem.bump_sc, Mem.setSc_ne]; have := hc a ha; omega
      have e2 : (cs.map m.sc).getD e.1 0 = m.sc cs[e.1] := by
        rw [List.getD_eq_getElem?_getD, List.getElem?_eq_getElem (by simpa using h1), Option.getD_some, List.getElem_map]
      rw [e1, e2]
      congr 1
      refine List.foldl_ext _ _ _ fun vs e' he' => ?_
      obtain ⟨g1, ⟨g2, g2'⟩, ⟨g3, g3'⟩⟩ := he e' (List.mem_cons_of_mem _ he')
      rw [hval _ g2 g2', hval _ g3 g3']
    · rintro v _ m' ⟨w, e⟩
      exact ⟨hw.again w, e⟩

theorem mulInner_flat (f : Addr → Fn) (a : Addr) (i : Nat) (r : List Addr) (k : Nat) (vs : List Fn) :
    ((r.zipIdx k).map fun cb => (i + cb.2, a, cb.1)).foldl
      (fun vs e => vs.set e.1 (vs.getD e.1 0 + f e.2.1 * f e.2.2)) vs =
      Poly.mulInner (f a) vs (i + k) (r.map f) := by
  induction r generalizing k vs with
  | nil => rfl
  | cons b r ih =>
    rw [List.zipIdx_cons, List.map_cons, List.foldl_cons, ih, List.map_cons, Poly.mulInner]
    rfl

theorem mulOuter_flat (f : Addr → Fn) (l r : List Addr) (k : Nat) (vs : List Fn) :
    ((l.zipIdx k).flatMap fun ca => r.zipIdx.map fun cb => (ca.2 + cb.2, ca.1, cb.1)).foldl
      (fun vs e => vs.set e.1 (vs.getD e.1 0 + f e.2.1 * f e.2.2)) vs =
      Poly.mulOuter (r.map f) vs k (l.map f) := by
  induction l generalizing k vs with
  | nil => rfl
  | cons a l ih =>
    rw [List.zipIdx_cons, List.flatMap_cons, List.foldl_append, ih, mulInner_flat, List.map_cons, Poly.mulOuter]
    rfl

theorem mem_mulPairs {l r : List Addr} {e : Nat × Addr × Addr} (h : e ∈ mulPairs l r) :
    e.1 < max (l.length + r.length) 1 - 1 ∧ e.2.1 ∈ l ∧ e.2.2 ∈ r := by
  obtain ⟨ca, hca, h⟩ := List.mem_flatMap.1 h
  obtain ⟨cb, hcb, rfl⟩ := List.mem_map.1 h
  obtain ⟨a, i⟩ := ca
  obtain ⟨b, j⟩ := cb
  obtain ⟨hi, ea⟩ := List.mem_zipIdx' hca
  obtain ⟨hj, eb⟩ := List.mem_zipIdx' hcb
  refine ⟨?_, ea ▸ List.getElem_mem _, eb ▸ List.getElem_mem _⟩
  simp only
  omega

theorem polyMul_spec (p lhs rhs : Addr) (m : Mem) (hl : HasPo m lhs) (hr : HasPo m rhs) :
    Outcome E (polyMul p lhs rhs) m (.ok (Poly.mul (polyVal m lhs) (polyVal m rhs))) (SetPo m p) := by
  unfold polyMul
  refine Outcome.readPo (Outcome.readPo ?_)
  have hloop := mapM'_sc (I := fun _ => True) (f := fun _ : Nat => newSc 0) (g := fun _ => .ok 0)
    (l := List.range (max ((m.po lhs).length + (m.po rhs).length) 1 - 1)) (m := m) (fun _ _ _ _ => trivial)
    (fun _ _ m' _ => newSc_spec 0 m') trivial
  rw [Res.mapM'_ok (g := fun _ => 0) fun _ _ => rfl] at hloop
  refine Outcome.bind_ok hloop ?_
  rintro cs m1 ⟨w, n, nd, e⟩
  have hlen : cs.length = max ((m.po lhs).length + (m.po rhs).length) 1 - 1 := by
    simpa using congrArg List.length e
  have hnot : ∀ a < m.next, a ∉ cs := fun a ha hc => by have := (n a hc).1; omega
  refine Outcome.bind_ok (mulPairsLoop_spec cs nd (mulPairs (m.po lhs) (m.po rhs)) m1 (fun c hc => (n c hc).2) ?_) ?_
  · intro x hx
    obtain ⟨h1, h2, h3⟩ := mem_mulPairs hx
    have := w.next
    have g2 := hl.2 _ h2
    have g3 := hr.2 _ h3
    exact ⟨by omega, ⟨by omega, hnot _ g2⟩, ⟨by omega, hnot _ g3⟩⟩
  · rintro _ m2 ⟨w2, e2⟩
    have w3 : Writes ∅ m m2 := w.fresh w2 (by rintro o ⟨c, hc, rfl⟩; exact (n c hc).1)
    refine Outcome.ok rfl ⟨rfl, (w3.mono fun _ _ h => absurd h (Set.notMem_empty _)).setPo (.inl rfl), ?_, ?_, ?_⟩
    · intro c hc
      rw [Mem.setPo_self] at hc
      exact ⟨(n c hc).1, lt_of_lt_of_le (n c hc).2 w2.next⟩
    · simpa using nd
    · rw [Mem.setPo_self, Mem.setPo_sc, e2, e, mulPairs, mulOuter_flat, Poly.mul]
      have e3 : (m.po lhs).map m1.sc = polyVal m lhs := w.map_sc fun a ha => ⟨hl.2 a ha, Set.notMem_empty _⟩
      have e4 : (m.po rhs).map m1.sc = polyVal m rhs := w.map_sc fun a ha => ⟨hr.2 a ha, Set.notMem_empty _⟩
      rw [e3, e4]
      simp [polyVal]

theorem evalLoop_spec (x : Addr) (cs : List Addr) (ans : Addr) (m : Mem) (hx : x < m.next) (hxa : x ≠ ans)
    (ha : ans < m.next) (hc : ∀ c ∈ cs, c < m.next ∧ c ≠ ans) :
    Outcome E (evalLoop x cs ans) m (.ok ((cs.map m.sc).foldl (fun a c => a * m.sc x + c) (m.sc ans)))
      (fun v c m' => c = ans ∧ Writes {.sc ans} m m' ∧ m'.sc ans = v) := by
  induction cs generalizing m with
  | nil => exact Outcome.pure ⟨rfl, Writes.refl _ _, rfl⟩
  | cons c cs ih =>
    obtain ⟨h1, h2⟩ := hc c (by simp)
    unfold evalLoop
    refine Outcome.cloneSc h1 (Outcome.mulSc (Outcome.addSc ?_))
    set m1 := (((m.setSc m.next (m.sc c)).bump.setSc ans _).setSc ans _) with hm1
    have hw : Writes {.sc ans} m m1 :=
      (((Writes.refl {.sc ans} m).newSc (le_refl _)).setSc (.inl rfl)).setSc (.inl rfl)
    have hn : m1.next = m.next + 1 := rfl
    have hv : ∀ a < m.next, a ≠ ans → m1.sc a = m.sc a := fun a ha hne => hw.sc a ha (by simpa using hne)
    have hans : m1.sc ans = m.sc ans * m.sc x + m.sc c := by
      simp [hm1, Mem.setSc_sc, show ans ≠ m.next by omega, show x ≠ m.next by omega, show m.next ≠ ans by omega]
    refine (ih m1 (by omega) (by omega) fun c' hc' => ?_).use ?_ ?_
    · obtain ⟨g1, g2⟩ := hc c' (List.mem_cons_of_mem _ hc')
      exact ⟨by omega, g2⟩
    · rw [List.map_cons, List.foldl_cons, hans, hv x hx hxa]
      congr 2
      exact List.map_congr_left fun a ha => by
        obtain ⟨g1, g2⟩ := hc a (List.mem_cons_of_mem _ ha)
        exact hv a g1 g2
    · rintro v c m' ⟨e1, w, e⟩
      exact ⟨e1, hw.again w, e⟩

theorem evaluateAt_spec (p x : Addr) (m : Mem) (hp : HasPo m p) (hx : x < m.next) :
    Outcome E (evaluateAt p x) m (.ok (Poly.evaluateAt (polyVal m p) (m.sc x))) (RetSc m) := by
  unfold evaluateAt Poly.evaluateAt
  refine Outcome.readPo ?_
  rw [polyVal, ← List.map_reverse]
  cases h : (m.po p).reverse with
  | nil => exact newSc_spec 0 m
  | cons c rest =>
    simp only [List.map_cons]
    have hpo : m.po p = rest.reverse ++ [c] := by
      rw [← List.reverse_reverse (m.po p), h, List.reverse_cons]
    have hcoeff : Poly.coeff (polyVal m p) ((m.po p).length - 1) = m.sc c := by
      simp [Poly.coeff, polyVal, hpo]
    have hco := coeff_spec (E := E) p ((m.po p).length - 1) m hp
    rw [hcoeff] at hco
    refine Outcome.bind_ok hco ?_
    rintro ans m1 ⟨w, n, e⟩
    have hrest : ∀ a ∈ rest, a < m.next := fun a ha => hp.2 a (by rw [hpo]; simp [ha])
    have := w.next
    have := n.1
    refine (evalLoop_spec x rest ans m1 (by omega) (by omega) n.2 fun a ha => ?_).use ?_ ?_
    · have := hrest a ha
      exact ⟨by omega, by omega⟩
    · rw [w.map_sc fun a ha => ⟨hrest a ha, Set.notMem_empty _⟩, e, w.sc0 hx]
    · rintro v c m' ⟨rfl, w', e'⟩
      exact ⟨w.fresh w' (by simpa [Obj.addr] using n.1), ⟨n.1, lt_of_lt_of_le n.2 w'.next⟩, e'⟩

/-- Inverting an object in place. -/
theorem invSc_run (s : Addr) (m : Mem) :
    ∃ m', invSc s s m = (.ok s, m') ∧ Writes {.sc s} m m' ∧ m'.next = m.next ∧ m'.sc s = (m.sc s)⁻¹ := by
  by_cases h : m.sc s = 0
  · exact ⟨m.setSc s 0, by simp [invSc, h], (Writes.refl {.sc s} m).setSc (.inl rfl), rfl, by simp [h]⟩
  · exact ⟨m.setSc s (m.sc s)⁻¹, by simp [invSc, h], (Writes.refl {.sc s} m).setSc (.inl rfl), rfl, by simp⟩

theorem SetPo.hasPo {m m' : Mem} {p q : Addr} {v : List Fn} (h : SetPo m p v q m') (hp : p < m.next) : HasPo m' p :=
  ⟨lt_of_lt_of_le hp h.2.1.next, fun c hc => (h.2.2.1 c hc).2⟩

theorem SetPo.val {m m' : Mem} {p q : Addr} {v : List Fn} (h : SetPo m p v q m') : polyVal m' p = v := h.2.2.2.2

theorem notMem_po {p q : Addr} (h : p ≠ q) : Obj.po p ∉ ({.po q} : Set Obj) := by
  rw [Set.mem_singleton_iff]; rintro ⟨⟩; exact h rfl

theorem sc_notMem_po (c q : Addr) : Obj.sc c ∉ ({.po q} : Set Obj) := by
  rw [Set.mem_singleton_iff]; rintro ⟨⟩

theorem interpolateLoop_spec (one : Addr) (ss : List (Addr × Addr)) (poly base b : Addr) (m : Mem)
    (hpo : HasPo m poly) (hba : HasPo m base) (hne : poly ≠ base) (ho : one < m.next) (ho1 : m.sc one = 1)
    (hs : ∀ s ∈ ss, s.1 < m.next ∧ s.2 < m.next) (hb : b ≤ m.next) (hnew : ∀ c ∈ m.po poly, b ≤ c)
    (nd : (m.po poly).Nodup) :
    Outcome (Writes {.po poly, .po base} m) (interpolateLoop one poly base ss) m
      (Poly.interpolateLoop (polyVal m poly) (polyVal m base) (ss.map fun s => (m.sc s.1, m.sc s.2)))
      (fun v c m' => c = poly ∧ Writes {.po poly, .po base} m m' ∧ (∀ c ∈ m'.po poly, b ≤ c ∧ c < m'.next) ∧
        (m'.po poly).Nodup ∧ polyVal m' poly = v) := by
  induction ss generalizing m with
  | nil => exact Outcome.pure ⟨rfl, Writes.refl _ _, fun c hc => ⟨hnew c hc, hpo.2 c hc⟩, nd, rfl⟩
  | cons s ss ih =>
    obtain ⟨hs1, hs2⟩ := hs s (by simp)
    unfold interpolateLoop
    rw [List.map_cons, Poly.interpolateLoop]
    refine Outcome.bind_ok (cloneSc_spec s.1 m hs1) ?_
    rintro x m1 ⟨w1, n1, e1⟩
    have l1 := w1.next
    refine Outcome.bind_ok (cloneSc_spec s.2 m1 (by omega)) ?_
    rintro y m2 ⟨w2, n2, e2⟩
    have l2 := w2.next
    refine Outcome.bind_ok (newSc_spec 0 m2) ?_
    rintro z m3 ⟨w3, n3, -⟩
    have l3 := w3.next
    have w13 := (w1.trans_empty w2).trans_empty w3
    have hx1 := n1.1
    have hx2 := n1.2
    have hy1 := n2.1
    have hy2 := n2.2
    have hz1 := n3.1
    have hz2 := n3.2
    refine Outcome.bind_ok (evaluateAt_spec poly x m3 (hpo.keep0 w13) (by omega)) ?_
    rintro px m4 ⟨w4, n4, e4⟩
    have l4 := w4.next
    refine Outcome.subSc ?_
    have w5 : Writes ∅ m (m4.setSc z (m4.sc y - m4.sc px)) := (w13.trans_empty w4).setSc (.inr (by omega))
    have w5z : Writes {.sc z} m4 (m4.setSc z (m4.sc y - m4.sc px)) := (Writes.refl {.sc z} m4).setSc (.inl rfl)
    have ez : (m4.setSc z (m4.sc y - m4.sc px)).sc z =
        m.sc s.2 - Poly.evaluateAt (polyVal m poly) (m.sc s.1) := by
      rw [Mem.setSc_self, e4, w4.sc0 (by omega), w3.sc0 hy2, e2, w1.sc0 hs2, polyVal_keep0 hpo w13, w3.sc0 (by omega),
        w2.sc0 hx2, e1]
    have ex : (m4.setSc z (m4.sc y - m4.sc px)).sc x = m.sc s.1 := by
      rw [Mem.setSc_ne (by omega), w4.sc0 (by omega), w3.sc0 (by omega), w2.sc0 hx2, e1]
    have n5 : (m4.setSc z (m4.sc y - m4.sc px)).next = m4.next := rfl
    generalize m4.setSc z (m4.sc y - m4.sc px) = m5 at w5 w5z ez ex n5
    refine Outcome.bind_ok (evaluateAt_spec base x m5 (hba.keep0 w5) (by omega)) ?_
    rintro inv m6 ⟨w6, n6, e6⟩
    have hi1 := n6.1
    have hi2 := n6.2
    have l6 := w6.next
    obtain ⟨m7, r7, w7, n7, e7⟩ := invSc_run inv m6
    refine Outcome.step r7 ?_
    have w57 : Writes ∅ m5 m7 := w6.fresh w7 (by simpa [Obj.addr] using hi1)
    have w07 : Writes ∅ m m7 := w5.trans_empty w57
    have einv : m7.sc inv = (Poly.evaluateAt (polyVal m base) (m.sc s.1))⁻¹ := by
      rw [e7, e6, polyVal_keep0 hba w5, ex]
    have ez7 : m7.sc z = m.sc s.2 - Poly.evaluateAt (polyVal m poly) (m.sc s.1) := by
      rw [w57.sc0 (by omega), ez]
    have ex7 : m7.sc x = m.sc s.1 := by rw [w57.sc0 (by omega), ex]
    refine Outcome.readSc ?_
    rw [einv]
    by_cases h0 : (Poly.evaluateAt (polyVal m base) (m.sc s.1))⁻¹ = 0
    · simp only [if_pos h0]
      exact Outcome.err (w07.mono fun _ _ h => absurd h (Set.notMem_empty _))
    · simp only [if_neg h0]
      refine Outcome.mulSc ?_
      have w8 : Writes ∅ m (m7.setSc z (m7.sc z * m7.sc inv)) := w07.setSc (.inr (by omega))
      have ez8 : (m7.setSc z (m7.sc z * m7.sc inv)).sc z = (m.sc s.2 - Poly.evaluateAt (polyVal m poly) (m.sc s.1)) *
          (Poly.evaluateAt (polyVal m base) (m.sc s.1))⁻¹ := by
        rw [Mem.setSc_self, ez7, einv]
      have ex8 : (m7.setSc z (m7.sc z * m7.sc inv)).sc x = m.sc s.1 := by rw [Mem.setSc_ne (by omega), ex7]
      have n8 : (m7.setSc z (m7.sc z * m7.sc inv)).next = m7.next := rfl
      generalize m7.setSc z (m7.sc z * m7.sc inv) = m8 at w8 ez8 ex8 n8
      have hmul := polyMulScalar_spec base base z m8 (hba.keep0 w8) (by omega)
      rw [polyVal_keep0 hba w8, ez8] at hmul
      refine Outcome.bind (hmul.errs fun _ h =>
        (w8.trans_empty h).mono fun _ _ h => absurd h (Set.notMem_empty _)) ?_
      rintro bv q m9 h9
      have hq := h9.1
      rw [hq] at h9 ⊢
      clear hq
      have w9 := h9.2.1
      have l9 := w9.next
      have l8 := w8.next
      have hba9 := h9.hasPo (by have := hba.1; omega)
      have hpo9 := (hpo.keep0 w8).keep w9 (notMem_po hne)
      have epo9 : polyVal m9 poly = polyVal m poly := by
        rw [polyVal_keep (hpo.keep0 w8) w9 (notMem_po hne) fun c _ => sc_notMem_po c _, polyVal_keep0 hpo w8]
      have hadd := polyAdd_spec (E := Writes {.po poly, .po base} m) poly poly base m9 hpo9 hba9
      rw [epo9, h9.val] at hadd
      refine Outcome.bind_ok hadd ?_
      rintro q m10 h10
      have hq := h10.1
      rw [hq] at h10 ⊢
      clear hq
      have w10 := h10.2.1
      have l10 := w10.next
      have hpo10 := h10.hasPo hpo9.1
      have hba10 := hba9.keep w10 (notMem_po (Ne.symm hne))
      have eba10 : polyVal m10 base = bv := by
        rw [polyVal_keep hba9 w10 (notMem_po (Ne.symm hne)) fun c _ => sc_notMem_po c _, h9.val]
      have cpo10 : ∀ c ∈ m10.po poly, m9.next ≤ c := fun c hc => (h10.2.2.1 c hc).1
      have cba10 : ∀ c ∈ m10.po base, m8.next ≤ c := fun c hc => by
        rw [w10.po base hba9.1 (notMem_po (Ne.symm hne))] at hc
        exact (h9.2.2.1 c hc).1
      have e10 : ∀ a < m.next, m10.sc a = m.sc a := fun a ha => by
        rw [w10.sc a (by omega) (sc_notMem_po _ _), w9.sc a (by omega) (sc_notMem_po _ _), w8.sc0 ha]
      refine Outcome.negSc ?_
      have w11 : Writes {.sc x} m10 (m10.setSc x (-m10.sc x)) := (Writes.refl {.sc x} m10).setSc (.inl rfl)
      have ex11 : (m10.setSc x (-m10.sc x)).sc x = -m.sc s.1 := by
        rw [Mem.setSc_self, w10.sc x (by omega) (sc_notMem_po _ _), w9.sc x (by omega) (sc_notMem_po _ _), ex8]
      have n11 : (m10.setSc x (-m10.sc x)).next = m10.next := rfl
      have p11 : (m10.setSc x (-m10.sc x)).po = m10.po := rfl
      generalize m10.setSc x (-m10.sc x) = m11 at w11 ex11 n11 p11
      have e11 : ∀ a < m.next, m11.sc a = m.sc a := fun a ha => by
        rw [w11.sc a (by omega) (by rw [Set.mem_singleton_iff]; rintro ⟨⟩; omega), e10 a ha]
      have hpo11 : HasPo m11 poly := hpo10.keep w11 (by rw [Set.mem_singleton_iff]; rintro ⟨⟩)
      have hba11 : HasPo m11 base := hba10.keep w11 (by rw [Set.mem_singleton_iff]; rintro ⟨⟩)
      have epo11 : polyVal m11 poly = Poly.add (polyVal m poly) bv := by
        rw [polyVal_keep hpo10 w11 (by rw [Set.mem_singleton_iff]; rintro ⟨⟩), h10.val]
        intro c hc
        have := cpo10 c hc
        rw [Set.mem_singleton_iff]; rintro ⟨⟩; omega
      have eba11 : polyVal m11 base = bv := by
        rw [polyVal_keep hba10 w11 (by rw [Set.mem_singleton_iff]; rintro ⟨⟩), eba10]
        intro c hc
        have := cba10 c hc
        rw [Set.mem_singleton_iff]; rintro ⟨⟩; omega
      refine Outcome.newPo ?_
      have w12 : Writes ∅ m11 (m11.setPo m11.next [x, one]).bump := (Writes.refl ∅ m11).newPo (le_refl _)
      have hlin : HasPo (m11.setPo m11.next [x, one]).bump m11.next := by
        refine ⟨by simp, fun c hc => ?_⟩
        rw [Mem.bump_po, Mem.setPo_self] at hc
        rw [Mem.bump_next, Mem.setPo_next]
        rcases List.mem_pair.1 hc with rfl | rfl <;> omega
      have elin : polyVal (m11.setPo m11.next [x, one]).bump m11.next = [-m.sc s.1, 1] := by
        rw [polyVal, Mem.bump_po, Mem.setPo_self, Mem.bump_sc, Mem.setPo_sc, List.map_cons, List.map_cons, ex11,
          e11 one ho, ho1, List.map_nil]
      have n12 : (m11.setPo m11.next [x, one]).bump.next = m11.next + 1 := rfl
      generalize hm12 : (m11.setPo m11.next [x, one]).bump = m12 at w12 hlin elin n12
      have hmul2 := polyMul_spec (E := Writes {.po poly, .po base} m) base base m11.next m12 (hba11.keep0 w12) hlin
      rw [polyVal_keep0 hba11 w12, eba11, elin] at hmul2
      refine Outcome.bind_ok hmul2 ?_
      rintro q m13 h13
      have hq := h13.1
      rw [hq] at h13 ⊢
      clear hq
      have w13 := h13.2.1
      have l13 := w13.next
      have hpo12 := hpo11.keep0 w12
      have hpo13 := hpo12.keep w13 (notMem_po hne)
      have epo13 : polyVal m13 poly = Poly.add (polyVal m poly) bv := by
        rw [polyVal_keep hpo12 w13 (notMem_po hne) fun c _ => sc_notMem_po c _, polyVal_keep0 hpo11 w12, epo11]
      have po13 : m13.po poly = m10.po poly := by
        rw [w13.po poly hpo12.1 (notMem_po hne), w12.po0 hpo11.1, p11]
      have e13 : ∀ a < m.next, m13.sc a = m.sc a := fun a ha => by
        rw [w13.sc a (by omega) (sc_notMem_po _ _), w12.sc0 (by omega), e11 a ha]
      have wall : Writes {.po poly, .po base} m m13 := by
        refine (((((w8.mono fun _ _ h => absurd h (Set.notMem_empty _)).trans w9 ?_).trans w10 ?_).trans w11 ?_).trans
          w12 ?_).trans w13 ?_
        · rintro o - rfl; exact .inr rfl
        · rintro o - rfl; exact .inl rfl
        · rintro o ho rfl; simp only [Obj.addr] at ho; omega
        · intro _ _ h; exact absurd h (Set.notMem_empty _)
        · rintro o - rfl; exact .inr rfl
      refine (ih m13 hpo13 (h13.hasPo (by have := hba11.1; omega)) (by omega) ((e13 _ ho).trans ho1)
        (fun t ht => ?_) (by omega) (fun c hc => ?_) ?_).errs (fun _ h => wall.again h) |>.use ?_ ?_
      · obtain ⟨h1, h2⟩ := hs t (List.mem_cons_of_mem _ ht)
        exact ⟨by omega, by omega⟩
      · rw [po13] at hc
        have := cpo10 c hc
        omega
      · rw [po13]; exact h10.2.2.2.1
      · rw [epo13, h13.val]
        congr 1
        refine List.map_congr_left fun t ht => ?_
        obtain ⟨h1, h2⟩ := hs t (List.mem_cons_of_mem _ ht)
        rw [e13 _ h1, e13 _ h2]
      · rintro v c m' ⟨e, w, r⟩
        exact ⟨e, wall.again w, r⟩

theorem interpolate_spec (ss : List (Addr × Addr)) (m : Mem) (hs : ∀ s ∈ ss, s.1 < m.next ∧ s.2 < m.next) :
    Outcome (Writes ∅ m) (interpolate ss) m (Poly.interpolate (ss.map fun s => (m.sc s.1, m.sc s.2))) (RetPo m) := by
  cases ss with
  | nil =>
    exact Outcome.ok rfl ⟨(Writes.refl _ _).newPo (le_refl _), ⟨le_refl _, by simp⟩, by simp, by simp, by simp⟩
  | cons s ss =>
    obtain ⟨hs1, hs2⟩ := hs s (by simp)
    unfold interpolate
    rw [List.map_cons, Poly.interpolate]
    refine Outcome.bind_ok (newSc_spec 1 m) ?_
    rintro one m1 ⟨w1, n1, e1⟩
    have l1 := w1.next
    have o1 := n1.1
    have o2 := n1.2
    refine Outcome.bind_ok (cloneSc_spec s.2 m1 (by omega)) ?_
    rintro y m2 ⟨w2, n2, e2⟩
    have l2 := w2.next
    have y1 := n2.1
    have y2 := n2.2
    refine Outcome.newPo ?_
    have w3 : Writes ∅ m2 (m2.setPo m2.next [y]).bump := (Writes.refl ∅ m2).newPo (le_refl _)
    have n3 : (m2.setPo m2.next [y]).bump.next = m2.next + 1 := rfl
    have p3 : (m2.setPo m2.next [y]).bump.po m2.next = [y] := by simp
    have s3 : (m2.setPo m2.next [y]).bump.sc = m2.sc := rfl
    generalize (m2.setPo m2.next [y]).bump = m3 at w3 n3 p3 s3
    refine Outcome.bind_ok (cloneSc_spec s.1 m3 (by omega)) ?_
    rintro z m4 ⟨w4, n4, e4⟩
    have l4 := w4.next
    have z1 := n4.1
    have z2 := n4.2
    refine Outcome.negSc ?_
    have w5 : Writes ∅ m3 (m4.setSc z (-m4.sc z)) := w4.setSc (.inr z1)
    have e5 : (m4.setSc z (-m4.sc z)).sc z = -m.sc s.1 := by
      rw [Mem.setSc_self, e4, w3.sc0 (by omega), w2.sc0 (by omega), w1.sc0 hs1]
    have n5 : (m4.setSc z (-m4.sc z)).next = m4.next := rfl
    generalize m4.setSc z (-m4.sc z) = m5 at w5 e5 n5
    refine Outcome.bind_ok (cloneSc_spec z m5 (by omega)) ?_
    rintro c0 m6 ⟨w6, n6, e6⟩
    have l6 := w6.next
    have c01 := n6.1
    have c02 := n6.2
    refine Outcome.bind_ok (cloneSc_spec one m6 (by omega)) ?_
    rintro c1 m7 ⟨w7, n7, e7⟩
    have l7 := w7.next
    have c11 := n7.1
    have c12 := n7.2
    refine Outcome.newPo ?_
    have w8 : Writes ∅ m7 (m7.setPo m7.next [c0, c1]).bump := (Writes.refl ∅ m7).newPo (le_refl _)
    have n8 : (m7.setPo m7.next [c0, c1]).bump.next = m7.next + 1 := rfl
    have p8 : (m7.setPo m7.next [c0, c1]).bump.po m7.next = [c0, c1] := by simp
    have s8 : (m7.setPo m7.next [c0, c1]).bump.sc = m7.sc := rfl
    generalize (m7.setPo m7.next [c0, c1]).bump = m8 at w8 n8 p8 s8
    have w28 : Writes ∅ m3 m8 := ((w5.trans_empty w6).trans_empty w7).trans_empty w8
    have w08 : Writes ∅ m m8 := ((w1.trans_empty w2).trans_empty w3).trans_empty w28
    have pp : m8.po m2.next = [y] := by rw [w28.po0 (by omega), p3]
    have vp : polyVal m8 m2.next = [m.sc s.2] := by
      rw [polyVal, pp, List.map_cons, List.map_nil, w28.sc0 (by omega), w3.sc0 y2, e2, w1.sc0 hs2]
    have vone : ∀ m' : Mem, Writes ∅ m1 m' → m'.sc one = 1 := fun m' w => by rw [w.sc0 o2, e1]
    have vb : polyVal m8 m7.next = [-m.sc s.1, 1] := by
      rw [polyVal, p8, List.map_cons, List.map_cons, List.map_nil, s8, w7.sc0 c02, e6, e5, e7,
        vone m6 (((w2.trans_empty w3).trans_empty w5).trans_empty w6)]
    have hnew : ∀ o ∈ ({.po m2.next, .po m7.next} : Set Obj), m.next ≤ o.addr := by
      rintro o (rfl | rfl) <;> simp only [Obj.addr] <;> omega
    refine (interpolateLoop_spec one ss m2.next m7.next m.next m8 ⟨by omega, ?_⟩ ⟨by omega, ?_⟩ (by omega) (by omega)
      (vone m8 ((w2.trans_empty w3).trans_empty w28)) (fun t ht => ?_) (by omega) ?_ (by simp [pp])).errs
      (fun _ h => w08.fresh h hnew) |>.use ?_ ?_
    · rw [pp]; intro c hc; rw [List.mem_singleton] at hc; omega
    · rw [p8]; intro c hc; rcases List.mem_pair.1 hc with rfl | rfl <;> omega
    · obtain ⟨h1, h2⟩ := hs t (List.mem_cons_of_mem _ ht)
      exact ⟨by omega, by omega⟩
    · rw [pp]; intro c hc; rw [List.mem_singleton] at hc; omega
    · rw [vp, vb]
      congr 1
      refine List.map_congr_left fun t ht => ?_
      obtain ⟨h1, h2⟩ := hs t (List.mem_cons_of_mem _ ht)
      rw [w08.sc0 h1, w08.sc0 h2]
    · rintro v c m' ⟨rfl, w, hn, nd, e⟩
      have := w.next
      exact ⟨w08.fresh w hnew, ⟨by omega, by omega⟩, hn, nd, e⟩

end Verif.Heap
