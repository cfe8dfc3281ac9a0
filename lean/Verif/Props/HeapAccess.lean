import Verif.Model.HeapAccess
import Verif.Lemmas.HeapMega
import Verif.Lemmas.Dealings
import Verif.Props.Commitment
import Verif.Props.Feldman
import Verif.Props.HeapProtocol

/-!
C176: whether a commitment stays as it is when its caller changes points in place.
-/

set_option autoImplicit false

namespace Verif.Heap

open Dealings

/-- Whatever of the objects in `W` gets changed after `m`, the commitment has the representation of `v`, and its value at every node is that
of `v`, in a new object. -/
def KeepsCommitment (c : CommitmentObj) (W : Set Obj) (m : Mem) (v : Commitment) : Prop :=
  ∀ m', Writes W m m' → stableRepresentation c m' = (v.stableRepresentation, m') ∧
    ∀ i, Outcome (Writes ∅ m') (evaluatePointsAt c.points i) m' (v.evaluateAt i) (RetPt m')

theorem mapM_readPt (l : List Addr) (m : Mem) : Go.mapM' readPt l m = (.ok (l.map m.pt), m) := by
  induction l with
  | nil => rfl
  | cons a l ih =>
    rw [Go.mapM', run_bind, readPt]
    change Go.andThen (Go.mapM' readPt l m) (fun bs => pure (m.pt a :: bs)) = _
    rw [ih]
    rfl

theorem run_stableRepresentation (c : CommitmentObj) (m : Mem) :
    stableRepresentation c m = (Commitment.stableRepresentation ⟨c.kind, c.points.map m.pt⟩, m) := by
  rw [stableRepresentation, run_bind, mapM_readPt]
  rfl

theorem keepsCommitment {c : CommitmentObj} {W : Set Obj} {m : Mem} {v : Commitment} (hk : c.kind = v.kind)
    (hp : c.points.map m.pt = v.points) (hlt : ∀ a ∈ c.points, a < m.next) (hW : ∀ a ∈ c.points, Obj.pt a ∉ W) : KeepsCommitment c W m v := by
  intro m' w
  have e : c.points.map m'.pt = v.points := by
    rw [← hp]
    exact List.map_congr_left fun a ha => w.pt a (hlt a ha) (hW a ha)
  have ev : (⟨c.kind, c.points.map m'.pt⟩ : Commitment) = v := by
    rw [e, hk]
  refine ⟨by rw [run_stableRepresentation, ev], fun i => ?_⟩
  have := evaluatePointsAt_spec c.points i c.kind m' fun a ha => (hlt a ha).trans_le w.next
  rwa [ev] at this

theorem valueAtNode_cons (p : Pt) (l : List Pt) (i : NodeIndex) : valueAtNode (p :: l) i = place i • valueAtNode l i + p := by
  rw [← Commitment.evalLoop_eq, ← Commitment.evalLoop_eq, Commitment.evalLoop, C13_mul_by_node_index]
  rfl

/-- Changing one of the points by `D` changes the value at a node by a power of its place times `D`. -/
theorem valueAtNode_add (m : Mem) (a : Addr) (D : Pt) (i : NodeIndex) (l : List Addr) (hn : l.Nodup) :
    (a ∉ l → valueAtNode (l.map (m.setPt a (m.pt a + D)).pt) i = valueAtNode (l.map m.pt) i) ∧
    (a ∈ l → ∃ k : Nat, valueAtNode (l.map (m.setPt a (m.pt a + D)).pt) i = valueAtNode (l.map m.pt) i + place i ^ k • D) := by
  induction l with
  | nil => exact ⟨fun _ => rfl, fun h => absurd h List.not_mem_nil⟩
  | cons b l ih =>
    obtain ⟨hb, hn⟩ := List.nodup_cons.1 hn
    obtain ⟨h1, h2⟩ := ih hn
    rw [List.map_cons, List.map_cons, valueAtNode_cons, valueAtNode_cons]
    have hne : ∀ x, x ≠ a → (m.setPt a (m.pt a + D)).pt x = m.pt x := fun x hx => Function.update_of_ne hx _ _
    constructor
    · intro h
      rw [List.mem_cons, not_or] at h
      rw [h1 h.2, hne b (Ne.symm h.1)]
    · intro h
      rcases List.mem_cons.1 h with rfl | h
      · refine ⟨0, ?_⟩
        rw [h1 hb, Mem.setPt_self, pow_zero, one_smul Fn D, add_assoc]
      · obtain ⟨k, hk⟩ := h2 h
        refine ⟨k + 1, ?_⟩
        rw [hk, hne b (fun e => hb (e ▸ h)), smul_add, smul_smul, ← pow_succ']
        abel

/-- The commitment `c`, as `m` has it, has another representation in `m'`, and no opening at a node that was accepted still is. -/
def LosesCommitment (c : CommitmentObj) (m m' : Mem) : Prop :=
  (∃ b b', stableRepresentation c m = (.ok b, m) ∧ stableRepresentation c m' = (.ok b', m') ∧ b' ≠ b) ∧
  ∀ (i : NodeIndex) (o : OpeningObj) (m1 : Mem), 0 ≤ i.toInt → Has View.opening m o → checkOpening c i o m = (.ok true, m1) →
    ∃ m2, checkOpening c i o m' = (.ok false, m2)

theorem losesCommitment (m : Mem) (kind : Kind) (points : List Addr) (hn : points.Nodup) (hlt : ∀ a ∈ points, a < m.next) (a : Addr)
    (ha : a ∈ points) (D : Pt) (hd : D ≠ 0) : LosesCommitment ⟨kind, points⟩ m (m.setPt a (m.pt a + D)) := by
  have hne : ∀ m : Mem, points.map m.pt ≠ [] := fun m e => by rw [List.map_eq_nil_iff.1 e] at ha; exact List.not_mem_nil ha
  set m' := m.setPt a (m.pt a + D) with hm'
  obtain ⟨b', b, h1, h2, h3⟩ := C41_representation_injective ⟨kind, points.map m'.pt⟩ ⟨kind, points.map m.pt⟩ (hne _) (hne _)
  refine ⟨⟨b, b', by rw [run_stableRepresentation, h2], by rw [run_stableRepresentation, h1], fun e => ?_⟩, ?_⟩
  · have := List.map_inj_left.1 (congrArg Commitment.points (h3 e)) a ha
    rw [hm', Mem.setPt_self] at this
    exact hd (by simpa using this)
  · intro i o m1 hi ho hc
    obtain ⟨k, hk⟩ := (valueAtNode_add m a (D) i points hn).2 ha
    have hk0 : place i ^ k • D ≠ 0 := smul_ne_zero (pow_ne_zero _ (place_ne_zero hi)) hd
    have hcv : ∀ m : Mem, (∀ a ∈ points, a < m.next) → At View.commitment m ⟨kind, points⟩ ⟨kind, points.map m.pt⟩ := fun m h =>
      at_commitment.2 ⟨rfl, at_list_pt.2 ⟨h, rfl⟩⟩
    have r := checkOpening_ret (i := i) (hcv m hlt) ho.at
    have r' := checkOpening_ret (i := i) (hcv m' hlt) (o := o) (vo := View.opening.val m o) ⟨ho, by cases o <;> rfl⟩
    have e1 := Commitment.evaluateAt_value (c := ⟨kind, points.map m.pt⟩) (hne m) i
    have e2 := Commitment.evaluateAt_value (c := ⟨kind, points.map m'.pt⟩) (hne m') i
    rw [show valueAtNode (points.map m'.pt) i = _ from hk] at e2
    have key : ∀ X : Pt, valueAtNode (points.map m.pt) i = X → valueAtNode (points.map m.pt) i + place i ^ k • D ≠ X := by
      intro X hX e
      rw [hX] at e
      exact hk0 (by simpa using e)
    obtain ⟨v, hv, -, -, -, hvt⟩ := r.of_ok hc
    obtain rfl : true = v := hvt
    have hfalse : Commitment.checkOpening ⟨kind, points.map m'.pt⟩ i (View.opening.val m o) = .ok false := by
      generalize View.opening.val m o = vo at hv ⊢
      cases kind <;> cases vo <;> simp only [Commitment.checkOpening, reduceCtorEq] at hv ⊢
      all_goals
        rw [e1, Res.ok_bind, Res.ok.injEq, decide_eq_true_eq] at hv
        rw [e2, Res.ok_bind, decide_eq_false (key _ hv)]
    rw [hfalse] at r'
    obtain ⟨x, m2, h, -, -, -, hx⟩ := r'
    obtain rfl : x = false := hx
    exact ⟨m2, h⟩

/-- C176 is false.  `New(points)` and `Points` share the points with the caller: when anything but the identity is added in place to one of
them, or another value is assigned to it, the representation of the commitment changes and every opening of it at a node is refused from
then on. -/
theorem C176_false (m : Mem) (kind : Kind) (points : List Addr) (hn : points.Nodup) (hlt : ∀ a ∈ points, a < m.next) (a d : Addr)
    (ha : a ∈ points) :
    ∃ c, newCommitment kind points m = (.ok c, m) ∧ commitmentPoints c m = (.ok points, m) ∧
      (m.pt d ≠ 0 → ∃ m', addPt a a d m = (.ok a, m') ∧ LosesCommitment c m m') ∧
      (m.pt d ≠ m.pt a → ∃ m', assignPt a d m = (.ok a, m') ∧ LosesCommitment c m m') := by
  refine ⟨⟨kind, points⟩, rfl, rfl, fun hd => ⟨_, rfl, losesCommitment m kind points hn hlt a ha _ hd⟩, fun hd => ⟨_, rfl, ?_⟩⟩
  have := losesCommitment m kind points hn hlt a ha (m.pt d - m.pt a) (sub_ne_zero.2 hd)
  rwa [add_sub_cancel] at this

/-- C176, the part that holds.  Commitments made by `Create` and `Clone` keep their representation and their values whatever is done to the
objects that existed before; any commitment keeps them whatever is done to what its `ConstantTerm` and `EvaluateAt` return.  Missing:
`New` and `Points`, see `C176_false`. -/
theorem C176_commitments_partial (m : Mem) (W : Set Obj) (hW : ∀ x ∈ W, x.addr < m.next) :
    (∀ (poly : Addr) (num : Int) (v : Commitment), HasPo m poly → Commitment.createSimple (polyVal m poly) num = .ok v →
      ∃ c m', createSimpleCommitment poly num m = (.ok c, m') ∧ Writes ∅ m m' ∧ KeepsCommitment c W m' v) ∧
    (∀ (values masking : Addr) (num : Int) (v : Commitment), HasPo m values → HasPo m masking →
      Commitment.createPedersen (polyVal m values) (polyVal m masking) num = .ok v →
      ∃ c m', createPedersenCommitment values masking num m = (.ok c, m') ∧ Writes ∅ m m' ∧ KeepsCommitment c W m' v) ∧
    (∀ c : CommitmentObj, (∀ a ∈ c.points, a < m.next) →
      (∃ c' m', cloneCommitmentObj c m = (.ok c', m') ∧ Writes ∅ m m' ∧ KeepsCommitment c' W m' ⟨c.kind, c.points.map m.pt⟩) ∧
      (∀ a m', constantTerm c.points m = (.ok a, m') → KeepsCommitment c {.pt a} m' ⟨c.kind, c.points.map m.pt⟩) ∧
      ∀ i a m', evaluatePointsAt c.points i m = (.ok a, m') → KeepsCommitment c {.pt a} m' ⟨c.kind, c.points.map m.pt⟩) := by
  have hnew : ∀ {m' : Mem} {vs : List Pt} {cs : List Addr}, RetPts m vs cs m' → ∀ {k : Kind} {v : Commitment}, k = v.kind → vs = v.points →
      Writes ∅ m m' ∧ KeepsCommitment ⟨k, cs⟩ W m' v := by
    rintro m' vs cs ⟨w, hn, -, e⟩ k v hk hv
    exact ⟨w, keepsCommitment hk (e.trans hv) (fun a ha => (hn a ha).2) fun a ha h => absurd (hW _ h) (not_lt.2 (hn a ha).1)⟩
  have hold : ∀ {c : CommitmentObj}, (∀ a ∈ c.points, a < m.next) → ∀ {v : Pt} {a : Addr} {m' : Mem}, RetPt m v a m' →
      KeepsCommitment c {.pt a} m' ⟨c.kind, c.points.map m.pt⟩ := by
    rintro c hc v a m' ⟨w, hn, -⟩
    refine keepsCommitment rfl (List.map_congr_left fun b hb => w.pt0 (hc b hb)) (fun b hb => (hc b hb).trans_le w.next) fun b hb h => ?_
    have e : b = a := by simpa using h
    exact absurd (hc b hb) (not_lt.2 (e ▸ hn.1))
  refine ⟨fun poly num v hp hv => ?_, fun values masking num v h1 h2 hv => ?_, fun c hc => ⟨?_, fun a m' h => ?_, fun i a m' h => ?_⟩⟩
  · have r := createSimple_spec poly num m hp
    rw [hv] at r
    obtain ⟨cs, m', e, r⟩ := r
    refine ⟨⟨.simple, cs⟩, m', ?_, hnew r (by rw [Commitment.createSimple_eq_ok hv]) rfl⟩
    rw [createSimpleCommitment, run_bind, e]
    rfl
  · have r := createPedersen_spec values masking num m h1 h2
    rw [hv] at r
    obtain ⟨cs, m', e, r⟩ := r
    refine ⟨⟨.pedersen, cs⟩, m', ?_, hnew r (by rw [Commitment.createPedersen_eq_ok hv]) rfl⟩
    rw [createPedersenCommitment, run_bind, e]
    rfl
  · obtain ⟨cs, m', e, r⟩ := cloneCommitment_spec (E := fun _ => True) c.points m hc
    refine ⟨⟨c.kind, cs⟩, m', ?_, hnew r rfl rfl⟩
    rw [cloneCommitmentObj, run_bind, e]
    rfl
  · obtain ⟨v, -, r⟩ := (constantTerm_spec c.points c.kind m).of_ok h
    exact hold hc r
  · obtain ⟨v, -, r⟩ := (evaluatePointsAt_spec c.points i c.kind m hc).of_ok h
    exact hold hc r

/-- The commitment made from the objects 0 and 1, both holding G, is opened at node 0 by 2; after `G` is added to the first one it is not. -/
example : ∃ (m m' m1 m2 : Mem) (c : CommitmentObj), newCommitment .simple [0, 1] m = (.ok c, m) ∧ addPt 0 0 0 m = (.ok 0, m') ∧
    checkOpening c 0 (.simple 0) m = (.ok true, m1) ∧ checkOpening c 0 (.simple 0) m' = (.ok false, m2) := by
  set m : Mem := ⟨fun _ => 2, fun _ => G, fun _ => [], fun _ => 0, 2, ∅⟩ with hm
  have hlt : ∀ a ∈ ([0, 1] : List Addr), a < m.next := by simp [hm]
  have ho : Has View.opening m (.simple 0) := by simp [Has, View.opening, Obj.addr, hm]
  obtain ⟨c, h1, -, h, -⟩ := C176_false m .simple [0, 1] (by simp) hlt 0 0 (by simp)
  cases h1
  obtain ⟨m', h2, -, h3⟩ := h G_ne_zero
  have r := checkOpening_ret (i := 0) (c := ⟨.simple, [0, 1]⟩) (vc := ⟨.simple, [G, G]⟩) (o := .simple 0) (vo := .simple 2)
    (at_commitment.2 ⟨rfl, at_list_pt.2 ⟨hlt, rfl⟩⟩) ⟨ho, rfl⟩
  have e : Commitment.checkOpening ⟨.simple, [G, G]⟩ 0 (.simple 2) = .ok true := by
    have hp : place 0 = 1 := by decide
    have hv : valueAtNode [G, G] 0 = Point.mulByG 2 := by
      rw [valueAtNode_cons, valueAtNode_cons, hp, one_smul Fn, one_smul Fn, Point.mulByG, two_smul Fn G]
      congr 1
    simp only [Commitment.checkOpening]
    rw [Commitment.evaluateAt_value (by simp), Res.ok_bind, hv]
    simp
  rw [e] at r
  obtain ⟨x, m1, h, -, -, -, hx⟩ := r
  obtain rfl : x = true := hx
  obtain ⟨m2, h4⟩ := h3 0 (.simple 0) m1 (by decide) ho h
  exact ⟨m, m', m1, m2, _, rfl, h2, h, h4⟩

/-- A clone keeps its representation when the point it was cloned from is overwritten. -/
example : ∃ (m m' : Mem) (c : CommitmentObj), cloneCommitmentObj ⟨.simple, [0]⟩ m = (.ok c, m') ∧
    stableRepresentation c (m'.setPt 0 0) = (Commitment.stableRepresentation ⟨.simple, [G]⟩, m'.setPt 0 0) := by
  obtain ⟨c, m', e, -, h⟩ := ((C176_commitments_partial ⟨fun _ => 2, fun _ => G, fun _ => [], fun _ => 0, 1, ∅⟩ {.pt 0}
    (by rintro x rfl; exact Nat.one_pos)).2.2 ⟨.simple, [0]⟩ (by simp)).1
  exact ⟨_, m', c, e, (h _ ((Writes.refl _ _).setPt (.inl rfl))).1⟩

end Verif.Heap
