import Verif.Lemmas.HeapLagrange

/-!
C112–C114: the pointer code of curve, poly/poly.go, poly/lagrange.go and poly/commitment.go.

The statements quantify over every memory and over every choice of argument addresses in use; arguments (and the receiver)
may be the same object, and the coefficients of polynomials may be shared.  The comparison is with the functions on values,
which the other properties are about.
-/

set_option autoImplicit false

namespace Verif.Heap

/-- C112: the functions of the curve package that return a new object: whatever the memory and whichever arguments are
the same object, nothing that existed changes and the new object holds the value computed on values. -/
theorem C112_curve (m : Mem) (a b c d : Addr) (ha : a < m.next) (hb : b < m.next) (i : NodeIndex) :
    (∃ r m', cloneSc a m = (.ok r, m') ∧ RetSc m (m.sc a) r m') ∧
    (∃ r m', clonePt a m = (.ok r, m') ∧ RetPt m (m.pt a) r m') ∧
    (∃ r m', mulByNodeIndex a i m = (.ok r, m') ∧ RetPt m (Point.mulByNodeIndex (m.pt a) i) r m') ∧
    (∃ r m', mulPoints a c b d m = (.ok r, m') ∧ RetPt m (Point.mulPoints (m.pt a) (m.sc c) (m.pt b) (m.sc d)) r m') ∧
    (∃ r m', pedersen c d m = (.ok r, m') ∧ RetPt m (Point.pedersen (m.sc c) (m.sc d)) r m') ∧
    (∃ r m', mulByG c m = (.ok r, m') ∧ RetPt m (Point.mulByG (m.sc c)) r m') :=
  ⟨cloneSc_spec (E := fun _ => True) a m ha, clonePt_spec (E := fun _ => True) a m,
    mulByNodeIndex_spec (E := fun _ => True) a i m ha, mulPoints_spec (E := fun _ => True) a c b d m ha hb,
    pedersen_spec (E := fun _ => True) c d m, mulByG_spec (E := fun _ => True) c m⟩

/-- C112: a clone is independent: writing to the clone leaves the original as it was, and the other way round. -/
theorem C112_clone_independent (m : Mem) (a : Addr) (ha : a < m.next) (v : Fn) (w : Pt) :
    (∃ r m', cloneSc a m = (.ok r, m') ∧ (m'.setSc r v).sc a = m.sc a ∧ (m'.setSc a v).sc r = m.sc a) ∧
    (∃ r m', clonePt a m = (.ok r, m') ∧ (m'.setPt r w).pt a = m.pt a ∧ (m'.setPt a w).pt r = m.pt a) := by
  constructor
  · obtain ⟨r, m', h, hw, hn, e⟩ := cloneSc_spec (E := fun _ => True) a m ha
    have := hn.1
    exact ⟨r, m', h, by rw [Mem.setSc_ne (by omega), hw.sc0 ha], by rw [Mem.setSc_ne (by omega), e]⟩
  · obtain ⟨r, m', h, hw, hn, e⟩ := clonePt_spec (E := fun _ => True) a m
    have := hn.1
    exact ⟨r, m', h, by rw [Mem.setPt_ne (by omega), hw.pt0 ha], by rw [Mem.setPt_ne (by omega), e]⟩

/-- C112: `MulPoints` with one point object and one scalar object for all arguments. -/
example : ∃ r m', mulPoints 0 1 0 1 ⟨fun _ => 3, fun _ => G, fun _ => [], fun _ => 0, 2, ∅⟩ = (.ok r, m') ∧
    m'.pt r = (6 : Fn) • G ∧ m'.pt 0 = G := by
  obtain ⟨r, m', h, w, n, e⟩ := (C112_curve ⟨fun _ => 3, fun _ => G, fun _ => [], fun _ => 0, 2, ∅⟩ 0 0 1 1 (by simp)
    (by simp) 0).2.2.2.1
  refine ⟨r, m', h, ?_, w.pt0 (by simp)⟩
  rw [e]
  change (3 : Fn) • G + (3 : Fn) • G = (6 : Fn) • G
  rw [← add_smul]
  congr 1

/-- C113: the operations of poly/poly.go that write a receiver: the receiver gets new coefficient objects holding the
result, and nothing else that existed changes (in particular, if the receiver is not one of the arguments, those keep
their coefficients; and the scalars that were the receiver's coefficients keep their values). -/
theorem C113_in_place (m : Mem) (p lhs rhs s : Addr) (hp : HasPo m p) (hl : HasPo m lhs) (hr : HasPo m rhs)
    (hs : s < m.next) :
    (∃ q m', polyAdd p lhs rhs m = (.ok q, m') ∧ SetPo m p (Poly.add (polyVal m lhs) (polyVal m rhs)) q m') ∧
    (∃ q m', polyMul p lhs rhs m = (.ok q, m') ∧ SetPo m p (Poly.mul (polyVal m lhs) (polyVal m rhs)) q m') ∧
    Outcome (Writes ∅ m) (polyMulScalar p lhs s) m (Poly.mulScalar (polyVal m p) (polyVal m lhs) (m.sc s))
      (SetPo m p) :=
  ⟨polyAdd_spec (E := fun _ => True) p lhs rhs m hl hr, polyMul_spec (E := fun _ => True) p lhs rhs m hl hr,
    polyMulScalar_spec p lhs s m hp hs⟩

/-- C113: the operations that return a new object. -/
theorem C113_new (m : Mem) (p x : Addr) (hp : HasPo m p) (hx : x < m.next) (idx : Nat) :
    (∃ r m', coeff p idx m = (.ok r, m') ∧ RetSc m (Poly.coeff (polyVal m p) idx) r m') ∧
    (∃ r m', evaluateAt p x m = (.ok r, m') ∧ RetSc m (Poly.evaluateAt (polyVal m p) (m.sc x)) r m') :=
  ⟨coeff_spec (E := fun _ => True) p idx m hp, evaluateAt_spec (E := fun _ => True) p x m hp hx⟩

/-- C113: interpolation, also when it fails. -/
theorem C113_interpolate (m : Mem) (ss : List (Addr × Addr)) (hs : ∀ s ∈ ss, s.1 < m.next ∧ s.2 < m.next) :
    Outcome (Writes ∅ m) (interpolate ss) m (Poly.interpolate (ss.map fun s => (m.sc s.1, m.sc s.2))) (RetPo m) :=
  interpolate_spec ss m hs

/-- C113: squaring a polynomial in place, both of whose coefficients are the same scalar object. -/
example : ∃ q m', polyMul 0 0 0 ⟨fun _ => 5, fun _ => 0, fun _ => [1, 1], fun _ => 0, 2, ∅⟩ = (.ok q, m') ∧
    polyVal m' 0 = [25, 50, 25] ∧ m'.sc 1 = 5 := by
  have hp : HasPo ⟨fun _ => 5, fun _ => 0, fun _ => [1, 1], fun _ => 0, 2, ∅⟩ 0 := ⟨by simp, by simp⟩
  obtain ⟨q, m', h, h'⟩ := (C113_in_place _ 0 0 0 1 hp hp hp (by simp)).2.1
  refine ⟨q, m', h, ?_, h'.2.1.sc 1 (by simp) (by simp)⟩
  rw [h'.val]
  decide +kernel

/-- C113: interpolating through one sample whose place and value are the same object. -/
example : ∃ q m', interpolate [(0, 0)] ⟨fun _ => 5, fun _ => 0, fun _ => [], fun _ => 0, 1, ∅⟩ = (.ok q, m') ∧
    polyVal m' q = [5] ∧ m'.sc 0 = 5 := by
  obtain ⟨q, m', h, w, -, -, -, e⟩ := C113_interpolate ⟨fun _ => 5, fun _ => 0, fun _ => [], fun _ => 0, 1, ∅⟩ [(0, 0)]
    (by simp)
  exact ⟨q, m', h, e, w.sc0 (by simp)⟩

/-- C114: Lagrange coefficients and interpolation in them. -/
theorem C114_lagrange (m : Mem) (value : Addr) (samples : List NodeIndex) (l y : List Addr) (hv : value < m.next)
    (hl : ∀ a ∈ l, a < m.next) (hy : ∀ a ∈ y, a < m.next) :
    Outcome (Writes ∅ m) (atValue value samples) m (Lagr.atValue (m.sc value) samples) (RetScs m) ∧
    Outcome (Writes ∅ m) (atZero samples) m (Lagr.atZero samples) (RetScs m) ∧
    Outcome (Writes ∅ m) (interpolatePoint l y) m (Lagr.interpolatePoint (l.map m.sc) (y.map m.pt)) (RetPt m) ∧
    Outcome (Writes ∅ m) (interpolateScalar l y) m (Lagr.interpolateScalar (l.map m.sc) (y.map m.sc)) (RetSc m) :=
  ⟨atValue_spec value samples m hv, atZero_spec samples m, interpolatePoint_spec l y m hl hy,
    interpolateScalar_spec l y m hl hy⟩

/-- C114: commitments. -/
theorem C114_commitments (m : Mem) (p q : Addr) (hp : HasPo m p) (hq : HasPo m q) (num : Int) (points : List Addr)
    (hpts : ∀ a ∈ points, a < m.next) (i : NodeIndex) (kind : Kind) :
    Outcome (Writes ∅ m) (createSimple p num) m (Commitment.createSimple (polyVal m p) num)
      (fun v cs m' => RetPts m v.points cs m') ∧
    Outcome (Writes ∅ m) (createPedersen p q num) m (Commitment.createPedersen (polyVal m p) (polyVal m q) num)
      (fun v cs m' => RetPts m v.points cs m') ∧
    Outcome (Writes ∅ m) (cloneCommitment points) m (.ok (points.map m.pt)) (RetPts m) ∧
    Outcome (Writes ∅ m) (constantTerm points) m (Commitment.constantTerm ⟨kind, points.map m.pt⟩) (RetPt m) ∧
    Outcome (Writes ∅ m) (evaluatePointsAt points i) m (Commitment.evaluateAt ⟨kind, points.map m.pt⟩ i) (RetPt m) :=
  ⟨createSimple_spec p num m hp, createPedersen_spec p q num m hp hq, cloneCommitment_spec points m hpts,
    constantTerm_spec points kind m, evaluatePointsAt_spec points i kind m hpts⟩

/-- C114: a commitment whose points are one object, and whose Pedersen polynomials are one object. -/
example : ∃ cs m', createPedersen 0 0 1 ⟨fun _ => 5, fun _ => 0, fun _ => [1], fun _ => 0, 2, ∅⟩ = (.ok cs, m') ∧
    cs.map m'.pt = [Point.pedersen 5 5] ∧ m'.sc 1 = 5 ∧ polyVal m' 0 = [5] := by
  have hp : HasPo ⟨fun _ => 5, fun _ => 0, fun _ => [1], fun _ => 0, 2, ∅⟩ 0 := ⟨by simp, by simp⟩
  have h := (C114_commitments _ 0 0 hp hp 1 [] (by simp) 0 .simple).2.1
  have e : Commitment.createPedersen [5] [5] 1 = .ok ⟨.pedersen, [Point.pedersen 5 5]⟩ := by
    have h5 : Poly.nonZeroCoefficients [(5 : Fn)] = 1 := by decide +kernel
    unfold Commitment.createPedersen
    rw [h5, if_neg (by decide)]
    rfl
  change Outcome _ _ _ (Commitment.createPedersen [5] [5] 1) _ at h
  rw [e] at h
  obtain ⟨cs, m', r, w, -, -, e⟩ := h
  exact ⟨cs, m', r, e, w.sc0 (by simp), polyVal_keep0 hp w⟩

example : ∃ cs m', atZero [0#64, 1#64] ⟨fun _ => 5, fun _ => 0, fun _ => [1], fun _ => 0, 2, ∅⟩ = (.ok cs, m') ∧
    cs.map m'.sc = [2, -1] ∧ cs.Nodup := by
  have h := (C114_lagrange ⟨fun _ => 5, fun _ => 0, fun _ => [1], fun _ => 0, 2, ∅⟩ 0 [0#64, 1#64] [] [] (by simp)
    (by simp) (by simp)).2.1
  have e : Lagr.atZero [0#64, 1#64] = .ok [2, -1] := by decide +kernel
  rw [e] at h
  obtain ⟨cs, m', r, w, -, nd, e⟩ := h
  exact ⟨cs, m', r, e, nd⟩

end Verif.Heap
