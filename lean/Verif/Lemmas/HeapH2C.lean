import Verif.Model.HeapH2C
import Verif.Spec.HeapH2C
import Verif.Lemmas.HeapDealings
import Verif.Lemmas.HashToCurve

/-!
Running straight-line code on field elements.

`m.plus l` is the memory `m` with new field elements `l`.  Code whose receivers are new objects only moves between such
memories, so it is run by rewriting.
-/

set_option autoImplicit false

namespace Verif.Heap

/-- The memory with the new field elements `l`. -/
def Mem.plus (m : Mem) (l : List Fp) : Mem :=
  { m with
    fe := fun a => if a < m.next then m.fe a else (l[a - m.next]?).getD (m.fe a)
    next := m.next + l.length
    touched := m.touched ∪ {o | ∃ a, o = .fe a ∧ m.next ≤ a ∧ a < m.next + l.length} }

variable {α : Type} {m : Mem} {l : List Fp} {k : Nat} {a b s : Addr} {v : Fp}

theorem Mem.plus_nil (m : Mem) : m.plus [] = m := by
  have h : ∀ a, ¬ (m.next ≤ a ∧ a < m.next) := fun a => by omega
  simp [Mem.plus, h]

theorem Mem.plus_next : (m.plus l).next = m.next + l.length := rfl

theorem lt_plus (h : a < m.next) : a < (m.plus l).next := Nat.lt_add_right _ h

theorem Mem.plus_old (h : a < m.next) : (m.plus l).fe a = m.fe a := by simp [Mem.plus, h]

theorem Mem.plus_new (h : k < l.length) : (m.plus l).fe (m.next + k) = l[k] := by simp [Mem.plus, h]

theorem Mem.plus_set (h : k < l.length) : (m.plus l).setFe (m.next + k) v = m.plus (l.set k v) := by
  simp only [Mem.plus, Mem.setFe, List.length_set, Mem.mk.injEq, true_and]
  refine ⟨?_, Set.insert_eq_of_mem (.inr ⟨_, rfl, by omega, by omega⟩)⟩
  funext a
  by_cases ha : a = m.next + k
  · subst ha
    simp [h]
  · rw [Function.update_of_ne ha]
    split_ifs with h1
    · rfl
    · rw [List.getElem?_set_ne (by omega)]

theorem Mem.plus_bump : ((m.plus l).setFe (m.next + l.length) v).bump = m.plus (l ++ [v]) := by
  simp only [Mem.plus, Mem.setFe, Mem.bump, List.length_append, List.length_singleton, Mem.mk.injEq, true_and, add_assoc]
  refine ⟨?_, ?_⟩
  swap
  · ext o
    constructor
    · rintro (rfl | h | ⟨a, rfl, h1, h2⟩)
      · exact .inr ⟨_, rfl, by omega, by omega⟩
      · exact .inl h
      · exact .inr ⟨a, rfl, h1, by omega⟩
    · rintro (h | ⟨a, rfl, h1, h2⟩)
      · exact .inr (.inl h)
      · by_cases h : a = m.next + l.length
        · exact .inl (by rw [h])
        · exact .inr (.inr ⟨a, rfl, h1, by omega⟩)
  funext a
  by_cases ha : a = m.next + l.length
  · subst ha
    simp
  · rw [Function.update_of_ne ha]
    split_ifs with h1
    · rfl
    · by_cases h2 : a - m.next < l.length
      · rw [List.getElem?_append_left h2]
      · rw [List.getElem?_eq_none (by omega), List.getElem?_eq_none (by simp; omega)]

theorem Mem.plus_plus (m : Mem) (l l' : List Fp) : (m.plus l).plus l' = m.plus (l ++ l') := by
  simp only [Mem.plus, List.length_append, Mem.mk.injEq, true_and, add_assoc]
  refine ⟨?_, ?_⟩
  swap
  · ext o
    constructor
    · rintro ((h | ⟨a, rfl, h1, h2⟩) | ⟨a, rfl, h1, h2⟩)
      · exact .inl h
      · exact .inr ⟨a, rfl, h1, by omega⟩
      · exact .inr ⟨a, rfl, by omega, by omega⟩
    · rintro (h | ⟨a, rfl, h1, h2⟩)
      · exact .inl (.inl h)
      · by_cases h : a < m.next + l.length
        · exact .inl (.inr ⟨a, rfl, h1, h⟩)
        · exact .inr ⟨a, rfl, by omega, by omega⟩
  funext a
  by_cases h1 : a < m.next
  · simp [h1, Nat.lt_add_right]
  · by_cases h2 : a < m.next + l.length
    · simp [h1, h2, List.getElem?_append_left (show a - m.next < l.length by omega)]
    · have e : a - (m.next + l.length) = a - m.next - l.length := by omega
      simp [h1, h2, List.getElem?_append_right (show l.length ≤ a - m.next by omega),
        List.getElem?_eq_none (show l.length ≤ a - m.next by omega), e]

theorem Writes.plus (m : Mem) (l : List Fp) : Writes ∅ m (m.plus l) :=
  ⟨Nat.le_add_right _ _, fun _ _ _ => rfl, fun _ _ _ => rfl, fun _ _ _ => rfl, fun _ h _ => Mem.plus_old h,
    by
      rintro o (h | ⟨a, rfl, h, -⟩)
      · exact .inl h
      · exact .inr (.inr h)⟩

/-- One of the new elements, as a result. -/
theorem Ret.plus (h : l[k]? = Option.some v) : Ret View.fe m v (m.next + k) (m.plus l) := by
  obtain ⟨hk, hv⟩ := List.getElem?_eq_some_iff.1 h
  refine ⟨Writes.plus m l, ?_, by simp [View.fe], (Mem.plus_new hk).trans hv⟩
  simp [View.fe, Obj.addr, Mem.plus_next, hk]

/-! ### Steps -/

theorem Go.bind_run {β : Type} {g : Go β} {f : β → Go α} {m m' : Mem} {b : β} (h : g m = (.ok b, m')) :
    (g >>= f) m = f b m' := by
  change (match g m with
    | (.ok a, m) => f a m
    | (.err e, m) => (.err e, m)
    | (.panic e, m) => (.panic e, m)
    | (.diverge, m) => (.diverge, m)) = _
  rw [h]

theorem newFe_run : newFe v (m.plus l) = (.ok (m.next + l.length), m.plus (l ++ [v])) :=
  congrArg (Prod.mk _) Mem.plus_bump

theorem newFe_step {f : Addr → Go α} : (newFe v >>= f) (m.plus l) = f (m.next + l.length) (m.plus (l ++ [v])) :=
  Go.bind_run newFe_run

theorem readFe_step {f : Fp → Go α} : (readFe a >>= f) m = f (m.fe a) m := rfl

theorem addFe_step {f : Addr → Go α} : (addFe s a b >>= f) m = f s (m.setFe s (m.fe a + m.fe b)) := rfl
theorem mulFe_step {f : Addr → Go α} : (mulFe s a b >>= f) m = f s (m.setFe s (m.fe a * m.fe b)) := rfl
theorem squareFe_step {f : Addr → Go α} : (squareFe s a >>= f) m = f s (m.setFe s (m.fe a * m.fe a)) := rfl
theorem negFe_step {f : Addr → Go α} : (negFe s a >>= f) m = f s (m.setFe s (-m.fe a)) := rfl
theorem progenitorFe_step {f : Addr → Go α} : (progenitorFe s a >>= f) m = f s (m.setFe s (Fe.progenitor (m.fe a))) := rfl

theorem assignFe_step {f : Addr → Go α} : (assignFe s a >>= f) m = f s (m.setFe s (m.fe a)) := rfl
theorem cassignFe_step {c : Nat} {f : Unit → Go α} :
    (cassignFe s a c >>= f) m = f () (m.setFe s (H2C.cmov (m.fe s) (m.fe a) c)) := rfl
theorem addFe_run : addFe s a b m = (.ok s, m.setFe s (m.fe a + m.fe b)) := rfl
theorem mulFe_run : mulFe s a b m = (.ok s, m.setFe s (m.fe a * m.fe b)) := rfl

theorem invFe_self : invFe s s m = (.ok s, m.setFe s (m.fe s)⁻¹) := by
  rw [invFe]
  split_ifs with h
  · rw [h, inv_zero, Mem.setFe, ← h, Function.update_eq_self]
  · rfl

theorem invFe_step {f : Addr → Go α} : (invFe s s >>= f) m = f s (m.setFe s (m.fe s)⁻¹) := Go.bind_run invFe_self

/-- A call that only makes new elements, made in `m.plus l`. -/
theorem call_step {β : Type} {g : Go β} {f : β → Go α} {c : β} {l' : List Fp}
    (h : g (m.plus l) = (.ok c, (m.plus l).plus l')) : (g >>= f) (m.plus l) = f c (m.plus (l ++ l')) := by
  rw [Go.bind_run h, Mem.plus_plus]

theorem pure_run (x : α) : (pure x : Go α) m = (.ok x, m) := rfl

theorem Mem.plus_new0 {l : List Fp} : (m.plus (v :: l)).fe m.next = v := Mem.plus_new (k := 0) (l := v :: l) (by simp)

theorem Mem.plus_set0 {w : Fp} {l : List Fp} : (m.plus (w :: l)).setFe m.next v = m.plus (v :: l) :=
  Mem.plus_set (k := 0) (l := w :: l) (by simp)

/-- Runs code on field elements from `m.plus l` on. -/
macro "feRun" "[" hs:Lean.Parser.Tactic.simpLemma,* "]" : tactic => `(tactic|
  simp only [↓newFe_step, ↓readFe_step, ↓addFe_step, ↓mulFe_step, ↓squareFe_step, ↓negFe_step, ↓progenitorFe_step,
    ↓invFe_step, ↓assignFe_step, ↓cassignFe_step, addFe_run, mulFe_run, Mem.plus_old, Mem.plus_new, Mem.plus_set, Mem.plus_new0, Mem.plus_set0, List.length_cons, List.length_nil,
    List.length_append, List.length_set, List.cons_append, List.nil_append, List.set_cons_succ, List.set_cons_zero,
    List.getElem_cons_succ, List.getElem_cons_zero, Nat.reduceAdd, Nat.reduceLT, Nat.reduceLeDiff, Nat.add_zero, Nat.zero_add, pure_run, $hs,*])

theorem cmov_run {c : Nat} (ha : a < m.next) (hb : b < m.next) :
    cmov a b c m = (.ok m.next, m.plus [H2C.cmov (m.fe a) (m.fe b) c]) := by
  conv_lhs => rw [← m.plus_nil]
  unfold cmov
  feRun [ha, hb]

theorem x2Xc1C2_run {x c1 c2 : Addr} (hx : x < m.next) (h1 : c1 < m.next) (h2 : c2 < m.next) :
    x2Xc1C2 x c1 c2 m = (.ok m.next, m.plus [H2C.x2Xc1C2 (m.fe x) (m.fe c1) (m.fe c2)]) := by
  conv_lhs => rw [← m.plus_nil]
  unfold x2Xc1C2
  feRun [hx, h1, h2, H2C.x2Xc1C2]

theorem x3X2c1Xc2C3_run {x c1 c2 c3 : Addr} (hx : x < m.next) (h1 : c1 < m.next) (h2 : c2 < m.next) (h3 : c3 < m.next) :
    x3X2c1Xc2C3 x c1 c2 c3 m = (.ok m.next, m.plus [H2C.x3X2c1Xc2C3 (m.fe x) (m.fe c1) (m.fe c2) (m.fe c3)]) := by
  unfold x3X2c1Xc2C3
  rw [Go.bind_run (x2Xc1C2_run hx h1 h2)]
  feRun [hx, h1, h2, h3, H2C.x3X2c1Xc2C3]

theorem x3c1X2c2Xc3C4_run {x c1 c2 c3 c4 : Addr} (hx : x < m.next) (h1 : c1 < m.next) (h2 : c2 < m.next)
    (h3 : c3 < m.next) (h4 : c4 < m.next) : x3c1X2c2Xc3C4 x c1 c2 c3 c4 m =
      (.ok m.next, m.plus [H2C.x3c1X2c2Xc3C4 (m.fe x) (m.fe c1) (m.fe c2) (m.fe c3) (m.fe c4)]) := by
  conv_lhs => rw [← m.plus_nil]
  unfold x3c1X2c2Xc3C4
  feRun [hx, h1, h2, h3, h4, H2C.x3c1X2c2Xc3C4]

theorem cmov_step {c : Nat} {f : Addr → Go α} (ha : a < m.next + l.length) (hb : b < m.next + l.length) :
    (cmov a b c >>= f) (m.plus l) =
      f (m.next + l.length) (m.plus (l ++ [H2C.cmov ((m.plus l).fe a) ((m.plus l).fe b) c])) :=
  call_step (cmov_run ha hb)

theorem sqrtRatio_run {u v : Addr} (hu : u < m.next) (hv : v < m.next) :
    match H2C.sqrtRatio (m.fe u) (m.fe v) with
    | .ok (y, q) => ∃ a b c d e f, sqrtRatio u v m = (.ok (m.next + 6, q), m.plus [a, b, c, d, e, f, y])
    | .err e => sqrtRatio u v m = (.err e, m)
    | _ => False := by
  unfold H2C.sqrtRatio
  by_cases h : m.fe v = 0
  · rw [if_pos h]
    unfold sqrtRatio
    rw [readFe_step, if_pos h]
    rfl
  · rw [if_neg h]
    refine ⟨H2C.sswuC2, m.fe v * m.fe v * (m.fe u * m.fe v), m.fe u * m.fe v,
      Fe.progenitor (m.fe v * m.fe v * (m.fe u * m.fe v)) * (m.fe u * m.fe v),
      Fe.progenitor (m.fe v * m.fe v * (m.fe u * m.fe v)) * (m.fe u * m.fe v) * H2C.sswuC2,
      Fe.progenitor (m.fe v * m.fe v * (m.fe u * m.fe v)) * (m.fe u * m.fe v) *
        (Fe.progenitor (m.fe v * m.fe v * (m.fe u * m.fe v)) * (m.fe u * m.fe v)) * m.fe v, ?_⟩
    unfold sqrtRatio
    rw [readFe_step, if_neg h]
    conv_lhs => rw [← m.plus_nil]
    feRun [hu, hv, ↓cmov_step, Nat.add_lt_add_iff_left]

theorem sqrtRatio_step {u v : Addr} {f : Addr × Nat → Go α} {uv vv y : Fp} {q : Nat} (hu : u < m.next + l.length)
    (hv : v < m.next + l.length) (eu : (m.plus l).fe u = uv) (ev : (m.plus l).fe v = vv)
    (h : H2C.sqrtRatio uv vv = .ok (y, q)) : ∃ a b c d e g, (sqrtRatio u v >>= f) (m.plus l) =
      f (m.next + l.length + 6, q) (m.plus (l ++ [a, b, c, d, e, g, y])) := by
  have hr := sqrtRatio_run (m := m.plus l) hu hv
  rw [eu, ev, h] at hr
  obtain ⟨a, b, c, d, e, g, hr⟩ := hr
  exact ⟨a, b, c, d, e, g, call_step hr⟩

theorem sswu_run {u : Addr} (hu : u < m.next) {x y : Fp} (h : H2C.sswu (m.fe u) = .ok (x, y)) :
    ∃ l, sswu u m = (.ok (m.next + 22, m.next + 25), m.plus l) ∧ l.length = 26 ∧ l[22]? = some x ∧ l[25]? = some y := by
  unfold H2C.sswu at h
  dsimp only at h
  set tv1 := H2C.sswuZ * (m.fe u * m.fe u) with h1
  set tv2 := tv1 * tv1 + tv1 with h2
  set tv3 := (tv2 + 1) * H2C.sswuB with h3
  set tv4 := H2C.cmov H2C.sswuZ (-tv2) (if tv2 = 0 then 0 else 1) * H2C.sswuA with h4
  set gn := (tv3 * tv3 + tv4 * tv4 * H2C.sswuA) * tv3 + tv4 * tv4 * tv4 * H2C.sswuB with hg
  rcases hs : H2C.sqrtRatio gn (tv4 * tv4 * tv4) with ⟨y1, q⟩ | e | e | _ <;> rw [hs] at h <;> try (cases h; done)
  rw [Res.ok_bind] at h
  dsimp only at h
  unfold sswu
  conv => enter [1, l, 1, 1]; rw [← m.plus_nil]
  feRun [hu, ↓cmov_step, Nat.add_lt_add_iff_left]
  rw [← h1, ← h2, ← h3, ← h4, ← hg]
  obtain ⟨a, b, c, d, e, g, hr⟩ := sqrtRatio_step (α := Addr × Addr) (m := m) (u := m.next + 6) (v := m.next + 10)
    (l := [H2C.sswuA, H2C.sswuB, H2C.sswuZ, 1, tv1, m.fe u * m.fe u, gn, tv3, -tv2, tv4, tv4 * tv4 * tv4,
      tv4 * tv4 * H2C.sswuA, tv4 * tv4 * tv4 * H2C.sswuB, tv1 * tv3]) (f := fun r => do
        let t ← newFe 0
        let y ← mulFe t (m.next + 4) u
        let y ← mulFe y y r.1
        let x ← cmov (m.next + 13) (m.next + 7) r.2
        let y ← cmov y r.1 r.2
        let uv ← readFe u
        let yv ← readFe y
        let t ← newFe 0
        let neg ← negFe t y
        let y ← cmov neg y (Fe.sign uv ^^^ Fe.sign yv ^^^ 1)
        let inv ← invFe (m.next + 9) (m.next + 9)
        let x ← mulFe x x inv
        pure (x, y)) (by simp) (by simp) (Mem.plus_new (by simp)) (Mem.plus_new (by simp)) hs
  obtain ⟨rfl, rfl⟩ := Prod.mk.inj (Res.ok.inj h)
  rw [hr]
  feRun [hu, ↓cmov_step, Nat.add_lt_add_iff_left, Nat.add_assoc, Nat.lt_add_right _ hu]
  exact ⟨_, rfl, rfl, rfl, rfl⟩

theorem isogeny_eq (x y : Fp) : H2C.isogeny x y =
    (H2C.x3c1X2c2Xc3C4 x (isogenyConstant 0) (isogenyConstant 1) (isogenyConstant 2) (isogenyConstant 3) *
      ((H2C.x2Xc1C2 x (isogenyConstant 4) (isogenyConstant 5) *
        H2C.x3X2c1Xc2C3 x (isogenyConstant 10) (isogenyConstant 11) (isogenyConstant 12))⁻¹ *
        H2C.x3X2c1Xc2C3 x (isogenyConstant 10) (isogenyConstant 11) (isogenyConstant 12)),
     y * (H2C.x3c1X2c2Xc3C4 x (isogenyConstant 6) (isogenyConstant 7) (isogenyConstant 8) (isogenyConstant 9) *
      ((H2C.x2Xc1C2 x (isogenyConstant 4) (isogenyConstant 5) *
        H2C.x3X2c1Xc2C3 x (isogenyConstant 10) (isogenyConstant 11) (isogenyConstant 12))⁻¹ *
        H2C.x2Xc1C2 x (isogenyConstant 4) (isogenyConstant 5)))) := rfl

theorem isogeny_tail {y : Addr} (hy : y < m.next) (xnum xden ynum yden : Fp) : (newFe 0 >>= fun t => do
      let inv ← mulFe t (m.next + 1) (m.next + 3)
      let inv ← invFe inv inv
      let t ← newFe 0
      let s ← newFe 0
      let s ← mulFe s inv (m.next + 3)
      let x ← mulFe t m.next s
      let inv ← mulFe inv inv (m.next + 1)
      let ynum ← mulFe (m.next + 2) (m.next + 2) inv
      let y ← mulFe y y ynum
      pure (x, y)) (m.plus [xnum, xden, ynum, yden]) =
    (.ok (m.next + 5, y), (m.plus [xnum, xden, ynum * ((xden * yden)⁻¹ * xden), yden, (xden * yden)⁻¹ * xden,
      xnum * ((xden * yden)⁻¹ * yden), (xden * yden)⁻¹ * yden]).setFe y (m.fe y * (ynum * ((xden * yden)⁻¹ * xden)))) := by
  feRun [hy]

theorem isogeny_run {K : Fin 13 → Addr} (hK : Constants K m) {x y : Addr} (hx : x < m.next) (hy : y < m.next) :
    ∃ l, isogeny K x y m = (.ok (m.next + 5, y), (m.plus l).setFe y (H2C.isogeny (m.fe x) (m.fe y)).2) ∧ l.length = 7 ∧
      l[5]? = some (H2C.isogeny (m.fe x) (m.fe y)).1 := by
  have hk := fun i => (hK i).1
  have ek := fun i => (hK i).2
  unfold isogeny
  rw [Go.bind_run (x3c1X2c2Xc3C4_run hx (hk 0) (hk 1) (hk 2) (hk 3))]
  have s1 := x2Xc1C2_run (m := m.plus [H2C.x3c1X2c2Xc3C4 (m.fe x) (m.fe (K 0)) (m.fe (K 1)) (m.fe (K 2)) (m.fe (K 3))])
    (x := x) (c1 := K 4) (c2 := K 5) (lt_plus hx) (lt_plus (hk 4)) (lt_plus (hk 5))
  rw [Mem.plus_old hx, Mem.plus_old (hk 4), Mem.plus_old (hk 5)] at s1
  rw [call_step s1, List.singleton_append]
  have s2 := x3c1X2c2Xc3C4_run (m := m.plus [H2C.x3c1X2c2Xc3C4 (m.fe x) (m.fe (K 0)) (m.fe (K 1)) (m.fe (K 2)) (m.fe (K 3)),
    H2C.x2Xc1C2 (m.fe x) (m.fe (K 4)) (m.fe (K 5))]) (x := x) (c1 := K 6) (c2 := K 7) (c3 := K 8) (c4 := K 9)
    (lt_plus hx) (lt_plus (hk 6)) (lt_plus (hk 7)) (lt_plus (hk 8))
    (lt_plus (hk 9))
  rw [Mem.plus_old hx, Mem.plus_old (hk 6), Mem.plus_old (hk 7), Mem.plus_old (hk 8), Mem.plus_old (hk 9)] at s2
  rw [call_step s2, List.cons_append, List.singleton_append]
  have s3 := x3X2c1Xc2C3_run (m := m.plus [H2C.x3c1X2c2Xc3C4 (m.fe x) (m.fe (K 0)) (m.fe (K 1)) (m.fe (K 2)) (m.fe (K 3)),
    H2C.x2Xc1C2 (m.fe x) (m.fe (K 4)) (m.fe (K 5)),
    H2C.x3c1X2c2Xc3C4 (m.fe x) (m.fe (K 6)) (m.fe (K 7)) (m.fe (K 8)) (m.fe (K 9))]) (x := x) (c1 := K 10) (c2 := K 11)
    (c3 := K 12) (lt_plus hx) (lt_plus (hk 10)) (lt_plus (hk 11))
    (lt_plus (hk 12))
  rw [Mem.plus_old hx, Mem.plus_old (hk 10), Mem.plus_old (hk 11), Mem.plus_old (hk 12)] at s3
  rw [call_step s3, List.cons_append, List.cons_append, List.singleton_append, ek, ek, ek, ek, ek, ek, ek, ek, ek, ek, ek, ek,
    ek]
  simp only [Mem.plus_next, List.length_cons, List.length_nil, Nat.reduceAdd]
  rw [isogeny_eq]
  clear s1 s2 s3
  generalize isogenyConstant = c
  generalize H2C.x3c1X2c2Xc3C4 (m.fe x) (c 0) (c 1) (c 2) (c 3) = xnum
  generalize H2C.x2Xc1C2 (m.fe x) (c 4) (c 5) = xden
  generalize H2C.x3c1X2c2Xc3C4 (m.fe x) (c 6) (c 7) (c 8) (c 9) = ynum
  generalize H2C.x3X2c1Xc2C3 (m.fe x) (c 10) (c 11) (c 12) = yden
  rw [isogeny_tail hy]
  exact ⟨_, rfl, rfl, rfl⟩

/-! ### Specifications -/

theorem Constants.mono {K : Fin 13 → Addr} {m m' : Mem} (h : Constants K m) (w : Writes ∅ m m') : Constants K m' :=
  fun i => ⟨(h i).1.trans_le w.next, (w.fe _ (h i).1 (Set.notMem_empty _)).trans (h i).2⟩

theorem newFe_ret (v : Fp) : Outcome (Writes ∅ m) (newFe v) m (.ok v) (Ret View.fe m) := by
  refine ⟨m.next, m.plus [v], ?_, ?_⟩
  · conv_lhs => rw [← m.plus_nil]
    exact newFe_run
  · exact Ret.plus (k := 0) rfl

theorem ret_rawPt {Q : Pt} {a : Addr} {m m' : Mem} (h : Ret View.pt m Q a m') : Ret View.rawPt m (Point.raw Q) a m' :=
  Ret.via (f := id) (g := Point.raw) (o := a) h

theorem cmov_ret {c : Nat} (ha : a < m.next) (hb : b < m.next) :
    Outcome (Writes ∅ m) (cmov a b c) m (.ok (H2C.cmov (m.fe a) (m.fe b) c)) (Ret View.fe m) :=
  ⟨_, _, cmov_run ha hb, Ret.plus (k := 0) rfl⟩

theorem sqrtRatio_ret {u v : Addr} (hu : u < m.next) (hv : v < m.next) :
    Outcome (Writes ∅ m) (sqrtRatio u v) m (H2C.sqrtRatio (m.fe u) (m.fe v)) (Ret (View.fe.prod View.data) m) := by
  have h := sqrtRatio_run hu hv
  rcases e : H2C.sqrtRatio (m.fe u) (m.fe v) with ⟨y, q⟩ | e | e | _ <;> rw [e] at h
  · obtain ⟨a, b, c, d, e, f, h⟩ := h
    exact ⟨_, _, h, (Ret.plus (k := 6) rfl).pair (Ret.data (Writes.refl _ _))⟩
  · exact ⟨_, h, Writes.refl _ _⟩
  · exact h.elim
  · exact h.elim

theorem sswu_ret {u : Addr} (hu : u < m.next) :
    Outcome (Writes ∅ m) (sswu u) m (H2C.sswu (m.fe u)) (Ret (View.fe.prod View.fe) m) := by
  obtain ⟨x, y, e, -⟩ := H2C.sswu_spec (m.fe u)
  obtain ⟨l, h, hl, h1, h2⟩ := sswu_run hu e
  rw [e]
  refine ⟨_, _, h, Writes.plus m l, ?_, ?_, ?_⟩
  · simp [View.prod, View.fe, Obj.addr, Mem.plus_next, hl]
  · simp [View.prod, View.fe]
  · exact Prod.ext (Ret.plus h1).2.2.2 (Ret.plus h2).2.2.2

/-- The second argument is overwritten, and is the second result. -/
theorem isogeny_ret {K : Fin 13 → Addr} (hK : Constants K m) {x y : Addr} (hx : x < m.next) (hy : y < m.next) :
    ∃ x' m', isogeny K x y m = (.ok (x', y), m') ∧ Writes {.fe y} m m' ∧ m.next ≤ x' ∧ x' < m'.next ∧
      (m'.fe x', m'.fe y) = H2C.isogeny (m.fe x) (m.fe y) := by
  obtain ⟨l, h, hl, h5⟩ := isogeny_run hK hx hy
  have w := Writes.plus m l
  refine ⟨_, _, h, (w.mono fun _ _ e => absurd e (Set.notMem_empty _)).setFe (.inl rfl), Nat.le_add_right _ _, ?_, ?_⟩
  · change m.next + 5 < m.next + l.length
    omega
  · refine Prod.ext ?_ ?_
    · simp only [Mem.setFe]
      rw [Function.update_of_ne (by omega)]
      exact (Ret.plus h5).2.2.2
    · simp [Mem.setFe]

theorem fromFieldElems_ret {x y : Addr} {xv yv : Fp} {Q : Pt} (ex : m.fe x = xv) (ey : m.fe y = yv)
    (h : Point.fromFieldElems xv yv = .ok (some (Point.raw Q))) :
    ∃ a m', fromFieldElems x y m = (.ok (some a), m') ∧ Ret View.pt m Q a m' := by
  obtain ⟨a, m', e, r⟩ := newPt_ret (E := Writes ∅ m) (m := m) Q
  refine ⟨a, m', ?_, r⟩
  unfold fromFieldElems
  rw [readFe_step, readFe_step, ex, ey, h]
  have hl : Go.lift (Res.ok (some (Point.raw Q))) m = (.ok (some (Point.raw Q)), m) := rfl
  refine (Go.bind_run hl).trans ?_
  dsimp only
  rw [Point.ofRaw?_raw]
  dsimp only
  rw [Go.bind_run e]
  rfl

theorem mapToCurve_run {K : Fin 13 → Addr} (hK : Constants K m) {u : Addr} (hu : u < m.next) {Q : Pt}
    (hQ' : H2C.mapToCurve (m.fe u) = .ok (some (Point.raw Q))) :
    ∃ a m', mapToCurve K u m = (.ok (some a), m') ∧ Ret View.pt m Q a m' := by
  obtain ⟨x, y, e, -⟩ := H2C.sswu_spec (m.fe u)
  obtain ⟨l, h, hl, h1, h2⟩ := sswu_run hu e
  obtain ⟨l', h', hl', h5⟩ := isogeny_run (m := m.plus l) (x := m.next + 22) (y := m.next + 25)
    (hK.mono (Writes.plus m l)) (by rw [Mem.plus_next]; omega) (by rw [Mem.plus_next]; omega)
  have ex : (m.plus l).fe (m.next + 22) = x := (Ret.plus h1).2.2.2
  have ey : (m.plus l).fe (m.next + 25) = y := (Ret.plus h2).2.2.2
  rw [ex, ey, Mem.plus_plus, Mem.plus_set (by simp; omega)] at h'
  rw [ex, ey] at h5
  rw [H2C.mapToCurve, e, Res.ok_bind] at hQ'
  have hX : (m.plus ((l ++ l').set 25 (H2C.isogeny x y).2)).fe ((m.plus l).next + 5) = (H2C.isogeny x y).1 := by
    rw [Mem.plus_next, hl, Nat.add_assoc]
    refine (Ret.plus (k := 26 + 5) ?_).2.2.2
    rw [List.getElem?_set_ne (by omega), List.getElem?_append_right (by omega), hl]
    exact h5
  have hY : (m.plus ((l ++ l').set 25 (H2C.isogeny x y).2)).fe (m.next + 25) = (H2C.isogeny x y).2 := by
    refine (Ret.plus (k := 25) ?_).2.2.2
    rw [List.getElem?_set_self (by simp; omega)]
  obtain ⟨a, m', e', r⟩ := fromFieldElems_ret hX hY hQ'
  refine ⟨a, m', ?_, r.since (Writes.plus m _)⟩
  unfold mapToCurve
  rw [Go.bind_run h]
  dsimp only
  rw [Go.bind_run h']
  exact e'

theorem mapToCurve_ret {K : Fin 13 → Addr} (hK : Constants K m) {u : Addr} (hu : u < m.next) :
    Outcome (Writes ∅ m) (mapToCurve K u) m (H2C.mapToCurve (m.fe u)) (Ret View.rawPt.opt m) := by
  obtain ⟨Q, hQ⟩ := H2C.mapToCurve_spec (m.fe u)
  obtain ⟨a, m', h, r⟩ := mapToCurve_run hK hu hQ
  rw [hQ]
  exact ⟨_, m', h, (ret_rawPt r).some⟩

theorem hashToField_ret (P : Prim) (count : Int) (input dst : Bytes) :
    Outcome (Writes ∅ m) (hashToField P count input dst) m (H2C.hashToField P count input dst) (Ret View.fe.list m) := by
  unfold hashToField H2C.hashToField
  refine Outcome.lift (Writes.refl _ _) fun uniform _ => ?_
  refine Outcome.lift (Writes.refl _ _) fun _ _ => ?_
  refine mapM'_ret (I := fun _ => True) (fun _ _ _ _ => trivial) (fun i _ m _ => ?_) trivial
  split_ifs
  · exact ⟨m, rfl, Writes.refl _ _⟩
  · exact newFe_ret _

theorem hashToScalar_ret (P : Prim) (count : Int) (input dst : Bytes) :
    Outcome (Writes ∅ m) (hashToScalar P count input dst) m (H2C.hashToScalar P count input dst) (Ret View.sc.list m) := by
  unfold hashToScalar H2C.hashToScalar
  refine Outcome.lift (Writes.refl _ _) fun uniform _ => ?_
  refine Outcome.lift (Writes.refl _ _) fun _ _ => ?_
  refine mapM'_ret (I := fun _ => True) (fun _ _ _ _ => trivial) (fun i _ m _ => ?_) trivial
  split_ifs
  · exact ⟨m, rfl, Writes.refl _ _⟩
  · exact Outcome.lift_new fun v => newSc_ret v

theorem hashToCurve_ret (P : Prim) {K : Fin 13 → Addr} (hK : Constants K m) (input dst : Bytes) :
    Outcome (Writes ∅ m) (hashToCurve P K input dst) m (H2C.hashToCurve P input dst) (Ret View.rawPt m) := by
  unfold hashToCurve H2C.hashToCurve
  refine Outcome.call (hashToField_ret P 2 input dst) (Writes.refl _ _) fun us os m1 r1 w1 => ?_
  rcases r1.at.cases with ⟨rfl, rfl⟩ | ⟨a0, os, u0, us, rfl, rfl, t0, t⟩
  · exact ⟨m1, rfl, w1⟩
  rcases t.cases with ⟨rfl, rfl⟩ | ⟨a1, os, u1, us, rfl, rfl, t1, t⟩
  · exact ⟨m1, rfl, w1⟩
  rcases t.cases with ⟨rfl, rfl⟩ | ⟨a2, os, u2, us, rfl, rfl, t2, t⟩
  swap
  · exact ⟨m1, rfl, w1⟩
  obtain ⟨Q0, hQ0⟩ := H2C.mapToCurve_spec u0
  obtain ⟨Q1, hQ1⟩ := H2C.mapToCurve_spec u1
  rw [← (at_fe.1 t0).2] at hQ0
  obtain ⟨q0, m2, e2, r2⟩ := mapToCurve_run (hK.mono w1) (at_fe.1 t0).1 hQ0
  have t1' := t1.mono r2.1
  rw [← (at_fe.1 t1').2] at hQ1
  have w2 := w1.trans_empty r2.1
  obtain ⟨q1, m3, e3, r3⟩ := mapToCurve_run (hK.mono w2) (at_fe.1 t1').1 hQ1
  obtain ⟨q, m4, e4, r4⟩ := addPt_in (E := Writes ∅ m) (r2.upto r3.1) r3.at
  rw [(at_fe.1 t0).2] at hQ0
  rw [(at_fe.1 t1').2] at hQ1
  dsimp only
  rw [hQ0, hQ1]
  simp only [Res.ok_bind, H2C.addRaw, Point.ofRaw?_raw]
  refine ⟨q, m4, ?_, ret_rawPt (r4.since w1)⟩
  rw [Go.bind_run e2, Go.bind_run e3]
  exact e4

end Verif.Heap
