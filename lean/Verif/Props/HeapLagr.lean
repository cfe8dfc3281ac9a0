import Verif.Model.HeapLagr
import Verif.Lemmas.HeapLagrange
import Verif.Lemmas.HeapTranscript
import Verif.Props.HeapProtocol
import Verif.Props.Poly

/-!
C183: whether Lagrange coefficients stay as they are when their caller changes scalars in place.
-/

set_option autoImplicit false

namespace Verif.Heap

/-- Whatever of the objects in `W` gets changed after `m`, interpolating by `l` the values at `samples` of a polynomial with no more
coefficients than there are samples gives, in a new object, its value at `x`; so it does for these values times a point. -/
def KeepsInterpolating (l : List Addr) (x : Fn) (samples : List NodeIndex) (W : Set Obj) (m : Mem) : Prop :=
  ∀ m', Writes W m m' → ∀ (f : List Fn) (y : List Addr), f.length ≤ samples.length → (∀ a ∈ y, a < m'.next) →
    (y.map m'.sc = samples.map (fun i => Poly.evaluateAt f (Scalar.fromNodeIndex i)) →
      ∃ a m'', interpolateScalar l y m' = (.ok a, m'') ∧ Writes ∅ m' m'' ∧ m'.next ≤ a ∧ m''.sc a = Poly.evaluateAt f x) ∧
    ∀ B : Pt, y.map m'.pt = samples.map (fun i => Poly.evaluateAt f (Scalar.fromNodeIndex i) • B) →
      ∃ a m'', interpolatePoint l y m' = (.ok a, m'') ∧ Writes ∅ m' m'' ∧ m'.next ≤ a ∧ m''.pt a = Poly.evaluateAt f x • B

theorem keepsInterpolating {l : List Addr} {x : Fn} {samples : List NodeIndex} {W : Set Obj} {m : Mem} (hne : samples ≠ [])
    (hn : samples.Nodup) (hl : Lagr.atValue x samples = .ok (l.map m.sc)) (hlt : ∀ a ∈ l, a < m.next) (hW : ∀ a ∈ l, Obj.sc a ∉ W) :
    KeepsInterpolating l x samples W m := by
  intro m' w f y hf hy
  have e : l.map m'.sc = l.map m.sc := List.map_congr_left fun a ha => w.sc a (hlt a ha) (hW a ha)
  have hlt' : ∀ a ∈ l, a < m'.next := fun a ha => (hlt a ha).trans_le w.next
  obtain ⟨v, hv, -, h⟩ := C36_lagrange_interpolation x samples hne hn
  obtain rfl : l.map m.sc = v := by
    rw [hl] at hv
    exact Res.ok.inj hv
  obtain ⟨h1, h2⟩ := h f hf
  refine ⟨fun hys => ?_, fun B hys => ?_⟩
  · have r := interpolateScalar_spec l y m' hlt' hy
    rw [e, hys, h1] at r
    obtain ⟨a, m'', h, w', hn, hv⟩ := r
    exact ⟨a, m'', h, w', hn.1, hv⟩
  · have r := interpolatePoint_spec l y m' hlt' hy
    rw [e, hys, h2 B] at r
    obtain ⟨a, m'', h, w', hn, hv⟩ := r
    exact ⟨a, m'', h, w', hn.1, hv⟩

/-- Changing one coefficient by `d` changes the sum by `d` times the sample that goes with it. -/
theorem zipWith_update {M : Type} [AddCommGroup M] [Module Fn M] (s : Addr → Fn) (a : Addr) (d : Fn) (t : Addr → M) (l y : List Addr)
    (hn : l.Nodup) (b : Addr) :
    (a ∉ l → (List.zipWith (fun (c : Fn) (v : M) => c • v) (l.map (Function.update s a (s a + d))) (y.map t)).sum =
      (List.zipWith (fun (c : Fn) (v : M) => c • v) (l.map s) (y.map t)).sum) ∧
    ((a, b) ∈ l.zip y → (List.zipWith (fun (c : Fn) (v : M) => c • v) (l.map (Function.update s a (s a + d))) (y.map t)).sum =
      (List.zipWith (fun (c : Fn) (v : M) => c • v) (l.map s) (y.map t)).sum + d • t b) := by
  induction l generalizing y with
  | nil => simp
  | cons c l ih =>
    obtain ⟨hc, hn⟩ := List.nodup_cons.1 hn
    cases y with
    | nil => simp
    | cons z y =>
      obtain ⟨h1, h2⟩ := ih y hn
      simp only [List.map_cons, List.zipWith_cons_cons, List.sum_cons, List.zip_cons_cons]
      constructor
      · intro h
        rw [List.mem_cons, not_or] at h
        rw [h1 h.2, Function.update_of_ne (Ne.symm h.1)]
      · intro h
        rcases List.mem_cons.1 h with h | h
        · obtain ⟨rfl, rfl⟩ := Prod.mk.inj h
          rw [h1 hc, Function.update_self, add_smul]
          abel
        · have hca : c ≠ a := fun e => hc (e ▸ (List.of_mem_zip h).1)
          rw [h2 h, Function.update_of_ne hca]
          abel

/-- C183 is false.  `New(coefficients)` and `Coefficients` share the scalars with the caller: when `d` is added in place to one of them, every
interpolation gives from then on a value that differs by `d` times the sample at this place. -/
theorem C183_false (m : Mem) (l : List Addr) (hn : l.Nodup) (hlt : ∀ a ∈ l, a < m.next) (a d b : Addr) (y : List Addr)
    (hy : ∀ a ∈ y, a < m.next) (hlen : y.length = l.length) (hab : (a, b) ∈ l.zip y) :
    newLagrange l m = (.ok l, m) ∧ lagrangeCoefficients l m = (.ok l, m) ∧
    ∃ m', addSc a a d m = (.ok a, m') ∧
      (a ∉ y → ∃ r r' m1 m2, interpolateScalar l y m = (.ok r, m1) ∧ interpolateScalar l y m' = (.ok r', m2) ∧
        m2.sc r' = m1.sc r + m.sc d * m.sc b ∧ (m.sc d ≠ 0 → m.sc b ≠ 0 → m2.sc r' ≠ m1.sc r)) ∧
      ∃ r r' m1 m2, interpolatePoint l y m = (.ok r, m1) ∧ interpolatePoint l y m' = (.ok r', m2) ∧
        m2.pt r' = m1.pt r + m.sc d • m.pt b ∧ (m.sc d ≠ 0 → m.pt b ≠ 0 → m2.pt r' ≠ m1.pt r) := by
  have hal : a ∈ l := (List.of_mem_zip hab).1
  have hl0 : l ≠ [] := fun e => by rw [e] at hal; exact List.not_mem_nil hal
  have hl0' : ∀ f : Addr → Fn, l.map f ≠ [] := fun f e => hl0 (List.map_eq_nil_iff.1 e)
  refine ⟨?_, rfl, m.setSc a (m.sc a + m.sc d), rfl, fun hay => ?_, ?_⟩
  · rw [newLagrange, if_neg (by simpa using hl0)]
    rfl
  · have r := interpolateScalar_spec l y m hlt hy
    have r' := interpolateScalar_spec l y (m.setSc a (m.sc a + m.sc d)) hlt hy
    rw [Lagr.interpolateScalar_eq (by simpa using hlen) (hl0' _)] at r r'
    obtain ⟨x, m1, h1, -, -, v1⟩ := r
    obtain ⟨x', m2, h2, -, -, v2⟩ := r'
    have hys : y.map (m.setSc a (m.sc a + m.sc d)).sc = y.map m.sc :=
      List.map_congr_left fun c hc => Function.update_of_ne (fun e => hay (by rwa [← e])) _ _
    have hcomm : (fun c s : Fn => s * c) = fun c s : Fn => c • s := by
      funext c s
      rw [smul_eq_mul, mul_comm]
    have key : m2.sc x' = m1.sc x + m.sc d * m.sc b := by
      rw [v1, v2, hys, hcomm]
      exact (zipWith_update m.sc a (m.sc d) m.sc l y hn b).2 hab
    exact ⟨x, x', m1, m2, h1, h2, key, fun hd hb e => mul_ne_zero hd hb (by rw [key] at e; simpa using e)⟩
  · have r := interpolatePoint_spec l y m hlt hy
    have r' := interpolatePoint_spec l y (m.setSc a (m.sc a + m.sc d)) hlt hy
    rw [Lagr.interpolatePoint_eq (by simpa using hlen) (hl0' _)] at r r'
    obtain ⟨x, m1, h1, -, -, v1⟩ := r
    obtain ⟨x', m2, h2, -, -, v2⟩ := r'
    have key : m2.pt x' = m1.pt x + m.sc d • m.pt b := by
      rw [v1, v2]
      exact (zipWith_update m.sc a (m.sc d) m.pt l y hn b).2 hab
    refine ⟨x, x', m1, m2, h1, h2, key, fun hd hb e => ?_⟩
    have h0 : m.sc d • m.pt b = 0 := by rw [key] at e; simpa using e
    exact (smul_ne_zero hd hb) h0

/-- C183, the part that holds.  The coefficients that `AtValue` and `AtZero` return go on interpolating at the value they were made for,
whatever is done to the objects that existed before the call, among them the value itself, and to what interpolations return.  Missing: `New`
and `Coefficients`, see `C183_false`. -/
theorem C183_made_partial (m : Mem) (W : Set Obj) (hW : ∀ x ∈ W, x.addr < m.next) (samples : List NodeIndex) (hne : samples ≠ [])
    (hn : samples.Nodup) :
    (∀ value, value < m.next → ∃ l m', atValue value samples m = (.ok l, m') ∧ Writes ∅ m m' ∧
      KeepsInterpolating l (m.sc value) samples W m') ∧
    (∃ l m', atZero samples m = (.ok l, m') ∧ Writes ∅ m m' ∧ KeepsInterpolating l 0 samples W m') ∧
    ∀ (l : List Addr) (x : Fn), Lagr.atValue x samples = .ok (l.map m.sc) → (∀ a ∈ l, a < m.next) →
      ∀ (y : List Addr) (r : Addr) (m' : Mem), (∀ a ∈ y, a < m.next) →
        (interpolateScalar l y m = (.ok r, m') → KeepsInterpolating l x samples {.sc r} m') ∧
        (interpolatePoint l y m = (.ok r, m') → KeepsInterpolating l x samples {.pt r} m') := by
  obtain ⟨v, hv, -, -⟩ := C36_lagrange_interpolation 0 samples hne hn
  refine ⟨fun value hval => ?_, ?_, fun l x hl hlt y r m' hy => ⟨fun h => ?_, fun h => ?_⟩⟩
  · obtain ⟨v, hv, -, -⟩ := C36_lagrange_interpolation (m.sc value) samples hne hn
    have r := atValue_spec value samples m hval
    rw [hv] at r
    obtain ⟨l, m', h, w, ha, -, e⟩ := r
    exact ⟨l, m', h, w, keepsInterpolating hne hn (by rw [hv, e]) (fun a h => (ha a h).2) fun a h h' =>
      absurd (hW _ h') (not_lt.2 (ha a h).1)⟩
  · have r := atZero_spec samples m
    rw [show Lagr.atZero samples = .ok v from hv] at r
    obtain ⟨l, m', h, w, ha, -, e⟩ := r
    exact ⟨l, m', h, w, keepsInterpolating hne hn (by rw [hv, e]) (fun a h => (ha a h).2) fun a h h' =>
      absurd (hW _ h') (not_lt.2 (ha a h).1)⟩
  · obtain ⟨v, -, w, hr, -⟩ := (interpolateScalar_spec l y m hlt hy).of_ok h
    refine keepsInterpolating hne hn ?_ (fun a ha => (hlt a ha).trans_le w.next) fun a ha h => ?_
    · rw [hl]
      exact congrArg _ (List.map_congr_left fun a ha => (w.sc0 (hlt a ha)).symm)
    · have e : a = r := by simpa using h
      exact absurd (hlt a ha) (not_lt.2 (e ▸ hr.1))
  · obtain ⟨v, -, w, hr, -⟩ := (interpolatePoint_spec l y m hlt hy).of_ok h
    refine keepsInterpolating hne hn ?_ (fun a ha => (hlt a ha).trans_le w.next) fun a ha h => ?_
    · rw [hl]
      exact congrArg _ (List.map_congr_left fun a ha => (w.sc0 (hlt a ha)).symm)
    · exact absurd h (by simp)

/-- With coefficients in the objects 0 and 1 and samples in 2 and 3, adding the 5 in object 4 to the first coefficient changes the value by 35. -/
example : ∃ (m m' m1 m2 : Mem) (l : List Addr) (r r' : Addr), newLagrange [0, 1] m = (.ok l, m) ∧ addSc 0 0 4 m = (.ok 0, m') ∧
    interpolateScalar l [2, 3] m = (.ok r, m1) ∧ interpolateScalar l [2, 3] m' = (.ok r', m2) ∧ m2.sc r' = m1.sc r + 35 ∧
    m2.sc r' ≠ m1.sc r := by
  set m : Mem := ⟨fun a => if a = 4 then 5 else 7, fun _ => G, fun _ => [], fun _ => 0, 5, ∅⟩ with hm
  obtain ⟨h1, -, m', h2, h, -⟩ := C183_false m [0, 1] (by simp) (by simp [hm]) 0 4 2 [2, 3] (by simp [hm]) rfl (by simp)
  obtain ⟨r, r', m1, m2, h3, h4, h5, h6⟩ := h (by simp)
  refine ⟨m, m', m1, m2, _, r, r', h1, h2, h3, h4, ?_, h6 ?_ ?_⟩
  · rw [h5, show m.sc 4 * m.sc 2 = 35 by decide +kernel]
  all_goals decide +kernel

/-- Coefficients for the nodes 0, 2 and 1 at the value in object 0 go on interpolating when this object is overwritten. -/
example : ∃ (m m' : Mem) (l : List Addr), atValue 0 [0, 2, 1] m = (.ok l, m') ∧ KeepsInterpolating l 9 [0, 2, 1] {.sc 0} m' := by
  obtain ⟨l, m', h, -, k⟩ := (C183_made_partial ⟨fun _ => 9, fun _ => G, fun _ => [], fun _ => 0, 1, ∅⟩ {.sc 0}
    (by rintro x rfl; exact Nat.one_pos) [0, 2, 1] (by simp) (by decide)).1 0 Nat.one_pos
  exact ⟨_, m', l, h, k⟩

end Verif.Heap
