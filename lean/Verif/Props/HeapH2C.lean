import Verif.Lemmas.HeapH2C
import Verif.Props.HashToCurve
import Verif.Props.HeapDealings

/-!
C126: the pointer code of hashing to the curve.

The statements quantify over every memory and every choice of existing arguments, which may be the same object or share
objects in any way, also with the global constants.
-/

set_option autoImplicit false

namespace Verif.Heap

open Mega (zeroPrim)

attribute [local irreducible] H2C.hashToField H2C.hashToScalar H2C.hashToCurve H2C.mapToCurve H2C.sswu H2C.sqrtRatio
  H2C.isogeny

section

variable (P : Prim) (m : Mem) (K : Fin 13 → Addr) (input dst : Bytes)

/-- C126: the steps that make new objects only.  In particular `u`, `v` and the constants keep their values. -/
theorem C126_steps (u v : Addr) (choice : Nat) (hu : u < m.next) (hv : v < m.next) :
    Outcome (Writes ∅ m) (cmov u v choice) m (.ok (if choice = 1 then m.fe v else m.fe u)) (Ret View.fe m) ∧
    Outcome (Writes ∅ m) (sqrtRatio u v) m (H2C.sqrtRatio (m.fe u) (m.fe v)) (Ret (View.fe.prod View.data) m) ∧
    Outcome (Writes ∅ m) (sswu u) m (H2C.sswu (m.fe u)) (Ret (View.fe.prod View.fe) m) :=
  ⟨cmov_ret hu hv, sqrtRatio_ret hu hv, sswu_ret hu⟩

/-- C126: the isogeny overwrites its second argument, which is also its second result, and nothing else; the results are
right even if both arguments are one object or are themselves constants. -/
theorem C126_isogeny (hK : Constants K m) (x y : Addr) (hx : x < m.next) (hy : y < m.next) :
    ∃ x' m', isogeny K x y m = (.ok (x', y), m') ∧ Writes {.fe y} m m' ∧ New m m' x' ∧
      (m'.fe x', m'.fe y) = H2C.isogeny (m.fe x) (m.fe y) := by
  obtain ⟨x', m', e, w, h1, h2, h⟩ := isogeny_ret hK hx hy
  exact ⟨x', m', e, w, ⟨h1, h2⟩, h⟩

/-- C126: mapping a field element and hashing make new objects, no two the same; nothing that existed, the constants
included, is changed. -/
theorem C126_hash (hK : Constants K m) (u : Addr) (hu : u < m.next) (count : Int) :
    Outcome (Writes ∅ m) (mapToCurve K u) m (H2C.mapToCurve (m.fe u)) (Ret View.rawPt.opt m) ∧
    Outcome (Writes ∅ m) (hashToField P count input dst) m (H2C.hashToField P count input dst) (Ret View.fe.list m) ∧
    Outcome (Writes ∅ m) (hashToScalar P count input dst) m (H2C.hashToScalar P count input dst) (Ret View.sc.list m) ∧
    Outcome (Writes ∅ m) (hashToCurve P K input dst) m (H2C.hashToCurve P input dst) (Ret View.rawPt m) :=
  ⟨mapToCurve_ret hK hu, hashToField_ret P count input dst, hashToScalar_ret P count input dst,
    hashToCurve_ret P hK input dst⟩

/-- C126, one after the other: a hash is a point of the curve in a new object.  The caller may then change that object, and
whatever else except the constants: hashing the same bytes again gives another object with the point that the first hash
had, and leaves the caller's changes alone. -/
theorem C126_hash_again (hK : Constants K m) :
    ∃ Q q m1, hashToCurve P K input dst m = (.ok q, m1) ∧ m1.pt q = Q ∧ New m m1 q ∧ Writes ∅ m m1 ∧
      ∀ W m2, Writes W m1 m2 → (∀ i, .fe (K i) ∉ W) →
        ∃ q' m3, hashToCurve P K input dst m2 = (.ok q', m3) ∧ m3.pt q' = Q ∧ q' ≠ q ∧ m3.pt q = m2.pt q ∧
          Writes ∅ m2 m3 := by
  obtain ⟨Q, hQ⟩ := C17_hash_to_point_on_curve P input dst
  have key : ∀ m, Constants K m → ∃ q m1, hashToCurve P K input dst m = (.ok q, m1) ∧ m1.pt q = Q ∧ New m m1 q ∧
      Writes ∅ m m1 := by
    intro m hK
    have h := hashToCurve_ret P hK input dst
    rw [hQ] at h
    obtain ⟨q, m1, e, r⟩ := h
    refine ⟨q, m1, e, ?_, r.2.1 (.pt q) (by simp [View.rawPt, View.via, View.pt]), r.1⟩
    have := congrArg Point.ofRaw? r.2.2.2
    simpa [View.rawPt, View.via, View.pt, Point.ofRaw?_raw] using this
  obtain ⟨q, m1, e, hq, n, w⟩ := key m hK
  refine ⟨Q, q, m1, e, hq, n, w, fun W m2 w2 hW => ?_⟩
  have hK2 : Constants K m2 := fun i => by
    have hk := hK.mono w i
    exact ⟨hk.1.trans_le w2.next, (w2.fe _ hk.1 (hW i)).trans hk.2⟩
  obtain ⟨q', m3, e3, hq3, n3, w3⟩ := key m2 hK2
  have hlt : q < m2.next := n.2.trans_le w2.next
  exact ⟨q', m3, e3, hq3, by have := n3.1; omega, w3.pt q hlt (Set.notMem_empty _), w3⟩

end

/-- A memory in which the constants lie at the addresses 0 to 12 and nothing else exists. -/
def constantsOnly : Mem :=
  ⟨fun _ => 0, fun _ => 0, fun _ => [], fun a => if h : a < 13 then isogenyConstant ⟨a, h⟩ else 0, 13, ∅⟩

theorem constants_constantsOnly : Constants (fun i => i.val) constantsOnly := fun i => ⟨i.2, by simp [constantsOnly]⟩

/-- C126: the hypothesis about the constants is met. -/
example : ∃ q m1, hashToCurve zeroPrim (fun i => i.val) [1, 2] [3] constantsOnly = (.ok q, m1) ∧
    ∀ i, Constants (fun i => i.val) m1 ∧ m1.fe (i : Fin 13).val = isogenyConstant i := by
  obtain ⟨Q, q, m1, e, -, -, w, -⟩ := C126_hash_again zeroPrim constantsOnly _ [1, 2] [3] constants_constantsOnly
  exact ⟨q, m1, e, fun i => ⟨constants_constantsOnly.mono w, (constants_constantsOnly.mono w i).2⟩⟩

/-- C126: the input of the map is one of the constants. -/
example : Outcome (Writes ∅ constantsOnly) (mapToCurve (fun i => i.val) 3) constantsOnly
    (H2C.mapToCurve H2C.c3) (Ret View.rawPt.opt constantsOnly) :=
  (C126_hash zeroPrim constantsOnly _ [] [] constants_constantsOnly 3 (by decide) 0).1

/-- C126: both arguments of the isogeny are the same constant; its value is gone afterwards, and the result is right. -/
example : ∃ x' m', isogeny (fun i => i.val) 3 3 constantsOnly = (.ok (x', 3), m') ∧
    (m'.fe x', m'.fe 3) = H2C.isogeny H2C.c3 H2C.c3 ∧ m'.fe 4 = H2C.c4 := by
  obtain ⟨x', m', e, w, -, h⟩ := C126_isogeny constantsOnly _ constants_constantsOnly 3 3 (by decide) (by decide)
  exact ⟨x', m', e, h, w.fe 4 (by decide) (by simp)⟩

end Verif.Heap
