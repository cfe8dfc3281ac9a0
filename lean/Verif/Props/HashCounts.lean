import Verif.Props.HashToCurve
import Verif.Model.Ro

/-!
C180: requests for amounts of hash output that cannot be met.
-/

set_option autoImplicit false

namespace Verif

open H2C

theorem Res.isPanic_of_isOk {α : Type} {r : Res α} (h : r.isOk = true) : r.isPanic = false := by
  cases r <;> first | rfl | exact absurd h Bool.false_ne_true

theorem Res.of_isErr {α : Type} {r : Res α} (h : r.isErr = true) : r.isOk = false ∧ r.isPanic = false := by
  cases r <;> first | exact ⟨rfl, rfl⟩ | exact absurd h Bool.false_ne_true

theorem H2C.makeSlice_panic {count : Int} (h : count < 0 ∨ 2 ^ 44 < count) : makeSlice count = .panic "makeslice: cap out of range" :=
  if_pos h

/-- C180 is false: for a negative length, for a negative number of values and for a number so large that the number of bytes
overflows, the functions panic.  Here the numbers are `-1` and `2 ^ 60`. -/
theorem C180_false (P : Prim) (input dst : Bytes) (r : Ro) (hr : r.inputs ≠ []) :
    (∀ length : Int, length < 0 → (Xmd.expandMessageXmd P input dst length).isPanic = true ∧
      (r.outputByteString P length).isPanic = true) ∧
    ∀ count : Int, count = -1 ∨ count = 2 ^ 60 → (hashToField P count input dst).isPanic = true ∧
      (hashToScalar P count input dst).isPanic = true ∧ (r.outputScalars P count).isPanic = true := by
  have hf : ∃ b, r.formRoInput = .ok b := ⟨_, if_neg (by simpa using hr)⟩
  obtain ⟨b, hb⟩ := hf
  have hx : ∀ input dst, ∀ length : Int, length < 0 → (Xmd.expandMessageXmd P input dst length).isPanic = true := fun input dst =>
    (C19_expand_message_xmd_rfc P input dst).2.2.2
  have hc : ∀ count : Int, count = -1 ∨ count = 2 ^ 60 → ∀ input dst, (hashToField P count input dst).isPanic = true ∧
      (hashToScalar P count input dst).isPanic = true := by
    rintro count (rfl | rfl) input dst
    · have h := hx input dst (goInt (-1 * 48)) (by decide)
      rw [hashToField, hashToScalar]
      cases h' : Xmd.expandMessageXmd P input dst (goInt (-1 * 48)) <;> rw [h'] at h <;> first | exact ⟨rfl, rfl⟩ | exact absurd h Bool.false_ne_true
    · obtain ⟨out, h, -⟩ := (C19_expand_message_xmd_rfc P input dst).1 0 (by norm_num)
      have e : goInt (2 ^ 60 * 48) = ((0 : Nat) : Int) := by decide
      rw [hashToField, hashToScalar, e, h, Res.ok_bind, Res.ok_bind, makeSlice_panic (by norm_num)]
      exact ⟨rfl, rfl⟩
  refine ⟨fun length hl => ⟨hx input dst length hl, ?_⟩, fun count h => ⟨(hc count h _ _).1, (hc count h _ _).2, ?_⟩⟩
  · rw [Ro.outputByteString, hb]
    exact hx _ _ _ hl
  · rw [Ro.outputScalars, hb]
    exact (hc count h _ _).2

/-- C180, the part that holds: no values are returned for any other number than 0 to 170, and no bytes for any other length than 0 to
8160; and lengths and numbers that are not negative, and for which the number of bytes is an `int`, are refused with an error.  Missing:
that there is no panic for the others, see `C180_false`. -/
theorem C180_counts_partial (P : Prim) (input dst : Bytes) (count length : Int) (hc : -2 ^ 63 ≤ count) (hc' : count < 2 ^ 63) :
    ((Xmd.expandMessageXmd P input dst length).isOk = true ↔ 0 ≤ length ∧ length ≤ 8160) ∧
    ((hashToField P count input dst).isOk = true ↔ 0 ≤ count ∧ count ≤ 170) ∧
    ((hashToScalar P count input dst).isOk = true ↔ 0 ≤ count ∧ count ≤ 170) ∧
    (0 ≤ length → (Xmd.expandMessageXmd P input dst length).isPanic = false) ∧
    (0 ≤ count → count * 48 < 2 ^ 63 →
      (hashToField P count input dst).isPanic = false ∧ (hashToScalar P count input dst).isPanic = false) := by
  have hx : ∀ length : Int, ((Xmd.expandMessageXmd P input dst length).isOk = true ↔ 0 ≤ length ∧ length ≤ 8160) ∧
      (0 ≤ length → (Xmd.expandMessageXmd P input dst length).isPanic = false) := by
    intro length
    obtain ⟨h1, h2, -, h4⟩ := C19_expand_message_xmd_rfc P input dst
    rcases lt_or_ge length 0 with hn | hn
    · have := h4 length hn
      exact ⟨⟨fun h => absurd this (by rw [Res.isPanic_of_isOk h]; decide), fun h => by omega⟩, fun h => by omega⟩
    · rcases le_or_gt length 8160 with hl | hl
      · obtain ⟨out, ho, -⟩ := h1 length.toNat (by omega)
        rw [Int.toNat_of_nonneg hn] at ho
        rw [ho]
        exact ⟨⟨fun _ => ⟨hn, hl⟩, fun _ => rfl⟩, fun _ => rfl⟩
      · have := h2 length hl
        exact ⟨⟨fun h => absurd h (by rw [(Res.of_isErr this).1]; decide), fun h => by omega⟩, fun _ => (Res.of_isErr this).2⟩
  have hcount : ∀ count : Int, -2 ^ 63 ≤ count → count < 2 ^ 63 →
      ((hashToField P count input dst).isOk = true ↔ 0 ≤ count ∧ count ≤ 170) ∧
      ((hashToScalar P count input dst).isOk = true ↔ 0 ≤ count ∧ count ≤ 170) := by
    intro count hc hc'
    rcases lt_or_ge count 0 with hn | hn
    · rw [hashToField, hashToScalar, makeSlice_panic (.inl hn)]
      constructor <;> refine ⟨fun h => ?_, fun h => by omega⟩ <;>
        cases h' : Xmd.expandMessageXmd P input dst (goInt (count * 48)) <;> rw [h'] at h <;> cases h
    · obtain ⟨k, rfl⟩ := Int.eq_ofNat_of_zero_le hn
      obtain ⟨-, h2, h3, -⟩ := C18_hash_to_field_and_scalar P k (by omega) input dst
      constructor
      · rw [← Bool.not_eq_false, h2]
        omega
      · rw [← Bool.not_eq_false, h3]
        omega
  refine ⟨(hx length).1, (hcount count hc hc').1, (hcount count hc hc').2, (hx length).2, fun h0 h48 => ?_⟩
  rcases le_or_gt count 170 with hl | hl
  · have h1 := (hcount count hc hc').1.2 ⟨h0, hl⟩
    have h2 := (hcount count hc hc').2.2 ⟨h0, hl⟩
    exact ⟨Res.isPanic_of_isOk h1, Res.isPanic_of_isOk h2⟩
  · obtain ⟨k, rfl⟩ := Int.eq_ofNat_of_zero_le h0
    obtain ⟨-, -, -, h4⟩ := C18_hash_to_field_and_scalar P k (by omega) input dst
    obtain ⟨h5, h6⟩ := h4 (by omega)
    exact ⟨(Res.of_isErr (h5.2 (by omega))).2, (Res.of_isErr (h6.2 (by omega))).2⟩

/-- C180 for the outputs of transcripts: without inputs there is always an error, and otherwise the same holds as for the functions
above. -/
theorem C180_transcripts_partial (P : Prim) (r : Ro) (count length : Int) (hc : -2 ^ 63 ≤ count) (hc' : count < 2 ^ 63) :
    (r.inputs = [] → (r.outputByteString P length).isErr = true ∧ (r.outputScalars P count).isErr = true) ∧
    ((r.outputByteString P length).isOk = true ↔ r.inputs ≠ [] ∧ 0 ≤ length ∧ length ≤ 8160) ∧
    ((r.outputScalars P count).isOk = true ↔ r.inputs ≠ [] ∧ 0 ≤ count ∧ count ≤ 170) ∧
    (0 ≤ length → (r.outputByteString P length).isPanic = false) ∧
    (0 ≤ count → count * 48 < 2 ^ 63 → (r.outputScalars P count).isPanic = false) := by
  by_cases hr : r.inputs = []
  · have hb : ∃ e, r.formRoInput = .err e := ⟨_, if_pos (by rw [hr]; rfl)⟩
    obtain ⟨e, hb⟩ := hb
    rw [Ro.outputByteString, Ro.outputScalars, hb]
    exact ⟨fun _ => ⟨rfl, rfl⟩, ⟨fun h => absurd h Bool.false_ne_true, fun h => absurd hr h.1⟩,
      ⟨fun h => absurd h Bool.false_ne_true, fun h => absurd hr h.1⟩, fun _ => rfl, fun _ _ => rfl⟩
  · have hb : ∃ b, r.formRoInput = .ok b := ⟨_, if_neg (by simpa using hr)⟩
    obtain ⟨b, hb⟩ := hb
    rw [Ro.outputByteString, Ro.outputScalars, hb, Res.ok_bind, Res.ok_bind]
    obtain ⟨h1, -, -, h4, -⟩ := C180_counts_partial P b r.domainSeparator count length hc hc'
    obtain ⟨-, -, h3, -, h5⟩ := C180_counts_partial P b r.curveDst count length hc hc'
    exact ⟨fun h => absurd h hr, ⟨fun h => ⟨hr, h1.1 h⟩, fun h => h1.2 h.2⟩, ⟨fun h => ⟨hr, h3.1 h⟩, fun h => h3.2 h.2⟩, h4,
      fun h h' => (h5 h h').2⟩

/-- 171 values are refused with an error, `2 ^ 60` with a panic. -/
example (P : Prim) (input dst : Bytes) : (hashToScalar P 171 input dst).isErr = true ∧ (hashToScalar P (2 ^ 60) input dst).isPanic = true :=
  ⟨(((C18_hash_to_field_and_scalar P 171 (by norm_num) input dst).2.2.2 (by norm_num)).2).2 (by norm_num),
    ((C180_false P input dst ⟨[], 0, [([1], [])]⟩ (by simp)).2 (2 ^ 60) (.inr rfl)).2.1⟩

end Verif
