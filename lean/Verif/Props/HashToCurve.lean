import Verif.Lemmas.HashToCurve
import Verif.Props.Seed
import Verif.Props.Scalar

/-!
Properties C17, C18: hashing to points, field elements and scalars.  `Rfc9380.expandMessageXmd` is the
transcription of the RFC in `Verif.Spec.Rfc9380`; `Point.raw Q` is the memory representation of a point of the
curve.
-/

namespace Verif

open H2C

/-- Block `i` of 48 bytes. -/
def block48 (b : Bytes) (i : Nat) : Bytes := (b.drop (48 * i)).take 48

theorem H2C.goInt_eq {x : Int} (h : -2 ^ 63 ≤ x) (h' : x < 2 ^ 63) : goInt x = x := by
  rw [goInt, Int.bmod_eq_of_le] <;> norm_num <;> omega

theorem H2C.makeSlice_ok {count : Nat} (h : count * 48 ≤ 8160) : makeSlice count = .ok () := if_neg (by omega)

theorem hashToField_ok (P : Prim) (count : Nat) (input dst : Bytes) (h : count * 48 ≤ 8160) :
    ∃ out, Rfc9380.expandMessageXmd P.sha256 input dst (count * 48) = some out ∧ out.length = count * 48 ∧
      hashToField P count input dst = .ok ((List.range count).map fun i => (beVal (block48 out i) : Fp)) := by
  obtain ⟨out, h1, h2, h3⟩ := (C19_expand_message_xmd_rfc P input dst).1 (count * 48) h
  refine ⟨out, h3, h2, ?_⟩
  have h1' : Xmd.expandMessageXmd P input dst (goInt ((count : Int) * 48)) = .ok out := by
    rw [goInt_eq (by omega) (by omega), ← h1]; push_cast; rfl
  rw [hashToField, h1', Res.ok_bind, makeSlice_ok h, Res.ok_bind, Int.toNat_natCast]
  apply Res.mapM'_ok
  intro i hi
  rw [List.mem_range] at hi
  rw [if_neg (by rw [h2]; nlinarith)]
  rw [(C11_field_wide_reduction _).2 (by simp), block48, Nat.mul_comm]

theorem hashToScalar_ok (P : Prim) (count : Nat) (input dst : Bytes) (h : count * 48 ≤ 8160) :
    ∃ out, Rfc9380.expandMessageXmd P.sha256 input dst (count * 48) = some out ∧ out.length = count * 48 ∧
      hashToScalar P count input dst = .ok ((List.range count).map fun i => (beVal (block48 out i) : Fn)) := by
  obtain ⟨out, h1, h2, h3⟩ := (C19_expand_message_xmd_rfc P input dst).1 (count * 48) h
  refine ⟨out, h3, h2, ?_⟩
  have h1' : Xmd.expandMessageXmd P input dst (goInt ((count : Int) * 48)) = .ok out := by
    rw [goInt_eq (by omega) (by omega), ← h1]; push_cast; rfl
  rw [hashToScalar, h1', Res.ok_bind, makeSlice_ok h, Res.ok_bind, Int.toNat_natCast]
  apply Res.mapM'_ok
  intro i hi
  rw [List.mem_range] at hi
  rw [if_neg (by rw [h2]; nlinarith)]
  rw [(C11_scalar_wide_reduction _).1 (by simp), block48, Nat.mul_comm]

/-- C17: hashing any message under any separator returns a point on the curve, never an error or a panic, whatever
the hash function. -/
theorem C17_hash_to_point_on_curve (P : Prim) (msg dst : Bytes) :
    ∃ Q : Pt, hashToCurve P msg dst = .ok (Point.raw Q) := by
  obtain ⟨out, -, -, h⟩ := hashToField_ok P 2 msg dst (by norm_num)
  obtain ⟨A, hA⟩ := mapToCurve_spec (beVal (block48 out 0) : Fp)
  obtain ⟨B, hB⟩ := mapToCurve_spec (beVal (block48 out 1) : Fp)
  refine ⟨A + B, ?_⟩
  have h' : hashToField P 2 msg dst = .ok [(beVal (block48 out 0) : Fp), (beVal (block48 out 1) : Fp)] := h
  rw [hashToCurve, h', Res.ok_bind]
  simp only [hA, hB, Res.ok_bind, addRaw, Point.ofRaw?_raw]

/-- C17, the map itself: every field element, including the exceptional ones, is mapped to a point of the curve. -/
theorem C17_map_to_curve_total (u : Fp) : ∃ Q : Pt, mapToCurve u = .ok (some (Point.raw Q)) := mapToCurve_spec u

/-- The statements have no hypotheses; the exceptional input `u = 0` is an instance. -/
example : ∃ Q : Pt, mapToCurve 0 = .ok (some (Point.raw Q)) := C17_map_to_curve_total 0

/-- C18: asking for `count` values gives exactly `count` of them, value `i` being the reduction of the `i`-th
48-byte block of the RFC expansion; the request fails exactly when more than 8160 bytes would be needed, and with an error as long as
the number of bytes is an `int` (see C180 for those that are not). -/
theorem C18_hash_to_field_and_scalar (P : Prim) (count : Nat) (hc : count < 2 ^ 63) (input dst : Bytes) :
    (count * 48 ≤ 8160 → ∃ out, Rfc9380.expandMessageXmd P.sha256 input dst (count * 48) = some out ∧
      out.length = count * 48 ∧
      ∃ us ss, hashToField P count input dst = .ok us ∧ hashToScalar P count input dst = .ok ss ∧
        us.length = count ∧ ss.length = count ∧
        ∀ i < count, us[i]? = some (beVal (block48 out i) : Fp) ∧ ss[i]? = some (beVal (block48 out i) : Fn)) ∧
    ((hashToField P count input dst).isOk = false ↔ 8160 < count * 48) ∧
    ((hashToScalar P count input dst).isOk = false ↔ 8160 < count * 48) ∧
    (count * 48 < 2 ^ 63 → ((hashToField P count input dst).isErr = true ↔ 8160 < count * 48) ∧
      ((hashToScalar P count input dst).isErr = true ↔ 8160 < count * 48)) := by
  have herr : 8160 < count * 48 → count * 48 < 2 ^ 63 →
      ∃ e, Xmd.expandMessageXmd P input dst (goInt ((count : Int) * 48)) = .err e := fun h h' => by
    rw [goInt_eq (by omega) (by omega)]
    exact Res.isErr_iff.1 ((C19_expand_message_xmd_rfc P input dst).2.1 _ (by omega))
  have hmake : ¬ count * 48 < 2 ^ 63 → makeSlice count = .panic "makeslice: cap out of range" := fun h => if_pos (by omega)
  refine ⟨fun h => ?_, ⟨fun h => ?_, fun h => ?_⟩, ⟨fun h => ?_, fun h => ?_⟩, fun hi => ⟨⟨fun h => ?_, fun h => ?_⟩, fun h => ?_, fun h => ?_⟩⟩
  · obtain ⟨out, h1, h2, h3⟩ := hashToField_ok P count input dst h
    obtain ⟨out', h1', -, h3'⟩ := hashToScalar_ok P count input dst h
    rw [h1] at h1'
    cases h1'
    refine ⟨out, h1, h2, _, _, h3, h3', by simp, by simp, fun i hi => ?_⟩
    simp [hi]
  · by_contra hle
    obtain ⟨out, -, -, h3⟩ := hashToField_ok P count input dst (by omega)
    rw [h3] at h; cases h
  · by_cases hi : count * 48 < 2 ^ 63
    · obtain ⟨e, he⟩ := herr h hi
      rw [hashToField, he]; rfl
    · rw [hashToField, hmake hi]
      cases Xmd.expandMessageXmd P input dst (goInt ((count : Int) * 48)) <;> rfl
  · by_contra hle
    obtain ⟨out, -, -, h3⟩ := hashToScalar_ok P count input dst (by omega)
    rw [h3] at h; cases h
  · by_cases hi : count * 48 < 2 ^ 63
    · obtain ⟨e, he⟩ := herr h hi
      rw [hashToScalar, he]; rfl
    · rw [hashToScalar, hmake hi]
      cases Xmd.expandMessageXmd P input dst (goInt ((count : Int) * 48)) <;> rfl
  · by_contra hle
    obtain ⟨out, -, -, h3⟩ := hashToField_ok P count input dst (by omega)
    rw [h3] at h; cases h
  · obtain ⟨e, he⟩ := herr h hi
    rw [hashToField, he]; rfl
  · by_contra hle
    obtain ⟨out, -, -, h3⟩ := hashToScalar_ok P count input dst (by omega)
    rw [h3] at h; cases h
  · obtain ⟨e, he⟩ := herr h hi
    rw [hashToScalar, he]; rfl

example : 170 * 48 ≤ 8160 ∧ 8160 < 171 * 48 := by decide

end Verif
