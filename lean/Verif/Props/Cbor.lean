import Verif.Lemmas.Cbor
import Verif.Lemmas.Ro
import Verif.Props.Commitment

/-!
C139–C141: the bytes of serialised scalars, points, openings and commitments.
-/

namespace Verif

open Cbor

/-- The document of an opening: a map of three entries. -/
def Cbor.openingDoc (l : List Bytes) : Item :=
  .map [.text (ascii "CurveType"), .unsigned 1, .text (ascii "CommitType"), .unsigned 1,
    .text (ascii "Message"), .array (l.map Item.bytes)]

/-- The document of a commitment: a map of three entries. -/
def Cbor.commitmentDoc (kind : Nat) (l : List Bytes) : Item :=
  .map [.text (ascii "CurveType"), .unsigned 1, .text (ascii "CommitmentType"), .unsigned kind,
    .text (ascii "Message"), .array (l.map Item.bytes)]

/-- The number of a kind of commitments. -/
def Kind.number : Kind → Nat
  | .simple => 1
  | .pedersen => 2

/-- The scalars of an opening: the value, and the mask if there is one. -/
def Opening.scalars : Opening → List Fn
  | .simple v | .simplePtr v => [v]
  | .pedersen v m | .pedersenPtr v m => [v, m]

theorem Cbor.bytes_injective {l m : List Bytes} (h : l.map Item.bytes = m.map Item.bytes) : l = m :=
  List.map_injective_iff.2 (fun _ _ h => by simpa using h) h

/-! ### C139 -/

/-- C139: a scalar and a point are written as one CBOR byte string, the tagged encoding. -/
theorem C139_scalar_point (s : Fn) (P : Pt) :
    Is (Scalar.marshalCBOR s) (.bytes (Scalar.serializeTagged s)) ∧ Is (Point.marshalCBOR P) (.bytes (Point.serializeTagged P)) :=
  ⟨(reads_bytes (by rw [Ro.wf_tagged_scalar]; norm_num)).is, (reads_bytes (by rw [Ro.wf_tagged_point]; norm_num)).is⟩

/-- C139: an opening is written as a CBOR map with the curve type, the commitment type — always that of a simple one — and the
array of its scalars, and as nothing else. -/
theorem C139_opening (o : Opening) :
    Is o.serializeBytes (openingDoc (o.scalars.map Scalar.serializeTagged)) ∧
    ∀ x, Is o.serializeBytes x → x = openingDoc (o.scalars.map Scalar.serializeTagged) := by
  have h : Is o.serializeBytes (openingDoc (o.scalars.map Scalar.serializeTagged)) := by
    have hl : ∀ l : List Fn, ∀ b ∈ l.map Scalar.serializeTagged, b.length < 2 ^ 64 := fun l b hb => by
      obtain ⟨s, -, rfl⟩ := List.mem_map.1 hb
      rw [Ro.wf_tagged_scalar]; norm_num
    have hs : ∀ l : List Fn, l.length < 2 ^ 64 → Is (OpeningWire.marshal ⟨K256, Kind.toInt .simple, l.map Scalar.serializeTagged⟩)
        (openingDoc (l.map Scalar.serializeTagged)) := fun l hn =>
      (reads_struct (by decide +kernel) (by decide +kernel) (by decide +kernel) (reads_unsigned (n := 1) (by norm_num))
        (reads_unsigned (n := 1) (by norm_num)) (reads_strings (by simpa using hn) (hl l))).is
    cases o with
    | simple v => exact hs [v] (by simp)
    | simplePtr v => exact hs [v] (by simp)
    | pedersen v m => exact hs [v, m] (by simp)
    | pedersenPtr v m => exact hs [v, m] (by simp)
  exact ⟨h, fun x hx => hx.unique h⟩

/-- C139: a commitment with at least one point is written as a CBOR map with the curve type, its kind (1 for simple ones, 2 for
those with masks) and the array of its points, and as nothing else.  (Go slices are shorter than `2 ^ 64`.) -/
theorem C139_commitment (c : Commitment) (hne : c.points ≠ []) (hlen : c.points.length < 2 ^ 64) :
    ∃ b, c.serializeBytes = .ok b ∧
      Is b (commitmentDoc c.kind.number (c.points.map Point.serializeTagged)) ∧
      ∀ x, Is b x →
        x = commitmentDoc c.kind.number (c.points.map Point.serializeTagged) := by
  obtain ⟨k, l⟩ := c
  have hl : ∀ b ∈ l.map Point.serializeTagged, b.length < 2 ^ 64 := fun b hb => by
    obtain ⟨s, -, rfl⟩ := List.mem_map.1 hb
    rw [Ro.wf_tagged_point]; norm_num
  have hs : Is (CommitmentWire.marshal ⟨K256, k.toInt, l.map Point.serializeTagged⟩)
      (commitmentDoc k.number (l.map Point.serializeTagged)) := by
    have hk : Reads (marshalInt k.toInt) (.unsigned k.number) := by
      cases k
      · exact reads_unsigned (n := 1) (by norm_num)
      · exact reads_unsigned (n := 2) (by norm_num)
    exact (reads_struct (by decide +kernel) (by decide +kernel) (by decide +kernel) (reads_unsigned (n := 1) (by norm_num)) hk
      (reads_strings (by simpa using hlen) hl)).is
  cases l with
  | nil => exact absurd rfl hne
  | cons P l => exact ⟨_, rfl, hs, fun x hx => hx.unique hs⟩

/-- C139: integers of either sign (such as the type codes) are written as the CBOR integers of this value. -/
theorem C139_integers (i : Int) (h : -2 ^ 64 ≤ i) (h' : i < 2 ^ 64) :
    ∃ x, Is (marshalInt i) x ∧ (∀ y, Is (marshalInt i) y → y = x) ∧
      ((∃ n : Nat, x = .unsigned n ∧ i = n) ∨ ∃ n : Nat, x = .negative n ∧ i = -1 - n) := by
  rw [marshalInt]
  split_ifs with h0
  · have hr := (reads_unsigned (n := i.toNat) (by omega)).is
    exact ⟨_, hr, fun y hy => hy.unique hr, Or.inl ⟨_, rfl, by omega⟩⟩
  · have hr : Reads (head 1 (-1 - i).toNat) (.negative (-1 - i).toNat) := fun rest =>
      ⟨1, by rw [readItem, readHead_head (by norm_num) (by omega)]; rfl⟩
    exact ⟨_, hr.is, fun y hy => hy.unique hr.is, Or.inr ⟨_, rfl, by omega⟩⟩

/-- C139: an empty commitment cannot be written. -/
theorem C139_empty (k : Kind) : (Commitment.serializeBytes ⟨k, []⟩).isPanic = true := rfl

/-- C139: the number of bytes. -/
theorem C139_length (o : Opening) (c : Commitment) (b : Bytes) (h : c.serializeBytes = .ok b) :
    o.serializeBytes.length = (match o.scalars.length with | 1 => 68 | _ => 103) ∧
    b.length = 36 + (if c.points.length < 24 then 1 else if c.points.length < 256 then 2 else if c.points.length < 65536 then 3
      else if c.points.length < 4294967296 then 5 else 9) + 36 * c.points.length := by
  have hS : ∀ s, (marshalBytes (Scalar.serializeTagged s)).length = 35 := fun s => by
    rw [marshalBytes, List.length_append, length_head, Ro.wf_tagged_scalar]; rfl
  have hP : ∀ P, (marshalBytes (Point.serializeTagged P)).length = 36 := fun P => by
    rw [marshalBytes, List.length_append, length_head, Ro.wf_tagged_point]; rfl
  have hT : ∀ b : Bytes, b.length < 24 → (marshalText b).length = 1 + b.length := fun b hb => by
    rw [marshalText, List.length_append, length_head, if_pos hb]
  have e1 : (ascii "CurveType").length = 9 := by decide +kernel
  have e2 : (ascii "CommitType").length = 10 := by decide +kernel
  have e3 : (ascii "Message").length = 7 := by decide +kernel
  have e4 : (ascii "CommitmentType").length = 14 := by decide +kernel
  have t1 := hT _ (e1.trans_lt (by norm_num))
  have t2 := hT _ (e2.trans_lt (by norm_num))
  have t3 := hT _ (e3.trans_lt (by norm_num))
  have t4 := hT _ (e4.trans_lt (by norm_num))
  have hi : ∀ i : Int, 0 ≤ i → i < 24 → (marshalInt i).length = 1 := fun i h0 h1 => by
    rw [marshalInt, if_pos h0, length_head, if_pos (by omega)]
  constructor
  · cases o <;> simp [Opening.scalars, Opening.serializeBytes, Opening.serialize, OpeningWire.marshal, marshalStruct, marshalArray,
      length_head, hS, t1, t2, t3, e1, e2, e3, hi, K256, Kind.toInt]
  · obtain ⟨k, l⟩ := c
    cases l with
    | nil => cases h
    | cons P l =>
      cases h
      have hk : (marshalInt k.toInt).length = 1 := by cases k <;> rfl
      have hsum : ∀ l : List Pt, ((l.map Point.serializeTagged).map marshalBytes).flatten.length = 36 * l.length := by
        intro l
        induction l with
        | nil => rfl
        | cons P l ih => simp only [List.map_cons, List.flatten_cons, List.length_append, hP, ih, List.length_cons]; omega
      have := hsum (P :: l)
      simp only [CommitmentWire.marshal, marshalStruct, marshalArray, List.length_append, length_head, List.map_cons, List.map_nil,
        List.flatten_cons, List.flatten_nil, List.length_cons, List.length_nil, List.length_map, t1, t3, t4, e1, e3, e4, hk,
        hi K256 (by decide) (by decide)] at this ⊢
      norm_num at this ⊢
      omega

/-- The opening of `TestOpeningSerialize` (poly/commitment_test.go:12-21), byte by byte. -/
example : Opening.serializeBytes (.simple 1) =
    [0xa3, 0x69] ++ ascii "CurveType" ++ [1, 0x6a] ++ ascii "CommitType" ++ [1, 0x67] ++ ascii "Message" ++
      [0x81, 0x58, 0x21, 1] ++ List.replicate 31 0 ++ [1] := by
  decide +kernel

/-! ### C140 -/

/-- C140: the bytes of an opening determine its kind and its scalars, although both kinds are marked alike. -/
theorem C140_opening (o o' : Opening) : o.serializeBytes = o'.serializeBytes ↔ o.scalars = o'.scalars := by
  constructor
  · intro h
    have h1 := (C139_opening o').2 _ (h ▸ (C139_opening o).1)
    have h2 := bytes_injective (by simpa only [openingDoc, Item.map.injEq, List.cons.injEq, Item.array.injEq, and_true, true_and] using h1)
    exact List.map_injective_iff.2 (fun a b hab => Scalar.serialize_inj (by simpa [Scalar.serializeTagged] using hab)) h2
  · intro h
    cases o <;> cases o' <;> simp [Opening.scalars] at h <;> simp [Opening.serializeBytes, Opening.serialize, h]

/-- C140: the bytes of a commitment determine it. -/
theorem C140_commitment (c d : Commitment) (hc : c.points.length < 2 ^ 64) (hd : d.points.length < 2 ^ 64) (b : Bytes)
    (h : c.serializeBytes = .ok b) (h' : d.serializeBytes = .ok b) : c = d := by
  have ne : ∀ c : Commitment, c.serializeBytes = .ok b → c.points ≠ [] := by
    rintro ⟨k, l⟩ hb rfl
    cases hb
  obtain ⟨b1, e1, h1, -⟩ := C139_commitment c (ne c h) hc
  obtain ⟨b2, e2, -, h2⟩ := C139_commitment d (ne d h') hd
  rw [h] at e1
  rw [h'] at e2
  cases e1
  cases e2
  have h3 := h2 _ h1
  obtain ⟨k, l⟩ := c
  obtain ⟨k', l'⟩ := d
  simp only [commitmentDoc, Item.map.injEq, List.cons.injEq, Item.unsigned.injEq, Item.array.injEq, and_true, true_and] at h3
  have hl : l = l' :=
    List.map_injective_iff.2 (fun a b hab => Point.serialize_injective (by simpa [Point.serializeTagged] using hab))
      (bytes_injective h3.2)
  have hk : k = k' := by
    have := h3.1
    cases k <;> cases k' <;> first | rfl | simp [Kind.number] at this
  rw [hl, hk]

/-- The hypotheses of C140 can be met: a commitment is written. -/
example : ∃ b, (Commitment.mk .pedersen [Point.H, 0, G]).serializeBytes = .ok b := ⟨_, rfl⟩

/-! ### C141 -/

theorem Cbor.Item.int_injective {i j : Int} (h : Item.int i = Item.int j) : i = j := by
  rw [Item.int, Item.int] at h
  split_ifs at h <;> simp at h <;> omega

theorem OpeningWire.item_injective {w w' : OpeningWire} (h : w.item = w'.item) : w = w' := by
  obtain ⟨a, b, l⟩ := w
  obtain ⟨a', b', l'⟩ := w'
  simp only [OpeningWire.item, Item.map.injEq, List.cons.injEq, Item.array.injEq, and_true, true_and] at h
  rw [Item.int_injective h.1, Item.int_injective h.2.1, bytes_injective h.2.2]

theorem CommitmentWire.item_injective {w w' : CommitmentWire} (h : w.item = w'.item) : w = w' := by
  obtain ⟨a, b, l⟩ := w
  obtain ⟨a', b', l'⟩ := w'
  simp only [CommitmentWire.item, Item.map.injEq, List.cons.injEq, Item.array.injEq, and_true, true_and] at h
  rw [Item.int_injective h.1, Item.int_injective h.2.1, bytes_injective h.2.2]

theorem Opening.deserializeBytes_serializeBytes (o : Opening) :
    Opening.deserializeBytes o.serializeBytes = Opening.deserialize o.serialize := by
  have h : Is o.serializeBytes o.serialize.item := by
    have := (C139_opening o).1
    cases o <;> exact this
  have h' : ∃ w : OpeningWire, Is o.serializeBytes w.item := ⟨_, h⟩
  rw [Opening.deserializeBytes, dif_pos h', OpeningWire.item_injective (h'.choose_spec.unique h)]

theorem Commitment.deserializeBytes_of {c : Commitment} {b : Bytes} (hlen : c.points.length < 2 ^ 64)
    (h : c.serializeBytes = .ok b) : ∃ w, c.serialize = .ok w ∧ Commitment.deserializeBytes b = Commitment.deserialize w := by
  obtain ⟨k, l⟩ := c
  cases l with
  | nil => cases h
  | cons P l =>
    obtain ⟨b', e, hb, -⟩ := C139_commitment ⟨k, P :: l⟩ (by simp) hlen
    rw [h] at e
    cases e
    refine ⟨_, rfl, ?_⟩
    have hi : Is b (CommitmentWire.mk K256 k.toInt ((P :: l).map Point.serializeTagged)).item := by
      cases k <;> exact hb
    have h' : ∃ w : CommitmentWire, Is b w.item := ⟨_, hi⟩
    rw [Commitment.deserializeBytes, dif_pos h', CommitmentWire.item_injective (h'.choose_spec.unique hi)]

/-- C141 does not hold: the bytes of an opening with a mask are read as an opening without one, the bytes of a commitment with
masks or with the identity among its points are refused. -/
theorem C141_false :
    (∀ v m, Opening.deserializeBytes (Opening.serializeBytes (.pedersen v m)) = .ok (.opening (.simplePtr v))) ∧
    (∀ l, l ≠ [] → l.length < 2 ^ 64 →
      ∃ b, Commitment.serializeBytes ⟨.pedersen, l⟩ = .ok b ∧ (Commitment.deserializeBytes b).isErr = true) ∧
    (∃ b, Commitment.serializeBytes ⟨.simple, [0]⟩ = .ok b ∧ (Commitment.deserializeBytes b).isErr = true) := by
  refine ⟨fun v m => ?_, fun l hl hlen => ?_, ?_⟩
  · rw [Opening.deserializeBytes_serializeBytes, C43_false.1]
  · obtain ⟨b, hb, -⟩ := C139_commitment ⟨.pedersen, l⟩ hl hlen
    obtain ⟨w, hw, e⟩ := Commitment.deserializeBytes_of hlen hb
    obtain ⟨w', hw', h⟩ := C44_false.1 l hl
    rw [hw] at hw'
    cases hw'
    exact ⟨b, hb, e ▸ h⟩
  · obtain ⟨b, hb, -⟩ := C139_commitment ⟨.simple, [0]⟩ (by simp) (by simp)
    obtain ⟨w, hw, e⟩ := Commitment.deserializeBytes_of (by simp) hb
    obtain ⟨w', hw', h⟩ := C44_false.2.1
    rw [hw] at hw'
    cases hw'
    exact ⟨b, hb, e ▸ h⟩

/-- C141 for simple openings, and for simple commitments with at least one point and no identity: the bytes are read back.
Missing: the others, see `C141_false`. -/
theorem C141_roundtrip_partial (v : Fn) (l : List Pt) (hne : l ≠ []) (h0 : 0 ∉ l) (hlen : l.length < 2 ^ 64) :
    Opening.deserializeBytes (Opening.serializeBytes (.simple v)) = .ok (.opening (.simplePtr v)) ∧
    ∃ b, Commitment.serializeBytes ⟨.simple, l⟩ = .ok b ∧
      Commitment.deserializeBytes b = .ok (.simple, l.map Point.raw) := by
  constructor
  · rw [Opening.deserializeBytes_serializeBytes, (C43_simple_opening_partial v).1]
  · obtain ⟨b, hb, -⟩ := C139_commitment ⟨.simple, l⟩ hne hlen
    obtain ⟨w, hw, e⟩ := Commitment.deserializeBytes_of hlen hb
    obtain ⟨w', hw', h⟩ := C44_simple_commitment_partial l hne h0
    rw [hw] at hw'
    cases hw'
    exact ⟨b, hb, e ▸ h⟩

example : [G] ≠ [] ∧ (0 : Pt) ∉ [G] ∧ [G].length < 2 ^ 64 := ⟨by simp, by simpa using G_ne_zero.symm, by simp⟩

end Verif
