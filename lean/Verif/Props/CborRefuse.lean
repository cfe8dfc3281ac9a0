import Verif.Props.Cbor

/-!
C179: which bytes `Deserialize` takes for an opening or a commitment.
-/

namespace Verif

open Cbor

/-- The document of an opening or a commitment, whatever its contents. -/
def Cbor.wireDoc (kindKey : String) (curve kind : Nat) (l : List Bytes) : Item :=
  .map [.text (ascii "CurveType"), .unsigned curve, .text (ascii kindKey), .unsigned kind,
    .text (ascii "Message"), .array (l.map Item.bytes)]

/-- How the code reads a scalar: it skips a byte and takes the last 32 bytes of the rest; a number that is too large is read as zero. -/
def Scalar.TakenFrom (x : Bytes) (v : Fn) : Prop :=
  ∃ tag rest, x = tag :: rest ∧
    v = if beVal (rest.drop (rest.length - 32)) < n then (beVal (rest.drop (rest.length - 32)) : Fn) else 0

theorem Opening.deserializeBytes_is {b : Bytes} {w : OpeningWire} (h : Is b w.item) : Opening.deserializeBytes b = Opening.deserialize w := by
  have h' : ∃ w : OpeningWire, Is b w.item := ⟨_, h⟩
  rw [Opening.deserializeBytes, dif_pos h', OpeningWire.item_injective (h'.choose_spec.unique h)]

theorem Commitment.deserializeBytes_is {b : Bytes} {w : CommitmentWire} (h : Is b w.item) :
    Commitment.deserializeBytes b = Commitment.deserialize w := by
  have h' : ∃ w : CommitmentWire, Is b w.item := ⟨_, h⟩
  rw [Commitment.deserializeBytes, dif_pos h', CommitmentWire.item_injective (h'.choose_spec.unique h)]

theorem Cbor.opening_item (curve kind : Nat) (l : List Bytes) : OpeningWire.item ⟨curve, kind, l⟩ = wireDoc "CommitType" curve kind l := by
  simp [OpeningWire.item, wireDoc, Item.int]

theorem Cbor.commitment_item (curve kind : Nat) (l : List Bytes) :
    CommitmentWire.item ⟨curve, kind, l⟩ = wireDoc "CommitmentType" curve kind l := by
  simp [CommitmentWire.item, wireDoc, Item.int]

/-- There are bytes for every such document. -/
theorem Cbor.wireDoc_exists (key : String) (hk : (ascii key).length < 2 ^ 64) (curve kind : Nat) (h1 : curve < 2 ^ 64) (h2 : kind < 2 ^ 64)
    (l : List Bytes) (hn : l.length < 2 ^ 64) (h : ∀ b ∈ l, b.length < 2 ^ 64) : ∃ b, Is b (wireDoc key curve kind l) :=
  ⟨_, (reads_struct (by decide +kernel) hk (by decide +kernel) (reads_unsigned h1) (reads_unsigned h2) (reads_strings hn h)).is⟩

theorem Opening.decodeScalar_eq (x : Bytes) (v : Fn) : Opening.decodeScalar x = .ok v ↔ Scalar.TakenFrom x v := by
  cases x with
  | nil => simp [Opening.decodeScalar, Scalar.unmarshalTagged, Scalar.TakenFrom]
  | cons tag rest =>
    simp only [Opening.decodeScalar, Scalar.unmarshalTagged, Scalar.k256Deserialize_eq, Scalar.TakenFrom, List.cons.injEq]
    constructor
    · intro h
      refine ⟨tag, rest, ⟨rfl, rfl⟩, ?_⟩
      split_ifs at h ⊢ <;> simpa [eq_comm] using h
    · rintro ⟨_, _, ⟨rfl, rfl⟩, rfl⟩
      split_ifs <;> rfl

/-- C179 does not hold.  `Deserialize` of openings takes documents without error whose scalar is not below the group's order, and
returns zero; that have another byte in place of the curve's tag; that have no scalar, and returns an opening with a nil inside; it panics for a
document with an empty byte string.  `Deserialize` of commitments takes coordinates that are no point of the curve, and panics for an empty
byte string. -/
theorem C179_false :
    (∀ b, Is b (wireDoc "CommitType" 1 1 [1 :: List.replicate 32 255]) → Opening.deserializeBytes b = .ok (.opening (.simplePtr 0))) ∧
    (∀ tag v b, Is b (wireDoc "CommitType" 1 1 [tag :: Scalar.serialize v]) → Opening.deserializeBytes b = .ok (.opening (.simplePtr v))) ∧
    (∀ b, Is b (wireDoc "CommitType" 1 1 []) → Opening.deserializeBytes b = .ok (.withNil .simple)) ∧
    (∀ b, Is b (wireDoc "CommitType" 1 1 [[]]) → (Opening.deserializeBytes b).isPanic = true) ∧
    (∃ x y, ¬ OnCurve x y ∧ ∀ b, Is b (wireDoc "CommitmentType" 1 1 [1 :: 4 :: (toBE 32 1 ++ toBE 32 1)]) →
      Commitment.deserializeBytes b = .ok (.simple, [.aff x y])) ∧
    (∀ b, Is b (wireDoc "CommitmentType" 1 1 [[]]) → (Commitment.deserializeBytes b).isPanic = true) := by
  have ho : ∀ l b, Is b (wireDoc "CommitType" 1 1 l) → Opening.deserializeBytes b = Opening.deserialize ⟨1, 1, l⟩ := fun l b h =>
    Opening.deserializeBytes_is (w := ⟨1, 1, l⟩) (by rw [← opening_item] at h; exact h)
  have hc : ∀ l b, Is b (wireDoc "CommitmentType" 1 1 l) → Commitment.deserializeBytes b = Commitment.deserialize ⟨1, 1, l⟩ := fun l b h =>
    Commitment.deserializeBytes_is (w := ⟨1, 1, l⟩) (by rw [← commitment_item] at h; exact h)
  refine ⟨fun b h => ?_, fun tag v b h => ?_, fun b h => ?_, fun b h => ?_, ⟨1, 1, by decide +kernel, fun b h => ?_⟩, fun b h => ?_⟩
  · rw [ho _ _ h]
    decide +kernel
  · rw [ho _ _ h, Opening.deserialize, if_pos ⟨rfl, rfl⟩]
    dsimp only
    rw [show Opening.decodeScalar (tag :: Scalar.serialize v) = .ok v by
      simp [Opening.decodeScalar, Scalar.unmarshalTagged, Scalar.k256Deserialize_serialize]]
    rfl
  · rw [ho _ _ h]; rfl
  · rw [ho _ _ h]; rfl
  · rw [hc _ _ h]
    decide +kernel
  · rw [hc _ _ h]; rfl

/-- The documents exist as bytes. -/
example : (∃ b, Is b (wireDoc "CommitType" 1 1 [1 :: List.replicate 32 255])) ∧ (∃ b, Is b (wireDoc "CommitType" 1 1 [7 :: Scalar.serialize 5])) ∧
    (∃ b, Is b (wireDoc "CommitType" 1 1 [])) ∧ (∃ b, Is b (wireDoc "CommitType" 1 1 [[]])) ∧
    (∃ b, Is b (wireDoc "CommitmentType" 1 1 [1 :: 4 :: (toBE 32 1 ++ toBE 32 1)])) ∧ (∃ b, Is b (wireDoc "CommitmentType" 1 1 [[]])) := by
  refine ⟨?_, ?_, ?_, ?_, ?_, ?_⟩ <;>
    exact wireDoc_exists _ (by decide +kernel) _ _ (by norm_num) (by norm_num) _ (by simp) (by decide +kernel)

/-- C179, what is true.  Openings: there is an error exactly if curve or kind are unknown, and an opening exactly if there are enough
byte strings, the scalars being taken from them in order.  Commitments: exactly the simple ones whose byte strings are, after their
first byte, encodings of points in any format.  Missing: see `C179_false`. -/
theorem C179_accepted_partial (curve kind : Nat) (l : List Bytes) (b : Bytes) :
    (Is b (wireDoc "CommitType" curve kind l) →
      ((Opening.deserializeBytes b).isErr = true ↔ ¬ (curve = 1 ∧ (kind = 1 ∨ kind = 2))) ∧
      ∀ o, Opening.deserializeBytes b = .ok (.opening o) ↔ curve = 1 ∧
        ((kind = 1 ∧ ∃ x rest v, l = x :: rest ∧ Scalar.TakenFrom x v ∧ o = .simplePtr v) ∨
         (kind = 2 ∧ ∃ x y rest v m, l = x :: y :: rest ∧ Scalar.TakenFrom x v ∧ Scalar.TakenFrom y m ∧ o = .pedersenPtr v m))) ∧
    (Is b (wireDoc "CommitmentType" curve kind l) → ∀ k ps, Commitment.deserializeBytes b = .ok (k, ps) ↔
      curve = 1 ∧ kind = 1 ∧ k = .simple ∧
        List.Forall₂ (fun x P => ∃ tag rest, x = tag :: rest ∧ Point.deserializeAnyFormat K256 rest = .ok (some P)) l ps) := by
  constructor
  · intro h
    rw [Opening.deserializeBytes_is (w := ⟨curve, kind, l⟩) (by rw [opening_item]; exact h)]
    have hne : ∀ (x : Bytes) (f : Fn → Res Opening.Decoded), (∀ v, (f v).isErr = false) → (Opening.decodeScalar x >>= f).isErr = false := by
      intro x f hf
      rcases hx : Opening.decodeScalar x with v | e | e | _
      · exact hf v
      · rw [Opening.decodeScalar] at hx; split at hx <;> cases hx
      · rfl
      · rfl
    have e1 : ((kind : Int) = 1 ↔ kind = 1) ∧ ((kind : Int) = 2 ↔ kind = 2) ∧ ((curve : Int) = K256 ↔ curve = 1) := by
      refine ⟨?_, ?_, ?_⟩ <;> (try simp only [K256]) <;> omega
    simp only [Opening.deserialize, e1]
    constructor
    · split_ifs with h1 h2
      · have : curve = 1 ∧ (kind = 1 ∨ kind = 2) := ⟨h1.2, .inl h1.1⟩
        refine (iff_of_false ?_ (not_not.2 this))
        rw [Bool.not_eq_true]
        cases l with
        | nil => rfl
        | cons x l => exact hne _ _ fun v => rfl
      · have : curve = 1 ∧ (kind = 1 ∨ kind = 2) := ⟨h2.2, .inr h2.1⟩
        refine (iff_of_false ?_ (not_not.2 this))
        rw [Bool.not_eq_true]
        match l with
        | [] => rfl
        | [x] => exact hne _ _ fun v => rfl
        | x :: y :: l => exact hne _ _ fun v => hne _ _ fun m => rfl
      · simp
        omega
    · intro o
      split_ifs with h1 h2
      · obtain ⟨rfl, rfl⟩ := h1
        cases l with
        | nil => simp
        | cons x l =>
          simp only [Res.bind_eq_ok, Opening.decodeScalar_eq]
          simp [eq_comm]
      · obtain ⟨rfl, rfl⟩ := h2
        match l with
        | [] => simp
        | [x] => simp [Res.bind_eq_ok]
        | x :: y :: l =>
          simp only [Res.bind_eq_ok, Opening.decodeScalar_eq]
          simp [eq_comm]
      · simp
        omega
  · intro h k ps
    rw [Commitment.deserializeBytes_is (w := ⟨curve, kind, l⟩) (by rw [commitment_item]; exact h)]
    have e1 : ((kind : Int) = 1 ↔ kind = 1) ∧ ((curve : Int) = K256 ↔ curve = 1) := by
      refine ⟨?_, ?_⟩ <;> (try simp only [K256]) <;> omega
    have hp : ∀ x P, Point.unmarshalTagged x = .ok P ↔ ∃ tag rest, x = tag :: rest ∧ Point.deserializeAnyFormat K256 rest = .ok (some P) := by
      intro x P
      cases x with
      | nil => simp [Point.unmarshalTagged]
      | cons t r =>
        rw [show Point.deserializeAnyFormat K256 = Point.k256Deserialize from rfl]
        simp only [Point.unmarshalTagged, Res.bind_eq_ok, List.cons.injEq]
        constructor
        · rintro ⟨a, ha, h⟩
          cases a with
          | none => simp at h
          | some Q => cases h; exact ⟨t, r, ⟨rfl, rfl⟩, ha⟩
        · rintro ⟨_, _, ⟨rfl, rfl⟩, h⟩
          exact ⟨_, h, rfl⟩
    simp only [Commitment.deserialize, e1]
    split_ifs with h1
    · simp only [Res.bind_eq_ok, Res.mapM'_eq_ok, hp]
      simp [h1, eq_comm, and_comm]
    · simp
      omega

end Verif
