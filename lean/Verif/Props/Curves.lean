import Verif.Model.Curves
import Verif.Spec.Curves
import Verif.Lemmas.Random
import Verif.Props.HashToCurve
import Verif.Props.Point
import Verif.Kat.Concrete

/-!
Properties C132 and C133: what the functions that take a curve type do.
-/

set_option autoImplicit false

namespace Verif.Curves

/-- A loop of `mapM'` of which every round returns. -/
theorem mapM'_some {α β : Type} (f : Nat → Res α) (g : Nat → Res β) (h : β → α) (l : List Nat)
    (hl : ∀ i ∈ l, f i = (do let b ← g i; .ok (h b))) :
    Res.mapM' f l = (do let bs ← Res.mapM' g l; .ok (bs.map h)) := by
  induction l with
  | nil => rfl
  | cons i l ih =>
    have h1 := hl i (by simp)
    have h2 := ih fun j hj => hl j (by simp [hj])
    simp only [Res.mapM', h1, h2]
    cases g i with
    | ok b => cases Res.mapM' g l <;> rfl
    | _ => rfl

/-- On K256 the loop of `Random` is the one of the K256 model. -/
theorem randomLoop_k256 (r : Rng) (buf : Bytes) :
    Scalar.randomLoop K256 r buf = (Verif.Scalar.randomLoop r buf).map fun x => (some x.1, x.2) := by
  have hd : ∀ b, (∃ s, Verif.Scalar.deserialize K256 b = .ok (some s)) ∨ ∀ o, Verif.Scalar.deserialize K256 b ≠ .ok o := by
    intro b
    rw [Verif.Scalar.deserialize, if_pos rfl]
    split_ifs
    · exact .inr fun o => by simp
    · cases Verif.Scalar.k256Deserialize b with
      | ok s => exact .inl ⟨s, rfl⟩
      | err e => exact .inr fun o => by simp
      | panic e => exact .inr fun o => by simp
      | diverge => exact .inr fun o => by simp
  have one : ∀ x, Scalar.randomLoop K256 r buf = some x → ∃ s, x.1 = some s ∧ Verif.Scalar.randomLoop r buf = some (s, x.2) := by
    intro x h
    refine Scalar.randomLoop.partial_correctness K256
      (fun r buf x => ∃ s, x.1 = some s ∧ Verif.Scalar.randomLoop r buf = some (s, x.2)) ?_ r buf x h
    intro loop ih r buf x hx
    simp only at hx
    rcases hd (r.xorKeyStream buf).1 with ⟨s, hs⟩ | hn
    · rw [hs] at hx
      cases hx
      exact ⟨s, rfl, by rw [Verif.Scalar.randomLoop]; simp only [hs]⟩
    · split at hx
      · rename_i o heq; exact absurd heq (hn o)
      · obtain ⟨s, h1, h2⟩ := ih _ _ _ hx
        refine ⟨s, h1, ?_⟩
        rw [Verif.Scalar.randomLoop]
        simp only
        split
        · rename_i o heq; exact absurd heq (hn _)
        · exact h2
  have two : ∀ y, Verif.Scalar.randomLoop r buf = some y → Scalar.randomLoop K256 r buf = some (some y.1, y.2) := by
    intro y h
    refine Verif.Scalar.randomLoop.partial_correctness
      (fun r buf y => Scalar.randomLoop K256 r buf = some (some y.1, y.2)) ?_ r buf y h
    intro loop ih r buf y hy
    simp only at hy
    rw [Scalar.randomLoop]
    simp only
    rcases hd (r.xorKeyStream buf).1 with ⟨s, hs⟩ | hn
    · rw [hs] at hy
      cases hy
      rw [hs]
    · split at hy
      · rename_i o heq; exact absurd heq (hn _)
      · split
        · rename_i o heq; exact absurd heq (hn _)
        · exact ih _ _ _ hy
  cases h : Verif.Scalar.randomLoop r buf with
  | some y => rw [two y h]; rfl
  | none =>
    cases h' : Scalar.randomLoop K256 r buf with
    | none => rfl
    | some x => obtain ⟨s, -, e⟩ := one x h'; rw [h] at e; cases e

/-- On other curves the loop of `Random` has an empty buffer and never ends. -/
theorem randomLoop_other (c : CurveType) (r : Rng) : Scalar.randomLoop c r [] = none := by
  cases h : Scalar.randomLoop c r [] with
  | none => rfl
  | some x =>
    exfalso
    refine Scalar.randomLoop.partial_correctness c (fun _ buf _ => buf ≠ []) ?_ r [] x h rfl
    rintro loop ih r buf x hx rfl
    exact ih _ _ _ hx rfl

theorem expand_zero (P : Prim) (input dst : Bytes) : Xmd.expandMessageXmd P input dst 0 = .ok [] := by
  obtain ⟨out, h, hl, -⟩ := (C19_expand_message_xmd_rfc P input dst).1 0 (by norm_num)
  rw [List.length_eq_zero_iff.1 hl] at h
  exact h

theorem hashToField_k256 (P : Prim) (count : Int) (input dst : Bytes) :
    Field.hashToField P K256 count input dst = (do let l ← H2C.hashToField P count input dst; .ok (l.map some)) := by
  rw [Field.hashToField, H2C.hashToField]
  simp only [show (fieldBits K256 + securityLevel K256 + 7) / 8 = 48 from rfl]
  push_cast
  cases Xmd.expandMessageXmd P input dst (H2C.goInt (count * 48)) with
  | ok u =>
    simp only [Res.ok_bind]
    rcases H2C.makeSlice count with _ | _ | _ | _
    rotate_left
    · rfl
    · rfl
    · rfl
    refine mapM'_some _ _ some _ fun i _ => ?_
    split_ifs
    · rfl
    · rw [Field.fromBytesWide, if_pos rfl]; rfl
  | _ => rfl

theorem hashToField_two (P : Prim) (input dst : Bytes) : ∃ a b, H2C.hashToField P 2 input dst = .ok [a, b] := by
  obtain ⟨out, -, -, h⟩ := Verif.hashToField_ok P 2 input dst (by norm_num)
  rw [List.range_succ_eq_map, List.range_one, Nat.cast_ofNat] at h
  simp only [List.map_cons, List.map_nil] at h
  exact ⟨_, _, h⟩

theorem glue (a b : Fp) (f : Option Fp → Res (Option RawPt)) (g : Fp → Res (Option RawPt))
    (k : Option RawPt → Option RawPt → Res RawPt) (m : ∀ u : Fp, f (some u) = g u) :
    (do let l ← (do let l ← (Res.ok [a, b] : Res (List Fp)); .ok (l.map some)); let u0 ← Mega.index l 0
        let q0 ← f u0; let u1 ← Mega.index l 1; let q1 ← f u1; k q0 q1 : Res RawPt) =
      (do let u ← Res.ok [a, b]
          match u with
          | [u0, u1] => do { let q0 ← g u0; let q1 ← g u1; k q0 q1 }
          | _ => .panic "index out of range") := by
  have i0 : Mega.index [some a, some b] 0 = .ok (some a) := rfl
  have i1 : Mega.index [some a, some b] 1 = .ok (some b) := rfl
  simp only [Res.ok_bind, List.map_cons, List.map_nil, i0, i1, m]

theorem hashToPoint_k256 (P : Prim) (input dst : Bytes) :
    Point.hashToPoint P K256 input dst = H2C.hashToCurve P input dst := by
  obtain ⟨a, b, h⟩ := hashToField_two P input dst
  rw [Point.hashToPoint, H2C.hashToCurve, hashToField_k256, h]
  exact glue a b _ _ _ fun _ => rfl

/-- C132, on K256: the general functions are those of the K256 model. -/
theorem C132_k256 (P : Prim) (r : Rng) (seed : Seed) (k : Nat) (i : Verif.Scalar.NodeIndex) (bytes input dst : Bytes) (count : Int) :
    Scalar.zero K256 = some 0 ∧ Scalar.one K256 = some 1 ∧ Scalar.fromUint64 K256 k = some (k : Fn) ∧
    Scalar.fromNodeIndex K256 i = some (Verif.Scalar.fromNodeIndex i) ∧
    Scalar.fromBytesWide K256 bytes = (do let s ← Verif.Scalar.fromBytesWide bytes; .ok (some s)) ∧
    Scalar.random K256 r = (do let x ← Verif.Scalar.random r; .ok (some x.1, x.2)) ∧
    Scalar.fromSeed P K256 seed = (do let s ← Verif.Scalar.fromSeed P seed; .ok (some s)) ∧
    Scalar.hashToScalars P K256 count input dst = (do let l ← H2C.hashToScalar P count input dst; .ok (l.map some)) ∧
    Field.fromBytes K256 bytes = (do let a ← Fe.fromBytes bytes; .ok (some a)) ∧
    Field.hashToField P K256 count input dst = (do let l ← H2C.hashToField P count input dst; .ok (l.map some)) ∧
    Point.generatorG K256 = some G ∧ Point.generatorH K256 = .ok (some (Verif.Point.raw Verif.Point.H)) ∧
    Point.hashToPoint P K256 input dst = H2C.hashToCurve P input dst ∧ genKeypair P K256 seed = Mega.genKeypair P seed := by
  have hr : ∀ r, Scalar.random K256 r = (do let x ← Verif.Scalar.random r; .ok (some x.1, x.2)) := by
    intro r
    rw [Scalar.random, show scalarBytes K256 = 32 from rfl, randomLoop_k256, Verif.Scalar.random]
    cases Verif.Scalar.randomLoop r (List.replicate 32 0) <;> rfl
  refine ⟨rfl, rfl, rfl, rfl, rfl, hr r, ?_, ?_, rfl, hashToField_k256 P count input dst, rfl, ?_, hashToPoint_k256 P input dst, ?_⟩
  · rw [Scalar.fromSeed, Verif.Scalar.fromSeed, hr]
    cases Verif.Scalar.random (seed.rng P) <;> rfl
  · rw [Scalar.hashToScalars, H2C.hashToScalar]
    simp only [show (scalarBits K256 + securityLevel K256 + 7) / 8 = 48 from rfl]
    push_cast
    cases Xmd.expandMessageXmd P input dst (H2C.goInt (count * 48)) with
    | ok u =>
      simp only [Res.ok_bind]
      rcases H2C.makeSlice count with _ | _ | _ | _
      rotate_left
      · rfl
      · rfl
      · rfl
      refine mapM'_some _ _ some _ fun i _ => ?_
      split_ifs
      · rfl
      · rw [Scalar.fromBytesWide, if_pos rfl]; rfl
    | _ => rfl
  · rw [Point.generatorH, if_pos rfl, Verif.deserialize_generatorHBytes.1]
  · rw [genKeypair, Mega.genKeypair, hr]
    cases Verif.Scalar.random (seed.rng P) <;> rfl

theorem hashToScalar_other (P : Prim) (c : CurveType) (hc : c ≠ K256) (input dst : Bytes) :
    Scalar.hashToScalar P c input dst = .ok none := by
  have h : Scalar.hashToScalars P c 1 input dst = .ok [none] := by
    rw [Scalar.hashToScalars]
    simp only [scalarBits, securityLevel, if_neg hc, Scalar.fromBytesWide]
    show (do let u ← Xmd.expandMessageXmd P input dst 0; _) = _
    rw [expand_zero]
    rfl
  rw [Scalar.hashToScalar, h]
  rfl

theorem mapM'_nil {α β : Type} (f : α → Res (Option β)) (l : List α) (h : ∀ a ∈ l, f a = .ok none) :
    Res.mapM' f l = .ok (List.replicate l.length none) := by
  induction l with
  | nil => rfl
  | cons a l ih =>
    rw [Res.mapM', h a (by simp), ih fun b hb => h b (by simp [hb])]
    rfl

/-- Hashing to any number of scalars or field elements on other curves: nil for each of them, a panic for a number that is negative or too large. -/
theorem hashToSeveral_other (P : Prim) (c : CurveType) (hc : c ≠ K256) (count : Int) (input dst : Bytes) :
    Scalar.hashToScalars P c count input dst =
      (if count < 0 ∨ 2 ^ 44 < count then .panic "makeslice: cap out of range" else .ok (List.replicate count.toNat none)) ∧
    Field.hashToField P c count input dst =
      (if count < 0 ∨ 2 ^ 44 < count then .panic "makeslice: cap out of range" else .ok (List.replicate count.toNat none)) := by
  constructor
  · rw [Scalar.hashToScalars]
    simp only [scalarBits, securityLevel, if_neg hc, Scalar.fromBytesWide]
    norm_num only
    rw [mul_zero, show H2C.goInt 0 = 0 from rfl, expand_zero, Res.ok_bind]
    by_cases hn : count < 0 ∨ 2 ^ 44 < count
    · rw [if_pos (by norm_num only at hn ⊢; exact hn), H2C.makeSlice, if_pos hn]
      rfl
    · rw [if_neg (by norm_num only at hn ⊢; exact hn), H2C.makeSlice, if_neg hn, Res.ok_bind, mapM'_nil _ _ fun i _ => by simp, List.length_range]
  · rw [Field.hashToField]
    simp only [fieldBits, securityLevel, if_neg hc, Field.fromBytesWide]
    norm_num only
    rw [mul_zero, show H2C.goInt 0 = 0 from rfl, expand_zero, Res.ok_bind]
    by_cases hn : count < 0 ∨ 2 ^ 44 < count
    · rw [if_pos (by norm_num only at hn ⊢; exact hn), H2C.makeSlice, if_pos hn]
      rfl
    · rw [if_neg (by norm_num only at hn ⊢; exact hn), H2C.makeSlice, if_neg hn, Res.ok_bind, mapM'_nil _ _ fun i _ => by simp, List.length_range]

theorem hashToPoint_other (P : Prim) (c : CurveType) (hc : c ≠ K256) (input dst : Bytes) :
    Point.hashToPoint P c input dst = .panic "nil pointer dereference" := by
  have h : Field.hashToField P c 2 input dst = .ok [none, none] := by
    rw [Field.hashToField]
    simp only [fieldBits, securityLevel, if_neg hc, Field.fromBytesWide]
    show (do let u ← Xmd.expandMessageXmd P input dst 0; _) = _
    rw [expand_zero]
    rfl
  rw [Point.hashToPoint, h]
  rfl

theorem generatorH_other (c : CurveType) (hc : c ≠ K256) : Point.generatorH c = .panic "invalid point" := by
  rw [Point.generatorH, if_neg hc, Verif.Point.deserialize, Verif.pointBytes, if_neg hc]
  rfl

/-- C132 holds in this form: on a curve other than K256 no call returns an object. -/
theorem C132_no_object_partial (P : Prim) (c : CurveType) (hc : c ≠ K256) (r : Rng) (seed : Seed) (k : Nat)
    (i : Verif.Scalar.NodeIndex) (bytes input dst : Bytes) (v : Fp) (count : Int) :
    (∀ l, Scalar.hashToScalars P c count input dst = .ok l → ∀ x ∈ l, x = none) ∧
    (∀ l, Field.hashToField P c count input dst = .ok l → ∀ x ∈ l, x = none) ∧
    Scalar.zero c = none ∧ Scalar.one c = none ∧ Scalar.fromUint64 c k = none ∧ Scalar.fromNodeIndex c i = none ∧
    NoObject (Scalar.fromBytesWide c bytes) ∧ NoObject (Verif.Scalar.deserialize c bytes) ∧
    (∀ x, Scalar.random c r ≠ .ok x) ∧ NoObject (Scalar.fromSeed P c seed) ∧
    NoObject (Scalar.hashToScalar P c input dst) ∧ Field.constant c v = none ∧ NoObject (Field.fromBytes c bytes) ∧
    NoObject (Field.fromBytesWide c bytes) ∧ Verif.Point.identityOf c = none ∧ Point.generatorG c = none ∧
    NoObject (Point.generatorH c) ∧ NoObject (Verif.Point.deserialize c bytes) ∧
    (∀ q, Point.hashToPoint P c input dst ≠ .ok q) ∧ (∀ q, genKeypair P c seed ≠ .ok q) := by
  have hr : ∀ r, Scalar.random c r = .diverge := fun r => by
    rw [Scalar.random, show scalarBytes c = 0 by rw [scalarBytes, scalarBits, if_neg hc], List.replicate_zero, randomLoop_other]
  obtain ⟨h1, h2⟩ := hashToSeveral_other P c hc count input dst
  refine ⟨fun l hl => ?_, fun l hl => ?_, if_neg hc, if_neg hc, if_neg hc, if_neg hc, ?_, ?_, ?_, ?_, ?_, if_neg hc, ?_, ?_, if_neg hc, if_neg hc, ?_, ?_, ?_, ?_⟩
  · rw [h1] at hl
    split_ifs at hl
    cases hl
    exact fun x hx => List.eq_of_mem_replicate hx
  · rw [h2] at hl
    split_ifs at hl
    cases hl
    exact fun x hx => List.eq_of_mem_replicate hx
  · intro a; rw [Scalar.fromBytesWide, if_neg hc]; simp
  · intro a; rw [Verif.Scalar.deserialize, if_neg hc]; split_ifs <;> simp
  · intro x; rw [hr]; simp
  · intro a; rw [Scalar.fromSeed, hr]; simp
  · intro a; rw [hashToScalar_other P c hc]; simp
  · intro a; rw [Field.fromBytes, if_neg hc]; simp
  · intro a; rw [Field.fromBytesWide, if_neg hc]; simp
  · intro a; rw [generatorH_other c hc]; simp
  · intro a
    rw [Verif.Point.deserialize, Verif.Point.identityOf, Verif.Point.deserializeAnyFormat, if_neg hc, if_neg hc]
    split_ifs <;> simp
  · intro q; rw [hashToPoint_other P c hc]; simp
  · intro q; rw [genKeypair, hr]; simp

/-- C132 is false: on every other curve most calls return nil without an error, drawing a random scalar (and so generating a
key pair) never ends, and the generator H and hashing to a point panic. -/
theorem C132_false (P : Prim) (c : CurveType) (hc : c ≠ K256) (r : Rng) (seed : Seed) (bytes input dst : Bytes) (count : Nat)
    (hcount : count ≤ 2 ^ 44) :
    Scalar.hashToScalars P c count input dst = .ok (List.replicate count none) ∧
    Field.hashToField P c count input dst = .ok (List.replicate count none) ∧
    Scalar.fromBytesWide c bytes = .ok none ∧ (bytes ≠ [] → Verif.Scalar.deserialize c bytes = .ok none) ∧
    Field.fromBytes c bytes = .ok none ∧ Scalar.hashToScalar P c input dst = .ok none ∧
    (∀ b ∈ [0, 2, 3], Verif.Point.deserialize c [b] = .ok none ∧ Mega.verifyPublicKey c [b] = .ok ()) ∧
    (bytes ≠ [] → Mega.privateKeyDeserialize c bytes = .ok none) ∧
    Scalar.random c r = .diverge ∧ Scalar.fromSeed P c seed = .diverge ∧ genKeypair P c seed = .diverge ∧
    (Point.generatorH c).isPanic = true ∧ (Point.hashToPoint P c input dst).isPanic = true ∧
    ¬ Refuses (Scalar.fromBytesWide c bytes) ∧ ¬ Refuses (Scalar.random c r) ∧ ¬ Refuses (Point.generatorH c) ∧
    ¬ Refuses (genKeypair P c seed) := by
  have hr : ∀ r, Scalar.random c r = .diverge := fun r => by
    rw [Scalar.random, show scalarBytes c = 0 by rw [scalarBytes, scalarBits, if_neg hc], List.replicate_zero, randomLoop_other]
  have hs : ∀ bytes, bytes ≠ [] → Verif.Scalar.deserialize c bytes = .ok none := fun bytes hb => by
    rw [Verif.Scalar.deserialize, if_neg (by simpa using hb), if_neg hc]
  have hp : ∀ b ∈ ([0, 2, 3] : Bytes), Verif.Point.deserialize c [b] = .ok none := by
    intro b hb
    rw [Verif.Point.deserialize, Verif.Point.identityOf, Verif.Point.deserializeAnyFormat, if_neg hc, if_neg hc,
      Verif.pointBytes, if_neg hc]
    fin_cases hb <;> rfl
  obtain ⟨h1, h2⟩ := hashToSeveral_other P c hc count input dst
  rw [if_neg (by omega), Int.toNat_natCast] at h1 h2
  refine ⟨h1, h2, if_neg hc, hs bytes, if_neg hc, hashToScalar_other P c hc _ _, fun b hb => ⟨hp b hb, ?_⟩, hs bytes, hr r,
    ?_, ?_, ?_, ?_, ?_, ?_, ?_, ?_⟩
  · rw [Mega.verifyPublicKey, Mega.publicKeyDeserialize, hp b hb]; rfl
  · rw [Scalar.fromSeed, hr]; rfl
  · rw [genKeypair, hr]; rfl
  · rw [generatorH_other c hc]; rfl
  · rw [hashToPoint_other P c hc]; rfl
  · rw [Scalar.fromBytesWide, if_neg hc]; exact Bool.false_ne_true
  · rw [hr]; exact Bool.false_ne_true
  · rw [generatorH_other c hc]; exact Bool.false_ne_true
  · rw [genKeypair, hr]; exact Bool.false_ne_true

/-- Curve 2 is such a curve: a key of one zero byte is accepted. -/
example : Mega.verifyPublicKey 2 [0] = .ok () := ((C132_false Kat.prim 2 (by decide) ⟨fun _ => 0, 0⟩ ⟨[]⟩ [] [] [] 0 (Nat.zero_le _)).2.2.2.2.2.2.1 0
  (by simp)).2

/-! ### C133 -/

/-- C133: the sizes given by the curve type are those of the encodings, the tag is the first byte of the tagged encodings. -/
theorem C133_sizes (s : Fn) (a : Fp) (A : Pt) :
    (Verif.Scalar.serialize s).length = scalarBytes K256 ∧ (Fe.asBytes a).length = fieldBytes K256 ∧
    (Verif.Point.serialize A).length = pointBytes K256 ∧ (∀ c, pointBytes c = Verif.pointBytes c) ∧
    (Verif.Scalar.serializeTagged s).head? = some (tag K256) ∧ (Verif.Point.serializeTagged A).head? = some (tag K256) ∧
    fromTag (tag K256) = K256 ∧ (n : Nat) < 2 ^ scalarBits K256 ∧ 2 ^ (scalarBits K256 - 1) ≤ n ∧ p < 2 ^ fieldBits K256 ∧
    2 ^ (fieldBits K256 - 1) ≤ p := by
  refine ⟨?_, ?_, ?_, fun c => ?_, rfl, ?_, rfl, by decide +kernel, by decide +kernel, by decide +kernel, by decide +kernel⟩
  · simp [Verif.Scalar.serialize, reverseBytes, scalarBytes, scalarBits]
  · simp [Fe.asBytes, fieldBytes, fieldBits]
  · rw [Verif.Point.length_serialize]; rfl
  · rw [pointBytes, Verif.pointBytes, fieldBytes, fieldBits]
    split_ifs <;> rfl
  · rfl

/-- Tags and curve types: every tag but 1 stands for no curve (0), and `FromTag` undoes `Tag` for no other curve types than
K256 and 0. -/
theorem C133_tags (b : UInt8) (c : CurveType) :
    (fromTag b = K256 ↔ b = 1) ∧ (b ≠ 1 → fromTag b = 0) ∧ (fromTag (tag c) = c ↔ c = K256 ∨ c = 0) := by
  refine ⟨?_, fun h => if_neg h, ?_⟩
  · rw [fromTag]
    split_ifs with h
    · simp [h]
    · simp [h, K256]
  · rw [fromTag, tag]
    by_cases hc : c = K256
    · simp [hc]
    · simp [hc, eq_comm]

end Verif.Curves
