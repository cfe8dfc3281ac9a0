import Verif.Props.Poly
import Verif.Props.Curves
import Verif.Props.Key
import Verif.Props.Seed
import Verif.Props.Commitment
import Verif.Props.Complaints

/-!
Properties C154–C157 and additions to C37 and C133: functions of the API that the protocol itself does not call.
-/

set_option autoImplicit false

namespace Verif

open RoCall Ro

/-! ### C154: scalars and openings as byte arrays -/

/-- C154 is false: `ToScalar` of what `ToScalarBytes` gives always panics, and so does `ToCommitmentOpening` of what
`ToCommitmentOpeningBytes` gives. -/
theorem C154_false :
    (∀ s : Fn, (Scalar.toScalarBytesToScalar s).isPanic = true) ∧
    ∀ o : Opening, o.bytesRoundTrip.isPanic = true := by
  refine ⟨fun s => rfl, fun o => ?_⟩
  cases o <;> rfl

/-- C154, the half that holds: `ToScalar` of the 32 bytes of a scalar is this scalar; of 32 other bytes (numbers from the order
on) it panics.  Missing: `ToScalarBytes`, which gives nil. -/
theorem C154_to_scalar_partial (b : Bytes) (hb : b.length = 32) :
    (∀ s : Fn, Scalar.scalarBytesToScalar b = .ok s ↔ b = Scalar.serialize s) ∧
    ((Scalar.scalarBytesToScalar b).isPanic = true ↔ n ≤ beVal b) := by
  have hd : Scalar.k256Deserialize b = if beVal b < n then .ok (beVal b : Fn) else .err "invalid byte sequence" := by
    rw [Scalar.k256Deserialize_eq, hb]
    rfl
  rw [Scalar.scalarBytesToScalar, hd]
  by_cases h : beVal b < n
  · rw [if_pos h]
    refine ⟨fun s => ?_, by simpa using h⟩
    rw [Res.ok.injEq]
    constructor
    · rintro rfl
      exact beVal_inj (by rw [hb, Scalar.length_serialize]) (by rw [Scalar.beVal_serialize, Scalar.val_natCast_of_lt h])
    · intro e
      rw [e, Scalar.beVal_serialize, ZMod.natCast_val, ZMod.cast_id]
  · rw [if_neg h]
    refine ⟨fun s => ⟨fun e => (by cases e), fun e => absurd ?_ h⟩, by simpa using h⟩
    rw [e, Scalar.beVal_serialize]
    exact ZMod.val_lt s

/-! ### C155: points, integers and their names in the random oracle -/

/-- The inputs that `AddPoints` stands for. -/
def indexedPoints (name : Bytes) (first : Nat) : List Pt → List RoCall
  | [] => []
  | A :: l => ⟨name ++ ascii "[" ++ decimal first ++ ascii "]", 3, Point.serializeTagged A⟩ :: indexedPoints name (first + 1) l

theorem mem_indexedPoints {name : Bytes} {k : Nat} {l : List Pt} {c : RoCall} (h : c ∈ indexedPoints name k l) :
    ∃ j, k ≤ j ∧ c.name = name ++ ascii "[" ++ decimal j ++ ascii "]" := by
  induction l generalizing k with
  | nil => cases h
  | cons A l ih =>
    rcases List.mem_cons.1 h with rfl | h
    · exact ⟨k, le_refl k, rfl⟩
    · obtain ⟨j, hj, e⟩ := ih h
      exact ⟨j, by omega, e⟩

theorem indexed_name_inj {name : Bytes} {j k : Nat}
    (h : name ++ ascii "[" ++ decimal j ++ ascii "]" = name ++ ascii "[" ++ decimal k ++ ascii "]") : j = k :=
  Complaints.decimal_injective (List.append_cancel_left (List.append_cancel_right h))

theorem addPointsFrom_run (ds name : Bytes) (l : List Pt) (k : Nat) (cs : List RoCall) :
    ((∀ c ∈ indexedPoints name k l, c.WellFormed ∧ c.name ∉ (accepted cs).map RoCall.name) →
      addPointsFrom name k (run ds cs) l = (none, run ds (cs ++ indexedPoints name k l)) ∧
        accepted (cs ++ indexedPoints name k l) = accepted cs ++ indexedPoints name k l) ∧
    ((addPointsFrom name k (run ds cs) l).1 = none →
      ∀ c ∈ indexedPoints name k l, c.WellFormed ∧ c.name ∉ (accepted cs).map RoCall.name) := by
  induction l generalizing k cs with
  | nil => simp [indexedPoints, addPointsFrom]
  | cons A l ih =>
    set c0 : RoCall := ⟨name ++ ascii "[" ++ decimal k ++ ascii "]", 3, Point.serializeTagged A⟩ with hc0
    have hlater : ∀ c ∈ indexedPoints name (k + 1) l, c.name ≠ c0.name := by
      intro c hc e
      obtain ⟨j, hj, e'⟩ := mem_indexedPoints hc
      have := indexed_name_inj (e'.symm.trans e)
      omega
    have hcases := addInput_cases (rep_run ds cs) c0
    have hstep : addPointsFrom name k (run ds cs) (A :: l) =
        match (run ds cs).addInput c0.name c0.data c0.ty with
        | (some e, r) => (some e, r)
        | (none, r) => addPointsFrom name (k + 1) r l := rfl
    have hidx : indexedPoints name k (A :: l) = c0 :: indexedPoints name (k + 1) l := rfl
    by_cases hok : c0.WellFormed ∧ c0.name ∉ (accepted cs).map RoCall.name
    · have h1 := (hcases.1 hok).1
      have hpair : (run ds cs).addInput c0.name c0.data c0.ty = (none, run ds (cs ++ [c0])) := by
        rw [run_append, ← h1]
      have hacc : accepted (cs ++ [c0]) = accepted cs ++ [c0] := by rw [accepted_append, accStep, if_pos hok]
      rw [hstep, hpair, hidx]
      dsimp only
      obtain ⟨i1, i2⟩ := ih (k + 1) (cs ++ [c0])
      rw [hacc] at i1 i2
      have happ : cs ++ [c0] ++ indexedPoints name (k + 1) l = cs ++ c0 :: indexedPoints name (k + 1) l := by simp
      constructor
      · intro h
        obtain ⟨a, b⟩ := i1 fun c hc => ⟨(h c (List.mem_cons_of_mem _ hc)).1, by
          rw [List.map_append, List.mem_append, not_or]
          refine ⟨(h c (List.mem_cons_of_mem _ hc)).2, ?_⟩
          simpa using hlater c hc⟩
        rw [happ] at a b
        exact ⟨a, by rw [b]; simp⟩
      · intro h c hc
        rcases List.mem_cons.1 hc with rfl | hc
        · exact hok
        · obtain ⟨a, b⟩ := i2 h c hc
          rw [List.map_append, List.mem_append, not_or] at b
          exact ⟨a, b.1⟩
    · have h1 := (hcases.2 hok).1
      obtain ⟨e, he⟩ := Option.ne_none_iff_exists'.1 h1
      constructor
      · intro h
        exact absurd (h c0 (by rw [hidx]; simp)) hok
      · intro h
        exfalso
        rw [hstep] at h
        rw [show (run ds cs).addInput c0.name c0.data c0.ty = (some e, ((run ds cs).addInput c0.name c0.data c0.ty).2) by
          rw [← he]] at h
        cases h

/-- C155: `AddPoints` succeeds exactly if none of the names `name[0]`, `name[1]`, … is in use and they have at most 255 bytes; then
all points have been added, under these names. -/
theorem C155_add_points (ds name : Bytes) (cs : List RoCall) (l : List Pt) :
    (((run ds cs).addPoints name l).1 = none ↔ ∀ i, i < l.length →
      (name ++ ascii "[" ++ decimal i ++ ascii "]").length ≤ 255 ∧
        name ++ ascii "[" ++ decimal i ++ ascii "]" ∉ (accepted cs).map RoCall.name) ∧
    (((run ds cs).addPoints name l).1 = none →
      ((run ds cs).addPoints name l).2 = run ds (cs ++ indexedPoints name 0 l) ∧
        accepted (cs ++ indexedPoints name 0 l) = accepted cs ++ indexedPoints name 0 l) := by
  obtain ⟨h1, h2⟩ := addPointsFrom_run ds name l 0 cs
  have hwf : (∀ c ∈ indexedPoints name 0 l, c.WellFormed ∧ c.name ∉ (accepted cs).map RoCall.name) ↔
      ∀ i, i < l.length → (name ++ ascii "[" ++ decimal i ++ ascii "]").length ≤ 255 ∧
        name ++ ascii "[" ++ decimal i ++ ascii "]" ∉ (accepted cs).map RoCall.name := by
    have key : ∀ (l : List Pt) (k : Nat),
        (∀ c ∈ indexedPoints name k l, c.WellFormed ∧ c.name ∉ (accepted cs).map RoCall.name) ↔
        ∀ i, i < l.length → (name ++ ascii "[" ++ decimal (k + i) ++ ascii "]").length ≤ 255 ∧
          name ++ ascii "[" ++ decimal (k + i) ++ ascii "]" ∉ (accepted cs).map RoCall.name := by
      intro l
      induction l with
      | nil => simp [indexedPoints]
      | cons A l ih =>
        intro k
        rw [indexedPoints, List.forall_mem_cons, ih (k + 1)]
        have hw : ∀ nm : Bytes, (⟨nm ++ ascii "]", 3, Point.serializeTagged A⟩ : RoCall).WellFormed ↔
            (nm ++ ascii "]").length ≤ 255 := by
          intro nm
          have hlen : 1 ≤ (nm ++ ascii "]").length := by
            rw [List.length_append, show (ascii "]").length = 1 by decide +kernel]
            omega
          exact ⟨fun h => h.2.1, fun h => ⟨hlen, h, by rw [wf_tagged_point]; norm_num⟩⟩
        rw [hw]
        constructor
        · rintro ⟨h0, h⟩ i hi
          rcases i with _ | i
          · exact h0
          · rw [show k + (i + 1) = k + 1 + i by omega]
            exact h i (by simpa using hi)
        · intro h
          refine ⟨h 0 (by simp), fun i hi => ?_⟩
          rw [show k + 1 + i = k + (i + 1) by omega]
          exact h (i + 1) (by simpa using hi)
    simpa using key l 0
  refine ⟨⟨fun h => hwf.1 (h2 h), fun h => ?_⟩, fun h => ?_⟩
  · rw [addPoints, (h1 (hwf.2 h)).1]
  · obtain ⟨a, b⟩ := h1 (h2 h)
    exact ⟨by rw [addPoints, a], b⟩

/-- C155: two lists of points added under one name after the same inputs are told apart by what is hashed. -/
theorem C155_points_injective (ds name : Bytes) (cs : List RoCall) (l l' : List Pt)
    (h : ((run ds cs).addPoints name l).1 = none) (h' : ((run ds cs).addPoints name l').1 = none) (m : Bytes)
    (hm : ((run ds cs).addPoints name l).2.formRoInput = .ok m)
    (hm' : ((run ds cs).addPoints name l').2.formRoInput = .ok m) : l = l' := by
  obtain ⟨a, b⟩ := (C155_add_points ds name cs l).2 h
  obtain ⟨a', b'⟩ := (C155_add_points ds name cs l').2 h'
  rw [a] at hm; rw [a'] at hm'
  have hp := accepted_perm_of_form_eq hm hm'
  rw [b, b', List.perm_append_left_iff] at hp
  have hmem : ∀ (l : List Pt) (k i : Nat) (A : Pt), l[i]? = some A ↔
      (⟨name ++ ascii "[" ++ decimal (k + i) ++ ascii "]", 3, Point.serializeTagged A⟩ : RoCall) ∈ indexedPoints name k l := by
    intro l
    induction l with
    | nil => simp [indexedPoints]
    | cons B l ih =>
      intro k i A
      rw [indexedPoints, List.mem_cons]
      rcases i with _ | i
      · simp only [List.getElem?_cons_zero, Option.some.injEq, Nat.add_zero]
        constructor
        · rintro rfl; exact Or.inl rfl
        · rintro (e | e)
          · have hd : [(1 : UInt8)] ++ Point.serialize A = [(1 : UInt8)] ++ Point.serialize B := congrArg RoCall.data e
            exact (Point.serialize_injective (List.append_cancel_left hd)).symm
          · obtain ⟨j, hj, e'⟩ := mem_indexedPoints e
            have := indexed_name_inj e'
            omega
      · rw [List.getElem?_cons_succ, ih (k + 1) i A, show k + 1 + i = k + (i + 1) by omega]
        constructor
        · exact Or.inr
        · rintro (e | e)
          · have := indexed_name_inj (congrArg RoCall.name e)
            omega
          · exact e
  apply List.ext_getElem?
  intro i
  apply Option.ext
  intro A
  rw [hmem l 0 i A, hmem l' 0 i A, hp.mem_iff]

/-- C155: integers are added as eight bytes, whether 32 or 64 bits wide; below `2^64`, different integers give different inputs. -/
theorem C155_integers (ds : Bytes) (cs : List RoCall) (name : Bytes) (i j : Nat) (hi : i < 2 ^ 64) (hj : j < 2 ^ 64) :
    let r := run ds cs
    r.addUint64 name i = r.addInput name (toBE 8 i) 2 ∧ beVal (toBE 8 i) = i ∧ r.addUint32 name i = r.addUint64 name i ∧
    ((r.addUint64 name i).1 = none → (r.addUint64 name i = r.addUint64 name j ↔ i = j)) := by
  have hsorted : OMap.Sorted nameKey (run ds cs).inputs := (rep_run ds cs).sorted
  intro r
  refine ⟨rfl, beVal_toBE_of_lt (by simpa using hi), rfl, fun h => ⟨fun e => ?_, fun e => by rw [e]⟩⟩
  have hval : ∀ k, (r.addUint64 name k).1 = none →
      OMap.get nameKey name (r.addUint64 name k).2.inputs = some ([2] ++ toBE 4 8 ++ toBE 8 k) := by
    intro k hk
    rw [addUint64, addInput] at hk ⊢
    split_ifs at hk ⊢ with h1 h2 h3
    rw [OMap.get_set _ _ _ hsorted, if_pos rfl, length_toBE]
    rfl
  have e1 := hval i h
  rw [e] at h
  have e2 := hval j h
  rw [e, e2, Option.some.injEq] at e1
  exact (toBE_inj (by simpa using hj) (by simpa using hi) (List.append_cancel_left e1)).symm

/-- Two points, both accepted, under names of their own; and a name in use. -/
example : ((new [1]).addPoints [112] [G, 0]).1 = none ∧
    ((new [1]).addPoints [112] [G, 0]).2.inputs.map Prod.fst = [ascii "p[0]", ascii "p[1]"] ∧
    (((new [1]).addPoints [112] [G, 0]).2.addPoints [112] [G]).1 ≠ none ∧
    ((new [1]).addUint64 [112] 7).1 = none := by decide +kernel

/-! ### C156: paths of numbers -/

/-- C156: `NewBip32` gives one index of four bytes, most significant first, for each number, so that different lists give different
paths. -/
theorem C156_new_bip32 (l : List UInt32) :
    (Key.newBip32 l).length = l.length ∧
    (∀ (i : Nat) (hi : i < l.length), ∃ a b c d : UInt8, (Key.newBip32 l)[i]? = some [a, b, c, d] ∧
      l[i].toNat = a.toNat * 2 ^ 24 + b.toNat * 2 ^ 16 + c.toNat * 2 ^ 8 + d.toNat) ∧
    ∀ l' : List UInt32, Key.newBip32 l = Key.newBip32 l' ↔ l = l' := by
  have hinj : Function.Injective fun k : UInt32 => toBE 4 k.toNat := fun a b h =>
    UInt32.toNat_inj.1 (toBE_inj (by simpa using a.toNat_lt) (by simpa using b.toNat_lt) h)
  refine ⟨by simp [Key.newBip32], fun i hi => ?_, fun l' => ⟨fun h => List.map_injective_iff.2 hinj h, fun h => by rw [h]⟩⟩
  have hk : (Key.newBip32 l)[i]? = some (toBE 4 l[i].toNat) := by simp [Key.newBip32, hi]
  rw [hk]
  have hlen : (toBE 4 l[i].toNat).length = 4 := length_toBE _ _
  have hval : beVal (toBE 4 l[i].toNat) = l[i].toNat := beVal_toBE_of_lt (by simpa using l[i].toNat_lt)
  generalize toBE 4 l[i].toNat = x at hlen hval
  match x, hlen with
  | [a, b, c, d], _ =>
    refine ⟨a, b, c, d, rfl, ?_⟩
    rw [← hval]
    simp only [beVal_cons, beVal_nil, List.length_cons, List.length_nil]
    ring

/-- C156: `Next` of such an index is the index of the next number; after the last number come five bytes. -/
theorem C156_next (k : UInt32) :
    (k ≠ 4294967295 → Key.newBip32 [k + 1] = [Key.Index.next (toBE 4 k.toNat)]) ∧
    (k = 4294967295 → Key.Index.next (toBE 4 k.toNat) = [1, 0, 0, 0, 0]) := by
  have hlt : k.toNat < 2 ^ 32 := k.toNat_lt
  have hval : beVal (toBE 4 k.toNat) = k.toNat := beVal_toBE_of_lt (by simpa using hlt)
  obtain ⟨h1, h2⟩ := C28_index_next (toBE 4 k.toNat)
  constructor
  · intro hk
    have hne : k.toNat ≠ 4294967295 := fun e => hk (UInt32.toNat_inj.1 (by rw [e]; rfl))
    have hno : ¬ ∀ x ∈ toBE 4 k.toNat, x = 255 := by
      intro hall
      have : toBE 4 k.toNat = List.replicate 4 255 := List.eq_replicate_iff.2 ⟨length_toBE _ _, hall⟩
      rw [this] at hval
      exact hne (hval.symm.trans (by decide +kernel))
    rw [if_neg hno, length_toBE] at h2
    have hadd : (k + 1).toNat = k.toNat + 1 := by
      rw [UInt32.toNat_add]
      have : (1 : UInt32).toNat = 1 := rfl
      omega
    rw [Key.newBip32, List.map_singleton, List.cons.injEq]
    refine ⟨beVal_inj (by rw [length_toBE, h2]) ?_, rfl⟩
    rw [h1, hval, hadd, beVal_toBE_of_lt (by omega)]
  · rintro rfl
    decide +kernel

example : Key.newBip32 [1, 2147483648] = [[0, 0, 0, 1], [128, 0, 0, 0]] := by decide +kernel

/-! ### C157: words from the random generator -/

/-- C157: `Uint32` and `Uint64` are the next four or eight bytes of the key stream, most significant first; a 64-bit word is two
32-bit words. -/
theorem C157_words (r : Rng) :
    r.uint32.1 < 2 ^ 32 ∧ r.uint64.1 < 2 ^ 64 ∧
    r.uint32.1 = (r.stream r.pos).toNat * 2 ^ 24 + (r.stream (r.pos + 1)).toNat * 2 ^ 16 +
      (r.stream (r.pos + 2)).toNat * 2 ^ 8 + (r.stream (r.pos + 3)).toNat ∧
    r.uint64.1 = r.uint32.1 * 2 ^ 32 + r.uint32.2.uint32.1 ∧ r.uint64.2 = r.uint32.2.uint32.2 ∧
    r.uint64.2.pos = r.pos + 8 ∧ r.uint64.2.stream = r.stream := by
  have e4 : r.uint32 = (beVal [r.stream r.pos, r.stream (r.pos + 1), r.stream (r.pos + 2), r.stream (r.pos + 3)],
      { r with pos := r.pos + 4 }) := by
    simp [Rng.uint32, Rng.xorKeyStream, Rng.peek, List.range_succ, List.replicate]
  have e8 : r.uint64 = (beVal [r.stream r.pos, r.stream (r.pos + 1), r.stream (r.pos + 2), r.stream (r.pos + 3),
      r.stream (r.pos + 4), r.stream (r.pos + 5), r.stream (r.pos + 6), r.stream (r.pos + 7)], { r with pos := r.pos + 8 }) := by
    simp [Rng.uint64, Rng.xorKeyStream, Rng.peek, List.range_succ, List.replicate]
  have e44 : r.uint32.2.uint32 = (beVal [r.stream (r.pos + 4), r.stream (r.pos + 5), r.stream (r.pos + 6), r.stream (r.pos + 7)],
      { r with pos := r.pos + 8 }) := by
    rw [e4]
    simp [Rng.uint32, Rng.xorKeyStream, Rng.peek, List.range_succ, List.replicate, Nat.add_assoc]
  refine ⟨?_, ?_, ?_, ?_, ?_, ?_, ?_⟩
  · rw [e4]; exact lt_of_lt_of_le (beVal_lt _) (by norm_num)
  · rw [e8]; exact lt_of_lt_of_le (beVal_lt _) (by norm_num)
  · rw [e4]; simp only [beVal_cons, beVal_nil, List.length_cons, List.length_nil]; ring
  · rw [e44, e4, e8]; simp only [beVal_cons, beVal_nil, List.length_cons, List.length_nil]; ring
  · rw [e44, e8]
  · rw [e8]
  · rw [e8]

example : (Rng.mk (fun i => UInt8.ofNat (i + 1)) 0).uint32.1 = 0x01020304 ∧
    (Rng.mk (fun i => UInt8.ofNat (i + 1)) 0).uint64.1 = 0x0102030405060708 := by decide +kernel

/-! ### Additions to C37 and C133 -/

/-- C37: `New` of coefficients refuses only the empty list; interpolation with what it gives fails with an error if the number of
samples is wrong, and never panics. -/
theorem C37_new (l : List Fn) :
    ((Lagr.new l).isErr = true ↔ l = []) ∧ ∀ l', Lagr.new l = .ok l' → l' = l ∧
      (∀ y : List Fn, (y.length = l'.length → (Lagr.interpolateScalar l' y).isOk = true) ∧
        (y.length ≠ l'.length → (Lagr.interpolateScalar l' y).isErr = true)) ∧
      ∀ y : List Pt, (y.length = l'.length → (Lagr.interpolatePoint l' y).isOk = true) ∧
        (y.length ≠ l'.length → (Lagr.interpolatePoint l' y).isErr = true) := by
  have hnew : Lagr.new l = if l = [] then .err "coefficients is empty" else .ok l := by
    rw [Lagr.new]; simp only [List.length_eq_zero_iff]
  by_cases hl : l = []
  · rw [hnew, if_pos hl]
    exact ⟨by simpa using hl, fun l' h => by cases h⟩
  · rw [hnew, if_neg hl]
    refine ⟨by simpa using hl, fun l' h => ?_⟩
    rw [Res.ok.injEq] at h
    refine ⟨h.symm, fun y => ⟨fun e => ?_, fun e => ?_⟩, fun y => ⟨fun e => ?_, fun e => ?_⟩⟩
    · rw [Lagr.interpolateScalar_eq e (h ▸ hl)]; rfl
    · rw [Lagr.interpolateScalar, if_pos e]; rfl
    · rw [Lagr.interpolatePoint_eq e (h ▸ hl)]; rfl
    · rw [Lagr.interpolatePoint, if_pos e]; rfl

/-- C133: the name of the curve type is the one that the random oracle puts behind its separator; other curve types have none. -/
theorem C133_name (ds : Bytes) :
    (new ds).curveDst = ds ++ ascii "-" ++ Curves.name K256 ∧ (∀ c, Curves.name c = [] ↔ c ≠ K256) := by
  refine ⟨rfl, fun c => ?_⟩
  rw [Curves.name]
  split_ifs with h
  · simp only [h, ne_eq, not_true_eq_false, iff_false]
    decide +kernel
  · simpa using h

/-! ### Boundary cases of C03, C23, C41 and C76 -/

/-- C03, the one case left out of `C03_scalar_decoding_partial`: the empty string is an error. -/
theorem C03_empty : (Scalar.deserialize K256 []).isErr = true := by decide +kernel

/-- C41 without hypotheses: two commitments with the same representation are the same commitment, and a commitment
has a representation exactly if it has a point (it panics otherwise). -/
theorem C41_representation_iff (c : Commitment) :
    (∀ d b, c.stableRepresentation = .ok b → d.stableRepresentation = .ok b → c = d) ∧
    ((∃ b, c.stableRepresentation = .ok b) ↔ c.points ≠ []) ∧
    (c.stableRepresentation.isPanic = true ↔ c.points = []) := by
  have hnil : ∀ c : Commitment, c.points = [] → c.stableRepresentation = .panic "index out of range" := by
    intro c h
    rw [Commitment.stableRepresentation, Commitment.curveType, h]
    rfl
  have hsome : ∀ c : Commitment, c.points ≠ [] → ∃ b, c.stableRepresentation = .ok b := fun c h => by
    obtain ⟨b, -, hb, -⟩ := C41_representation_injective c c h h
    exact ⟨b, hb⟩
  have hne : ∀ (c : Commitment) (b : Bytes), c.stableRepresentation = .ok b → c.points ≠ [] := by
    intro c b h e
    rw [hnil c e] at h
    cases h
  refine ⟨fun d b h h' => ?_, ⟨fun ⟨b, h⟩ => hne c b h, hsome c⟩, fun h => ?_, fun h => by rw [hnil c h]; rfl⟩
  · obtain ⟨b1, b2, e1, e2, e⟩ := C41_representation_injective c d (hne c b h) (hne d b h')
    rw [h, Res.ok.injEq] at e1
    rw [h', Res.ok.injEq] at e2
    exact e (e1.symm.trans e2)
  · by_contra hc
    obtain ⟨b, hb⟩ := hsome c hc
    rw [hb] at h
    cases h

example : ∃ b, (⟨.pedersen, [G, 0]⟩ : Commitment).stableRepresentation = .ok b :=
  ((C41_representation_iff _).2.1).2 (by simp)

/-- C76, the remaining case: `VerifyIs` of a commitment without points panics, whatever is asked; with a point it
never does. -/
theorem C76_verify_is_panics (c : Commitment) (kind : Kind) (curve : CurveType) :
    (c.verifyIs kind curve).isPanic = true ↔ c.points = [] := by
  refine ⟨fun h => ?_, fun h => ?_⟩
  · by_contra hc
    have := C76_verify_is c hc kind curve
    by_cases e : curve = K256 ∧ c.kind = kind
    · rw [this.1.2 e] at h
      cases h
    · obtain ⟨s, hs⟩ := Res.isErr_iff.1 (this.2.2 e)
      rw [hs] at h
      cases h
  · rw [Commitment.verifyIs, Commitment.curveType, h]
    rfl

/-- The map of hashing to the curve takes different values at these two field elements. -/
theorem H2C.mapToCurve_two :
    mapToCurve ((beVal (List.replicate 32 2 ++ List.replicate 16 0 : Bytes) : Nat) : Fp) ≠ mapToCurve 0 := by
  decide +kernel

/-- The point computed from an expansion of 96 bytes. -/
theorem Ro.outputPoint_of_expand {P : Prim} {r : Ro} {b out : Bytes} (h1 : r.formRoInput = .ok b)
    (h2 : Xmd.expandMessageXmd P b r.curveDst (96 : Nat) = .ok out) {A B : Pt}
    (hA : H2C.mapToCurve ((beVal (block48 out 0) : Nat) : Fp) = .ok (some (Point.raw A)))
    (hB : H2C.mapToCurve ((beVal (block48 out 1) : Nat) : Fp) = .ok (some (Point.raw B))) :
    r.outputPoint P = .ok (Point.raw (A + B)) := by
  obtain ⟨out', e1, -, e3⟩ := hashToField_ok P 2 b r.curveDst (by norm_num)
  obtain ⟨out'', f1, -, f3⟩ := (C19_expand_message_xmd_rfc P b r.curveDst).1 96 (by norm_num)
  rw [h2] at f1
  cases f1
  rw [show 2 * 48 = 96 from rfl, f3] at e1
  cases e1
  have h' : H2C.hashToField P 2 b r.curveDst =
      .ok [((beVal (block48 out 0) : Nat) : Fp), ((beVal (block48 out 1) : Nat) : Fp)] := e3
  rw [outputPoint, h1, Res.ok_bind, H2C.hashToCurve, h', Res.ok_bind]
  simp only [hA, hB, Res.ok_bind, H2C.addRaw, Point.ofRaw?_raw]

/-- C23, points: oracles that differ in the domain separator or in the set of accepted inputs are told apart by some
hash function also by the points they output. -/
theorem C23_points_separated (ds ds' : Bytes) (cs cs' : List RoCall) (h0 : accepted cs ≠ [])
    (h0' : accepted cs' ≠ []) (hne : ¬ (ds = ds' ∧ (accepted cs).Perm (accepted cs'))) :
    ∃ P, (run ds cs).outputPoint P ≠ (run ds' cs').outputPoint P := by
  obtain ⟨m, hm⟩ := form_ok_of_accepted (ds := ds) h0
  obtain ⟨m', hm'⟩ := form_ok_of_accepted (ds := ds') h0'
  obtain ⟨P, hP⟩ := exists_prim_expand m (run ds cs).curveDst m' (run ds' cs').curveDst 96 (by norm_num) (by
    intro e
    simp only [Prod.mk.injEq] at e
    exact hne (C23_transcript_injective ds ds' cs cs' m m' hm hm' (Or.inr (by rw [e.1, e.2]))))
    (List.replicate 32 2) (by simp)
  obtain ⟨A, hA⟩ := C17_map_to_curve_total
    ((beVal (List.replicate 32 2 ++ List.replicate 16 0 : Bytes) : Nat) : Fp)
  obtain ⟨B, hB⟩ := C17_map_to_curve_total 0
  have hAB : A ≠ B := fun e => H2C.mapToCurve_two (by rw [hA, hB, e])
  have b0 : block48 ((List.replicate 32 2 ++ List.replicate 96 0 : Bytes).take 96) 0 =
      List.replicate 32 2 ++ List.replicate 16 0 := by decide +kernel
  have b1 : ((beVal (block48 ((List.replicate 32 2 ++ List.replicate 96 0 : Bytes).take 96) 1) : Nat) : Fp) = 0 := by
    decide +kernel
  have z0 : ((beVal (block48 (List.replicate 96 0 : Bytes) 0) : Nat) : Fp) = 0 := by decide +kernel
  have z1 : ((beVal (block48 (List.replicate 96 0 : Bytes) 1) : Nat) : Fp) = 0 := by decide +kernel
  have hv : (Point.raw (A + B)) ≠ Point.raw (B + B) := fun e => hAB (add_right_cancel (Point.raw_injective e))
  have hx : ∀ {r : Ro} {b : Bytes}, r.formRoInput = .ok b → Xmd.expandMessageXmd P b r.curveDst (96 : Nat) =
      .ok ((List.replicate 32 2 ++ List.replicate 96 0 : Bytes).take 96) →
      r.outputPoint P = .ok (Point.raw (A + B)) := fun h1 h2 =>
    outputPoint_of_expand h1 h2 (by rw [b0]; exact hA) (by rw [b1]; exact hB)
  have hy : ∀ {r : Ro} {b : Bytes}, r.formRoInput = .ok b → Xmd.expandMessageXmd P b r.curveDst (96 : Nat) =
      .ok (List.replicate 96 0) → r.outputPoint P = .ok (Point.raw (B + B)) := fun h1 h2 =>
    outputPoint_of_expand h1 h2 (by rw [z0]; exact hB) (by rw [z1]; exact hB)
  refine ⟨P, fun heq => ?_⟩
  rcases hP with ⟨h1, h2⟩ | ⟨h1, h2⟩
  · rw [hx hm h1, hy hm' h2, Res.ok.injEq] at heq
    exact hv heq
  · rw [hx hm' h1, hy hm h2, Res.ok.injEq] at heq
    exact hv heq.symm

end Verif
