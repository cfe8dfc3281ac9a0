import Verif.Lemmas.HeapBytes
import Verif.Lemmas.Commitment

/-!
C181: whether encoded points, derivation paths and transcripts stay as they are when byte slices are changed.
-/

set_option autoImplicit false

namespace Verif.HeapBytes

/-- What a piece of code that may hand out bytes of its argument does, compared with the result on values: it ends in the same way, what
it returns shows the same bytes, and nothing of `m` is changed. -/
def Shows (m : Mem) (out : Res Slice × Mem) (r : Res Bytes) : Prop :=
  match r with
  | .ok v => ∃ s m', out = (.ok s, m') ∧ Same m m' ∧ s.Valid m' ∧ s.val m' = v
  | .err _ => ∃ e m', out = (.err e, m') ∧ Same m m'
  | .panic _ => ∃ e m', out = (.panic e, m') ∧ Same m m'
  | .diverge => ∃ m', out = (.diverge, m') ∧ Same m m'

theorem Makes.shows {m : Mem} {out : Res Slice × Mem} {r : Res Bytes} (h : Makes m out r) : Shows m out r := by
  cases r with
  | ok v => obtain ⟨s, m', e, f⟩ := h; exact ⟨s, m', e, f.same, f.valid, f.val⟩
  | err _ => exact h
  | panic _ => exact h
  | diverge => exact h

/-- The slice is all of its array from its start on: so are the encoded points made by curve/encode.go. -/
def Slice.Exact (s : Slice) : Prop := s.cap = s.len

/-- A transcript and what was done to it and to the memory, and the transcript on values that was given the bytes the slices showed when
they were added.  Between the calls anything may be done to the arrays that do not belong to the transcript. -/
inductive Run (grow : Nat → Nat → Nat) : Mem → RoObj → Ro → Prop
  | new (m : Mem) (ds : Bytes) : Run grow m (newRo ds) (Ro.new ds)
  | add {m m' : Mem} {r r' : RoObj} {v : Ro} {e : Option String} (name : Bytes) (input : Slice) (ty : UInt8) : Run grow m r v →
      input.Valid m → addInput grow r name input ty m = (.ok (e, r'), m') → Run grow m' r' (v.addInput name (input.val m) ty).2
  | change {m m' : Mem} {r : RoObj} {v : Ro} : Run grow m r v → m.next ≤ m'.next →
      (∀ x ∈ r.inputs, m'.arr x.2.arr = m.arr x.2.arr) → Run grow m' r v

/-! ### Accessors -/

theorem index_zero {m : Mem} {e : Slice} {t : UInt8} {l : Bytes} (h : e.val m = t :: l) : index e 0 m = (.ok t, m) := by
  rw [index, h]
  rfl

theorem index_nil {m : Mem} {e : Slice} (h : e.val m = []) : index e 0 m = (.panic "index out of range", m) := by
  rw [index, h]
  rfl

theorem index_mem {m m' : Mem} {e : Slice} {i : Nat} {t : UInt8} (h : index e i m = (.ok t, m')) : m' = m := by
  rw [index] at h
  split at h <;> cases h
  rfl

theorem reslice_inv {m m' : Mem} {s s' : Slice} {lo hi : Nat} (h : reslice s lo hi m = (.ok s', m')) :
    (lo ≤ hi ∧ hi ≤ s.cap) ∧ s' = ⟨s.arr, s.off + lo, hi - lo, s.cap - lo⟩ ∧ m' = m := by
  rw [reslice] at h
  by_cases hc : lo ≤ hi ∧ hi ≤ s.cap
  · rw [if_pos hc] at h
    cases h
    exact ⟨hc, rfl, rfl⟩
  · rw [if_neg hc] at h
    cases h

theorem reslice_panic {m : Mem} {s : Slice} {lo hi : Nat} (h : ¬(lo ≤ hi ∧ hi ≤ s.cap)) :
    reslice s lo hi m = (.panic "slice bounds out of range", m) := by
  rw [reslice, if_neg h]

theorem asBytes_shows {m : Mem} {e : Slice} (he : e.Valid m) (hx : e.Exact) : Shows m (Enc.asBytes e m) (Encode.asBytes (e.val m)) := by
  have hl := length_val he
  cases hv : e.val m with
  | nil => exact ⟨_, m, bind_panic (index_nil hv), Same.refl _⟩
  | cons t l =>
    rw [hv] at hl
    rw [Enc.asBytes, Enc.tag, bind_ok (index_zero hv)]
    show Shows m _ (if (t :: l).length < Encode.messageLen t then _ else _)
    split_ifs with hc
    · exact ⟨_, m, reslice_panic (by rw [hx]; omega), Same.refl _⟩
    · obtain ⟨s, e1, v1, w1, -⟩ := reslice_valid he (Nat.zero_le (Encode.messageLen t)) (by omega)
      exact ⟨s, m, e1, Same.refl _, v1, by rw [w1, hv]; rfl⟩

theorem compress_shows {m : Mem} {e : Slice} (he : e.Valid m) (hx : e.Exact) :
    Shows m (Enc.compress e m) (Encode.compress (e.val m)) ∧
    (∀ t, Encode.tag (e.val m) = .ok t → (t = 5 ∨ Encode.isCompressed t = true ∨ t = 0) → Enc.compress e m = (.ok e, m)) ∧
    (∀ t, Encode.tag (e.val m) = .ok t → ¬(t = 5 ∨ Encode.isCompressed t = true ∨ t = 0) →
      Makes m (Enc.compress e m) (Encode.compress (e.val m))) := by
  have hl := length_val he
  cases hv : e.val m with
  | nil =>
    refine ⟨⟨_, m, bind_panic (index_nil hv), Same.refl _⟩, ?_, ?_⟩ <;>
    · intro t h
      cases h
  | cons t l =>
    rw [hv] at hl
    have e0 : Enc.compress e m = (if t = 5 ∨ Encode.isCompressed t = true ∨ t = 0 then (pure e : Go Slice)
        else do
          let x ← reslice e 1 33
          let y ← reslice e 33 e.len
          Enc.fromAffineCoordinates x y true) m := by
      rw [Enc.compress, Enc.tag, bind_ok (index_zero hv)]
    have e1 : Encode.compress (t :: l) = if t = 5 ∨ Encode.isCompressed t = true ∨ t = 0 then .ok (t :: l)
        else if (t :: l).length < 33 then .panic "slice bounds out of range"
        else Encode.fromAffineCoordinates (((t :: l).drop 1).take 32) ((t :: l).drop 33) true := rfl
    by_cases hc : t = 5 ∨ Encode.isCompressed t = true ∨ t = 0
    · rw [if_pos hc] at e0 e1
      refine ⟨?_, fun t' h' _ => e0, fun t' h' hn => ?_⟩
      · rw [e0, e1]
        exact ⟨e, m, rfl, Same.refl _, he, hv⟩
      · cases h'
        exact absurd hc hn
    · rw [if_neg hc] at e0 e1
      have key : Makes m (Enc.compress e m) (Encode.compress (t :: l)) := by
        rw [e0, e1]
        split_ifs with h33
        · exact ⟨_, m, bind_panic (reslice_panic (by rw [hx]; omega)), Same.refl _⟩
        · obtain ⟨x, x1, x2, x3, -⟩ := reslice_valid he (lo := 1) (hi := 33) (by omega) (by omega)
          obtain ⟨y, y1, y2, y3, -⟩ := reslice_valid he (lo := 33) (hi := e.len) (by omega) (le_refl _)
          rw [bind_ok x1, bind_ok y1]
          have := fromAffineCoordinates_makes x2 y2 true
          rw [x3, y3, hv, ← hl, List.take_length, List.drop_take] at this
          exact this
      refine ⟨key.shows, fun t' h' hn => ?_, fun t' h' _ => key⟩
      cases h'
      exact absurd hn hc

theorem nil_shows (m : Mem) : Shows m (.ok nilSlice, m) (.ok []) := ⟨_, m, rfl, Same.refl _, ⟨le_refl _, .inl rfl⟩, rfl⟩

theorem x_shows {m : Mem} {e : Slice} (he : e.Valid m) (hx : e.Exact) : Shows m (Enc.x e m) (Encode.x (e.val m)) := by
  have hl := length_val he
  cases hv : e.val m with
  | nil => exact ⟨_, m, bind_panic (index_nil hv), Same.refl _⟩
  | cons t l =>
    rw [hv] at hl
    rw [Enc.x, Enc.tag, bind_ok (index_zero hv)]
    have e1 : Encode.x (t :: l) = if t = 0 then .ok [] else if (t :: l).length < 33 then .panic "slice bounds out of range"
        else .ok (((t :: l).drop 1).take 32) := by
      rw [Encode.x, Encode.coordinates]
      show (if t = 0 then _ else _ : Res Encode.Coords).bind _ = _
      split_ifs <;> rfl
    rw [e1]
    split_ifs with h0 h33
    · exact nil_shows m
    · exact ⟨_, m, bind_panic (reslice_panic (by rw [hx]; omega)), Same.refl _⟩
    · obtain ⟨x, x1, x2, x3, -⟩ := reslice_valid he (lo := 1) (hi := 33) (by omega) (by omega)
      obtain ⟨y, y1, -⟩ := reslice_valid he (lo := 33) (hi := e.len) (by omega) (le_refl _)
      rw [bind_ok x1, bind_ok y1]
      exact ⟨x, m, rfl, Same.refl _, x2, by rw [x3, hv, List.drop_take]⟩

theorem y_shows {m : Mem} {e : Slice} (he : e.Valid m) (hx : e.Exact) : Shows m (Enc.y e m) (Encode.y (e.val m)) := by
  have hl := length_val he
  cases hv : e.val m with
  | nil => exact ⟨_, m, bind_panic (index_nil hv), Same.refl _⟩
  | cons t l =>
    rw [hv] at hl
    rw [Enc.y, Enc.tag, bind_ok (index_zero hv)]
    have e1 : Encode.y (t :: l) = if t = 0 then .ok [] else if (t :: l).length < 33 then .panic "slice bounds out of range"
        else if Encode.isCompressed t = true ∨ t = 5 then .ok [] else .ok ((t :: l).drop 33) := by
      rw [Encode.y, Encode.coordinates]
      show (if t = 0 then _ else _ : Res Encode.Coords).bind _ = _
      by_cases h2 : Encode.isCompressed t = true <;> by_cases h3 : t = 5 <;>
        simp only [h2, h3, true_or, or_true, or_self, if_true, if_false, Bool.false_eq_true] <;> split_ifs <;> rfl
    rw [e1]
    by_cases h0 : t = 0
    · rw [if_pos h0, if_pos h0]
      exact nil_shows m
    rw [if_neg h0, if_neg h0]
    by_cases h33 : (t :: l).length < 33
    · rw [if_pos h33]
      exact ⟨_, m, bind_panic (reslice_panic (by rw [hx]; omega)), Same.refl _⟩
    · rw [if_neg h33]
      obtain ⟨x, x1, -⟩ := reslice_valid he (lo := 1) (hi := 33) (by omega) (by omega)
      obtain ⟨y, y1, y2, y3, -⟩ := reslice_valid he (lo := 33) (hi := e.len) (by omega) (le_refl _)
      rw [bind_ok x1, bind_ok y1]
      split_ifs
      · exact nil_shows m
      · exact ⟨y, m, rfl, Same.refl _, y2, by rw [y3, hv, ← hl, List.take_length]⟩

/-! ### Encoded points have no bytes beyond their end -/

theorem bind_inv {α β : Type} {g : Go α} {f : α → Go β} {m m'' : Mem} {b : β} (h : (g >>= f) m = (.ok b, m'')) :
    ∃ a m', g m = (.ok a, m') ∧ f a m' = (.ok b, m'') := by
  obtain ⟨r, m1⟩ : Σ' r m1, g m = (r, m1) := ⟨_, _, rfl⟩
  rcases m1 with ⟨m1, hg⟩
  cases r with
  | ok a => exact ⟨a, m1, hg, by rw [← h, bind_ok hg]⟩
  | err _ => rw [bind_err hg] at h; cases h
  | panic _ => rw [bind_panic hg] at h; cases h
  | diverge => rw [bind_diverge hg] at h; cases h

theorem fromBytes_exact {m m' : Mem} {input s : Slice} (h : Enc.fromBytes input m = (.ok s, m')) : s.Exact := by
  obtain ⟨t, m1, -, h⟩ := bind_inv h
  split_ifs at h
  · cases h
  obtain ⟨s', m2, h2, h⟩ := bind_inv h
  obtain ⟨-, m3, -, h⟩ := bind_inv h
  cases h2
  cases h
  rfl

theorem fromStr_exact {m m' : Mem} {str : Bytes} {s : Slice} (h : Enc.fromStr str m = (.ok s, m')) : s.Exact := by
  obtain ⟨b, m1, -, h⟩ := bind_inv h
  obtain ⟨t, m2, -, h⟩ := bind_inv h
  exact fromBytes_exact h

theorem fromAffineCoordinates_exact {m m' : Mem} {x y s : Slice} {c : Bool} (h : Enc.fromAffineCoordinates x y c m = (.ok s, m')) :
    s.Exact := by
  obtain ⟨_, m1, -, h⟩ := bind_inv h
  obtain ⟨_, m1, -, h⟩ := bind_inv h
  obtain ⟨s', m2, h2, h⟩ := bind_inv h
  obtain ⟨_, m1, -, h⟩ := bind_inv h
  obtain ⟨_, m1, -, h⟩ := bind_inv h
  obtain ⟨_, m1, -, h⟩ := bind_inv h
  obtain ⟨_, m1, -, h⟩ := bind_inv h
  obtain ⟨_, m1, -, h⟩ := bind_inv h
  cases h2
  cases h
  rfl

theorem fromUnTaggedBytes_exact {m m' : Mem} {input s : Slice} (h : Enc.fromUnTaggedBytes input m = (.ok s, m')) : s.Exact := by
  obtain ⟨_, m1, -, h⟩ := bind_inv h
  obtain ⟨_, m1, -, h⟩ := bind_inv h
  exact fromAffineCoordinates_exact h

theorem conditionalSelect_exact {m m' : Mem} {a b s : Slice} {c : Nat} (h : Enc.conditionalSelect a b c m = (.ok s, m')) : s.Exact := by
  obtain ⟨s', m2, h2, h⟩ := bind_inv h
  obtain ⟨_, m1, -, h⟩ := bind_inv h
  cases h2
  cases h
  rfl

theorem compress_exact {m m' : Mem} {e s : Slice} (hx : e.Exact) (h : Enc.compress e m = (.ok s, m')) : s.Exact := by
  obtain ⟨_, m1, -, h⟩ := bind_inv h
  split_ifs at h
  · cases h
    exact hx
  · obtain ⟨_, m1, -, h⟩ := bind_inv h
    obtain ⟨_, m1, -, h⟩ := bind_inv h
    exact fromAffineCoordinates_exact h

/-! ### Transcripts -/

theorem Run.inv {grow : Nat → Nat → Nat} {m : Mem} {r : RoObj} {v : Ro} (h : Run grow m r v) : r.Valid m ∧ r.val m = v := by
  induction h with
  | new m ds => exact ⟨fun e he => absurd he List.not_mem_nil, rfl⟩
  | @add m m' r r' v e name input ty _ hi ha ih =>
    obtain ⟨e1, r1, m1, h1, -, h3, h4, -⟩ := addInput_spec grow ih.1 name hi ty
    rw [ha] at h1
    cases h1
    refine ⟨h3, ?_⟩
    rw [← ih.2, ← h4]
  | @change m m' r v _ hn ha ih =>
    refine ⟨fun x hx => ?_, ?_⟩
    · have := ih.1 x hx
      refine ⟨this.1, this.2.imp_right fun ⟨h1, h2⟩ => ⟨lt_of_lt_of_le h1 hn, ?_⟩⟩
      rw [ha x hx]
      exact h2
    · rw [← ih.2, RoObj.val, RoObj.val]
      congr 1
      refine List.map_congr_left fun x hx => ?_
      rw [Slice.val, Slice.val, ha x hx]

/-! ### Changing the first byte -/

theorem set_zero {m : Mem} {e s : Slice} (he : e.Valid m) (hs : s.arr = e.arr) (v : UInt8) {i : Nat} (ho : s.off = e.off + i)
    (h0 : 0 < s.len) (hi : i < e.len) : ∃ m', set s 0 v m = (.ok (), m') ∧ e.val m' = (e.val m).set i v := by
  have hc : e.cap ≠ 0 := by have := he.1; omega
  obtain ⟨h1, h2⟩ := he.2.resolve_left hc
  have := he.1
  refine ⟨_, if_pos h0, ?_⟩
  rw [hs, ho, Nat.add_zero, Slice.val, Mem.write]
  simp only [Function.update_self]
  rw [window_splice _ _ _ _ _ (by omega) (by simp only [List.length_singleton]; omega)]
  exact splice_single (by rw [← Slice.val, length_val he]; exact hi) v

/-! ### A hash function for which the tweak depends on the index -/

/-- HMAC replaced by a function that puts a chosen scalar for every index in front. -/
def tweakPrim (f : Bytes → Fn) : Prim where
  sha256 := fun _ => List.replicate 32 0
  sha256_length := fun _ => List.length_replicate
  hmacSha512 := fun _ msg => Scalar.serialize (f (msg.drop 33)) ++ List.replicate 32 0
  hmacSha512_length := fun _ msg => by rw [List.length_append, Scalar.length_serialize, List.length_replicate]
  chacha20 := fun _ _ => 0

theorem tweakPrim_derive (f : Bytes → Fn) (i : Bytes) (pk : Pt) (h : pk + f i • G ≠ 0) :
    Key.deriveTweak (tweakPrim f) [i] pk = .ok (f i, List.replicate 32 0) := by
  have hm : (tweakPrim f).hmacSha512 (List.replicate 32 0) (Point.serialize pk ++ i) = Scalar.serialize (f i) ++ List.replicate 32 0 := by
    show Scalar.serialize (f ((Point.serialize pk ++ i).drop 33)) ++ _ = _
    rw [List.drop_left' (Point.length_serialize pk)]
  have hil : Bip32.il (tweakPrim f) pk (List.replicate 32 0) i = (f i).val := by
    rw [Bip32.il, hm, List.take_left' (Scalar.length_serialize _), Scalar.beVal_serialize]
  have hir : Bip32.ir (tweakPrim f) pk (List.replicate 32 0) i = List.replicate 32 0 := by
    rw [Bip32.ir, hm, List.drop_left' (Scalar.length_serialize _)]
  have hck : Bip32.ckdPub (tweakPrim f) (pk, List.replicate 32 0) i = some ((f i).val • G + pk, List.replicate 32 0) := by
    rw [Bip32.ckdPub]
    simp only [hil, hir]
    rw [if_neg]
    rintro (hn | h0)
    · exact absurd (ZMod.val_lt (f i)) (not_lt.2 hn)
    · rw [← smul_eq_val_nsmul, add_comm] at h0
      exact h h0
  rw [Key.deriveTweak, Key.deriveLoop, Key.ckdpub_valid _ _ _ _ hck, hil]
  show Res.ok (0 + ((f i).val : Fn), _) = _
  rw [zero_add, ZMod.natCast_val, ZMod.cast_id]

theorem two_tweaks (pk : Pt) : ∃ a b : Fn, a ≠ b ∧ pk + a • G ≠ 0 ∧ pk + b • G ≠ 0 := by
  have inj : ∀ a b : Fn, a ≠ b → pk + a • G = 0 → pk + b • G ≠ 0 := fun a b hab h h' =>
    hab (Commitment.mulByG_inj.1 (add_left_cancel (h.trans h'.symm)))
  have h01 : (0 : Fn) ≠ 1 := by decide
  have h02 : (0 : Fn) ≠ 2 := by decide
  have h12 : (1 : Fn) ≠ 2 := by decide
  by_cases h0 : pk + (0 : Fn) • G = 0
  · exact ⟨1, 2, h12, inj _ _ h01 h0, inj _ _ h02 h0⟩
  · by_cases h1 : pk + (1 : Fn) • G = 0
    · exact ⟨0, 2, h02, h0, inj _ _ h12 h1⟩
    · exact ⟨0, 1, h01, h0, h1⟩

/-! ### The theorems -/

/-- C181 is false.  What `AsBytes`, `X` and `Y` return are the bytes of the encoded point itself, so that writing into them changes the
encoded point; `Compress` returns the encoding it is called on unless that one is uncompressed; and a path made by `New` consists of the
slices of the caller: when the caller changes a byte of an index, the same path gives another tweak. -/
theorem C181_false :
    (∀ (m m1 : Mem) (e s : Slice), e.Valid m → Enc.asBytes e m = (.ok s, m1) → ∀ v, ∃ m', set s 0 v m1 = (.ok (), m') ∧
      e.val m' = (e.val m).set 0 v) ∧
    (∀ (m m1 : Mem) (e s : Slice), e.Valid m → e.Exact → Enc.x e m = (.ok s, m1) → s.len ≠ 0 → ∀ v, ∃ m', set s 0 v m1 = (.ok (), m') ∧
      e.val m' = (e.val m).set 1 v) ∧
    (∀ (m m1 : Mem) (e s : Slice), e.Valid m → e.Exact → Enc.y e m = (.ok s, m1) → s.len ≠ 0 → ∀ v, ∃ m', set s 0 v m1 = (.ok (), m') ∧
      e.val m' = (e.val m).set 33 v) ∧
    (∀ (m : Mem) (e : Slice) (t : UInt8), e.Valid m → Encode.tag (e.val m) = .ok t →
      (t = 5 ∨ Encode.isCompressed t = true ∨ t = 0) → Enc.compress e m = (.ok e, m)) ∧
    ∀ (m : Mem) (idx : Slice) (v : UInt8), idx.Valid m → 0 < idx.len → (idx.val m)[0]? ≠ some v → ∀ pk : Pt, ∃ (P : Prim) (a b : Fn)
      (path : List Slice) (m' : Mem), a ≠ b ∧ newPath [idx] m = (.ok path, m) ∧ set idx 0 v m = (.ok (), m') ∧
        (∃ c m1, deriveTweak P path pk m = (.ok (a, c), m1)) ∧ ∃ c m1, deriveTweak P path pk m' = (.ok (b, c), m1) := by
  refine ⟨?_, ?_, ?_, ?_, ?_⟩
  · intro m m1 e s he h v
    cases hv : e.val m with
    | nil =>
      rw [Enc.asBytes, Enc.tag, bind_panic (index_nil hv)] at h
      cases h
    | cons t l =>
      have hl := length_val he
      rw [hv, List.length_cons] at hl
      rw [Enc.asBytes, Enc.tag, bind_ok (index_zero hv)] at h
      have hm : 0 < Encode.messageLen t := by
        rw [Encode.messageLen]
        split_ifs <;> omega
      obtain ⟨-, rfl, rfl⟩ := reslice_inv h
      rw [← hv]
      exact set_zero (i := 0) (s := ⟨e.arr, e.off + 0, Encode.messageLen t - 0, e.cap - 0⟩) he rfl v rfl
        (show 0 < Encode.messageLen t - 0 by omega) (by omega)
  · intro m m1 e s he hx h h0 v
    obtain ⟨t, m2, h2, h⟩ := bind_inv h
    cases index_mem h2
    split_ifs at h
    · cases h
      exact absurd rfl h0
    obtain ⟨x, m3, h3, h5⟩ := bind_inv h
    obtain ⟨y, m4, h4, h6⟩ := bind_inv h5
    obtain ⟨c3, rfl, rfl⟩ := reslice_inv h3
    obtain ⟨c4, rfl, rfl⟩ := reslice_inv h4
    cases h6
    rw [hx] at c3
    exact set_zero (i := 1) (s := ⟨e.arr, e.off + 1, 33 - 1, e.cap - 1⟩) he rfl v rfl (show 0 < 33 - 1 by omega) (by omega)
  · intro m m1 e s he hx h h0 v
    obtain ⟨t, m2, h2, h⟩ := bind_inv h
    cases index_mem h2
    by_cases ht : t = 0
    · rw [if_pos ht] at h
      cases h
      exact absurd rfl h0
    rw [if_neg ht] at h
    obtain ⟨x, m3, h3, h5⟩ := bind_inv h
    obtain ⟨y, m4, h4, h6⟩ := bind_inv h5
    obtain ⟨c3, rfl, rfl⟩ := reslice_inv h3
    obtain ⟨c4, rfl, rfl⟩ := reslice_inv h4
    by_cases hc : Encode.isCompressed t = true ∨ t = 5
    · rw [if_pos hc] at h6
      cases h6
      exact absurd rfl h0
    · rw [if_neg hc] at h6
      cases h6
      have h0' : e.len - 33 ≠ 0 := h0
      exact set_zero (i := 33) (s := ⟨e.arr, e.off + 33, e.len - 33, e.cap - 33⟩) he rfl v rfl (show 0 < e.len - 33 by omega) (by omega)
  · intro m e t he ht hc
    cases hv : e.val m with
    | nil =>
      rw [hv] at ht
      cases ht
    | cons t' l =>
      rw [hv] at ht
      cases ht
      rw [Enc.compress, Enc.tag, bind_ok (index_zero hv), if_pos hc]
      rfl
  · intro m idx v hi h0 hne pk
    obtain ⟨a, b, hab, ha, hb⟩ := two_tweaks pk
    obtain ⟨m', hs, hv⟩ := set_zero hi rfl v (i := 0) rfl h0 h0
    have hi' : idx.Valid m' := by
      rw [set, if_pos h0] at hs
      cases hs
      refine ⟨hi.1, hi.2.imp_right fun ⟨h1, h2⟩ => ⟨h1, ?_⟩⟩
      have := hi.1
      show _ ≤ (Function.update m.arr idx.arr _ idx.arr).length
      rw [Function.update_self, length_splice (by simp only [List.length_singleton]; omega)]
      exact h2
    have hd : idx.val m' ≠ idx.val m := by
      intro h
      apply hne
      rw [← h, hv, List.getElem?_set_self (by rw [length_val hi]; exact h0)]
    have d1 := tweakPrim_derive (fun i => if i = idx.val m then a else b) (idx.val m) pk (by simpa using ha)
    have d2 := tweakPrim_derive (fun i => if i = idx.val m then a else b) (idx.val m') pk (by simpa [hd] using hb)
    simp only [if_true] at d1
    simp only [if_neg hd] at d2
    refine ⟨tweakPrim fun i => if i = idx.val m then a else b, a, b, [idx], m', hab, rfl, hs, ?_, ?_⟩
    · have := deriveTweak_makes (tweakPrim fun i => if i = idx.val m then a else b) (m := m) (path := [idx])
        (fun s hs => by rw [List.mem_singleton.1 hs]; exact hi) pk
      rw [List.map_singleton, d1] at this
      obtain ⟨s, m1, h1, -⟩ := this
      exact ⟨s, m1, h1⟩
    · have := deriveTweak_makes (tweakPrim fun i => if i = idx.val m then a else b) (m := m') (path := [idx])
        (fun s hs => by rw [List.mem_singleton.1 hs]; exact hi') pk
      rw [List.map_singleton, d2] at this
      obtain ⟨s, m1, h1, -⟩ := this
      exact ⟨s, m1, h1⟩

/-- What `Makes` means: the result is that on values; older slices show what they did; whatever is done later to older arrays, the new
slice shows the same; and whatever is done to new arrays, older slices show the same. -/
theorem C181_made_partial {m : Mem} {out : Res Slice × Mem} {v : Bytes} (h : Makes m out (.ok v)) :
    ∃ s m', out = (.ok s, m') ∧ s.val m' = v ∧ (∀ t : Slice, t.Valid m → t.val m' = t.val m) ∧
      (∀ m'' : Mem, (∀ a, m.next ≤ a → m''.arr a = m'.arr a) → s.val m'' = v) ∧
      ∀ m'' : Mem, (∀ a, a < m.next → m''.arr a = m'.arr a) → ∀ t : Slice, t.Valid m → t.val m'' = t.val m := by
  obtain ⟨s, m', e, f⟩ := h
  refine ⟨s, m', e, f.val, fun t ht => f.same.val ht, fun m'' h'' => f.keeps h'', fun m'' h'' t ht => ?_⟩
  rcases ht.2 with h0 | ⟨h1, -⟩
  · rw [val_of_cap_zero ht h0, val_of_cap_zero ht h0]
  · rw [Slice.val, Slice.val, h'' _ h1, f.same.2 _ h1]

/-- C181 for encoded points, apart from `AsBytes`, `X`, `Y` and from `Compress` of what is not uncompressed: everything else makes new
bytes and changes none.  The exceptions change no bytes either, and show the right ones. -/
theorem C181_encodings_partial (m : Mem) :
    Makes m (Enc.identity m) (.ok Encode.identity) ∧
    (∀ input : Slice, input.Valid m → Makes m (Enc.fromBytes input m) (Encode.fromBytes (input.val m))) ∧
    (∀ str : Bytes, Makes m (Enc.fromStr str m) (Encode.fromStr str)) ∧
    (∀ input : Slice, input.Valid m → Makes m (Enc.fromUnTaggedBytes input m) (Encode.fromUnTaggedBytes (input.val m))) ∧
    (∀ (x y : Slice) (c : Bool), x.Valid m → y.Valid m →
      Makes m (Enc.fromAffineCoordinates x y c m) (Encode.fromAffineCoordinates (x.val m) (y.val m) c)) ∧
    (∀ (a b : Slice) (choice : Nat), a.Valid m → b.Valid m →
      Makes m (Enc.conditionalSelect a b choice m) (.ok (Encode.conditionalSelect (a.val m) (b.val m) choice))) ∧
    (∀ e : Slice, e.Valid m → e.Exact →
      (∀ t, Encode.tag (e.val m) = .ok t → ¬(t = 5 ∨ Encode.isCompressed t = true ∨ t = 0) →
        Makes m (Enc.compress e m) (Encode.compress (e.val m))) ∧
      Shows m (Enc.compress e m) (Encode.compress (e.val m)) ∧
      Shows m (Enc.asBytes e m) (Encode.asBytes (e.val m)) ∧
      Shows m (Enc.x e m) (Encode.x (e.val m)) ∧
      Shows m (Enc.y e m) (Encode.y (e.val m))) :=
  ⟨by
    obtain ⟨s, m', h, f, -⟩ := makeSlice_fresh m (le_refl 32)
    exact ⟨s, m', h, f⟩,
   fun _ h => fromBytes_makes h, fromStr_makes m, fun _ h => fromUnTaggedBytes_makes h, fun _ _ c hx hy => fromAffineCoordinates_makes hx hy c,
   fun _ _ c ha hb => conditionalSelect_makes ha hb c,
   fun _ he hx => ⟨(compress_shows he hx).2.2, (compress_shows he hx).1, asBytes_shows he hx, x_shows he hx, y_shows he hx⟩⟩

/-- The encoded points made by curve/encode.go are of the kind that C181_encodings_partial is about. -/
theorem C181_exact_partial (m m' : Mem) (s : Slice) :
    (Enc.identity m = (.ok s, m') → s.Exact) ∧
    (∀ input, Enc.fromBytes input m = (.ok s, m') → s.Exact) ∧
    (∀ str, Enc.fromStr str m = (.ok s, m') → s.Exact) ∧
    (∀ input, Enc.fromUnTaggedBytes input m = (.ok s, m') → s.Exact) ∧
    (∀ x y c, Enc.fromAffineCoordinates x y c m = (.ok s, m') → s.Exact) ∧
    (∀ a b c, Enc.conditionalSelect a b c m = (.ok s, m') → s.Exact) ∧
    ∀ e, e.Exact → Enc.compress e m = (.ok s, m') → s.Exact :=
  ⟨fun h => by cases h; rfl, fun _ h => fromBytes_exact h, fun _ h => fromStr_exact h, fun _ h => fromUnTaggedBytes_exact h,
   fun _ _ _ h => fromAffineCoordinates_exact h, fun _ _ _ h => conditionalSelect_exact h, fun _ hx h => compress_exact hx h⟩

/-- C181 for paths, apart from `New`: `NewBip32` makes new indices; `Next`, `DeriveTweak` and `ReverseBytes` return new bytes, and leave
those of their arguments as they are. -/
theorem C181_paths_partial (grow : Nat → Nat → Nat) (P : Prim) (m : Mem) :
    (∀ l : List UInt32, ∃ path m', newBip32 l m = (.ok path, m') ∧ Same m m' ∧ path.map (Slice.val m') = Key.newBip32 l ∧
      ∀ m'' : Mem, (∀ a, m.next ≤ a → m''.arr a = m'.arr a) → path.map (Slice.val m'') = Key.newBip32 l) ∧
    (∀ d : Slice, d.Valid m → Makes m (next grow d m) (.ok (Key.Index.next (d.val m)))) ∧
    (∀ (path : List Slice) (pk : Pt), (∀ s ∈ path, s.Valid m) →
      MakesPair m (deriveTweak P path pk m) (Key.deriveTweak P (path.map (Slice.val m)) pk)) ∧
    ∀ s : Slice, s.Valid m → Makes m (reverseBytes s m) (.ok (Verif.reverseBytes (s.val m))) := by
  refine ⟨fun l => ?_, fun d hd => next_fresh grow hd, fun path pk hp => deriveTweak_makes P hp pk, fun s hs => reverseBytes_fresh hs⟩
  obtain ⟨path, m', h, hs, hv, hf⟩ := newBip32_fresh l m
  refine ⟨path, m', h, hs, hv, fun m'' h'' => ?_⟩
  rw [← hv]
  exact List.map_congr_left fun s hs => (hf s hs).keeps h''

/-- C181 for transcripts: however additions and changes of other bytes alternate, the transcript is the one that was given the bytes as
they were when they were added, and so are its outputs, which are new bytes. -/
theorem C181_transcripts_partial (grow : Nat → Nat → Nat) (P : Prim) {m : Mem} {r : RoObj} {v : Ro} (h : Run grow m r v) :
    r.val m = v ∧
    (∀ (name : Bytes) (input : Slice) (ty : UInt8), input.Valid m → ∃ e r' m', addInput grow r name input ty m = (.ok (e, r'), m') ∧
      Same m m' ∧ (e, r'.val m') = v.addInput name (input.val m) ty ∧ ∀ x ∈ r'.inputs, x ∈ r.inputs ∨ x.2.New m) ∧
    (∀ length : Int, Makes m (outputByteString grow P r length m) (v.outputByteString P length)) ∧
    ∀ (msg dst : Slice) (length : Int), msg.Valid m → dst.Valid m →
      Makes m (expandMessageXmd grow P msg dst length m) (Xmd.expandMessageXmd P (msg.val m) (dst.val m) length) := by
  obtain ⟨hv, rfl⟩ := h.inv
  refine ⟨rfl, fun name input ty hi => ?_, fun length => outputByteString_makes grow P hv length,
    fun msg dst length hm hd => expandMessageXmd_makes grow P hm hd length⟩
  obtain ⟨e, r', m', h1, h2, -, h4, h5⟩ := addInput_spec grow hv name hi ty
  exact ⟨e, r', m', h1, h2, h4, h5⟩

/-! ### An instance -/

/-- A memory with one array. -/
def mem1 (bs : Bytes) : Mem := { arr := fun _ => bs, next := 1 }

/-- A transcript to which bytes are added that are changed afterwards. -/
example : ∃ (m : Mem) (r : RoObj), Run (fun _ n => 2 * n) m r ((Ro.new (ascii "test")).addInput (ascii "a") [1, 2] Ro.tyByteString).2 ∧
    m.arr 0 = [3, 4] ∧ (r.val m).inputs = [(ascii "a", [Ro.tyByteString, 0, 0, 0, 2, 1, 2])] := by
  have h0 : Run (fun _ n => 2 * n) (mem1 [1, 2]) (newRo (ascii "test")) (Ro.new (ascii "test")) := .new _ _
  have hv : Slice.Valid (mem1 [1, 2]) ⟨0, 0, 2, 2⟩ := ⟨le_refl _, .inr ⟨Nat.zero_lt_one, le_refl _⟩⟩
  obtain ⟨e, r', m', h1, h2, h3, h4, h5⟩ := addInput_spec (fun _ n => 2 * n) h0.inv.1 (ascii "a") hv Ro.tyByteString
  have hr := Run.add _ _ _ h0 hv h1
  have hin : ∀ x ∈ r'.inputs, x.2.New (mem1 [1, 2]) ∧ x.2.len ≠ 0 := by
    intro x hx
    have hval : (r'.val m').inputs = [(ascii "a", [Ro.tyByteString, 0, 0, 0, 2, 1, 2])] := by
      rw [hr.inv.2]
      decide +kernel
    refine ⟨(h5 x hx).resolve_left List.not_mem_nil, fun hl => ?_⟩
    have hm : (x.1, x.2.val m') ∈ (r'.val m').inputs := List.mem_map.2 ⟨x, hx, rfl⟩
    rw [hval, List.mem_singleton] at hm
    have : x.2.val m' = [] := by rw [Slice.val, hl, List.take_zero]
    rw [this] at hm
    exact List.cons_ne_nil _ _ (congrArg Prod.snd hm).symm
  have hc : Run (fun _ n => 2 * n) { m' with arr := Function.update m'.arr 0 [3, 4] } r'
      ((Ro.new (ascii "test")).addInput (ascii "a") [1, 2] Ro.tyByteString).2 := by
    refine .change hr (le_refl _) fun x hx => ?_
    obtain ⟨hn, hl⟩ := hin x hx
    have := (h3 x hx).1
    have h1 : (mem1 [1, 2]).next ≤ x.2.arr := hn.resolve_left (by omega)
    have h1' : 1 ≤ x.2.arr := h1
    exact Function.update_of_ne (by omega) _ _
  refine ⟨_, r', hc, rfl, ?_⟩
  rw [hc.inv.2]
  decide +kernel

end Verif.HeapBytes
