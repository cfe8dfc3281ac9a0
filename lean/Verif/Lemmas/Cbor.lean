import Verif.Model.Cbor
import Verif.Spec.Cbor

/-!
Reading back what the model of `cbor.Marshal` writes.
-/

namespace Verif.Cbor

theorem read_mono_succ (f : Nat) :
    (∀ b x, readItem f b = some x → readItem (f + 1) b = some x) ∧
    (∀ k r y, readItems f k r = some y → readItems (f + 1) k r = some y) := by
  induction f with
  | zero => exact ⟨fun b x h => by simp [readItem] at h, fun k r y h => by simp [readItems] at h⟩
  | succ f ih =>
    obtain ⟨ih1, ih2⟩ := ih
    constructor
    · intro b x h
      rw [readItem] at h ⊢
      cases hh : readHead b with
      | none => rw [hh] at h; simp at h
      | some t =>
        obtain ⟨major, n, r⟩ := t
        rw [hh] at h
        dsimp only at h ⊢
        split at h
        · simpa using h
        · simpa using h
        · simpa using h
        · simpa using h
        · cases hi : readItems f n r with
          | none => rw [hi] at h; simp at h
          | some y => rw [ih2 _ _ _ hi]; rw [hi] at h; exact h
        · cases hi : readItems f (2 * n) r with
          | none => rw [hi] at h; simp at h
          | some y => rw [ih2 _ _ _ hi]; rw [hi] at h; exact h
        · simp at h
    · intro k r y h
      cases k with
      | zero => rw [readItems] at h ⊢; exact h
      | succ k =>
        rw [readItems] at h ⊢
        cases hi : readItem f r with
        | none => rw [hi] at h; simp at h
        | some t =>
          obtain ⟨x, r'⟩ := t
          rw [hi] at h
          rw [ih1 _ _ hi]
          dsimp only at h ⊢
          cases hj : readItems f k r' with
          | none => rw [hj] at h; simp at h
          | some z => rw [ih2 _ _ _ hj]; rw [hj] at h; exact h

theorem readItem_mono {f g : Nat} (hfg : f ≤ g) {b : Bytes} {x : Item × Bytes} (h : readItem f b = some x) :
    readItem g b = some x := by
  induction hfg with
  | refl => exact h
  | step _ ih => exact (read_mono_succ _).1 _ _ ih

theorem readItems_mono {f g : Nat} (hfg : f ≤ g) {k : Nat} {r : Bytes} {y : List Item × Bytes} (h : readItems f k r = some y) :
    readItems g k r = some y := by
  induction hfg with
  | refl => exact h
  | step _ ih => exact (read_mono_succ _).2 _ _ _ ih

/-- A byte string is one data item at most. -/
theorem Is.unique {b : Bytes} {x y : Item} (h : Is b x) (h' : Is b y) : x = y := by
  obtain ⟨f, hf⟩ := h
  obtain ⟨g, hg⟩ := h'
  have e := (readItem_mono (Nat.le_max_left f g) hf).symm.trans (readItem_mono (Nat.le_max_right f g) hg)
  simpa using e

/-- Whatever follows, the reader finds the item at the beginning. -/
def Reads (b : Bytes) (x : Item) : Prop := ∀ rest, ∃ fuel, readItem fuel (b ++ rest) = some (x, rest)

theorem Reads.is {b : Bytes} {x : Item} (h : Reads b x) : Is b x := by
  obtain ⟨f, hf⟩ := h []
  exact ⟨f, by simpa using hf⟩

/-- The same for several items. -/
def ReadsAll (b : Bytes) (xs : List Item) : Prop :=
  ∀ rest, ∃ fuel, readItems fuel xs.length (b ++ rest) = some (xs, rest)

theorem ReadsAll.nil : ReadsAll [] [] := fun rest => ⟨1, by simp [readItems]⟩

theorem ReadsAll.cons {b bs : Bytes} {x : Item} {xs : List Item} (h : Reads b x) (hs : ReadsAll bs xs) :
    ReadsAll (b ++ bs) (x :: xs) := by
  intro rest
  obtain ⟨f, hf⟩ := h (bs ++ rest)
  obtain ⟨g, hg⟩ := hs rest
  refine ⟨max f g + 1, ?_⟩
  rw [List.append_assoc, List.length_cons, readItems, readItem_mono (Nat.le_max_left f g) hf]
  dsimp only
  rw [readItems_mono (Nat.le_max_right f g) hg]
  rfl

theorem readHead_head {major n : Nat} (hm : major < 8) (hn : n < 2 ^ 64) (rest : Bytes) :
    readHead (head major n ++ rest) = some (major, n, rest) := by
  have key : ∀ info k, info < 32 → 24 ≤ info →
      (if info = 24 then 1 else if info = 25 then 2 else if info = 26 then 4 else if info = 27 then 8 else 0) = k → k ≠ 0 →
      n < 256 ^ k → readHead (UInt8.ofNat (major * 32 + info) :: toBE k n ++ rest) = some (major, n, rest) := by
    intro info k hi hi' hk hk0 hnk
    have e : (UInt8.ofNat (major * 32 + info)).toNat = major * 32 + info := by
      rw [UInt8.toNat_ofNat']; omega
    have e1 : (major * 32 + info) / 32 = major := by omega
    have e2 : (major * 32 + info) % 32 = info := by omega
    rw [List.cons_append, readHead]
    simp only [e, e1, e2, hk]
    rw [if_neg (by omega), if_neg (by simp [hk0]), List.take_left' (length_toBE k n), List.drop_left' (length_toBE k n),
      beVal_toBE_of_lt hnk]
  rw [head]
  split_ifs with h1 h2 h3 h4
  · have e : (UInt8.ofNat (major * 32 + n)).toNat = major * 32 + n := by
      rw [UInt8.toNat_ofNat']; omega
    have e1 : (major * 32 + n) / 32 = major := by omega
    have e2 : (major * 32 + n) % 32 = n := by omega
    rw [List.cons_append, readHead]
    simp only [e, e1, e2]
    rw [if_pos h1, List.nil_append]
  · exact key 24 1 (by norm_num) (by norm_num) rfl (by norm_num) (by omega)
  · exact key 25 2 (by norm_num) (by norm_num) rfl (by norm_num) (by omega)
  · exact key 26 4 (by norm_num) (by norm_num) rfl (by norm_num) (by omega)
  · exact key 27 8 (by norm_num) (by norm_num) rfl (by norm_num) (by omega)

theorem reads_unsigned {n : Nat} (hn : n < 2 ^ 64) : Reads (head 0 n) (.unsigned n) := fun rest =>
  ⟨1, by rw [readItem, readHead_head (by norm_num) hn]; rfl⟩

theorem reads_bytes {b : Bytes} (hn : b.length < 2 ^ 64) : Reads (marshalBytes b) (.bytes b) := fun rest =>
  ⟨1, by rw [readItem, marshalBytes, List.append_assoc, readHead_head (by norm_num) hn]; simp⟩

theorem reads_text {b : Bytes} (hn : b.length < 2 ^ 64) : Reads (marshalText b) (.text b) := fun rest =>
  ⟨1, by rw [readItem, marshalText, List.append_assoc, readHead_head (by norm_num) hn]; simp⟩

theorem reads_array {l : Bytes} {xs : List Item} (hn : xs.length < 2 ^ 64) (h : ReadsAll l xs) :
    Reads (head 4 xs.length ++ l) (.array xs) := fun rest => by
  obtain ⟨f, hf⟩ := h rest
  exact ⟨f + 1, by rw [readItem, List.append_assoc, readHead_head (by norm_num) hn]; dsimp only; rw [hf]; rfl⟩

theorem reads_map {l : Bytes} {xs : List Item} {k : Nat} (hk : xs.length = 2 * k) (hn : k < 2 ^ 64) (h : ReadsAll l xs) :
    Reads (head 5 k ++ l) (.map xs) := fun rest => by
  obtain ⟨f, hf⟩ := h rest
  exact ⟨f + 1, by rw [readItem, List.append_assoc, readHead_head (by norm_num) hn]; dsimp only; rw [← hk, hf]; rfl⟩

theorem reads_strings {l : List Bytes} (hn : l.length < 2 ^ 64) (h : ∀ b ∈ l, b.length < 2 ^ 64) :
    Reads (marshalArray (l.map marshalBytes)) (.array (l.map Item.bytes)) := by
  have hs : ∀ l : List Bytes, (∀ b ∈ l, b.length < 2 ^ 64) → ReadsAll (l.map marshalBytes).flatten (l.map Item.bytes) := by
    intro l
    induction l with
    | nil => exact fun _ => ReadsAll.nil
    | cons b l ih =>
      intro h
      exact ReadsAll.cons (reads_bytes (h b (by simp))) (ih fun c hc => h c (by simp [hc]))
  have := reads_array (xs := l.map Item.bytes) (by simpa using hn) (hs l h)
  rw [marshalArray, List.length_map]
  rwa [List.length_map] at this

theorem length_head (major n : Nat) :
    (head major n).length = if n < 24 then 1 else if n < 256 then 2 else if n < 65536 then 3 else if n < 4294967296 then 5 else 9 := by
  rw [head]
  split_ifs <;> simp

/-- The three fields of the wire structs. -/
theorem reads_struct {a b c : String} {x y z : Bytes} {X Y Z : Item} (ha : (ascii a).length < 2 ^ 64)
    (hb : (ascii b).length < 2 ^ 64) (hc : (ascii c).length < 2 ^ 64) (hx : Reads x X) (hy : Reads y Y) (hz : Reads z Z) :
    Reads (marshalStruct [(a, x), (b, y), (c, z)]) (.map [.text (ascii a), X, .text (ascii b), Y, .text (ascii c), Z]) := by
  have h := reads_map (k := 3) rfl (by norm_num) (ReadsAll.cons (reads_text ha) (ReadsAll.cons hx (ReadsAll.cons (reads_text hb)
    (ReadsAll.cons hy (ReadsAll.cons (reads_text hc) (ReadsAll.cons hz ReadsAll.nil))))))
  rw [marshalStruct]
  simpa [List.append_assoc] using h

end Verif.Cbor

/-- Every commitment with a point is written. -/
theorem Verif.Commitment.serializeBytes_ok (c : Verif.Commitment) (h : c.points ≠ []) : ∃ b, c.serializeBytes = .ok b := by
  obtain ⟨k, l⟩ := c
  cases l with
  | nil => exact absurd rfl h
  | cons P l => exact ⟨_, rfl⟩
