import Mathlib.Order.Defs.LinearOrder
import Mathlib.Data.List.Sort
import Mathlib.Data.Prod.Basic

/-!
Ordered maps (`tidwall/btree.Map`): association lists strictly sorted by key.  Keys are compared through an injective
function `f` into a linear order.
-/

namespace Verif

namespace OMap

variable {K V O : Type} [LinearOrder O] (f : K → O)

/-- `Map.Set`. -/
def set (k : K) (v : V) : List (K × V) → List (K × V)
  | [] => [(k, v)]
  | (k', v') :: l =>
    if f k < f k' then (k, v) :: (k', v') :: l
    else if f k' < f k then (k', v') :: set k v l
    else (k, v) :: l

/-- `Map.Get`. -/
def get (k : K) : List (K × V) → Option V
  | [] => none
  | (k', v') :: l => if f k = f k' then some v' else get k l

/-- Keys strictly ascending. -/
def Sorted (m : List (K × V)) : Prop := m.Pairwise fun a b => f a.1 < f b.1

variable {f}

theorem sorted_nil : Sorted f ([] : List (K × V)) := List.Pairwise.nil

theorem mem_set {k : K} {v : V} {m : List (K × V)} {x : K × V} (h : x ∈ set f k v m) : x = (k, v) ∨ x ∈ m := by
  induction m with
  | nil => simpa [set] using h
  | cons y ys ih =>
    obtain ⟨k', v'⟩ := y
    rw [set] at h
    split_ifs at h
    · simpa using h
    · rcases List.mem_cons.1 h with h | h
      · right; simp [h]
      · rcases ih h with h | h
        · exact Or.inl h
        · right; simp [h]
    · rcases List.mem_cons.1 h with h | h
      · exact Or.inl h
      · right; simp [h]

theorem sorted_set (k : K) (v : V) {m : List (K × V)} (h : Sorted f m) : Sorted f (set f k v m) := by
  induction m with
  | nil => simp [set, Sorted]
  | cons y ys ih =>
    obtain ⟨k', v'⟩ := y
    have h' := List.pairwise_cons.1 h
    rw [set]
    split_ifs with h1 h2
    · refine List.pairwise_cons.2 ⟨?_, h⟩
      intro a ha
      rcases List.mem_cons.1 ha with rfl | ha
      · exact h1
      · exact lt_trans h1 (h'.1 a ha)
    · refine List.pairwise_cons.2 ⟨?_, ih h'.2⟩
      intro a ha
      rcases mem_set ha with rfl | ha
      · exact h2
      · exact h'.1 a ha
    · have he : f k = f k' := le_antisymm (not_lt.1 h2) (not_lt.1 h1)
      refine List.pairwise_cons.2 ⟨?_, h'.2⟩
      intro a ha
      simpa [he] using h'.1 a ha

theorem get_none_of_lt {k : K} {m : List (K × V)} (h : ∀ x ∈ m, f k < f x.1) : get f k m = none := by
  induction m with
  | nil => rfl
  | cons y ys ih =>
    obtain ⟨k', v'⟩ := y
    rw [get, if_neg (ne_of_lt (h (k', v') (by simp)))]
    exact ih fun x hx => h x (by simp [hx])

theorem get_set (k j : K) (v : V) {m : List (K × V)} (h : Sorted f m) :
    get f j (set f k v m) = if f j = f k then some v else get f j m := by
  induction m with
  | nil => simp [set, get]
  | cons y ys ih =>
    obtain ⟨k', v'⟩ := y
    have h' := List.pairwise_cons.1 h
    rw [set]
    split_ifs with h1 h2 h3 h4
    · simp [get, h2]
    · simp [get, h2]
    · rw [get, if_neg (by rw [h4]; exact ne_of_gt h3), ih h'.2, if_pos h4]
    · rw [get, ih h'.2, if_neg h4]; rfl
    · rw [get, if_pos (by assumption)]
    · have he : f k = f k' := le_antisymm (not_lt.1 h3) (not_lt.1 h1)
      rw [get, if_neg (by assumption)]
      rw [get, if_neg (by rw [← he]; assumption)]

theorem mem_of_get {k : K} {v : V} {m : List (K × V)} (h : get f k m = some v) : ∃ k', f k' = f k ∧ (k', v) ∈ m := by
  induction m with
  | nil => simp [get] at h
  | cons y ys ih =>
    obtain ⟨k', v'⟩ := y
    rw [get] at h
    split_ifs at h with h1
    · simp only [Option.some.injEq] at h
      exact ⟨k', h1.symm, by simp [h]⟩
    · obtain ⟨k'', h2, h3⟩ := ih h
      exact ⟨k'', h2, by simp [h3]⟩

theorem get_of_mem {k : K} {v : V} {m : List (K × V)} (hs : Sorted f m) (h : (k, v) ∈ m) : get f k m = some v := by
  induction m with
  | nil => simp at h
  | cons y ys ih =>
    obtain ⟨k', v'⟩ := y
    have h' := List.pairwise_cons.1 hs
    rw [get]
    rcases List.mem_cons.1 h with h | h
    · cases h; simp
    · have := h'.1 (k, v) h
      rw [if_neg (ne_of_gt this), ih h'.2 h]

theorem get_eq_some_iff (hf : Function.Injective f) {k : K} {v : V} {m : List (K × V)} (hs : Sorted f m) :
    get f k m = some v ↔ (k, v) ∈ m := by
  constructor
  · intro h
    obtain ⟨k', h1, h2⟩ := mem_of_get h
    rw [hf h1] at h2; exact h2
  · exact get_of_mem hs

theorem get_eq_none_iff {k : K} {m : List (K × V)} : get f k m = none ↔ ∀ x ∈ m, f x.1 ≠ f k := by
  induction m with
  | nil => simp [get]
  | cons y ys ih =>
    obtain ⟨k', v'⟩ := y
    rw [get]
    split_ifs with h
    · simp [h]
    · rw [ih]; simp [h, eq_comm]

/-- Two sorted maps with the same entries are equal. -/
theorem ext_mem {m m' : List (K × V)} (hs : Sorted f m) (hs' : Sorted f m') (h : ∀ x, x ∈ m ↔ x ∈ m') : m = m' := by
  induction m generalizing m' with
  | nil =>
    cases m' with
    | nil => rfl
    | cons y ys => exact absurd ((h y).2 (by simp)) (by simp)
  | cons x xs ih =>
    cases m' with
    | nil => exact absurd ((h x).1 (by simp)) (by simp)
    | cons y ys =>
      have h1 := List.pairwise_cons.1 hs
      have h2 := List.pairwise_cons.1 hs'
      have hxy : x = y := by
        rcases List.mem_cons.1 ((h x).1 (by simp)) with e | e
        · exact e
        · rcases List.mem_cons.1 ((h y).2 (by simp)) with e' | e'
          · exact e'.symm
          · exact absurd (h1.1 y e') (not_lt.2 (le_of_lt (h2.1 x e)))
      subst hxy
      congr 1
      refine ih h1.2 h2.2 fun z => ⟨fun hz => ?_, fun hz => ?_⟩
      · rcases List.mem_cons.1 ((h z).1 (by simp [hz])) with e | e
        · subst e; exact absurd (h1.1 z hz) (lt_irrefl _)
        · exact e
      · rcases List.mem_cons.1 ((h z).2 (by simp [hz])) with e | e
        · subst e; exact absurd (h2.1 z hz) (lt_irrefl _)
        · exact e

theorem mem_set_iff (hf : Function.Injective f) {k : K} {v : V} {m : List (K × V)} (hs : Sorted f m) {x : K × V} :
    x ∈ set f k v m ↔ x = (k, v) ∨ (x ∈ m ∧ x.1 ≠ k) := by
  obtain ⟨j, w⟩ := x
  rw [← get_eq_some_iff hf (sorted_set k v hs), get_set k j v hs, ← get_eq_some_iff hf hs]
  by_cases h : f j = f k
  · have := hf h
    subst this
    simp [eq_comm]
  · have hjk : j ≠ k := fun e => h (by rw [e])
    simp [h, hjk]

/-- Keys of a sorted map are distinct. -/
theorem nodup_keys {m : List (K × V)} (hs : Sorted f m) : (m.map Prod.fst).Nodup := by
  rw [List.Nodup, List.pairwise_map]
  exact hs.imp fun h e => by rw [e] at h; exact lt_irrefl _ h

theorem length_set_of_get_none {k : K} (v : V) {m : List (K × V)} (h : get f k m = none) :
    (set f k v m).length = m.length + 1 := by
  induction m with
  | nil => rfl
  | cons y ys ih =>
    obtain ⟨k', v'⟩ := y
    rw [get] at h
    split_ifs at h with h1
    rw [set]
    split_ifs with h2 h3
    · rfl
    · simp [ih h]
    · exact absurd (le_antisymm (not_lt.1 h3) (not_lt.1 h2)) h1

end OMap

end Verif
