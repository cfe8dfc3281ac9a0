import Verif.Props.Ro

/-! C25, the size that the random oracle records. -/

set_option autoImplicit false

namespace Verif

open Ro RoCall

theorem Ro.flatMap_length_set {m : List (Bytes × Bytes)} {k v : Bytes} (g : Bytes × Bytes → Bytes) (h : OMap.get nameKey k m = none) :
    ((OMap.set nameKey k v m).flatMap g).length = (g (k, v)).length + (m.flatMap g).length := by
  induction m with
  | nil => simp [OMap.set]
  | cons x m ih =>
    have hx := OMap.get_eq_none_iff.1 h
    have hne : nameKey x.1 ≠ nameKey k := hx x (by simp)
    have hm : OMap.get nameKey k m = none := OMap.get_eq_none_iff.2 fun y hy => hx y (by simp [hy])
    obtain ⟨x1, x2⟩ := x
    rw [OMap.set]
    split_ifs with h1 h2
    · simp
    · simp only [List.flatMap_cons, List.length_append, ih hm]
      omega
    · exact absurd (le_antisymm (not_lt.1 h1) (not_lt.1 h2)) hne

/-- C25: the recorded size is the number of bytes that are hashed, after any history. -/
theorem C25_input_size (ds : Bytes) (cs : List RoCall) : (∀ b, (run ds cs).formRoInput = .ok b → b.length = (run ds cs).inputSize) ∧
    (accepted cs = [] ↔ (run ds cs).inputSize = 0) := by
  have key : ((run ds cs).inputs.flatMap fun e => [UInt8.ofNat e.1.length] ++ e.1 ++ e.2).length = (run ds cs).inputSize := by
    rw [run]
    have : ∀ (cs : List RoCall) (r : Ro), (r.inputs.flatMap fun e => [UInt8.ofNat e.1.length] ++ e.1 ++ e.2).length = r.inputSize →
        ((cs.foldl (fun r c => (r.addInput c.name c.data c.ty).2) r).inputs.flatMap fun e =>
          [UInt8.ofNat e.1.length] ++ e.1 ++ e.2).length = (cs.foldl (fun r c => (r.addInput c.name c.data c.ty).2) r).inputSize := by
      intro cs
      induction cs with
      | nil => exact fun r h => h
      | cons c cs ih =>
        intro r h
        refine ih _ ?_
        dsimp only
        rw [addInput]
        split_ifs with h1 h2 h3
        · exact h
        · exact h
        · exact h
        · rw [Option.not_isSome_iff_eq_none] at h1
          simp only
          rw [flatMap_length_set _ h1, h]
          simp only [List.length_append, List.length_cons, List.length_nil]
          omega
    exact this cs (new ds) rfl
  constructor
  · intro b hb
    rw [formRoInput] at hb
    split_ifs at hb
    rw [← Res.ok.inj hb]
    exact key
  · rw [← inputs_nil_iff (rep_run ds cs), ← key]
    constructor
    · intro h; rw [h]; rfl
    · intro h
      cases hi : (run ds cs).inputs with
      | nil => rfl
      | cons x l => rw [hi] at h; simp at h

/-- Two inputs: 1 + 1 + (5 + 1) bytes each. -/
example : (run [0] [⟨[98], 1, [1]⟩, ⟨[97], 2, [2]⟩, ⟨[97], 2, [3]⟩]).inputSize = 16 := by decide +kernel

end Verif
