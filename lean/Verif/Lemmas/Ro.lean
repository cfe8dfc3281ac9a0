import Verif.Model.Ro
import Verif.Spec.RoInputs
import Verif.Lemmas.Xmd
import Verif.Lemmas.Point
import Verif.Lemmas.Scalar
import Mathlib.Data.List.Perm.Basic
import Mathlib.Data.List.Nodup
import Mathlib.Data.Nat.Digits.Defs

/-! Helper lemmas about the random oracle. -/

namespace Verif

open RoCall

theorem nameKey_injective : Function.Injective nameKey := by
  intro a b h
  exact List.map_injective_iff.2 (fun x y hxy => UInt8.toNat_inj.1 hxy) h

namespace RoCall

/-- The map entry written for a call. -/
def enc (c : RoCall) : Bytes × Bytes := (c.name, [c.ty] ++ toBE 4 c.data.length ++ c.data)

/-- One step of `accepted`. -/
def accStep (acc : List RoCall) (c : RoCall) : List RoCall :=
  if c.WellFormed ∧ c.name ∉ acc.map RoCall.name then acc ++ [c] else acc

theorem accepted_append (cs : List RoCall) (c : RoCall) : accepted (cs ++ [c]) = accStep (accepted cs) c := by
  rw [accepted, List.foldl_append]; rfl

theorem accepted_spec (cs : List RoCall) : (∀ c ∈ accepted cs, c.WellFormed) ∧ ((accepted cs).map name).Nodup := by
  induction cs using List.reverseRecOn with
  | nil => simp [accepted]
  | append_singleton cs c ih =>
    rw [accepted_append, accStep]
    split_ifs with h
    · refine ⟨fun d hd => ?_, ?_⟩
      · rcases List.mem_append.1 hd with hd | hd
        · exact ih.1 d hd
        · rw [List.mem_singleton.1 hd]; exact h.1
      · rw [List.map_append, List.nodup_append]
        refine ⟨ih.2, by simp, ?_⟩
        intro a ha b hb hab
        simp only [List.map_cons, List.map_nil, List.mem_singleton] at hb
        rw [hab, hb] at ha
        exact h.2 ha
    · exact ih

theorem accepted_subset (cs : List RoCall) : ∀ c ∈ accepted cs, c ∈ cs := by
  induction cs using List.reverseRecOn with
  | nil => simp [accepted]
  | append_singleton cs c ih =>
    intro d hd
    rw [accepted_append, accStep] at hd
    split_ifs at hd
    · rcases List.mem_append.1 hd with hd | hd
      · exact List.mem_append_left _ (ih d hd)
      · exact List.mem_append_right _ hd
    · exact List.mem_append_left _ (ih d hd)

/-- With distinct names exactly the well-formed calls are accepted. -/
theorem accepted_of_nodup {cs : List RoCall} (h : (cs.map name).Nodup) :
    accepted cs = cs.filter fun c => decide c.WellFormed := by
  induction cs using List.reverseRecOn with
  | nil => rfl
  | append_singleton cs c ih =>
    rw [List.map_append, List.nodup_append] at h
    rw [accepted_append, ih h.1, accStep, List.filter_append]
    by_cases hw : c.WellFormed
    · rw [if_pos, List.filter_cons_of_pos (by simpa using hw), List.filter_nil]
      refine ⟨hw, fun hm => ?_⟩
      obtain ⟨d, hd, hdn⟩ := List.mem_map.1 hm
      exact h.2.2 c.name (List.mem_map.2 ⟨d, (List.mem_filter.1 hd).1, hdn⟩) c.name (by simp) rfl
    · rw [if_neg (fun hh => hw hh.1), List.filter_cons_of_neg (by simpa using hw), List.filter_nil,
        List.append_nil]

theorem enc_inj {c d : RoCall} (h : enc c = enc d) : c = d := by
  simp only [enc, Prod.mk.injEq, List.cons_append, List.nil_append, List.cons.injEq] at h
  obtain ⟨h1, h2, h3⟩ := h
  have h4 := (List.append_inj h3 (by simp)).2
  cases c; cases d
  simp_all

end RoCall

namespace Ro

/-- The oracle state that represents a list of accepted calls. -/
structure Rep (r : Ro) (ds : Bytes) (S : List RoCall) : Prop where
  ds_eq : r.domainSeparator = ds
  sorted : OMap.Sorted nameKey r.inputs
  mem : ∀ x, x ∈ r.inputs ↔ ∃ c ∈ S, x = enc c

theorem rep_new (ds : Bytes) : Rep (new ds) ds [] := ⟨rfl, OMap.sorted_nil, by simp [new]⟩

theorem get_isSome_iff {r : Ro} {ds : Bytes} {S : List RoCall} (h : Rep r ds S) (name : Bytes) :
    (OMap.get nameKey name r.inputs).isSome = true ↔ name ∈ S.map RoCall.name := by
  rw [List.mem_map]
  constructor
  · intro hs
    obtain ⟨v, hv⟩ := Option.isSome_iff_exists.1 hs
    rw [OMap.get_eq_some_iff nameKey_injective h.sorted, h.mem] at hv
    obtain ⟨c, hc, e⟩ := hv
    exact ⟨c, hc, (congrArg Prod.fst e).symm⟩
  · rintro ⟨c, hc, rfl⟩
    have : enc c ∈ r.inputs := (h.mem _).2 ⟨c, hc, rfl⟩
    have hg : OMap.get nameKey c.name r.inputs = some (enc c).2 :=
      (OMap.get_eq_some_iff nameKey_injective h.sorted).2 this
    rw [hg]; rfl

theorem addInput_cases {r : Ro} {ds : Bytes} {S : List RoCall} (h : Rep r ds S) (c : RoCall) :
    (c.WellFormed ∧ c.name ∉ S.map RoCall.name → (r.addInput c.name c.data c.ty).1 = none ∧
      Rep (r.addInput c.name c.data c.ty).2 ds (S ++ [c])) ∧
    (¬ (c.WellFormed ∧ c.name ∉ S.map RoCall.name) → (r.addInput c.name c.data c.ty).1 ≠ none ∧
      (r.addInput c.name c.data c.ty).2 = r) := by
  have hg := get_isSome_iff h c.name
  constructor
  · rintro ⟨⟨h1, h2, h3⟩, h4⟩
    have hg' : ¬ (OMap.get nameKey c.name r.inputs).isSome = true := fun hh => h4 (hg.1 hh)
    rw [addInput, if_neg hg', if_neg (by omega), if_neg (by omega)]
    refine ⟨rfl, h.ds_eq, OMap.sorted_set _ _ h.sorted, fun x => ?_⟩
    rw [OMap.mem_set_iff nameKey_injective h.sorted, h.mem]
    constructor
    · rintro (e | ⟨⟨d, hd, e⟩, -⟩)
      · exact ⟨c, by simp, e⟩
      · exact ⟨d, by simp [hd], e⟩
    · rintro ⟨d, hd, e⟩
      rcases List.mem_append.1 hd with hd | hd
      · right
        refine ⟨⟨d, hd, e⟩, fun hx => h4 (List.mem_map.2 ⟨d, hd, ?_⟩)⟩
        rw [← hx, e]; rfl
      · left
        rw [List.mem_singleton.1 hd] at e
        exact e
  · intro hn
    rw [addInput]
    by_cases h1 : (OMap.get nameKey c.name r.inputs).isSome = true
    · rw [if_pos h1]; simp
    rw [if_neg h1]
    by_cases h2 : c.name.length = 0 ∨ c.name.length > 255
    · rw [if_pos h2]; simp
    rw [if_neg h2]
    by_cases h3 : c.data.length > 255
    · rw [if_pos h3]; simp
    · exfalso
      exact hn ⟨⟨by omega, by omega, by omega⟩, fun hh => h1 (hg.2 hh)⟩

theorem run_append (ds : Bytes) (cs : List RoCall) (c : RoCall) :
    run ds (cs ++ [c]) = ((run ds cs).addInput c.name c.data c.ty).2 := by
  rw [run, List.foldl_append]; rfl

/-- After any sequence of calls the oracle represents the accepted ones. -/
theorem rep_run (ds : Bytes) (cs : List RoCall) : Rep (run ds cs) ds (accepted cs) := by
  induction cs using List.reverseRecOn with
  | nil => exact rep_new ds
  | append_singleton cs c ih =>
    rw [run_append, accepted_append, accStep]
    by_cases h : c.WellFormed ∧ c.name ∉ (accepted cs).map RoCall.name
    · rw [if_pos h]; exact ((addInput_cases ih c).1 h).2
    · rw [if_neg h, ((addInput_cases ih c).2 h).2]; exact ih

/-- The bytes written for one entry. -/
def chunk (e : Bytes × Bytes) : Bytes := [UInt8.ofNat e.1.length] ++ e.1 ++ e.2

theorem chunk_parse {c d : RoCall} (hc : c.WellFormed) (hd : d.WellFormed) {a b : Bytes}
    (h : chunk (enc c) ++ a = chunk (enc d) ++ b) : c = d ∧ a = b := by
  simp only [chunk, enc, List.cons_append, List.nil_append, List.append_assoc, List.cons.injEq] at h
  obtain ⟨hl, h⟩ := h
  have hlen : c.name.length = d.name.length := by
    have := congrArg UInt8.toNat hl
    simp only [UInt8.toNat_ofNat'] at this
    have h1 := hc.2.1; have h2 := hd.2.1
    omega
  obtain ⟨hn, h⟩ := List.append_inj h hlen
  simp only [List.cons.injEq] at h
  obtain ⟨ht, h⟩ := h
  obtain ⟨hdl, h⟩ := List.append_inj h (by simp)
  have hdl' : c.data.length = d.data.length := by
    have h1 := hc.2.2; have h2 := hd.2.2
    exact toBE_inj (by norm_num; omega) (by norm_num; omega) hdl
  obtain ⟨hdd, h⟩ := List.append_inj h hdl'
  refine ⟨?_, h⟩
  cases c; cases d
  simp_all

theorem flatMap_chunk_inj {l l' : List (Bytes × Bytes)} (h1 : ∀ x ∈ l, ∃ c : RoCall, c.WellFormed ∧ x = enc c)
    (h2 : ∀ x ∈ l', ∃ c : RoCall, c.WellFormed ∧ x = enc c) (h : l.flatMap chunk = l'.flatMap chunk) : l = l' := by
  induction l generalizing l' with
  | nil =>
    cases l' with
    | nil => rfl
    | cons y ys => simp [chunk] at h
  | cons x xs ih =>
    cases l' with
    | nil => simp [chunk] at h
    | cons y ys =>
      obtain ⟨c, hc, rfl⟩ := h1 x (by simp)
      obtain ⟨d, hd, rfl⟩ := h2 y (by simp)
      rw [List.flatMap_cons, List.flatMap_cons] at h
      obtain ⟨e, h'⟩ := chunk_parse hc hd h
      rw [ih (fun z hz => h1 z (List.mem_cons_of_mem _ hz)) (fun z hz => h2 z (List.mem_cons_of_mem _ hz)) h', e]

theorem perm_of_rep {r : Ro} {ds ds' : Bytes} {S S' : List RoCall} (h : Rep r ds S) (h' : Rep r ds' S')
    (hn : (S.map RoCall.name).Nodup) (hn' : (S'.map RoCall.name).Nodup) : S.Perm S' := by
  rw [List.perm_ext_iff_of_nodup (List.Nodup.of_map _ hn) (List.Nodup.of_map _ hn')]
  intro c
  constructor
  · intro hc
    obtain ⟨d, hd, e⟩ := (h'.mem (enc c)).1 ((h.mem _).2 ⟨c, hc, rfl⟩)
    rw [enc_inj e]; exact hd
  · intro hc
    obtain ⟨d, hd, e⟩ := (h.mem (enc c)).1 ((h'.mem _).2 ⟨c, hc, rfl⟩)
    rw [enc_inj e]; exact hd

theorem inputs_eq_of_perm {r r' : Ro} {ds ds' : Bytes} {S S' : List RoCall} (h : Rep r ds S) (h' : Rep r' ds' S')
    (hp : S.Perm S') : r.inputs = r'.inputs := by
  apply OMap.ext_mem h.sorted h'.sorted
  intro x
  rw [h.mem, h'.mem]
  constructor
  · rintro ⟨c, hc, e⟩; exact ⟨c, hp.mem_iff.1 hc, e⟩
  · rintro ⟨c, hc, e⟩; exact ⟨c, hp.mem_iff.2 hc, e⟩

theorem inputs_nil_iff {r : Ro} {ds : Bytes} {S : List RoCall} (h : Rep r ds S) : r.inputs = [] ↔ S = [] := by
  constructor
  · intro h0
    cases S with
    | nil => rfl
    | cons c cs =>
      have := (h.mem (enc c)).2 ⟨c, by simp, rfl⟩
      rw [h0] at this; simp at this
  · rintro rfl
    cases hr : r.inputs with
    | nil => rfl
    | cons x xs =>
      have := (h.mem x).1 (by rw [hr]; simp)
      simp at this

theorem formRoInput_eq {r : Ro} (h : r.inputs ≠ []) : r.formRoInput = .ok (r.inputs.flatMap chunk) := by
  rw [formRoInput, if_neg (by simpa using h)]; rfl

/-- The message hashed determines the accepted inputs. -/
theorem perm_of_form_eq {r r' : Ro} {ds ds' : Bytes} {S S' : List RoCall} (h : Rep r ds S) (h' : Rep r' ds' S')
    (hw : ∀ c ∈ S, c.WellFormed) (hw' : ∀ c ∈ S', c.WellFormed)
    (hn : (S.map RoCall.name).Nodup) (hn' : (S'.map RoCall.name).Nodup) {m : Bytes}
    (hm : r.formRoInput = .ok m) (hm' : r'.formRoInput = .ok m) : S.Perm S' := by
  have h0 : r.inputs ≠ [] := by rintro e; simp [formRoInput, e] at hm
  have h0' : r'.inputs ≠ [] := by rintro e; simp [formRoInput, e] at hm'
  rw [formRoInput_eq h0, Res.ok.injEq] at hm
  rw [formRoInput_eq h0', Res.ok.injEq, ← hm] at hm'
  have e : r'.inputs = r.inputs := by
    refine flatMap_chunk_inj ?_ ?_ hm'
    · intro x hx
      obtain ⟨c, hc, e⟩ := (h'.mem x).1 hx
      exact ⟨c, hw' c hc, e⟩
    · intro x hx
      obtain ⟨c, hc, e⟩ := (h.mem x).1 hx
      exact ⟨c, hw c hc, e⟩
  have h2 : Rep r ds' S' → S.Perm S' := fun h2 => perm_of_rep h h2 hn hn'
  have h3 : Rep { r with domainSeparator := ds' } ds' S' := ⟨rfl, h.sorted, fun x => by rw [← h'.mem, e]⟩
  have h4 : Rep { r with domainSeparator := ds' } ds' S := ⟨rfl, h.sorted, h.mem⟩
  exact perm_of_rep h4 h3 hn hn'

theorem wf_tagged_point (P : Pt) : (Point.serializeTagged P).length = 34 := by
  simp [Point.serializeTagged, Point.length_serialize]

theorem wf_tagged_scalar (s : Fn) : (Scalar.serializeTagged s).length = 33 := by
  simp [Scalar.serializeTagged, Scalar.length_serialize]

end Ro

end Verif
