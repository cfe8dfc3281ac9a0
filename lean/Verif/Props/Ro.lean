import Verif.Lemmas.Ro
import Verif.Props.HashToCurve

/-!
Properties C23–C25: the random oracle.  `Ro.run ds calls` is the oracle after a sequence of `AddInput` calls (errors
ignored, as the callers do), `RoCall.accepted calls` the calls that the documentation says are accepted.
-/

namespace Verif

open RoCall

namespace Ro

/-- What C23 and its observable form need: two states hashing the same message. -/
theorem accepted_perm_of_form_eq {ds ds' : Bytes} {cs cs' : List RoCall} {m : Bytes}
    (h : (run ds cs).formRoInput = .ok m) (h' : (run ds' cs').formRoInput = .ok m) :
    (accepted cs).Perm (accepted cs') :=
  perm_of_form_eq (rep_run ds cs) (rep_run ds' cs') (accepted_spec cs).1 (accepted_spec cs').1 (accepted_spec cs).2
    (accepted_spec cs').2 h h'

theorem form_ok_of_accepted {ds : Bytes} {cs : List RoCall} (h : accepted cs ≠ []) :
    ∃ m, (run ds cs).formRoInput = .ok m :=
  ⟨_, formRoInput_eq fun e => h ((inputs_nil_iff (rep_run ds cs)).1 e)⟩

theorem run_ds (ds : Bytes) (cs : List RoCall) : (run ds cs).domainSeparator = ds := (rep_run ds cs).ds_eq

end Ro

open Ro

/-- C23: if two oracles hash the same message under the same separator then they have the same domain separator and the
same set of named (and typed) inputs — both for byte-string outputs (separator = domain separator) and for scalar and
point outputs (separator = domain separator and curve name). -/
theorem C23_transcript_injective (ds ds' : Bytes) (cs cs' : List RoCall) (m m' : Bytes)
    (h : (run ds cs).formRoInput = .ok m) (h' : (run ds' cs').formRoInput = .ok m') :
    ((run ds cs).domainSeparator, m) = ((run ds' cs').domainSeparator, m') ∨
      ((run ds cs).curveDst, m) = ((run ds' cs').curveDst, m') →
    ds = ds' ∧ (accepted cs).Perm (accepted cs') := by
  rintro (e | e)
  · rw [Prod.mk.injEq, run_ds, run_ds] at e
    rw [← e.2] at h'
    exact ⟨e.1, accepted_perm_of_form_eq h h'⟩
  · rw [Prod.mk.injEq, curveDst, curveDst, run_ds, run_ds] at e
    rw [← e.2] at h'
    exact ⟨List.append_cancel_right (List.append_cancel_right e.1), accepted_perm_of_form_eq h h'⟩

/-- C23, observable form: oracles that differ in the domain separator or in the set of accepted inputs are told apart by
some hash function, by byte strings of any length and by scalars. -/
theorem C23_outputs_separated (ds ds' : Bytes) (cs cs' : List RoCall) (h0 : accepted cs ≠ [])
    (h0' : accepted cs' ≠ []) (hne : ¬ (ds = ds' ∧ (accepted cs).Perm (accepted cs'))) :
    (∀ len : Nat, 0 < len → len ≤ 8160 →
      ∃ P, (run ds cs).outputByteString P len ≠ (run ds' cs').outputByteString P len) ∧
    (∃ P, (run ds cs).outputScalar P ≠ (run ds' cs').outputScalar P) := by
  obtain ⟨m, hm⟩ := form_ok_of_accepted (ds := ds) h0
  obtain ⟨m', hm'⟩ := form_ok_of_accepted (ds := ds') h0'
  constructor
  · intro len hl hl'
    obtain ⟨P, hP⟩ := C20_domain_separation m ds m' ds' len hl hl' (by
      intro e
      simp only [Prod.mk.injEq] at e
      exact hne (C23_transcript_injective ds ds' cs cs' m m' hm hm' (Or.inl (by rw [run_ds, run_ds, e.1, e.2]))))
    refine ⟨P, ?_⟩
    rw [outputByteString, outputByteString, hm, hm', run_ds, run_ds]
    exact hP
  · obtain ⟨P, hP⟩ := exists_prim_expand m (run ds cs).curveDst m' (run ds' cs').curveDst 48 (by norm_num) (by
      intro e
      simp only [Prod.mk.injEq] at e
      exact hne (C23_transcript_injective ds ds' cs cs' m m' hm hm' (Or.inr (by rw [e.1, e.2]))))
      (List.replicate 32 2) (by simp)
    refine ⟨P, ?_⟩
    have hout : ∀ (r : Ro) (b out : Bytes), r.formRoInput = .ok b →
        Xmd.expandMessageXmd P b r.curveDst (48 : Nat) = .ok out → out.length = 48 →
        r.outputScalar P = .ok (beVal out : Fn) := by
      intro r b out h1 h2 h3
      obtain ⟨out', e1, e2, e3⟩ := hashToScalar_ok P 1 b r.curveDst (by norm_num)
      obtain ⟨out'', f1, f2, f3⟩ := (C19_expand_message_xmd_rfc P b r.curveDst).1 48 (by norm_num)
      rw [h2] at f1
      cases f1
      rw [show 1 * 48 = 48 from rfl, f3] at e1
      cases e1
      rw [outputScalar, outputScalars, h1]
      have e3' : H2C.hashToScalar P 1 b r.curveDst = .ok [(beVal (block48 out 0) : Fn)] := e3
      simp only [Res.ok_bind, e3']
      rw [block48, Nat.mul_zero, List.drop_zero, List.take_of_length_le (by omega)]
    have hv : ((beVal (((List.replicate 32 2 : Bytes) ++ List.replicate 48 0).take 48) : Nat) : Fn) ≠
        ((beVal (List.replicate 48 0) : Nat) : Fn) := by decide +kernel
    intro heq
    rcases hP with ⟨h1, h2⟩ | ⟨h1, h2⟩
    · rw [hout _ _ _ hm h1 (by simp), hout _ _ _ hm' h2 (by simp), Res.ok.injEq] at heq
      exact hv heq
    · rw [hout _ _ _ hm h2 (by simp), hout _ _ _ hm' h1 (by simp), Res.ok.injEq] at heq
      exact hv heq.symm

/-- Two inputs whose naive concatenations coincide are accepted, and are different sets. -/
example : accepted [⟨[97], 1, [98]⟩] ≠ [] ∧ accepted [⟨[97, 98], 1, []⟩] ≠ [] ∧
    ¬ (accepted [⟨[97], 1, [98]⟩]).Perm (accepted [⟨[97, 98], 1, []⟩]) := by
  decide +kernel

/-- C24: every output depends only on the domain separator and on the accepted inputs as a set … -/
theorem C24_outputs_depend_on_set (ds : Bytes) (cs cs' : List RoCall) (h : (accepted cs).Perm (accepted cs'))
    (P : Prim) :
    (∀ len, (run ds cs).outputByteString P len = (run ds cs').outputByteString P len) ∧
    (∀ cnt, (run ds cs).outputScalars P cnt = (run ds cs').outputScalars P cnt) ∧
    (run ds cs).outputScalar P = (run ds cs').outputScalar P ∧
    (run ds cs).outputPoint P = (run ds cs').outputPoint P := by
  have e := inputs_eq_of_perm (rep_run ds cs) (rep_run ds cs') h
  have hf : (run ds cs).formRoInput = (run ds cs').formRoInput := by rw [formRoInput, formRoInput, e]
  have hd : (run ds cs).domainSeparator = (run ds cs').domainSeparator := by rw [run_ds, run_ds]
  have hc : (run ds cs).curveDst = (run ds cs').curveDst := by rw [curveDst, curveDst, hd]
  have h1 : ∀ cnt, (run ds cs).outputScalars P cnt = (run ds cs').outputScalars P cnt := fun cnt => by
    rw [outputScalars, outputScalars, hf, hc]
  refine ⟨fun len => by rw [outputByteString, outputByteString, hf, hd], h1, ?_, ?_⟩
  · rw [outputScalar, outputScalar, h1]
  · rw [outputPoint, outputPoint, hf, hc]

/-- … so adding inputs with distinct names in any order gives the same outputs. -/
theorem C24_order_independence (ds : Bytes) (cs cs' : List RoCall) (hn : (cs.map RoCall.name).Nodup)
    (h : cs.Perm cs') (P : Prim) :
    (∀ len, (run ds cs).outputByteString P len = (run ds cs').outputByteString P len) ∧
    (∀ cnt, (run ds cs).outputScalars P cnt = (run ds cs').outputScalars P cnt) ∧
    (run ds cs).outputScalar P = (run ds cs').outputScalar P ∧
    (run ds cs).outputPoint P = (run ds cs').outputPoint P := by
  apply C24_outputs_depend_on_set
  rw [accepted_of_nodup hn, accepted_of_nodup ((h.map RoCall.name).nodup_iff.1 hn)]
  exact h.filter _

example : ([⟨[98], 1, [1]⟩, ⟨[97], 2, [2]⟩] : List RoCall).Perm [⟨[97], 2, [2]⟩, ⟨[98], 1, [1]⟩] ∧
    (([⟨[98], 1, [1]⟩, ⟨[97], 2, [2]⟩] : List RoCall).map RoCall.name).Nodup ∧
    ∃ m, (run [0] [⟨[98], 1, [1]⟩, ⟨[97], 2, [2]⟩]).formRoInput = .ok m :=
  ⟨by decide, by decide, _, rfl⟩

/-- C25: after any history, a call fails exactly if its name was accepted before, or the name is empty or longer than
255 bytes, or the data is longer than 255 bytes; a failed call changes nothing. -/
theorem C25_add_input_validation (ds : Bytes) (cs : List RoCall) (c : RoCall) :
    (((run ds cs).addInput c.name c.data c.ty).1 ≠ none ↔
      c.name ∈ (accepted cs).map RoCall.name ∨ c.name.length = 0 ∨ 255 < c.name.length ∨ 255 < c.data.length) ∧
    (((run ds cs).addInput c.name c.data c.ty).1 ≠ none →
      ((run ds cs).addInput c.name c.data c.ty).2 = run ds cs) := by
  have hc := addInput_cases (rep_run ds cs) c
  have hw : (c.WellFormed ∧ c.name ∉ (accepted cs).map RoCall.name) ↔
      ¬ (c.name ∈ (accepted cs).map RoCall.name ∨ c.name.length = 0 ∨ 255 < c.name.length ∨ 255 < c.data.length) := by
    constructor
    · rintro ⟨⟨h1, h2, h3⟩, h4⟩ (h | h | h | h)
      · exact h4 h
      · omega
      · omega
      · omega
    · intro h
      push Not at h
      exact ⟨⟨by omega, by omega, by omega⟩, h.1⟩
  constructor
  · constructor
    · intro h
      by_contra hn
      exact h (hc.1 (hw.2 hn)).1
    · intro h
      exact (hc.2 fun hh => hw.1 hh h).1
  · intro h
    exact (hc.2 fun hh => h (hc.1 hh).1).2

/-- C25: an accepted call is visible in what is hashed; without any accepted input every output fails. -/
theorem C25_output_needs_input (ds : Bytes) (cs : List RoCall) (P : Prim) (h : accepted cs = []) :
    (∀ len, ((run ds cs).outputByteString P len).isErr = true) ∧
    (∀ cnt, ((run ds cs).outputScalars P cnt).isErr = true) ∧
    ((run ds cs).outputScalar P).isErr = true ∧ ((run ds cs).outputPoint P).isErr = true := by
  have e := (inputs_nil_iff (rep_run ds cs)).2 h
  have hf : (run ds cs).formRoInput = .err "invalid input length" := by rw [formRoInput, e]; rfl
  refine ⟨fun len => ?_, fun cnt => ?_, ?_, ?_⟩
  · rw [outputByteString, hf]; rfl
  · rw [outputScalars, hf]; rfl
  · rw [outputScalar, outputScalars, hf]; rfl
  · rw [outputPoint, hf]; rfl

example : accepted [⟨[], 1, [1]⟩, ⟨[97], 1, List.replicate 256 0⟩] = [] ∧
    accepted [⟨[97], 1, [1]⟩, ⟨[97], 1, [2]⟩] = [⟨[97], 1, [1]⟩] := by decide +kernel

end Verif
