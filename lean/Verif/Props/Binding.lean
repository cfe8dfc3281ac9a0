import Verif.Props.Remaining
import Verif.Props.Mega
import Verif.Props.Complaints
import Verif.Props.Sign

/-!
Property C171: what each hash of the code is bound to, exactly.  Byte strings of more than 255 bytes are left out of a
transcript (all of them count as one and the same value, different from all shorter ones) and node indices are cut to 32 bits;
everything else is bound.
-/

set_option autoImplicit false

namespace Verif

open RoCall Zk Mega Complaints Sign

/-- What a transcript keeps of a byte string. -/
def kept (b : Bytes) : Option Bytes := if b.length ≤ 255 then some b else none

/-- What a transcript keeps of a node index. -/
def low (i : NodeIndex) : Nat := i.toNat % 2 ^ 32

/-- What a transcript keeps of a call. -/
def RoCall.seen (c : RoCall) : Option RoCall := if c.WellFormed then some c else none

theorem RoCall.filter_eq_filterMap (cs : List RoCall) :
    cs.filter (fun c => decide c.WellFormed) = cs.filterMap seen := by
  induction cs with
  | nil => rfl
  | cons c cs ih =>
    by_cases h : c.WellFormed
    · rw [List.filter_cons_of_pos (by simpa using h), List.filterMap_cons_some (b := c) (by rw [seen, if_pos h]), ih]
    · rw [List.filter_cons_of_neg (by simpa using h), List.filterMap_cons_none (by rw [seen, if_neg h]), ih]

/-- Lists of calls with the same distinct names have the same accepted calls exactly if they agree call by call. -/
theorem RoCall.accepted_perm_iff {cs cs' : List RoCall} (hn : (cs.map RoCall.name).Nodup)
    (he : cs.map RoCall.name = cs'.map RoCall.name) :
    (accepted cs).Perm (accepted cs') ↔ cs.map seen = cs'.map seen := by
  have hn' : (cs'.map RoCall.name).Nodup := he ▸ hn
  rw [accepted_of_nodup hn, accepted_of_nodup hn']
  constructor
  · intro hp
    have hlen : cs.length = cs'.length := by simpa using congrArg List.length he
    have key : ∀ {a b : List RoCall}, (a.map RoCall.name).Nodup → a.map RoCall.name = b.map RoCall.name →
        (∀ c ∈ a, c.WellFormed → c ∈ b) → ∀ (i : Nat) (ha : i < a.length) (hb : i < b.length), a[i].WellFormed → b[i] = a[i] := by
      intro a b ha hab hm i hi hi' hw
      obtain ⟨j, hj, e⟩ := List.getElem_of_mem (hm _ (List.getElem_mem hi) hw)
      have hjn : (b.map RoCall.name)[j]'(by simpa using hj) = (b.map RoCall.name)[i]'(by simpa using hi') := by
        have h1 : (b.map RoCall.name)[j]'(by simpa using hj) = a[i].name := by simp [e]
        have h2 : (b.map RoCall.name)[i]'(by simpa using hi') = (a.map RoCall.name)[i]'(by simpa using hi) := by
          simp only [hab]
        rw [h1, h2]
        simp
      have hij : j = i := (List.Nodup.getElem_inj_iff (hab ▸ ha)).1 hjn
      subst hij
      exact e
    have m1 : ∀ c ∈ cs, c.WellFormed → c ∈ cs' := fun c hc hw =>
      (List.mem_filter.1 (hp.mem_iff.1 (List.mem_filter.2 ⟨hc, by simpa using hw⟩))).1
    have m2 : ∀ c ∈ cs', c.WellFormed → c ∈ cs := fun c hc hw =>
      (List.mem_filter.1 (hp.mem_iff.2 (List.mem_filter.2 ⟨hc, by simpa using hw⟩))).1
    refine List.ext_getElem (by simpa using hlen) fun i h1 h2 => ?_
    have h1' : i < cs.length := by simpa using h1
    have h2' : i < cs'.length := by simpa using h2
    simp only [List.getElem_map, seen]
    by_cases hw : cs[i].WellFormed
    · rw [key hn he m1 i h1' h2' hw]
    · by_cases hw' : cs'[i].WellFormed
      · rw [key hn' he.symm m2 i h2' h1' hw']
      · rw [if_neg hw, if_neg hw']
  · intro h
    rw [filter_eq_filterMap, filter_eq_filterMap]
    have e : ∀ l : List RoCall, l.filterMap seen = (l.map seen).filterMap id := fun l => by
      rw [List.filterMap_map]; rfl
    rw [e, e, h]

theorem RoCall.seen_eq_some {c : RoCall} (h : c.WellFormed) : c.seen = some c := if_pos h

theorem RoCall.seen_pt {name : String} (h : 1 ≤ (ascii name).length ∧ (ascii name).length ≤ 255) (A B : Pt) :
    (ptCall name A).seen = (ptCall name B).seen ↔ A = B := by
  rw [seen_eq_some (ptCall_wf _ _ h), seen_eq_some (ptCall_wf _ _ h), Option.some.injEq]
  exact ⟨ptCall_inj, fun e => by rw [e]⟩

theorem RoCall.seen_scalar {name : String} (h : 1 ≤ (ascii name).length ∧ (ascii name).length ≤ 255) (a b : Fn) :
    (scalarCall name a).seen = (scalarCall name b).seen ↔ a = b := by
  rw [seen_eq_some (scalarCall_wf _ _ h), seen_eq_some (scalarCall_wf _ _ h), Option.some.injEq]
  exact ⟨scalarCall_inj, fun e => by rw [e]⟩

theorem RoCall.seen_idx {name : String} (h : 1 ≤ (ascii name).length ∧ (ascii name).length ≤ 255) (i j : NodeIndex) :
    (idxCall name i).seen = (idxCall name j).seen ↔ low i = low j := by
  rw [seen_eq_some (idxCall_wf _ _ h), seen_eq_some (idxCall_wf _ _ h), Option.some.injEq, low, low, ← uint32Of_eq, ← uint32Of_eq]
  refine ⟨idxCall_inj, fun e => ?_⟩
  simp only [idxCall, e]

theorem RoCall.seen_bytes {name : String} (h : 1 ≤ (ascii name).length ∧ (ascii name).length ≤ 255) (a b : Bytes) :
    (byteCall name a).seen = (byteCall name b).seen ↔ kept a = kept b := by
  simp only [seen, kept, byteCall_wf name _ h]
  by_cases ha : a.length ≤ 255 <;> by_cases hb : b.length ≤ 255 <;> simp [ha, hb, byteCall]

theorem RoCall.seen_ad (a b : Bytes) : (adCall a).seen = (adCall b).seen ↔ kept a = kept b :=
  seen_bytes (name := "associated_data") (by decide +kernel) a b

/-- Outputs of `count` scalars of different oracles are told apart by some hash function. -/
theorem Ro.outputScalars_separated {ds ds' : Bytes} {cs cs' : List RoCall} (h0 : accepted cs ≠ [])
    (h0' : accepted cs' ≠ []) (hne : ¬ (ds = ds' ∧ (accepted cs).Perm (accepted cs'))) {count : Nat} (hc : 0 < count)
    (hc' : count * 48 ≤ 8160) : ∃ P, (run ds cs).outputScalars P count ≠ (run ds' cs').outputScalars P count := by
  obtain ⟨m, hm⟩ := form_ok_of_accepted (ds := ds) h0
  obtain ⟨m', hm'⟩ := form_ok_of_accepted (ds := ds') h0'
  obtain ⟨P, hP⟩ := exists_prim_expand m (run ds cs).curveDst m' (run ds' cs').curveDst (count * 48) hc' (by
    intro e
    simp only [Prod.mk.injEq] at e
    exact hne (C23_transcript_injective ds ds' cs cs' m m' hm hm' (Or.inr (by rw [e.1, e.2]))))
    (List.replicate 32 2) (by simp)
  have hout : ∀ (r : Ro) (b out : Bytes), r.formRoInput = .ok b →
      Xmd.expandMessageXmd P b r.curveDst ((count * 48 : Nat) : Int) = .ok out →
      ∃ l, r.outputScalars P count = .ok l ∧ l[0]? = some ((beVal (block48 out 0) : Nat) : Fn) := by
    intro r b out h1 h2
    obtain ⟨out', e1, e2, e3⟩ := hashToScalar_ok P count b r.curveDst hc'
    obtain ⟨out'', f1, -, f3⟩ := (C19_expand_message_xmd_rfc P b r.curveDst).1 (count * 48) hc'
    rw [h2] at f1
    cases f1
    rw [f3] at e1
    cases e1
    exact ⟨_, by rw [outputScalars, h1, Res.ok_bind, e3], by simp [hc]⟩
  have b0 : ∀ k : Nat, 0 < k → block48 ((List.replicate 32 2 ++ List.replicate (k * 48) 0 : Bytes).take (k * 48)) 0 =
      List.replicate 32 2 ++ List.replicate 16 0 := by
    intro k hk
    rw [block48, Nat.mul_zero, List.drop_zero, List.take_take, min_eq_left (by omega), List.take_append, List.take_replicate,
      List.take_replicate, List.length_replicate, min_eq_right (by omega), min_eq_left (by omega)]
  have z0 : ∀ k : Nat, 0 < k → block48 (List.replicate (k * 48) 0 : Bytes) 0 = List.replicate 48 0 := by
    intro k hk
    rw [block48, Nat.mul_zero, List.drop_zero, List.take_replicate, min_eq_left (by omega)]
  have hv : ((beVal (List.replicate 32 2 ++ List.replicate 16 0 : Bytes) : Nat) : Fn) ≠
      ((beVal (List.replicate 48 0) : Nat) : Fn) := by decide +kernel
  refine ⟨P, fun heq => ?_⟩
  rcases hP with ⟨h1, h2⟩ | ⟨h1, h2⟩
  · obtain ⟨l, e, el⟩ := hout _ _ _ hm h1
    obtain ⟨l', e', el'⟩ := hout _ _ _ hm' h2
    rw [e, e', Res.ok.injEq] at heq
    rw [heq, el', b0 _ hc, z0 _ hc, Option.some.injEq] at el
    exact hv el.symm
  · obtain ⟨l, e, el⟩ := hout _ _ _ hm h2
    obtain ⟨l', e', el'⟩ := hout _ _ _ hm' h1
    rw [e, e', Res.ok.injEq] at heq
    rw [heq, el', b0 _ hc, z0 _ hc, Option.some.injEq] at el
    exact hv el

/-- The iff behind all parts of C171, for an output that depends on the set of inputs and is told apart by some hash function. -/
theorem Ro.output_iff {α : Type} {ds ds' : Bytes} {cs cs' : List RoCall} (out : Prim → Ro → α)
    (hset : (accepted cs).Perm (accepted cs') → ds = ds' → ∀ P, out P (run ds cs) = out P (run ds' cs'))
    (hsep : ¬ (ds = ds' ∧ (accepted cs).Perm (accepted cs')) → ∃ P, out P (run ds cs) ≠ out P (run ds' cs'))
    (hn : (cs.map RoCall.name).Nodup) (he : cs.map RoCall.name = cs'.map RoCall.name) :
    (∀ P, out P (run ds cs) = out P (run ds' cs')) ↔ ds = ds' ∧ cs.map seen = cs'.map seen := by
  rw [← accepted_perm_iff hn he]
  refine ⟨fun h => ?_, fun h => hset h.2 h.1⟩
  by_contra hc
  obtain ⟨P, hP⟩ := hsep hc
  exact hP (h P)

theorem Ro.outputScalar_iff {ds ds' : Bytes} {cs cs' : List RoCall} (h0 : accepted cs ≠ []) (h0' : accepted cs' ≠ [])
    (hn : (cs.map RoCall.name).Nodup) (he : cs.map RoCall.name = cs'.map RoCall.name) :
    (∀ P, (run ds cs).outputScalar P = (run ds' cs').outputScalar P) ↔ ds = ds' ∧ cs.map seen = cs'.map seen :=
  output_iff (fun P r => r.outputScalar P) (fun hp e P => e ▸ (C24_outputs_depend_on_set ds cs cs' hp P).2.2.1)
    (fun h => (C23_outputs_separated _ _ _ _ h0 h0' h).2) hn he

theorem Ro.outputScalars_iff {ds : Bytes} {cs cs' : List RoCall} (h0 : accepted cs ≠ []) (h0' : accepted cs' ≠ [])
    (hn : (cs.map RoCall.name).Nodup) (he : cs.map RoCall.name = cs'.map RoCall.name) {count : Nat} (hc : 0 < count)
    (hc' : count * 48 ≤ 8160) :
    (∀ P, (run ds cs).outputScalars P count = (run ds cs').outputScalars P count) ↔ cs.map seen = cs'.map seen := by
  rw [output_iff (fun P r => r.outputScalars P count) (fun hp _ P => (C24_outputs_depend_on_set ds cs cs' hp P).2.1 _)
    (fun h => outputScalars_separated h0 h0' h hc hc') hn he, eq_self_iff_true, true_and]

theorem Ro.outputPoint_iff {ds ds' : Bytes} {cs cs' : List RoCall} (h0 : accepted cs ≠ []) (h0' : accepted cs' ≠ [])
    (hn : (cs.map RoCall.name).Nodup) (he : cs.map RoCall.name = cs'.map RoCall.name) :
    (∀ P, (run ds cs).outputPoint P = (run ds' cs').outputPoint P) ↔ ds = ds' ∧ cs.map seen = cs'.map seen :=
  output_iff (fun P r => r.outputPoint P) (fun hp e P => e ▸ (C24_outputs_depend_on_set ds cs cs' hp P).2.2.2)
    (fun h => C23_points_separated _ _ _ _ h0 h0' h) hn he

theorem Ro.outputByteString_iff {ds : Bytes} {cs cs' : List RoCall} (h0 : accepted cs ≠ []) (h0' : accepted cs' ≠ [])
    (hn : (cs.map RoCall.name).Nodup) (he : cs.map RoCall.name = cs'.map RoCall.name) :
    (∀ P, (run ds cs).outputByteString P 32 = (run ds cs').outputByteString P 32) ↔ cs.map seen = cs'.map seen := by
  rw [output_iff (fun P r => r.outputByteString P 32) (fun hp _ P => (C24_outputs_depend_on_set ds cs cs' hp P).1 _)
    (fun h => (C23_outputs_separated _ _ _ _ h0 h0' h).1 32 (by norm_num) (by norm_num)) hn he, eq_self_iff_true, true_and]

/-- C171, proofs: two challenges agree for every hash function exactly if the statements and the commitments are the same and the
associated data are the same up to what is kept of them. -/
theorem C171_challenges (ad ad' : Bytes) :
    (∀ i i' c1 c2 c1' c2', (∀ P, Dlog.hashToChallenge P i c1 c2 ad = Dlog.hashToChallenge P i' c1' c2' ad') ↔
      i = i' ∧ c1 = c1' ∧ c2 = c2' ∧ kept ad = kept ad') ∧
    (∀ i i' c c', (∀ P, EqOpen.hashToChallenge P i c ad = EqOpen.hashToChallenge P i' c' ad') ↔
      i = i' ∧ c = c' ∧ kept ad = kept ad') ∧
    ∀ i i' c1 c2 c1' c2', (∀ P, Product.hashToChallenge P i c1 c2 ad = Product.hashToChallenge P i' c1' c2' ad') ↔
      i = i' ∧ c1 = c1' ∧ c2 = c2' ∧ kept ad = kept ad' := by
  refine ⟨fun i i' c1 c2 c1' c2' => ?_, fun i i' c c' => ?_, fun i i' c1 c2 c1' c2' => ?_⟩
  · simp only [Dlog.hashToChallenge, dlog_transcript_eq]
    rw [Ro.outputScalar_iff (dlog_accepted_ne i c1 c2 ad) (dlog_accepted_ne i' c1' c2' ad') (by
      show [ascii "associated_data", ascii "instance_g", ascii "instance_h", ascii "instance_g_x", ascii "instance_h_x",
        ascii "commitment1", ascii "commitment2"].Nodup
      decide +kernel) rfl]
    simp only [dlogCalls, List.map_cons, List.map_nil, List.cons.injEq, and_true, true_and, seen_ad]
    rw [seen_pt (by decide +kernel), seen_pt (by decide +kernel), seen_pt (by decide +kernel), seen_pt (by decide +kernel),
      seen_pt (by decide +kernel), seen_pt (by decide +kernel)]
    obtain ⟨a, b, c, d⟩ := i
    obtain ⟨a', b', c', d'⟩ := i'
    simp only [Dlog.Instance.mk.injEq]
    tauto
  · simp only [EqOpen.hashToChallenge, eq_transcript_eq]
    rw [Ro.outputScalar_iff (eq_accepted_ne i c ad) (eq_accepted_ne i' c' ad') (by
      show [ascii "associated_data", ascii "instance_g", ascii "instance_h", ascii "instance_a", ascii "instance_b",
        ascii "commitment"].Nodup
      decide +kernel) rfl]
    simp only [eqCalls, List.map_cons, List.map_nil, List.cons.injEq, and_true, true_and, seen_ad]
    rw [seen_pt (by decide +kernel), seen_pt (by decide +kernel), seen_pt (by decide +kernel), seen_pt (by decide +kernel),
      seen_pt (by decide +kernel)]
    obtain ⟨a, b, c, d⟩ := i
    obtain ⟨a', b', c', d'⟩ := i'
    simp only [EqOpen.Instance.mk.injEq]
    tauto
  · simp only [Product.hashToChallenge, prod_transcript_eq]
    rw [Ro.outputScalar_iff (prod_accepted_ne i c1 c2 ad) (prod_accepted_ne i' c1' c2' ad') (by
      show [ascii "associated_data", ascii "instance_g", ascii "instance_h", ascii "instance_lhs", ascii "instance_rhs",
        ascii "instance_product", ascii "commitment1", ascii "commitment2"].Nodup
      decide +kernel) rfl]
    simp only [prodCalls, List.map_cons, List.map_nil, List.cons.injEq, and_true, true_and, seen_ad]
    rw [seen_pt (by decide +kernel), seen_pt (by decide +kernel), seen_pt (by decide +kernel), seen_pt (by decide +kernel),
      seen_pt (by decide +kernel), seen_pt (by decide +kernel), seen_pt (by decide +kernel)]
    obtain ⟨a, b, c, d, e⟩ := i
    obtain ⟨a', b', c', d', e'⟩ := i'
    simp only [Product.Instance.mk.injEq]
    tauto

/-- C171, encryption: the pads agree for every hash function exactly if kind, keys and shared secret are the same and the indices and
the associated data are the same up to what is kept of them; likewise the base of the proof of possession. -/
theorem C171_encryption (t t' : CType) (d d' r r' : NodeIndex) (ad ad' : Bytes) (pk pk' eph eph' shared shared' : Pt) :
    ((∀ P, hashToScalars P t d r ad pk eph shared = hashToScalars P t' d' r' ad' pk' eph' shared') ↔
      t = t' ∧ low d = low d' ∧ low r = low r' ∧ kept ad = kept ad' ∧ pk = pk' ∧ eph = eph' ∧ shared = shared') ∧
    ((∀ P, computePopBase P t ad d eph = computePopBase P t' ad' d' eph') ↔
      t = t' ∧ kept ad = kept ad' ∧ low d = low d' ∧ eph = eph') := by
  have hpad : ∀ d r ad pk eph shared, accepted (padCalls d r ad pk eph shared) ≠ [] := fun _ _ _ _ _ _ =>
    List.ne_nil_of_mem mem_pad.1
  have hpop : ∀ ad d eph, accepted (popCalls ad d eph) ≠ [] := fun _ _ _ => List.ne_nil_of_mem mem_pop.1
  have hds' : ∀ t t' : CType, t.popBaseDst = t'.popBaseDst ↔ t = t' := by
    intro t t'; cases t <;> cases t' <;> simp <;> decide +kernel
  have hseen : ((padCalls d r ad pk eph shared).map seen = (padCalls d' r' ad' pk' eph' shared').map seen) ↔
      low d = low d' ∧ low r = low r' ∧ kept ad = kept ad' ∧ pk = pk' ∧ eph = eph' ∧ shared = shared' := by
    simp only [padCalls, List.map_cons, List.map_nil, List.cons.injEq, and_true, seen_ad]
    rw [seen_idx (by decide +kernel), seen_idx (by decide +kernel), seen_pt (by decide +kernel), seen_pt (by decide +kernel),
      seen_pt (by decide +kernel)]
  constructor
  · by_cases ht : t = t'
    · subst ht
      rw [eq_self_iff_true, true_and, ← hseen]
      cases t
      · simp only [hashToScalars, padTranscript_eq]
        exact Ro.outputScalars_iff (hpad d r ad pk eph shared) (hpad d' r' ad' pk' eph' shared') (padCalls_nodup ..) rfl (count := 1) (by norm_num)
          (by norm_num)
      · simp only [hashToScalars, padTranscript_eq]
        exact Ro.outputScalars_iff (hpad d r ad pk eph shared) (hpad d' r' ad' pk' eph' shared') (padCalls_nodup ..) rfl (count := 2) (by norm_num)
          (by norm_num)
    · refine ⟨fun h => ?_, fun h => absurd h.1 ht⟩
      have P : Prim := Classical.choice ⟨Kat.prim⟩
      obtain ⟨l, e, hl⟩ := hashToScalars_ok P t d r ad pk eph shared
      obtain ⟨l', e', hl'⟩ := hashToScalars_ok P t' d' r' ad' pk' eph' shared'
      have := h P
      rw [e, e', Res.ok.injEq] at this
      rw [this, hl'] at hl
      cases t <;> cases t' <;> first | exact absurd rfl ht | (simp [CType.count] at hl)
  · have hbase : ∀ (t : CType) (ad : Bytes) (d : NodeIndex) (eph : Pt) (P : Prim),
        ∃ B, (popTranscript t ad d eph).outputPoint P = .ok (Point.raw B) ∧ computePopBase P t ad d eph = .ok B := by
      intro t ad d eph P
      obtain ⟨m, hm⟩ := Ro.form_ok_of_accepted (ds := t.popBaseDst) (hpop ad d eph)
      obtain ⟨B, hB⟩ := C17_hash_to_point_on_curve P m (popTranscript t ad d eph).curveDst
      have e : (popTranscript t ad d eph).outputPoint P = .ok (Point.raw B) := by
        rw [Ro.outputPoint, popTranscript_eq, hm, Res.ok_bind]
        exact hB
      exact ⟨B, e, by rw [computePopBase, e, Res.ok_bind, Point.ofRaw?_raw]⟩
    have hiff : (∀ P, computePopBase P t ad d eph = computePopBase P t' ad' d' eph') ↔
        ∀ P, (popTranscript t ad d eph).outputPoint P = (popTranscript t' ad' d' eph').outputPoint P := by
      refine forall_congr' fun P => ?_
      obtain ⟨B, h1, h2⟩ := hbase t ad d eph P
      obtain ⟨B', h1', h2'⟩ := hbase t' ad' d' eph' P
      rw [h1, h2, h1', h2', Res.ok.injEq, Res.ok.injEq]
      exact ⟨fun e => by rw [e], fun e => Point.raw_injective e⟩
    rw [hiff]
    simp only [popTranscript_eq]
    rw [Ro.outputPoint_iff (hpop ad d eph) (hpop ad' d' eph') (popCalls_nodup ..) rfl, hds']
    simp only [popCalls, List.map_cons, List.map_nil, List.cons.injEq, and_true, seen_ad]
    rw [seen_idx (by decide +kernel), seen_pt (by decide +kernel)]

/-- C171, complaints: the associated data of the proof agree for every hash function exactly if the key is the same and the indices
and the associated data are the same up to what is kept of them. -/
theorem C171_complaints (ad ad' : Bytes) (r d r' d' : NodeIndex) (pk pk' : Pt) :
    (∀ P, createProofAssocData P ad r d pk = createProofAssocData P ad' r' d' pk') ↔
      kept ad = kept ad' ∧ low r = low r' ∧ low d = low d' ∧ pk = pk' := by
  have h0 : ∀ ad r d pk, accepted (assocCalls ad r d pk) ≠ [] := fun _ _ _ _ => List.ne_nil_of_mem mem_assoc.1
  simp only [createProofAssocData, assocTranscript_eq]
  rw [Ro.outputByteString_iff (h0 ad r d pk) (h0 ad' r' d' pk') (by
      show [ascii "associated_data", ascii "receiver_index", ascii "dealer_index", ascii "receiver_public_key"].Nodup
      decide +kernel) rfl]
  simp only [assocCalls, List.map_cons, List.map_nil, List.cons.injEq, and_true, seen_ad]
  rw [seen_idx (by decide +kernel), seen_idx (by decide +kernel), seen_pt (by decide +kernel)]

/-- C171, signing: the randomisers of two presignatures agree for every hash function exactly if nonce and key tweak are the same and
the randomness and the hashed messages are the same up to what is kept of them. -/
theorem C171_randomizer (rn m rn' m' : Bytes) (pre pre' : Pt) (tw tw' : Fn) :
    (∀ P, (rhoTranscript rn m pre tw).outputScalar P = (rhoTranscript rn' m' pre' tw').outputScalar P) ↔
      kept rn = kept rn' ∧ kept m = kept m' ∧ pre = pre' ∧ tw = tw' := by
  have h0 : ∀ rn m pre tw, accepted (rhoCalls rn m pre tw) ≠ [] := fun _ _ _ _ => List.ne_nil_of_mem mem_rho.1
  simp only [rhoTranscript_eq]
  rw [Ro.outputScalar_iff (h0 rn m pre tw) (h0 rn' m' pre' tw') (by
      show [ascii "randomness", ascii "hashed_message", ascii "pre_sig", ascii "key_tweak"].Nodup
      decide +kernel) rfl]
  simp only [rhoCalls, List.map_cons, List.map_nil, List.cons.injEq, and_true, true_and]
  rw [seen_bytes (by decide +kernel), seen_bytes (by decide +kernel), seen_pt (by decide +kernel), seen_scalar (by decide +kernel)]

/-- What is kept is not trivial: short strings are kept as they are, a long string is not the same as any short one, and two long ones
are. -/
example : kept [1] ≠ kept [2] ∧ kept (List.replicate 256 0) ≠ kept [] ∧
    kept (List.replicate 256 0) = kept (List.replicate 257 1) ∧ low 1 = low 4294967297 ∧ low 1 ≠ low 2 := by
  decide +kernel

end Verif
