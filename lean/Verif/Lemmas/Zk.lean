import Verif.Model.Zk
import Verif.Props.Ro
import Verif.Props.Point

/-! Helper lemmas about the transcripts of the zero-knowledge proofs. -/

namespace Verif

open RoCall

namespace Ro

theorem outputScalar_ok (P : Prim) {r : Ro} (h : r.inputs ≠ []) : ∃ s, r.outputScalar P = .ok s := by
  obtain ⟨out, -, -, e⟩ := hashToScalar_ok P 1 (r.inputs.flatMap chunk) r.curveDst (by norm_num)
  have e' : H2C.hashToScalar P 1 (r.inputs.flatMap chunk) r.curveDst = .ok [(beVal (block48 out 0) : Fn)] := e
  refine ⟨(beVal (block48 out 0) : Fn), ?_⟩
  rw [outputScalar, outputScalars, formRoInput_eq h]
  simp only [Res.ok_bind, e']

theorem run_outputScalar_ok (P : Prim) (ds : Bytes) {cs : List RoCall} (h : accepted cs ≠ []) :
    ∃ s, (run ds cs).outputScalar P = .ok s :=
  outputScalar_ok P fun e => h ((inputs_nil_iff (rep_run ds cs)).1 e)

/-- Different hashed transcripts: no common (separator, message) pair. -/
def Disjoint (r r' : Ro) : Prop :=
  ∀ m m', r.formRoInput = .ok m → r'.formRoInput = .ok m' → (r.curveDst, m) ≠ (r'.curveDst, m')

theorem disjoint_run {ds ds' : Bytes} {cs cs' : List RoCall} (h : ¬ (ds = ds' ∧ (accepted cs).Perm (accepted cs'))) :
    Disjoint (run ds cs) (run ds' cs') := fun m m' hm hm' e =>
  h (C23_transcript_injective ds ds' cs cs' m m' hm hm' (Or.inr e))

end Ro

namespace Zk

/-- An `AddPoint` call. -/
def ptCall (name : String) (P : Pt) : RoCall := ⟨ascii name, Ro.tyPoint, Point.serializeTagged P⟩

/-- The `AddBytesString("associated_data", ad)` call. -/
def adCall (ad : Bytes) : RoCall := ⟨ascii "associated_data", Ro.tyByteString, ad⟩

theorem ptCall_wf (name : String) (P : Pt) (h : 1 ≤ (ascii name).length ∧ (ascii name).length ≤ 255) :
    (ptCall name P).WellFormed := ⟨h.1, h.2, by simp [ptCall, Ro.wf_tagged_point]⟩

theorem adCall_wf_iff (ad : Bytes) : (adCall ad).WellFormed ↔ ad.length ≤ 255 := by
  have : 1 ≤ (ascii "associated_data").length ∧ (ascii "associated_data").length ≤ 255 := by decide +kernel
  simp only [WellFormed, adCall, this, true_and]

theorem ptCall_inj {name : String} {P Q : Pt} (h : ptCall name P = ptCall name Q) : P = Q := by
  simp only [ptCall, RoCall.mk.injEq, true_and, Point.serializeTagged, List.cons_append, List.nil_append,
    List.cons.injEq] at h
  exact Point.serialize_injective h

def dlogCalls (i : Dlog.Instance) (c1 c2 : Pt) (ad : Bytes) : List RoCall :=
  [adCall ad, ptCall "instance_g" i.g, ptCall "instance_h" i.h, ptCall "instance_g_x" i.gx, ptCall "instance_h_x" i.hx,
    ptCall "commitment1" c1, ptCall "commitment2" c2]

def eqCalls (i : EqOpen.Instance) (c : Pt) (ad : Bytes) : List RoCall :=
  [adCall ad, ptCall "instance_g" i.g, ptCall "instance_h" i.h, ptCall "instance_a" i.a, ptCall "instance_b" i.b,
    ptCall "commitment" c]

def prodCalls (i : Product.Instance) (c1 c2 : Pt) (ad : Bytes) : List RoCall :=
  [adCall ad, ptCall "instance_g" i.g, ptCall "instance_h" i.h, ptCall "instance_lhs" i.lhsCom,
    ptCall "instance_rhs" i.rhsCom, ptCall "instance_product" i.productCom, ptCall "commitment1" c1,
    ptCall "commitment2" c2]

theorem dlog_transcript_eq (i : Dlog.Instance) (c1 c2 : Pt) (ad : Bytes) :
    Dlog.transcript i c1 c2 ad = Ro.run dlogDst (dlogCalls i c1 c2 ad) := rfl

theorem eq_transcript_eq (i : EqOpen.Instance) (c : Pt) (ad : Bytes) :
    EqOpen.transcript i c ad = Ro.run equalOpeningsDst (eqCalls i c ad) := rfl

theorem prod_transcript_eq (i : Product.Instance) (c1 c2 : Pt) (ad : Bytes) :
    Product.transcript i c1 c2 ad = Ro.run equalOpeningsDst (prodCalls i c1 c2 ad) := rfl

/-- The accepted calls: the points always, the associated data if short enough. -/
theorem accepted_calls (ad : Bytes) (l : List RoCall) (hn : ((adCall ad :: l).map RoCall.name).Nodup)
    (hw : ∀ c ∈ l, c.WellFormed) :
    accepted (adCall ad :: l) = if ad.length ≤ 255 then adCall ad :: l else l := by
  rw [accepted_of_nodup hn]
  have hl : l.filter (fun c => decide c.WellFormed) = l := List.filter_eq_self.2 fun c hc => by simpa using hw c hc
  split_ifs with h
  · rw [List.filter_cons_of_pos (by simpa using (adCall_wf_iff ad).2 h), hl]
  · rw [List.filter_cons_of_neg (by simpa using fun hh => h ((adCall_wf_iff ad).1 hh)), hl]

theorem dlog_accepted (i : Dlog.Instance) (c1 c2 : Pt) (ad : Bytes) :
    accepted (dlogCalls i c1 c2 ad) =
      if ad.length ≤ 255 then dlogCalls i c1 c2 ad else (dlogCalls i c1 c2 ad).tail := by
  apply accepted_calls
  · show [ascii "associated_data", ascii "instance_g", ascii "instance_h", ascii "instance_g_x", ascii "instance_h_x",
      ascii "commitment1", ascii "commitment2"].Nodup
    decide +kernel
  · intro c hc
    simp only [List.mem_cons, List.not_mem_nil, or_false] at hc
    rcases hc with rfl | rfl | rfl | rfl | rfl | rfl <;> exact ptCall_wf _ _ (by decide +kernel)

theorem eq_accepted (i : EqOpen.Instance) (c : Pt) (ad : Bytes) :
    accepted (eqCalls i c ad) = if ad.length ≤ 255 then eqCalls i c ad else (eqCalls i c ad).tail := by
  apply accepted_calls
  · show [ascii "associated_data", ascii "instance_g", ascii "instance_h", ascii "instance_a", ascii "instance_b",
      ascii "commitment"].Nodup
    decide +kernel
  · intro c hc
    simp only [List.mem_cons, List.not_mem_nil, or_false] at hc
    rcases hc with rfl | rfl | rfl | rfl | rfl <;> exact ptCall_wf _ _ (by decide +kernel)

theorem prod_accepted (i : Product.Instance) (c1 c2 : Pt) (ad : Bytes) :
    accepted (prodCalls i c1 c2 ad) =
      if ad.length ≤ 255 then prodCalls i c1 c2 ad else (prodCalls i c1 c2 ad).tail := by
  apply accepted_calls
  · show [ascii "associated_data", ascii "instance_g", ascii "instance_h", ascii "instance_lhs", ascii "instance_rhs",
      ascii "instance_product", ascii "commitment1", ascii "commitment2"].Nodup
    decide +kernel
  · intro c hc
    simp only [List.mem_cons, List.not_mem_nil, or_false] at hc
    rcases hc with rfl | rfl | rfl | rfl | rfl | rfl | rfl <;> exact ptCall_wf _ _ (by decide +kernel)

theorem dlog_accepted_ne (i : Dlog.Instance) (c1 c2 : Pt) (ad : Bytes) : accepted (dlogCalls i c1 c2 ad) ≠ [] := by
  rw [dlog_accepted]; split_ifs <;> simp [dlogCalls]

theorem eq_accepted_ne (i : EqOpen.Instance) (c : Pt) (ad : Bytes) : accepted (eqCalls i c ad) ≠ [] := by
  rw [eq_accepted]; split_ifs <;> simp [eqCalls]

theorem prod_accepted_ne (i : Product.Instance) (c1 c2 : Pt) (ad : Bytes) : accepted (prodCalls i c1 c2 ad) ≠ [] := by
  rw [prod_accepted]; split_ifs <;> simp [prodCalls]

/-- In permuted lists with distinct names the calls with one name agree. -/
theorem call_eq_of_perm {S S' : List RoCall} (hp : S.Perm S') (hn : (S'.map RoCall.name).Nodup) {c d : RoCall}
    (hc : c ∈ S) (hd : d ∈ S') (hname : c.name = d.name) : c = d := by
  have hc' := hp.mem_iff.1 hc
  exact List.inj_on_of_nodup_map hn hc' hd hname

theorem dlog_challenge_ok (P : Prim) (i : Dlog.Instance) (c1 c2 : Pt) (ad : Bytes) :
    ∃ s, Dlog.hashToChallenge P i c1 c2 ad = .ok s := by
  rw [Dlog.hashToChallenge, dlog_transcript_eq]
  exact Ro.run_outputScalar_ok P _ (dlog_accepted_ne i c1 c2 ad)

theorem eq_challenge_ok (P : Prim) (i : EqOpen.Instance) (c : Pt) (ad : Bytes) :
    ∃ s, EqOpen.hashToChallenge P i c ad = .ok s := by
  rw [EqOpen.hashToChallenge, eq_transcript_eq]
  exact Ro.run_outputScalar_ok P _ (eq_accepted_ne i c ad)

theorem prod_challenge_ok (P : Prim) (i : Product.Instance) (c1 c2 : Pt) (ad : Bytes) :
    ∃ s, Product.hashToChallenge P i c1 c2 ad = .ok s := by
  rw [Product.hashToChallenge, prod_transcript_eq]
  exact Ro.run_outputScalar_ok P _ (prod_accepted_ne i c1 c2 ad)

theorem dlog_perm_iff {i i' : Dlog.Instance} {c1 c2 c1' c2' : Pt} {ad ad' : Bytes}
    (h : ad.length ≤ 255) (h' : ad'.length ≤ 255)
    (hp : (accepted (dlogCalls i c1 c2 ad)).Perm (accepted (dlogCalls i' c1' c2' ad'))) :
    i = i' ∧ c1 = c1' ∧ c2 = c2' ∧ ad = ad' := by
  have hn := (accepted_spec (dlogCalls i' c1' c2' ad')).2
  rw [dlog_accepted, dlog_accepted, if_pos h, if_pos h'] at hp
  rw [dlog_accepted, if_pos h'] at hn
  have key : ∀ (nm : String) (A B : Pt), ptCall nm A ∈ dlogCalls i c1 c2 ad → ptCall nm B ∈ dlogCalls i' c1' c2' ad' →
      A = B := fun nm A B hA hB => ptCall_inj (call_eq_of_perm hp hn hA hB rfl)
  have had : adCall ad = adCall ad' := call_eq_of_perm hp hn (by simp [dlogCalls]) (by simp [dlogCalls]) rfl
  simp only [adCall, RoCall.mk.injEq, true_and] at had
  refine ⟨?_, key "commitment1" _ _ (by simp [dlogCalls]) (by simp [dlogCalls]),
    key "commitment2" _ _ (by simp [dlogCalls]) (by simp [dlogCalls]), had⟩
  have e1 := key "instance_g" i.g i'.g (by simp [dlogCalls]) (by simp [dlogCalls])
  have e2 := key "instance_h" i.h i'.h (by simp [dlogCalls]) (by simp [dlogCalls])
  have e3 := key "instance_g_x" i.gx i'.gx (by simp [dlogCalls]) (by simp [dlogCalls])
  have e4 := key "instance_h_x" i.hx i'.hx (by simp [dlogCalls]) (by simp [dlogCalls])
  cases i; cases i'
  simp_all

theorem eq_perm_iff {i i' : EqOpen.Instance} {c c' : Pt} {ad ad' : Bytes}
    (h : ad.length ≤ 255) (h' : ad'.length ≤ 255)
    (hp : (accepted (eqCalls i c ad)).Perm (accepted (eqCalls i' c' ad'))) :
    i = i' ∧ c = c' ∧ ad = ad' := by
  have hn := (accepted_spec (eqCalls i' c' ad')).2
  rw [eq_accepted, eq_accepted, if_pos h, if_pos h'] at hp
  rw [eq_accepted, if_pos h'] at hn
  have key : ∀ (nm : String) (A B : Pt), ptCall nm A ∈ eqCalls i c ad → ptCall nm B ∈ eqCalls i' c' ad' →
      A = B := fun nm A B hA hB => ptCall_inj (call_eq_of_perm hp hn hA hB rfl)
  have had : adCall ad = adCall ad' := call_eq_of_perm hp hn (by simp [eqCalls]) (by simp [eqCalls]) rfl
  simp only [adCall, RoCall.mk.injEq, true_and] at had
  refine ⟨?_, key "commitment" _ _ (by simp [eqCalls]) (by simp [eqCalls]), had⟩
  have e1 := key "instance_g" i.g i'.g (by simp [eqCalls]) (by simp [eqCalls])
  have e2 := key "instance_h" i.h i'.h (by simp [eqCalls]) (by simp [eqCalls])
  have e3 := key "instance_a" i.a i'.a (by simp [eqCalls]) (by simp [eqCalls])
  have e4 := key "instance_b" i.b i'.b (by simp [eqCalls]) (by simp [eqCalls])
  cases i; cases i'
  simp_all

theorem prod_perm_iff {i i' : Product.Instance} {c1 c2 c1' c2' : Pt} {ad ad' : Bytes}
    (h : ad.length ≤ 255) (h' : ad'.length ≤ 255)
    (hp : (accepted (prodCalls i c1 c2 ad)).Perm (accepted (prodCalls i' c1' c2' ad'))) :
    i = i' ∧ c1 = c1' ∧ c2 = c2' ∧ ad = ad' := by
  have hn := (accepted_spec (prodCalls i' c1' c2' ad')).2
  rw [prod_accepted, prod_accepted, if_pos h, if_pos h'] at hp
  rw [prod_accepted, if_pos h'] at hn
  have key : ∀ (nm : String) (A B : Pt), ptCall nm A ∈ prodCalls i c1 c2 ad → ptCall nm B ∈ prodCalls i' c1' c2' ad' →
      A = B := fun nm A B hA hB => ptCall_inj (call_eq_of_perm hp hn hA hB rfl)
  have had : adCall ad = adCall ad' := call_eq_of_perm hp hn (by simp [prodCalls]) (by simp [prodCalls]) rfl
  simp only [adCall, RoCall.mk.injEq, true_and] at had
  refine ⟨?_, key "commitment1" _ _ (by simp [prodCalls]) (by simp [prodCalls]),
    key "commitment2" _ _ (by simp [prodCalls]) (by simp [prodCalls]), had⟩
  have e1 := key "instance_g" i.g i'.g (by simp [prodCalls]) (by simp [prodCalls])
  have e2 := key "instance_h" i.h i'.h (by simp [prodCalls]) (by simp [prodCalls])
  have e3 := key "instance_lhs" i.lhsCom i'.lhsCom (by simp [prodCalls]) (by simp [prodCalls])
  have e4 := key "instance_rhs" i.rhsCom i'.rhsCom (by simp [prodCalls]) (by simp [prodCalls])
  have e5 := key "instance_product" i.productCom i'.productCom (by simp [prodCalls]) (by simp [prodCalls])
  cases i; cases i'
  simp_all

/-- A name that occurs in one accepted list only. -/
theorem not_perm_of_name {S S' : List RoCall} (c : RoCall) (hc : c ∈ S) (h : ∀ d ∈ S', d.name ≠ c.name) :
    ¬ S.Perm S' := fun hp => h c (hp.mem_iff.1 hc) rfl

end Zk

end Verif
