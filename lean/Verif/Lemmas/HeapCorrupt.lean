import Verif.Lemmas.HeapH2C
import Verif.Lemmas.HeapTranscript
import Verif.Lemmas.ProtocolLive
import Verif.Spec.HeapCorrupt

/-! Damaging dealings on memory. -/

set_option autoImplicit false

namespace Verif.Heap

open Protocol (node shift)

theorem InRange.node {k : Nat} {targets : List NodeIndex} (h : InRange k targets) {t : NodeIndex} (ht : t ∈ targets) :
    ∃ i < k, t = node i ∧ t.toInt = i := by
  obtain ⟨h0, h1⟩ := h t ht
  refine ⟨t.toInt.toNat, by omega, ?_, by omega⟩
  have e : (t.toInt.toNat : Int) = t.toInt := by omega
  rw [Protocol.node, ← BitVec.ofInt_natCast, e, BitVec.ofInt_toInt]

/-- The memory after the additions. -/
structure Shifted (as : List Addr) (a : Fn) (targets : List NodeIndex) (m m' : Mem) : Prop where
  next : m'.next = m.next
  pt : m'.pt = m.pt
  po : m'.po = m.po
  fe : m'.fe = m.fe
  out : ∀ b ∉ as, m'.sc b = m.sc b
  at_ : ∀ i (h : i < as.length), m'.sc as[i] = if node i ∈ targets then m.sc as[i] + a else m.sc as[i]
  touched : ∀ o ∈ m'.touched, o ∈ m.touched ∨ o ∈ targetObjs as targets

theorem addAtTargets_run {as : List Addr} {r : Addr} (hr : r ∉ as) (hn : as.Nodup) (hl : as.length ≤ 2 ^ 63)
    {targets : List NodeIndex} (ht : targets.Nodup) (hin : InRange as.length targets) (m : Mem) :
    ∃ m', addAtTargets as r targets m = (.ok (), m') ∧ Shifted as (m.sc r) targets m m' := by
  induction targets generalizing m with
  | nil => exact ⟨m, rfl, rfl, rfl, rfl, rfl, fun _ _ => rfl, fun i h => by simp, fun _ h => .inl h⟩
  | cons t ts ih =>
    obtain ⟨i, hi, rfl, e⟩ := hin.node (List.mem_cons_self)
    have hne : r ≠ as[i] := fun h => hr (h ▸ List.getElem_mem hi)
    obtain ⟨m', h', s⟩ := ih (List.nodup_cons.1 ht).2 (fun t h => hin t (List.mem_cons_of_mem _ h))
      (m.setSc as[i] (m.sc as[i] + m.sc r))
    refine ⟨m', ?_, s.next, s.pt, s.po, s.fe, fun b hb => ?_, fun j hj => ?_, fun o ho => ?_⟩
    · have hx : Go.index as (node i).toInt m = (.ok as[i], m) := by
        unfold Go.index Mega.index Go.lift
        rw [e, if_neg (by omega), Int.toNat_natCast, List.getElem?_eq_getElem hi]
      have hy : addSc as[i] as[i] r m = (.ok as[i], m.setSc as[i] (m.sc as[i] + m.sc r)) := rfl
      rw [addAtTargets, Go.bind_run hx, Go.bind_run hy]
      exact h'
    · rw [s.out b hb]
      exact Function.update_of_ne (fun h : b = as[i] => hb (h ▸ List.getElem_mem hi)) _ _
    · rw [s.at_ j hj]
      have hr' : (m.setSc as[i] (m.sc as[i] + m.sc r)).sc r = m.sc r := Function.update_of_ne hne _ _
      rw [hr']
      by_cases hij : j = i
      · subst hij
        rw [if_neg (List.nodup_cons.1 ht).1, if_pos List.mem_cons_self]
        exact Function.update_self _ _ _
      · have : as[j] ≠ as[i] := fun h => hij ((List.Nodup.getElem_inj_iff hn).1 h)
        have e1 : (m.setSc as[i] (m.sc as[i] + m.sc r)).sc as[j] = m.sc as[j] := Function.update_of_ne this _ _
        have e2 : node j ≠ node i := fun h => hij (by
          have := congrArg BitVec.toInt h
          rw [Protocol.toInt_node (by omega), Protocol.toInt_node (by omega)] at this
          exact_mod_cast this)
        rw [e1]
        simp [e2]
    · rcases s.touched o ho with (rfl | h) | ⟨j, hj, h⟩
      · exact .inr ⟨i, List.mem_cons_self, as[i], List.getElem?_eq_getElem hi, rfl⟩
      · exact .inl h
      · exact .inr ⟨j, List.mem_cons_of_mem _ hj, h⟩

theorem Shifted.writes {as : List Addr} {a : Fn} {targets : List NodeIndex} {m m' : Mem} (h : Shifted as a targets m m') :
    Writes (targetObjs as targets) m m' := by
  refine ⟨h.next.ge, fun b _ hb => ?_, fun b _ _ => by rw [h.pt], fun b _ _ => by rw [h.po], fun b _ _ => by rw [h.fe],
    fun o ho => (h.touched o ho).imp_right .inl⟩
  by_cases hm : b ∈ as
  · obtain ⟨i, hi, rfl⟩ := List.getElem_of_mem hm
    rw [h.at_ i hi, if_neg fun ht => hb ⟨i, ht, as[i], List.getElem?_eq_getElem hi, rfl⟩]
  · exact h.out b hm

theorem targetObjs_mem {as : List Addr} {targets : List NodeIndex} {x : Obj} (h : x ∈ targetObjs as targets) :
    x ∈ as.map Obj.sc := by
  obtain ⟨i, -, a, ha, rfl⟩ := h
  exact List.mem_map_of_mem (List.mem_of_getElem? ha)

theorem objs_pairs (cs : List (Addr × Addr)) :
    (View.sc.prod View.sc).list.objs cs = cs.flatMap fun c => [.sc c.1, .sc c.2] := rfl

theorem nodup_firsts {cs : List (Addr × Addr)} (h : ((View.sc.prod View.sc).list.objs cs).Nodup) :
    (cs.map Prod.fst).Nodup ∧ ∀ c ∈ cs, c.2 ∉ cs.map Prod.fst := by
  rw [objs_pairs] at h
  induction cs with
  | nil => simp
  | cons c cs ih =>
    rw [List.flatMap_cons, List.nodup_append] at h
    obtain ⟨h1, h2, h3⟩ := h
    obtain ⟨i1, i2⟩ := ih h2
    have n1 : c.1 ∉ cs.map Prod.fst := fun hc => by
      obtain ⟨d, hd, e⟩ := List.mem_map.1 hc
      exact h3 (.sc c.1) (by simp) (.sc c.1) (List.mem_flatMap.2 ⟨d, hd, by simp [e]⟩) rfl
    have n2 : c.2 ∉ cs.map Prod.fst := fun hc => by
      obtain ⟨d, hd, e⟩ := List.mem_map.1 hc
      exact h3 (.sc c.2) (by simp) (.sc c.2) (List.mem_flatMap.2 ⟨d, hd, by simp [e]⟩) rfl
    have n3 : c.2 ≠ c.1 := fun e => by simp [e] at h1
    refine ⟨List.nodup_cons.2 ⟨n1, i1⟩, fun d hd => ?_⟩
    rw [List.map_cons, List.mem_cons, not_or]
    rcases List.mem_cons.1 hd with rfl | hd
    · exact ⟨n3, n2⟩
    · refine ⟨fun e => ?_, i2 d hd⟩
      exact h3 (.sc c.1) (by simp) (.sc c.1) (List.mem_flatMap.2 ⟨d, hd, by simp [← e]⟩) rfl

theorem at_single {m : Mem} {c : CiphertextObj Addr} {x : Mega.Ciphertext Fn}
    (h : At (View.ciphertext View.sc) m c x) : At View.cipher m (.single c) (.single x) :=
  ⟨h.1, congrArg Dealings.Cipher.single h.2⟩

theorem at_pair {m : Mem} {c : CiphertextObj (Addr × Addr)} {x : Mega.Ciphertext (Fn × Fn)}
    (h : At (View.ciphertext (View.sc.prod View.sc)) m c x) : At View.cipher m (.pair c) (.pair x) :=
  ⟨h.1, congrArg Dealings.Cipher.pair h.2⟩

/-- A single ciphertext: the given one stays as it is. -/
theorem corruptCipher_single {m : Mem} {c : CiphertextObj Addr} {x : Mega.Ciphertext Fn} {r : Addr} {a : Fn}
    (hc : At (View.ciphertext View.sc) m c x) (hr : At View.sc m r a) (hl : c.ctexts.length ≤ 2 ^ 63)
    {targets : List NodeIndex} (ht : targets.Nodup) (hin : InRange c.ctexts.length targets) :
    ∃ c' m', corruptCipher r targets (some (.single c)) m = (.ok (some c'), m') ∧ Writes ∅ m m' ∧
      At View.cipher m' c' (shift targets a (.single x)) := by
  obtain ⟨he, hp, hpf, hct⟩ := at_ciphertext.1 hc
  obtain ⟨hr1, hr2⟩ := at_sc.1 hr
  obtain ⟨cs, m1, e1, r1⟩ := cloneScs_ret hct
  have hnew : ∀ b ∈ cs, m.next ≤ b := fun b hb => (r1.2.1 (.sc b) (by rw [objs_list_sc]; exact List.mem_map_of_mem hb)).1
  have hnd : cs.Nodup := by
    have := r1.2.2.1
    rw [objs_list_sc] at this
    exact this.of_map
  have hlen : cs.length = c.ctexts.length := by rw [r1.at.length, ← hct.length]
  obtain ⟨m2, e2, s⟩ := addAtTargets_run (r := r) (fun h => by have := hnew r h; omega) hnd (by omega) ht
    (by rw [hlen]; exact hin) m1
  rw [r1.1.sc0 hr1, hr2] at s
  have w2 : Writes ∅ m m2 := r1.1.fresh s.writes fun o ho => by
    obtain ⟨b, hb, rfl⟩ := List.mem_map.1 (targetObjs_mem ho)
    exact hnew b hb
  obtain ⟨e, m3, e3, r3⟩ := clonePt_ret (E := Writes ∅ m) (he.mono w2)
  have w3 := w2.trans_empty r3.1
  obtain ⟨p, m4, e4, r4⟩ := clonePt_ret (E := Writes ∅ m) (hp.mono w3)
  have w4 := w3.trans_empty r4.1
  have hcs : At View.sc.list m2 cs (x.ctexts.mapIdx fun i c => if node i ∈ targets then c + a else c) := by
    rw [at_list_sc]
    obtain ⟨h1, h2⟩ := at_list_sc.1 r1.at
    refine ⟨fun b hb => by rw [s.next]; exact h1 b hb, ?_⟩
    rw [← h2]
    refine List.ext_getElem (by simp) fun i h3 h4 => ?_
    rw [List.getElem_map, s.at_ i (by simpa using h3), List.getElem_mapIdx, List.getElem_map]
  refine ⟨.single ⟨e, p, c.popProof, cs⟩, m4, ?_, w4, at_single (at_ciphertext.2 ⟨r3.at.mono r4.1, r4.at, hpf.mono w4, (hcs.mono r3.1).mono r4.1⟩)⟩
  unfold corruptCipher
  dsimp only
  rw [Go.bind_run e1, Go.bind_run e2, Go.bind_run e3, Go.bind_run e4]
  rfl

/-- A pair ciphertext: the given one is changed in the same way. -/
theorem corruptCipher_pair {m : Mem} {c : CiphertextObj (Addr × Addr)} {x : Mega.Ciphertext (Fn × Fn)} {r : Addr} {a : Fn}
    (hc : At (View.ciphertext (View.sc.prod View.sc)) m c x)
    (hd : ((View.ciphertext (View.sc.prod View.sc)).objs c).Nodup) (hr : At View.sc m r a)
    (hro : .sc r ∉ (View.ciphertext (View.sc.prod View.sc)).objs c) (hl : c.ctexts.length ≤ 2 ^ 63)
    {targets : List NodeIndex} (ht : targets.Nodup) (hin : InRange c.ctexts.length targets) :
    ∃ c' m', corruptCipher r targets (some (.pair c)) m = (.ok (some c'), m') ∧
      Writes (targetObjs (c.ctexts.map Prod.fst) targets) m m' ∧
      At View.cipher m' c' (shift targets a (.pair x)) ∧ At View.cipher m' (.pair c) (shift targets a (.pair x)) := by
  obtain ⟨he, hp, hpf, hct⟩ := at_ciphertext.1 hc
  obtain ⟨hr1, hr2⟩ := at_sc.1 hr
  have hobj : (View.ciphertext (View.sc.prod View.sc)).objs c =
      [.pt c.ephemeralKey] ++ ([.pt c.popPublicKey] ++ (View.proof.objs c.popProof ++
        (View.sc.prod View.sc).list.objs c.ctexts)) := rfl
  rw [hobj] at hd hro
  have hd1 := (List.nodup_append.1 (List.nodup_append.1 (List.nodup_append.1 hd).2.1).2.1)
  obtain ⟨hn1, hn2⟩ := nodup_firsts hd1.2.1
  have hfirst : ∀ b ∈ c.ctexts.map Prod.fst, Obj.sc b ∈ (View.sc.prod View.sc).list.objs c.ctexts := by
    intro b hb
    obtain ⟨y, hy, rfl⟩ := List.mem_map.1 hb
    rw [objs_pairs]
    exact List.mem_flatMap.2 ⟨y, hy, by simp⟩
  obtain ⟨m1, e1, s⟩ := addAtTargets_run (r := r) (as := c.ctexts.map Prod.fst) (fun h => hro (by
    simp only [List.mem_append]
    exact .inr (.inr (.inr (hfirst r h))))) hn1 (by simpa using hl) ht (by simpa using hin) m
  rw [hr2] at s
  have w1 := s.writes
  have hT : ∀ {o}, o ∈ targetObjs (c.ctexts.map Prod.fst) targets → o ∈ (View.sc.prod View.sc).list.objs c.ctexts := by
    intro o ho
    obtain ⟨b, hb, rfl⟩ := List.mem_map.1 (targetObjs_mem ho)
    exact hfirst b hb
  have hptT : ∀ b, Obj.pt b ∉ targetObjs (c.ctexts.map Prod.fst) targets := by
    rintro b ⟨_, _, _, _, h⟩
    cases h
  have he1 := he.write w1 (by simpa [View.pt] using hptT _)
  have hp1 := hp.write w1 (by simpa [View.pt] using hptT _)
  have hpf1 := hpf.write w1 fun y hy hy' => hd1.2.2 y hy y (hT hy') rfl
  have hcs : At (View.sc.prod View.sc).list m1 c.ctexts
      (x.ctexts.mapIdx fun i c => if node i ∈ targets then (c.1 + a, c.2) else c) := by
    refine ⟨fun y hy => (hct.1 y hy).trans_le w1.next, ?_⟩
    rw [← hct.2]
    refine List.ext_getElem (by simp [View.list]) fun i h3 h4 => ?_
    have hi : i < c.ctexts.length := by simpa [View.list] using h3
    have s1 := s.at_ i (by simpa using hi)
    have s2 := s.out c.ctexts[i].2 (hn2 _ (List.getElem_mem hi))
    simp only [List.getElem_map] at s1
    simp only [View.list, View.prod, View.sc, List.getElem_map, List.getElem_mapIdx]
    rw [s1, s2]
    split_ifs <;> rfl
  obtain ⟨e, m3, e3, r3⟩ := clonePt_ret (E := Writes ∅ m) he1
  obtain ⟨p, m4, e4, r4⟩ := clonePt_ret (E := Writes ∅ m) (hp1.mono r3.1)
  have w4 := r3.1.trans_empty r4.1
  refine ⟨.pair ⟨e, p, c.popProof, c.ctexts⟩, m4, ?_, w1.then_empty w4,
    at_pair (at_ciphertext.2 ⟨r3.at.mono r4.1, r4.at, hpf1.mono w4, hcs.mono w4⟩),
    at_pair (at_ciphertext.2 ⟨he1.mono w4, hp1.mono w4, hpf1.mono w4, hcs.mono w4⟩)⟩
  unfold corruptCipher
  dsimp only
  rw [Go.bind_run e1, Go.bind_run e3, Go.bind_run e4]
  rfl

theorem Outcome.run_eq {α β : Type} {E : Mem → Prop} {g g' : Go α} {m m' : Mem} {r : Res β} {R : β → α → Mem → Prop}
    (e : g m = g' m') (h : Outcome E g' m' r R) : Outcome E g m r R := by
  unfold Outcome at h ⊢
  rwa [e]

/-- What follows the ciphertext. -/
theorem corrupt_rest {m : Mem} {com : CommitmentObj} {cv : Commitment} {pf : Option ProofValObj} {pv : Option Dealings.ProofVal}
    (hcom : At View.commitment m com cv) (hpf : At View.proofVal.opt m pf pv)
    (hp : ∀ p, pf = some p → (∃ q, p = .masked (some q)) ∨ ∃ q, p = .product (some q)) (ct : Option CipherObj) :
    ∃ o m', (do
        let proof ← cloneProofOpt pf
        let points ← cloneCommitment com.points
        pure (⟨ct, some ⟨com.kind, points⟩, proof⟩ : DealingObj) : Go DealingObj) m = (.ok o, m') ∧ Writes ∅ m m' ∧
      o.ciphertext = ct ∧ At View.commitment.opt m' o.commitment (some cv) ∧ At View.proofVal.opt m' o.proof pv := by
  obtain ⟨hk, hpts⟩ := at_commitment.1 hcom
  have h1 : ∃ q m1, cloneProofOpt pf m = (.ok q, m1) ∧ Writes ∅ m m1 ∧ At View.proofVal.opt m1 q pv := by
    rcases at_opt.1 hpf with ⟨rfl, rfl⟩ | ⟨p, v, rfl, rfl, h⟩
    · exact ⟨none, m, rfl, Writes.refl _ _, hpf⟩
    · rcases hp p rfl with ⟨q, rfl⟩ | ⟨q, rfl⟩
      · rcases v with x | x | x | x
        · rcases at_opt.1 (at_proofVal h) with ⟨h0, -⟩ | ⟨q', x', h0, rfl, hq⟩
          · cases h0
          · cases h0
            obtain ⟨c, m1, e, r⟩ := cloneProof_ret hq
            refine ⟨some (.masked (some c)), m1, ?_, r.1, at_opt.2 (.inr ⟨_, _, rfl, rfl, r.at.1, ?_⟩)⟩
            · have e' : cloneProofVal (.masked (some q)) m = (.ok (.masked (some c)), m1) := by
                have e0 : Go.nonNil (some q) m = (.ok q, m) := rfl
                rw [cloneProofVal, Go.bind_run e0, Go.bind_run e]
                rfl
              rw [cloneProofOpt, Go.bind_run e']
              rfl
            · exact congrArg (fun y => Dealings.ProofVal.masked (some y)) r.2.2.2
        all_goals exact (at_proofVal h).elim
      · exact ⟨some (.product (some q)), m, rfl, Writes.refl _ _, hpf⟩
  obtain ⟨q, m1, e1, w1, hq⟩ := h1
  obtain ⟨pts, m2, e2, r2⟩ := cloneCommitment_spec (E := Writes ∅ m) com.points m1
    fun b hb => ((at_list_pt.1 hpts).1 b hb).trans_le w1.next
  have r2 := r2.ret
  refine ⟨⟨ct, some ⟨com.kind, pts⟩, q⟩, m2, ?_, w1.trans_empty r2.1, rfl, at_opt.2 (.inr ⟨_, _, rfl, rfl, ?_⟩),
    hq.mono r2.1⟩
  · rw [Go.bind_run e1, Go.bind_run e2]
    rfl
  · refine at_commitment.2 ⟨hk, ?_⟩
    have h := r2.at
    rwa [w1.map_pt fun b hb => ⟨(at_list_pt.1 hpts).1 b hb, Set.notMem_empty _⟩, (at_list_pt.1 hpts).2] at h

variable {P : Prim} {m : Mem} {d : DealingObj} {v : Dealings.Dealing} {targets : List NodeIndex} {seed : Seed}

theorem corruptDealing_start {com : CommitmentObj} {ct : CipherObj} (hcom : d.commitment = some com) (hne : com.points ≠ [])
    (hct : d.ciphertext = some ct) {cm : Commitment} {cv : Dealings.Cipher} (h2 : v.commitment = some cm)
    (h1 : v.ciphertext = some cv) {R : Dealings.Dealing → DealingObj → Mem → Prop}
    (h : ∀ a m1 r, Ret View.sc m a r m1 → Outcome (Writes ∅ m) (do
        let ct ← corruptCipher r targets (some ct)
        let proof ← cloneProofOpt d.proof
        let points ← cloneCommitment com.points
        pure (⟨ct, some ⟨com.kind, points⟩, proof⟩ : DealingObj)) m1
      (.ok ⟨some (shift targets a cv), some cm, v.proof⟩) R) :
    Outcome (Writes ∅ m) (corruptDealing P d targets seed) m (Protocol.corrupt P v targets seed) R := by
  rw [Protocol.corrupt_eq h1 h2]
  unfold corruptDealing
  rw [hcom, hct]
  have e0 : Go.nonNil (some com) m = (.ok com, m) := rfl
  have e1 : com.curveType m = (.ok K256, m) := by
    unfold CommitmentObj.curveType
    cases hp : com.points with
    | nil => exact absurd hp hne
    | cons => rfl
  refine Outcome.run_eq (Go.bind_run e0) ?_
  refine Outcome.run_eq (Go.bind_run e1) ?_
  refine Outcome.lift (Writes.refl _ _) fun x _ => ?_
  obtain ⟨r, m1, er, rr⟩ := newSc_ret (E := Writes ∅ m) (m := m) x.1
  exact Outcome.run_eq (Go.bind_run er) (h x.1 m1 r rr)

theorem corruptDealing_single (hd : At View.dealing m d v) {c : CiphertextObj Addr} (hc : d.ciphertext = some (.single c))
    {com : CommitmentObj} (hcom : d.commitment = some com) (hne : com.points ≠ []) (hp : PointerProof d)
    (hl : c.ctexts.length ≤ 2 ^ 63) (ht : targets.Nodup) (hin : InRange c.ctexts.length targets) :
    Outcome (Writes ∅ m) (corruptDealing P d targets seed) m (Protocol.corrupt P v targets seed)
      fun w o m' => Writes ∅ m m' ∧ At View.dealing m' o w := by
  obtain ⟨d1, d2, d3⟩ := at_dealing.1 hd
  rw [hc] at d1
  rw [hcom] at d2
  rcases at_opt.1 d1 with ⟨h, -⟩ | ⟨c', cv, h, hcv, d1⟩
  · cases h
  cases h
  rcases at_opt.1 d2 with ⟨h, -⟩ | ⟨c', cm, h, hcm, d2⟩
  · cases h
  cases h
  rcases cv with x | x
  swap
  · exact (at_cipher d1).elim
  refine corruptDealing_start hcom hne hc hcm hcv fun a m1 r rr => ?_
  obtain ⟨ct', m2, e2, w2, h2⟩ := corruptCipher_single ((at_cipher d1 : At (View.ciphertext View.sc) m c x).mono rr.1) rr.at hl ht hin
  have w := rr.1.trans_empty w2
  obtain ⟨o, m3, e3, w3, h3, h4, h5⟩ := corrupt_rest (d2.mono w) (d3.mono w) hp (some ct')
  refine Outcome.run_eq (Go.bind_run e2) ⟨o, m3, e3, w.trans_empty w3, at_dealing.2 ⟨?_, h4, h5⟩⟩
  rw [h3]
  exact at_opt.2 (.inr ⟨_, _, rfl, rfl, h2.mono w3⟩)

theorem corruptDealing_pair (hd : At View.dealing m d v) {c : CiphertextObj (Addr × Addr)} (hc : d.ciphertext = some (.pair c))
    {com : CommitmentObj} (hcom : d.commitment = some com) (hne : com.points ≠ []) (hp : PointerProof d)
    (hn : (View.dealing.objs d).Nodup) (hl : c.ctexts.length ≤ 2 ^ 63) (ht : targets.Nodup)
    (hin : InRange c.ctexts.length targets) :
    Outcome (Writes ∅ m) (corruptDealing P d targets seed) m (Protocol.corrupt P v targets seed)
      fun w o m' => Writes (targetObjs (c.ctexts.map Prod.fst) targets) m m' ∧ At View.dealing m' o w ∧
        At View.dealing m' d w := by
  obtain ⟨d1, d2, d3⟩ := at_dealing.1 hd
  have hobj : View.dealing.objs d = View.cipher.opt.objs d.ciphertext ++ (View.commitment.opt.objs d.commitment ++
    View.proofVal.opt.objs d.proof) := rfl
  rw [hobj, hc, hcom] at hn
  have hn' := List.nodup_append.1 hn
  rw [hc] at d1
  rw [hcom] at d2
  have d2' := d2
  rcases at_opt.1 d1 with ⟨h, -⟩ | ⟨c', cv, h, hcv, d1⟩
  · cases h
  cases h
  rcases at_opt.1 d2 with ⟨h, -⟩ | ⟨c', cm, h, hcm, d2⟩
  · cases h
  cases h
  rcases cv with x | x
  · exact (at_cipher d1).elim
  have dc : At (View.ciphertext (View.sc.prod View.sc)) m c x := at_cipher d1
  refine corruptDealing_start hcom hne hc hcm hcv fun a m1 r rr => ?_
  obtain ⟨ct', m2, e2, w2, h2, h2'⟩ := corruptCipher_pair (dc.mono rr.1) hn'.1 rr.at
    (fun h => by
      have h1 := dc.1 _ h
      have h2 := (rr.2.1 (.sc r) (List.mem_singleton_self _)).1
      simp only [Obj.addr] at h1 h2
      omega) hl ht hin
  have hT : ∀ o ∈ targetObjs (c.ctexts.map Prod.fst) targets, o ∈ View.cipher.opt.objs (some (.pair c)) := by
    intro o ho
    obtain ⟨b, hb, rfl⟩ := List.mem_map.1 (targetObjs_mem ho)
    obtain ⟨y, hy, rfl⟩ := List.mem_map.1 hb
    refine List.mem_append_right _ (List.mem_append_right _ (List.mem_append_right _ ?_))
    exact List.mem_flatMap.2 ⟨y, hy, by simp [View.prod, View.sc]⟩
  have d2m := (d2.mono rr.1).write w2 fun y hy hy' => hn'.2.2 y (hT y hy') y (List.mem_append_left _ hy) rfl
  have d3m := (d3.mono rr.1).write w2 fun y hy hy' => hn'.2.2 y (hT y hy') y (List.mem_append_right _ hy) rfl
  obtain ⟨o, m3, e3, w3, h3, h4, h5⟩ := corrupt_rest d2m d3m hp (some ct')
  refine Outcome.run_eq (Go.bind_run e2) ⟨o, m3, e3, (rr.1.trans_empty w2).then_empty w3, at_dealing.2 ⟨?_, h4, h5⟩,
    at_dealing.2 ⟨?_, ?_, d3m.mono w3⟩⟩
  · rw [h3]
    exact at_opt.2 (.inr ⟨_, _, rfl, rfl, h2.mono w3⟩)
  · rw [hc]
    exact at_opt.2 (.inr ⟨_, _, rfl, rfl, h2'.mono w3⟩)
  · rw [hcom]
    exact at_opt.2 (.inr ⟨_, _, rfl, rfl, d2m.mono w3⟩)

end Verif.Heap
