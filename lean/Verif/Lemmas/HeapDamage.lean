import Verif.Lemmas.HeapCorrupt

/-! Which objects a damaged dealing refers to: some of those of the dealing it was made from, and new ones. -/

set_option autoImplicit false

namespace Verif.Heap

variable {α β : Type}

/-- A sequence that returned normally. -/
theorem Go.bind_ok {g : Go α} {f : α → Go β} {m m' : Mem} {b : β} (h : (g >>= f) m = (.ok b, m')) :
    ∃ a m1, g m = (.ok a, m1) ∧ f a m1 = (.ok b, m') := by
  change (match g m with
    | (.ok a, m) => f a m
    | (.err e, m) => (.err e, m)
    | (.panic e, m) => (.panic e, m)
    | (.diverge, m) => (.diverge, m)) = _ at h
  rcases hg : g m with ⟨r, m1⟩
  rw [hg] at h
  cases r with
  | ok a => exact ⟨a, m1, rfl, h⟩
  | err e => cases (Prod.mk.inj h).1
  | panic e => cases (Prod.mk.inj h).1
  | diverge => cases (Prod.mk.inj h).1

theorem Go.pure_ok {a b : α} {m m' : Mem} (h : (pure a : Go α) m = (.ok b, m')) : a = b ∧ m = m' := by
  obtain ⟨h1, h2⟩ := Prod.mk.inj h
  exact ⟨Res.ok.inj h1, h2⟩

/-- The objects `l'` are some of `l`, and objects made between `m` and `m'`. -/
def Reuses (m m' : Mem) (l l' : List Obj) : Prop :=
  m.next ≤ m'.next ∧ ∃ K N, l'.Perm (K ++ N) ∧ K.Subperm l ∧ N.Nodup ∧ ∀ x ∈ N, m.next ≤ x.addr ∧ x.addr < m'.next

theorem Reuses.append {m m1 m2 : Mem} {l1 l1' l2 l2' : List Obj} (h1 : Reuses m m1 l1 l1') (h2 : Reuses m1 m2 l2 l2') :
    Reuses m m2 (l1 ++ l2) (l1' ++ l2') := by
  obtain ⟨n1, K1, N1, p1, s1, d1, r1⟩ := h1
  obtain ⟨n2, K2, N2, p2, s2, d2, r2⟩ := h2
  refine ⟨n1.trans n2, K1 ++ K2, N1 ++ N2, ?_, s1.append s2, ?_, ?_⟩
  · refine (p1.append p2).trans ?_
    rw [List.append_assoc, List.append_assoc]
    refine List.Perm.append_left _ ?_
    rw [← List.append_assoc, ← List.append_assoc]
    exact List.perm_append_comm.append_right _
  · refine List.nodup_append.2 ⟨d1, d2, fun x hx y hy e => ?_⟩
    subst e
    have := (r1 x hx).2
    have := (r2 x hy).1
    omega
  · intro x hx
    rcases List.mem_append.1 hx with hx | hx
    · exact ⟨(r1 x hx).1, (r1 x hx).2.trans_le n2⟩
    · exact ⟨n1.trans (r2 x hx).1, (r2 x hx).2⟩

theorem Reuses.keep (m : Mem) (l : List Obj) : Reuses m m l l :=
  ⟨le_refl _, l, [], by simp, List.Subperm.refl _, by simp, by simp⟩

theorem Reuses.later {m m1 m2 : Mem} {l l' : List Obj} (h : Reuses m m1 l l') (hn : m1.next ≤ m2.next) :
    Reuses m m2 l l' := by
  obtain ⟨n1, K, N, p, s, d, r⟩ := h
  exact ⟨n1.trans hn, K, N, p, s, d, fun x hx => ⟨(r x hx).1, (r x hx).2.trans_le hn⟩⟩

theorem Reuses.earlier {m0 m m1 : Mem} {l l' : List Obj} (hn : m0.next ≤ m.next) (h : Reuses m m1 l l') :
    Reuses m0 m1 l l' := by
  obtain ⟨n1, K, N, p, s, d, r⟩ := h
  exact ⟨hn.trans n1, K, N, p, s, d, fun x hx => ⟨hn.trans (r x hx).1, (r x hx).2⟩⟩

theorem Ret.reuses {ο ν : Type} {V : View ο ν} {m m' : Mem} {v : ν} {o : ο} (h : Ret V m v o m') (l : List Obj) :
    Reuses m m' l (V.objs o) :=
  ⟨h.1.next, [], V.objs o, by simp, List.nil_subperm, h.2.2.1, h.2.1⟩

/-- What is made of old objects, no two the same, and new ones has no two the same. -/
theorem Reuses.nodup {m m' : Mem} {l l' : List Obj} (h : Reuses m m' l l') (hl : l.Nodup) (ho : ∀ x ∈ l, x.addr < m.next) :
    l'.Nodup ∧ ∀ x ∈ l', x ∈ l ∨ (m.next ≤ x.addr ∧ x.addr < m'.next) := by
  obtain ⟨-, K, N, p, s, d, r⟩ := h
  obtain ⟨l'', p', s'⟩ := id s
  refine ⟨p.nodup_iff.2 (List.nodup_append.2 ⟨p'.nodup_iff.1 (hl.sublist s'), d, fun x hx y hy e => ?_⟩), fun x hx => ?_⟩
  · subst e
    have := ho x (s.subset hx)
    have := (r x hy).1
    omega
  · rcases List.mem_append.1 (p.subset hx) with h | h
    · exact .inl (s.subset h)
    · exact .inr (r x h)

theorem addAtTargets_next {as : List Addr} {r : Addr} {targets : List NodeIndex} {m m' : Mem} {u : Unit}
    (h : addAtTargets as r targets m = (.ok u, m')) : m'.next = m.next := by
  induction targets generalizing m with
  | nil => exact congrArg Mem.next (Go.pure_ok h).2.symm
  | cons t ts ih =>
    rw [addAtTargets] at h
    obtain ⟨a, m1, h1, h⟩ := Go.bind_ok h
    obtain ⟨b, m2, h2, h⟩ := Go.bind_ok h
    have e1 : m1 = m := by
      unfold Go.index Go.lift at h1
      exact (Prod.mk.inj h1).2.symm
    have e2 : m2.next = m1.next := by
      unfold addSc at h2
      rw [← (Prod.mk.inj h2).2]
      rfl
    rw [ih h, e2, e1]

theorem corruptCipher_reuses {m m' : Mem} {ct ct' : Option CipherObj} {v : Option Dealings.Cipher} {r : Addr}
    {targets : List NodeIndex} (hc : At View.cipher.opt m ct v) (h : corruptCipher r targets ct m = (.ok ct', m')) :
    Reuses m m' (View.cipher.opt.objs ct) (View.cipher.opt.objs ct') := by
  rcases at_opt.1 hc with ⟨rfl, rfl⟩ | ⟨c, x, rfl, rfl, hx⟩
  · obtain ⟨rfl, rfl⟩ := Go.pure_ok h
    exact Reuses.keep _ _
  · rcases c with c | c
    · rcases x with x | x
      swap
      · exact (at_cipher hx).elim
      obtain ⟨he, hp, hpf, hct⟩ := at_ciphertext.1 (at_cipher hx : At (View.ciphertext View.sc) m c x)
      unfold corruptCipher at h
      dsimp only at h
      obtain ⟨cs, m1, e1, h⟩ := Go.bind_ok h
      obtain ⟨cs', m1', e1', r1⟩ := cloneScs_ret hct
      rw [e1] at e1'
      obtain ⟨e, rfl⟩ := Prod.mk.inj e1'
      cases e
      obtain ⟨u, m2, e2, h⟩ := Go.bind_ok h
      have n2 := addAtTargets_next e2
      obtain ⟨a, m3, e3, h⟩ := Go.bind_ok h
      obtain ⟨b, m4, e4, h⟩ := Go.bind_ok h
      obtain ⟨rfl, rfl⟩ := Go.pure_ok h
      have h3 : a = m2.next ∧ m3.next = m2.next + 1 := by
        unfold clonePt at e3
        obtain ⟨e, rfl⟩ := Prod.mk.inj e3
        cases e
        exact ⟨rfl, rfl⟩
      have h4 : b = m3.next ∧ m4.next = m3.next + 1 := by
        unfold clonePt at e4
        obtain ⟨e, rfl⟩ := Prod.mk.inj e4
        cases e
        exact ⟨rfl, rfl⟩
      have k1 : Reuses m m1 [] (View.sc.list.objs cs) := r1.reuses _
      have k2 : Reuses m1 m4 [] [Obj.pt a, .pt b] := by
        refine ⟨by omega, [], [.pt a, .pt b], List.Perm.refl _, List.Subperm.refl _, ?_, ?_⟩
        · have : a ≠ b := by omega
          simp [this]
        · intro x hx
          simp only [List.mem_cons, List.not_mem_nil, or_false] at hx
          rcases hx with rfl | rfl <;> simp only [Obj.addr] <;> omega
      have k3 := ((Reuses.keep m (View.proof.objs c.popProof)).append k1).append k2
      obtain ⟨n, K, N, p, s, d, rr⟩ := k3
      refine ⟨n, K, N, ?_, ?_, d, rr⟩
      · refine List.Perm.trans ?_ p
        change ([Obj.pt a] ++ ([Obj.pt b] ++ (View.proof.objs c.popProof ++ View.sc.list.objs cs))).Perm _
        rw [← List.append_assoc]
        exact List.perm_append_comm
      · rw [List.append_nil, List.append_nil] at s
        refine s.trans ?_
        change (View.proof.objs c.popProof).Subperm
          ([Obj.pt c.ephemeralKey] ++ ([Obj.pt c.popPublicKey] ++ (View.proof.objs c.popProof ++ View.sc.list.objs c.ctexts)))
        exact ((List.sublist_append_left _ _).trans ((List.sublist_append_right _ _).trans (List.sublist_append_right _ _))).subperm
    · unfold corruptCipher at h
      dsimp only at h
      obtain ⟨u, m2, e2, h⟩ := Go.bind_ok h
      have n2 := addAtTargets_next e2
      obtain ⟨a, m3, e3, h⟩ := Go.bind_ok h
      obtain ⟨b, m4, e4, h⟩ := Go.bind_ok h
      obtain ⟨rfl, rfl⟩ := Go.pure_ok h
      have h3 : a = m2.next ∧ m3.next = m2.next + 1 := by
        unfold clonePt at e3
        obtain ⟨e, rfl⟩ := Prod.mk.inj e3
        cases e
        exact ⟨rfl, rfl⟩
      have h4 : b = m3.next ∧ m4.next = m3.next + 1 := by
        unfold clonePt at e4
        obtain ⟨e, rfl⟩ := Prod.mk.inj e4
        cases e
        exact ⟨rfl, rfl⟩
      have k2 : Reuses m m4 [] [Obj.pt a, .pt b] := by
        refine ⟨by omega, [], [.pt a, .pt b], List.Perm.refl _, List.Subperm.refl _, ?_, ?_⟩
        · have : a ≠ b := by omega
          simp [this]
        · intro x hx
          simp only [List.mem_cons, List.not_mem_nil, or_false] at hx
          rcases hx with rfl | rfl <;> simp only [Obj.addr] <;> omega
      have k3 := (Reuses.keep m (View.proof.objs c.popProof ++ (View.sc.prod View.sc).list.objs c.ctexts)).append k2
      obtain ⟨n, K, N, p, s, d, rr⟩ := k3
      refine ⟨n, K, N, ?_, ?_, d, rr⟩
      · refine List.Perm.trans ?_ p
        change ([Obj.pt a] ++ ([Obj.pt b] ++ (View.proof.objs c.popProof ++ (View.sc.prod View.sc).list.objs c.ctexts))).Perm _
        rw [← List.append_assoc]
        exact List.perm_append_comm
      · rw [List.append_nil] at s
        refine s.trans ?_
        change (View.proof.objs c.popProof ++ (View.sc.prod View.sc).list.objs c.ctexts).Subperm
          ([Obj.pt c.ephemeralKey] ++ ([Obj.pt c.popPublicKey] ++
            (View.proof.objs c.popProof ++ (View.sc.prod View.sc).list.objs c.ctexts)))
        exact ((List.sublist_append_right _ _).trans (List.sublist_append_right _ _)).subperm

theorem cloneProofOpt_reuses {m m' : Mem} {pf pf' : Option ProofValObj}
    (hp : ∀ p, pf = some p → (∃ q, p = .masked (some q)) ∨ ∃ q, p = .product (some q))
    (h : cloneProofOpt pf m = (.ok pf', m')) :
    Reuses m m' (View.proofVal.opt.objs pf) (View.proofVal.opt.objs pf') := by
  cases pf with
  | none =>
    obtain ⟨rfl, rfl⟩ := Go.pure_ok h
    exact Reuses.keep _ _
  | some p =>
    rw [cloneProofOpt] at h
    obtain ⟨c, m1, e1, h⟩ := Go.bind_ok h
    obtain ⟨rfl, rfl⟩ := Go.pure_ok h
    rcases hp p rfl with ⟨q, rfl⟩ | ⟨q, rfl⟩
    · have e' : ∃ m2, cloneProofVal (.masked (some q)) m = (.ok (.masked (some ⟨m.next, m.next + 1⟩)), m2) ∧
          m2.next = m.next + 2 := ⟨_, rfl, rfl⟩
      obtain ⟨m2, e', hn⟩ := e'
      rw [e1] at e'
      obtain ⟨h1, rfl⟩ := Prod.mk.inj e'
      cases h1
      refine ⟨by omega, [], [.sc m.next, .sc (m.next + 1)], List.Perm.refl _, List.nil_subperm, by simp, ?_⟩
      intro x hx
      simp only [List.mem_cons, List.not_mem_nil, or_false] at hx
      rcases hx with rfl | rfl <;> simp only [Obj.addr] <;> omega
    · have e' : cloneProofVal (.product (some q)) m = (.ok (.product (some q)), m) := rfl
      rw [e1] at e'
      obtain ⟨h1, rfl⟩ := Prod.mk.inj e'
      cases h1
      exact Reuses.keep _ _

theorem corruptDealing_reuses {P : Prim} {m m' : Mem} {d o : DealingObj} {v : Dealings.Dealing} {targets : List NodeIndex}
    {seed : Seed} (hd : At View.dealing m d v) (hp : PointerProof d)
    (h : corruptDealing P d targets seed m = (.ok o, m')) :
    Reuses m m' (View.dealing.objs d) (View.dealing.objs o) := by
  obtain ⟨d1, d2, d3⟩ := at_dealing.1 hd
  unfold corruptDealing at h
  obtain ⟨com, m1, e1, h⟩ := Go.bind_ok h
  obtain ⟨hcom, rfl⟩ : d.commitment = some com ∧ m = m1 := by
    cases hc : d.commitment with
    | none =>
      rw [hc] at e1
      cases (Prod.mk.inj e1).1
    | some c =>
      rw [hc] at e1
      obtain ⟨h1, h2⟩ := Prod.mk.inj e1
      cases h1
      exact ⟨rfl, h2⟩
  obtain ⟨ct, m1, e2, h⟩ := Go.bind_ok h
  obtain rfl : m = m1 := by
    unfold CommitmentObj.curveType at e2
    cases hp : com.points with
    | nil =>
      rw [hp] at e2
      cases (Prod.mk.inj e2).1
    | cons =>
      rw [hp] at e2
      exact (Prod.mk.inj e2).2
  obtain ⟨rnd, m1, e3, h⟩ := Go.bind_ok h
  obtain rfl : m = m1 := (Prod.mk.inj e3).2
  obtain ⟨r, m1, e4, h⟩ := Go.bind_ok h
  obtain ⟨r', m1', e4', rr⟩ := newSc_ret (E := Writes ∅ m) (m := m) rnd.1
  rw [e4] at e4'
  obtain ⟨e, rfl⟩ := Prod.mk.inj e4'
  cases e
  obtain ⟨c, m2, e5, h⟩ := Go.bind_ok h
  have k1 := (corruptCipher_reuses (d1.mono rr.1) e5).earlier rr.1.next
  obtain ⟨q, m3, e6, h⟩ := Go.bind_ok h
  have k2 := cloneProofOpt_reuses hp e6
  obtain ⟨pts, m4, e7, h⟩ := Go.bind_ok h
  have hpts : ∀ b ∈ com.points, b < m3.next := fun b hb => by
    rw [hcom] at d2
    have h1 := d2.1 (.pt b) (by
      change _ ∈ View.pt.list.objs com.points
      rw [objs_list_pt]
      exact List.mem_map_of_mem hb)
    have := k1.1
    have := k2.1
    simp only [Obj.addr] at h1
    omega
  obtain ⟨pts', m4', e7', rc⟩ := cloneCommitment_spec (E := Writes ∅ m) com.points m3 hpts
  rw [e7] at e7'
  obtain ⟨e, rfl⟩ := Prod.mk.inj e7'
  cases e
  obtain ⟨rfl, rfl⟩ := Go.pure_ok h
  have k3 : Reuses m3 m4 (View.commitment.opt.objs d.commitment) (View.commitment.opt.objs (some ⟨com.kind, pts⟩)) :=
    (rc.ret).reuses _
  obtain ⟨n, K, N, p, s, dd, ra⟩ := k1.append (k2.append k3)
  refine ⟨n, K, N, ?_, s.trans ?_, dd, ra⟩
  · refine List.Perm.trans ?_ p
    exact List.Perm.append_left _ List.perm_append_comm
  · exact (List.Perm.append_left _ List.perm_append_comm).subperm

end Verif.Heap
