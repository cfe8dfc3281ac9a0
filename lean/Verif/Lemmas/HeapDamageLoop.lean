import Verif.Lemmas.HeapDamage
import Verif.Props.Complaints

/-! Damaging one dealing of a map: the others stay as they are, and all objects stay different. -/

set_option autoImplicit false

namespace Verif.Heap

open Protocol (node)

/-- A dealing as `NewIDkgDealingInternal` makes it for `n` receivers. -/
def Fit (n : Nat) (v : Dealings.Dealing) : Prop :=
  ∃ ct cm, v.ciphertext = some ct ∧ v.commitment = some cm ∧ cm.points ≠ [] ∧ ct.size = n ∧
    (v.proof = none ∨ (∃ pf, v.proof = some (.masked (some pf))) ∨ ∃ pf, v.proof = some (.product (some pf)))

theorem Fit.pointerProof {m : Mem} {d : DealingObj} {v : Dealings.Dealing} {n : Nat} (h : Fit n v)
    (hd : At View.dealing m d v) : PointerProof d := by
  obtain ⟨-, -, d3⟩ := at_dealing.1 hd
  obtain ⟨-, -, -, -, -, -, hp⟩ := h
  intro p e
  rw [e] at d3
  rcases at_opt.1 d3 with ⟨h0, -⟩ | ⟨p', x, h0, hx, hpx⟩
  · cases h0
  cases h0
  rw [hx] at hp
  rcases hp with hp | ⟨pf, hp⟩ | ⟨pf, hp⟩
  · cases hp
  · cases hp
    rcases p with q | q | q | q
    · rcases at_opt.1 (at_proofVal hpx) with ⟨-, h⟩ | ⟨q', -, h, -, -⟩
      · cases h
      · exact .inl ⟨q', congrArg _ h⟩
    all_goals exact (at_proofVal hpx).elim
  · cases hp
    rcases p with q | q | q | q
    · exact (at_proofVal hpx).elim
    · rcases at_opt.1 (at_proofVal hpx) with ⟨-, h⟩ | ⟨q', -, h, -, -⟩
      · cases h
      · exact .inr ⟨q', congrArg _ h⟩
    all_goals exact (at_proofVal hpx).elim

/-- Damaging a dealing all of whose objects are different: at most its objects are written, and what is returned refers to
objects of it and to new ones, no two the same. -/
theorem corruptDealing_any {P : Prim} {m : Mem} {d : DealingObj} {v : Dealings.Dealing} {targets : List NodeIndex} {seed : Seed}
    {n : Nat} (hd : At View.dealing m d v) (hn : (View.dealing.objs d).Nodup) (hv : Fit n v) (hl : n ≤ 2 ^ 63)
    (ht : targets.Nodup) (hin : InRange n targets) :
    Outcome (Writes ∅ m) (corruptDealing P d targets seed) m (Protocol.corrupt P v targets seed)
      fun w o m' => Writes {x | x ∈ View.dealing.objs d} m m' ∧ At View.dealing m' o w ∧ (View.dealing.objs o).Nodup ∧
        ∀ x ∈ View.dealing.objs o, x ∈ View.dealing.objs d ∨ (m.next ≤ x.addr ∧ x.addr < m'.next) := by
  have hp := hv.pointerProof hd
  obtain ⟨ct, cm, h1, h2, h3, h4, -⟩ := hv
  obtain ⟨d1, d2, -⟩ := at_dealing.1 hd
  rw [h1] at d1
  rw [h2] at d2
  rcases at_opt.1 d1 with ⟨-, h⟩ | ⟨c, x, hc, hx, d1⟩
  · cases h
  cases hx
  rcases at_opt.1 d2 with ⟨-, h⟩ | ⟨com, x, hcom, hx, d2⟩
  · cases h
  cases hx
  have hne : com.points ≠ [] := fun e => h3 (by
    have := (at_commitment.1 d2).2.length
    rw [e] at this
    exact List.eq_nil_of_length_eq_zero this.symm)
  have key : Outcome (Writes ∅ m) (corruptDealing P d targets seed) m (Protocol.corrupt P v targets seed)
      fun w o m' => Writes {x | x ∈ View.dealing.objs d} m m' ∧ At View.dealing m' o w := by
    rcases c with c | c
    · rcases ct with x | x
      swap
      · exact (at_cipher d1).elim
      have hlen := (at_ciphertext.1 (at_cipher d1 : At (View.ciphertext View.sc) m c x)).2.2.2.length
      have h4' : c.ctexts.length = n := hlen.trans h4
      refine (corruptDealing_single hd hc hcom hne hp (by omega) ht (by rw [h4']; exact hin)).mono ?_
      rintro w o m' ⟨hw, ho⟩
      exact ⟨hw.mono fun _ _ h => h.elim, ho⟩
    · rcases ct with x | x
      · exact (at_cipher d1).elim
      have hlen := (at_ciphertext.1 (at_cipher d1 : At (View.ciphertext (View.sc.prod View.sc)) m c x)).2.2.2.length
      have h4' : c.ctexts.length = n := hlen.trans h4
      refine (corruptDealing_pair hd hc hcom hne hp hn (by omega) ht (by rw [h4']; exact hin)).mono ?_
      rintro w o m' ⟨hw, ho, -⟩
      refine ⟨hw.mono ?_, ho⟩
      intro y _ hy
      obtain ⟨b, hb, rfl⟩ := List.mem_map.1 (targetObjs_mem hy)
      obtain ⟨z, hz, rfl⟩ := List.mem_map.1 hb
      change _ ∈ View.cipher.opt.objs d.ciphertext ++ _
      rw [hc]
      refine List.mem_append_left _ ?_
      refine List.mem_append_right _ (List.mem_append_right _ (List.mem_append_right _ ?_))
      exact List.mem_flatMap.2 ⟨z, hz, by simp [View.prod, View.sc]⟩
  rcases hr : Protocol.corrupt P v targets seed with w | e | e | _
  · rw [hr] at key
    obtain ⟨o, m', e, hw, ho⟩ := key
    exact ⟨o, m', e, hw, ho, (corruptDealing_reuses hd hp e).nodup hn hd.1⟩
  all_goals
    rw [hr] at key
    exact key

end Verif.Heap
