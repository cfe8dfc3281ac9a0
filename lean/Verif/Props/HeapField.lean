import Verif.Props.HeapCorrupt
import Verif.Props.HeapH2C
import Verif.Props.Field

/-!
Property C158 (field elements in memory) and an addition to C127 (damaging a dealing for all recipients).
-/

set_option autoImplicit false

namespace Verif.Heap

theorem writes_setFe (m : Mem) (s : Addr) (v : Fp) : Writes {.fe s} m (m.setFe s v) :=
  ⟨le_refl _, fun _ _ _ => rfl, fun _ _ _ => rfl, fun _ _ _ => rfl, fun a _ h => by
    have : a ≠ s := fun e => h (by rw [e]; rfl)
    exact Function.update_of_ne this _ _, (Writes.refl _ m).insert (.inl rfl)⟩

/-- The call gives back its receiver, which now holds `v`; nothing else has changed. -/
def SetsFe (m : Mem) (s : Addr) (v : Fp) (g : Go Addr) : Prop :=
  ∃ m', g m = (.ok s, m') ∧ m'.fe s = v ∧ Writes {.fe s} m m'

theorem setsFe_of {m : Mem} {s : Addr} {v : Fp} {g : Go Addr} (h : g m = (.ok s, m.setFe s v)) : SetsFe m s v g :=
  ⟨_, h, Function.update_self _ _ _, writes_setFe m s v⟩

/-- C158: arithmetic writes the result on the values that the arguments had before the call into the receiver, also if the receiver
is one of the arguments or all of them, and writes nothing else. -/
theorem C158_arithmetic (m : Mem) (s l r : Addr) :
    SetsFe m s (m.fe l) (assignFe s l) ∧ SetsFe m s (m.fe l + m.fe r) (addFe s l r) ∧ SetsFe m s (m.fe l - m.fe r) (subFe s l r) ∧
    SetsFe m s (m.fe l * m.fe r) (mulFe s l r) ∧ SetsFe m s (m.fe l ^ 2) (squareFe s l) ∧ SetsFe m s (-m.fe l) (negFe s l) ∧
    (m.fe l ≠ 0 → ∃ v, m.fe l * v = 1 ∧ SetsFe m s v (invFe s l)) ∧ (m.fe l = 0 → SetsFe m s (m.fe s) (invFe s l)) ∧
    SetsFe m s (Fe.progenitor (m.fe l)) (progenitorFe s l) := by
  refine ⟨setsFe_of rfl, setsFe_of rfl, setsFe_of rfl, setsFe_of rfl, setsFe_of (by rw [sq]; rfl), setsFe_of rfl, fun h => ?_,
    fun h => ?_, setsFe_of rfl⟩
  · refine ⟨(m.fe l)⁻¹, mul_inv_cancel₀ h, setsFe_of ?_⟩
    rw [invFe, if_neg h]
  · refine setsFe_of ?_
    rw [invFe, if_pos h]

/-- C158: the root.  With a root of the argument in the receiver the second result is 1; if there is none it is 0 and the receiver
holds zero. -/
theorem C158_sqrt (m : Mem) (s o : Addr) :
    ∃ c m', sqrtFe s o m = (.ok (s, c), m') ∧ Writes {.fe s} m m' ∧
      ((∃ b, b * b = m.fe o) → c = 1 ∧ m'.fe s * m'.fe s = m.fe o) ∧ ((¬ ∃ b, b * b = m.fe o) → c = 0 ∧ m'.fe s = 0) := by
  obtain ⟨h1, h2, h3, h4, -⟩ := C142_sqrt (m.fe o)
  have hv : (m.setFe s (Fe.sqrt (m.fe o)).1).fe s = (Fe.sqrt (m.fe o)).1 := Function.update_self _ _ _
  refine ⟨_, _, rfl, writes_setFe _ _ _, fun h => ?_, fun h => ?_⟩
  · rw [hv]
    exact ⟨h1.2 h, h3 (h1.2 h)⟩
  · rw [hv]
    have h0 := h2.resolve_left fun e => h (h1.1 e)
    exact ⟨h0, h4 h0⟩

/-- C158: conditional assignment takes the other value for 1 and keeps the receiver's for 0. -/
theorem C158_cassign (m : Mem) (s o : Addr) :
    (∃ m', cassignFe s o 1 m = (.ok (), m') ∧ m'.fe s = m.fe o ∧ Writes {.fe s} m m') ∧
    (∃ m', cassignFe s o 0 m = (.ok (), m') ∧ m'.fe s = m.fe s ∧ Writes {.fe s} m m') :=
  ⟨⟨_, rfl, Function.update_self _ _ _, writes_setFe _ _ _⟩, ⟨_, rfl, Function.update_self _ _ _, writes_setFe _ _ _⟩⟩

/-- C158: a clone is a new field element with the value of the given one; writing to one of them leaves the other as it was. -/
theorem C158_clone (m : Mem) (s : Addr) (hs : s < m.next) (v : Fp) :
    ∃ c m', cloneFe s m = (.ok c, m') ∧ New m m' c ∧ m'.fe c = m.fe s ∧ Writes ∅ m m' ∧
      (m'.setFe c v).fe s = m.fe s ∧ (m'.setFe s v).fe c = m.fe s := by
  have hne : s ≠ m.next := by omega
  have hrun : cloneFe s m = (.ok m.next, m.plus [m.fe s]) := by
    have e1 : newFe 0 m = (.ok m.next, m.plus [0]) := by
      have := Mem.plus_bump (m := m) (l := []) (v := (0 : Fp))
      rw [Mem.plus_nil] at this
      exact congrArg (Prod.mk _) this
    rw [cloneFe, Go.bind_run e1]
    show (Res.ok m.next, (m.plus [0]).setFe m.next ((m.plus [0]).fe s)) = _
    rw [Mem.plus_old hs]
    exact congrArg (Prod.mk _) (Mem.plus_set (m := m) (l := [0]) (k := 0) (by simp))
  have hval : (m.plus [m.fe s]).fe m.next = m.fe s := Mem.plus_new (m := m) (l := [m.fe s]) (k := 0) (by simp)
  refine ⟨m.next, _, hrun, ⟨le_refl _, by rw [Mem.plus_next]; simp⟩, hval, Writes.plus m _, ?_, ?_⟩
  · exact (Function.update_of_ne hne _ _).trans (Mem.plus_old hs)
  · exact (Function.update_of_ne (Ne.symm hne) _ _).trans hval

/-- One object as receiver and both arguments. -/
example : SetsFe ⟨fun _ => 0, fun _ => 0, fun _ => [], fun _ => 5, 1, ∅⟩ 0 0 (subFe 0 0 0) ∧
    SetsFe ⟨fun _ => 0, fun _ => 0, fun _ => [], fun _ => 5, 1, ∅⟩ 0 25 (squareFe 0 0) := by
  have h := C158_arithmetic ⟨fun _ => 0, fun _ => 0, fun _ => [], fun _ => 5, 1, ∅⟩ 0 0 0
  have e : (5 : Fp) - 5 = 0 := sub_self 5
  have e' : (5 : Fp) ^ 2 = 25 := by norm_num
  refine ⟨?_, ?_⟩
  · rw [← e]; exact h.2.2.1
  · rw [← e']; exact h.2.2.2.2.1

/-! ### C127: all recipients -/

theorem forAll_targets {k : Nat} (hk : k ≤ 2 ^ 63) :
    ((List.range k).map Protocol.node).Nodup ∧ InRange k ((List.range k).map Protocol.node) ∧
      ∀ i, i < k → Protocol.node i ∈ (List.range k).map Protocol.node := by
  refine ⟨?_, ?_, fun i hi => List.mem_map.2 ⟨i, List.mem_range.2 hi, rfl⟩⟩
  · refine List.Nodup.map_on (fun a ha b hb e => ?_) List.nodup_range
    rw [List.mem_range] at ha hb
    have := congrArg BitVec.toNat e
    simp only [Protocol.node, BitVec.toNat_ofNat] at this
    omega
  · intro t ht
    obtain ⟨i, hi, rfl⟩ := List.mem_map.1 ht
    rw [List.mem_range] at hi
    have : (Protocol.node i).toInt = i := by
      rw [Protocol.node, BitVec.toInt_eq_toNat_of_lt (by rw [BitVec.toNat_ofNat]; omega), BitVec.toNat_ofNat]
      omega
    omega

/-- C127: `CorruptDealingForAllRecipients` of a dealing with a single ciphertext gives a dealing in which one random scalar is added to
every entry, and leaves the dealing given as it was.  Missing: pair ciphertexts, see `C127_for_all_pair`. -/
theorem C127_for_all_partial (P : Prim) (m : Mem) (d : DealingObj) (seed : Seed) (hd : Has View.dealing m d) (c : CiphertextObj Addr)
    (hc : d.ciphertext = some (.single c)) (com : CommitmentObj) (hcom : d.commitment = some com) (hne : com.points ≠ [])
    (hp : PointerProof d) (hl : c.ctexts.length ≤ 2 ^ 63) (a : Fn) (rng : Rng) (ha : Scalar.random (seed.rng P) = .ok (a, rng)) :
    ∃ o m', corruptDealingForAll P d seed m = (.ok o, m') ∧ Writes ∅ m m' ∧ View.dealing.val m' d = View.dealing.val m d ∧
      ∃ x : Mega.Ciphertext Fn, (View.dealing.val m d).ciphertext = some (.single x) ∧
        View.dealing.val m' o = { View.dealing.val m d with
          ciphertext := some (.single { x with ctexts := x.ctexts.map (· + a) }) } := by
  obtain ⟨t1, t2, t3⟩ := forAll_targets hl
  have h := C127_single_partial P m d ((List.range c.ctexts.length).map Protocol.node) seed hd c hc com hcom hne hp hl t1 t2
  obtain ⟨x, hx, hlen⟩ : ∃ x : Mega.Ciphertext Fn, (View.dealing.val m d).ciphertext = some (.single x) ∧
      x.ctexts.length = c.ctexts.length := by
    have hdc := (at_dealing.1 hd.at).1
    rw [hc] at hdc
    rcases at_opt.1 hdc with ⟨h, -⟩ | ⟨c', v, h, hv, h2⟩
    · cases h
    cases h
    rcases v with x | x
    · refine ⟨x, hv, ?_⟩
      have h3 := (at_ciphertext.1 (at_cipher h2 : At (View.ciphertext View.sc) m c x)).2.2.2
      exact h3.length.symm
    · exact (at_cipher h2).elim
  obtain ⟨cv, hcv⟩ : ∃ cv, (View.dealing.val m d).commitment = some cv := by
    have hdc := (at_dealing.1 hd.at).2.1
    rw [hcom] at hdc
    rcases at_opt.1 hdc with ⟨h, -⟩ | ⟨c', v, h, hv, h2⟩
    · cases h
    · exact ⟨v, hv⟩
  have hval : Protocol.corrupt P (View.dealing.val m d) ((List.range c.ctexts.length).map Protocol.node) seed =
      .ok { View.dealing.val m d with ciphertext := some (.single { x with ctexts := x.ctexts.map (· + a) }) } := by
    have hmap : (x.ctexts.mapIdx fun i e => if Protocol.node i ∈ (List.range c.ctexts.length).map Protocol.node then e + a else e) =
        x.ctexts.map (· + a) := by
      apply List.ext_getElem (by simp)
      intro i h1 h2
      rw [List.getElem_mapIdx, List.getElem_map, if_pos (t3 i (by rw [← hlen]; simpa using h1))]
    rw [Protocol.corrupt, hcv, ha]
    simp only [hx, hmap, Res.ok_bind, Dealings.nonNil, hcv]
  rw [hval] at h
  obtain ⟨o, m', e, w, h1, h2⟩ := h
  refine ⟨o, m', ?_, w, h2, x, hx, h1⟩
  have e0 : Go.nonNil d.ciphertext m = (.ok (.single c), m) := by rw [hc]; rfl
  rw [corruptDealingForAll, Go.bind_run e0]
  exact e

/-- C127: `CorruptDealingForAllRecipients` of a dealing with a pair ciphertext gives a dealing in which one random scalar is added to
the first half of every entry; the dealing given becomes the same one. -/
theorem C127_for_all_pair (P : Prim) (m : Mem) (d : DealingObj) (seed : Seed) (hd : Has View.dealing m d) (c : CiphertextObj (Addr × Addr))
    (hn : (View.dealing.objs d).Nodup) (hc : d.ciphertext = some (.pair c)) (com : CommitmentObj) (hcom : d.commitment = some com) (hne : com.points ≠ [])
    (hp : PointerProof d) (hl : c.ctexts.length ≤ 2 ^ 63) (a : Fn) (rng : Rng) (ha : Scalar.random (seed.rng P) = .ok (a, rng)) :
    ∃ o m', corruptDealingForAll P d seed m = (.ok o, m') ∧ View.dealing.val m' d = View.dealing.val m' o ∧
      ∃ x : Mega.Ciphertext (Fn × Fn), (View.dealing.val m d).ciphertext = some (.pair x) ∧
        View.dealing.val m' o = { View.dealing.val m d with
          ciphertext := some (.pair { x with ctexts := x.ctexts.map fun e => (e.1 + a, e.2) }) } := by
  obtain ⟨t1, t2, t3⟩ := forAll_targets hl
  have h := C127_pair_changed P m d ((List.range c.ctexts.length).map Protocol.node) seed hd hn c hc com hcom hne hp hl t1 t2
  obtain ⟨x, hx, hlen⟩ : ∃ x : Mega.Ciphertext (Fn × Fn), (View.dealing.val m d).ciphertext = some (.pair x) ∧
      x.ctexts.length = c.ctexts.length := by
    have hdc := (at_dealing.1 hd.at).1
    rw [hc] at hdc
    rcases at_opt.1 hdc with ⟨h, -⟩ | ⟨c', v, h, hv, h2⟩
    · cases h
    cases h
    rcases v with x | x
    · exact (at_cipher h2).elim
    · refine ⟨x, hv, ?_⟩
      have h3 := (at_ciphertext.1 (at_cipher h2 : At (View.ciphertext (View.sc.prod View.sc)) m c x)).2.2.2
      exact h3.length.symm
  obtain ⟨cv, hcv⟩ : ∃ cv, (View.dealing.val m d).commitment = some cv := by
    have hdc := (at_dealing.1 hd.at).2.1
    rw [hcom] at hdc
    rcases at_opt.1 hdc with ⟨h, -⟩ | ⟨c', v, h, hv, h2⟩
    · cases h
    · exact ⟨v, hv⟩
  have hval : Protocol.corrupt P (View.dealing.val m d) ((List.range c.ctexts.length).map Protocol.node) seed =
      .ok { View.dealing.val m d with ciphertext := some (.pair { x with ctexts := x.ctexts.map fun e => (e.1 + a, e.2) }) } := by
    have hmap : (x.ctexts.mapIdx fun i e => if Protocol.node i ∈ (List.range c.ctexts.length).map Protocol.node then (e.1 + a, e.2) else e) =
        x.ctexts.map fun e => (e.1 + a, e.2) := by
      apply List.ext_getElem (by simp)
      intro i h1 h2
      rw [List.getElem_mapIdx, List.getElem_map, if_pos (t3 i (by rw [← hlen]; simpa using h1))]
    rw [Protocol.corrupt, hcv, ha]
    simp only [hx, hmap, Res.ok_bind, Dealings.nonNil, hcv]
  rw [hval] at h
  obtain ⟨o, m', e, -, h1, h2, -⟩ := h
  refine ⟨o, m', ?_, h2.trans h1.symm, x, hx, h1⟩
  have e0 : Go.nonNil d.ciphertext m = (.ok (.pair c), m) := by rw [hc]; rfl
  rw [corruptDealingForAll, Go.bind_run e0]
  exact e

/-- C127: a dealing without ciphertext is not refused but panics. -/
theorem C127_for_all_nil (P : Prim) (m : Mem) (d : DealingObj) (seed : Seed) (hd : d.ciphertext = none) :
    ∃ e, corruptDealingForAll P d seed m = (.panic e, m) := by
  rw [corruptDealingForAll, hd]
  exact ⟨_, rfl⟩

/-- The dealing of `C127_false`, damaged for both recipients. -/
example (seed : Seed) : ∃ o m', corruptDealingForAll onesPrim pairDealing seed eightObjects = (.ok o, m') := by
  obtain ⟨a, rng, -, e⟩ := onesPrim_random seed
  obtain ⟨o, m', h, -⟩ := C127_for_all_pair onesPrim eightObjects pairDealing seed (C127_false seed).1 _ (C127_false seed).2.1 rfl _
    rfl (by simp) (fun p hp => by cases hp) (by simp) a rng e
  exact ⟨o, m', h⟩

end Verif.Heap
