import Verif.Lemmas.HeapCorrupt
import Verif.Props.HeapDealings

/-!
C127: damaging dealings, as the protocol driver does to test complaints.

The value computed is compared to `Protocol.corrupt`: the entries of the targets, and nothing else, are shifted by one
random scalar.
-/

set_option autoImplicit false

namespace Verif.Heap

open Mega (zeroPrim)
open Protocol (node)

attribute [local irreducible] Protocol.corrupt Dealings.privateVerify

section

variable (P : Prim) (m : Mem) (d : DealingObj) (targets : List NodeIndex) (seed : Seed)

/-- C127, the part that holds: a dealing with a single ciphertext is copied and stays as it is; the copy is the damaged
dealing.  Missing: pair ciphertexts, see `C127_pair_changed` and `C127_false`. -/
theorem C127_single_partial (hd : Has View.dealing m d) (c : CiphertextObj Addr) (hc : d.ciphertext = some (.single c))
    (com : CommitmentObj) (hcom : d.commitment = some com) (hne : com.points ≠ []) (hp : PointerProof d)
    (hl : c.ctexts.length ≤ 2 ^ 63) (ht : targets.Nodup) (hin : InRange c.ctexts.length targets) :
    Outcome (Writes ∅ m) (corruptDealing P d targets seed) m (Protocol.corrupt P (View.dealing.val m d) targets seed)
      fun w o m' => Writes ∅ m m' ∧ View.dealing.val m' o = w ∧ View.dealing.val m' d = View.dealing.val m d := by
  have h := corruptDealing_single (P := P) (seed := seed) hd.at hc hcom hne hp hl ht hin
  exact h.mono fun w o m' hr => ⟨hr.1, hr.2.2, (hd.at.mono hr.1).2⟩

/-- C127: for a dealing with a pair ciphertext, the result is right as well, but the entries are shared: the dealing given
has become the damaged one, too.  Nothing else that existed has changed.  (The objects of the dealing are different ones, as
in every dealing that was made by `NewIDkgDealingInternal`.) -/
theorem C127_pair_changed (hd : Has View.dealing m d) (hn : (View.dealing.objs d).Nodup) (c : CiphertextObj (Addr × Addr))
    (hc : d.ciphertext = some (.pair c)) (com : CommitmentObj) (hcom : d.commitment = some com) (hne : com.points ≠ [])
    (hp : PointerProof d) (hl : c.ctexts.length ≤ 2 ^ 63) (ht : targets.Nodup) (hin : InRange c.ctexts.length targets) :
    Outcome (Writes ∅ m) (corruptDealing P d targets seed) m (Protocol.corrupt P (View.dealing.val m d) targets seed)
      fun w o m' => Writes (targetObjs (c.ctexts.map Prod.fst) targets) m m' ∧ View.dealing.val m' o = w ∧
        View.dealing.val m' d = w ∧
        ∀ curve sk pk ad dealer i, sk < m'.next → pk < m'.next →
          Outcome (Writes ∅ m') (privateVerify P d curve sk pk ad dealer i) m'
            (Dealings.privateVerify P w curve (m'.sc sk) (m'.pt pk) ad dealer i) (Ret View.data m') := by
  have h := corruptDealing_pair (P := P) (seed := seed) hd.at hc hcom hne hp hn hl ht hin
  exact h.mono fun w o m' hr => ⟨hr.1, hr.2.1.2, hr.2.2.2, fun curve sk pk ad dealer i hs hk =>
    privateVerify_ret hr.2.2 (has_sc hs) (has_pt hk)⟩

theorem Go.bind_panics {α β : Type} {g : Go β} {f : β → Go α} {m m' : Mem} {e : String} (h : g m = (.panic e, m')) :
    (g >>= f) m = (.panic e, m') := by
  change (match g m with
    | (.ok a, m) => f a m
    | (.err e, m) => (.err e, m)
    | (.panic e, m) => (.panic e, m)
    | (.diverge, m) => (.diverge, m)) = _
  rw [h]

theorem addAtTargets_panics (as : List Addr) (r : Addr) (targets : List NodeIndex) (t : NodeIndex) (ht : t ∈ targets)
    (hout : t.toInt < 0 ∨ as.length ≤ t.toInt) (m : Mem) : ∃ e m', addAtTargets as r targets m = (.panic e, m') := by
  induction targets generalizing m with
  | nil => cases ht
  | cons h rest ih =>
    have key : (∃ a, Go.index as h.toInt m = (.ok a, m) ∧ 0 ≤ h.toInt ∧ h.toInt < as.length) ∨
        ∃ e, Go.index as h.toInt m = (.panic e, m) := by
      unfold Go.index Mega.index Go.lift
      split_ifs with h0
      · exact .inr ⟨_, rfl⟩
      · rcases hx : as[h.toInt.toNat]? with _ | a
        · exact .inr ⟨_, rfl⟩
        · refine .inl ⟨a, rfl, by omega, ?_⟩
          have := (List.getElem?_eq_some_iff.1 hx).1
          omega
    rcases key with ⟨a, e, h0, h1⟩ | ⟨e, h⟩
    · rcases List.mem_cons.1 ht with rfl | ht
      · omega
      · obtain ⟨e', m', h'⟩ := ih ht (m.setSc a (m.sc a + m.sc r))
        have hy : addSc a a r m = (.ok a, m.setSc a (m.sc a + m.sc r)) := rfl
        refine ⟨e', m', ?_⟩
        rw [addAtTargets, Go.bind_run e, Go.bind_run hy]
        exact h'
    · exact ⟨e, m, Go.bind_panics h⟩

/-- C127: a target that is no entry of the ciphertext is not refused but panics, if a random scalar could be made. -/
theorem C127_out_of_range (hd : Has View.dealing m d) (c : CipherObj) (hc : d.ciphertext = some c) (com : CommitmentObj)
    (hcom : d.commitment = some com) (a : Fn) (rng : Rng) (ha : Scalar.random (seed.rng P) = .ok (a, rng))
    (t : NodeIndex) (ht : t ∈ targets) (hout : t.toInt < 0 ∨ c.recipients ≤ t.toInt) :
    ∃ e m', corruptDealing P d targets seed m = (.panic e, m') := by
  have hdc := (at_dealing.1 hd.at).1
  rw [hc] at hdc
  unfold corruptDealing
  rw [hcom, hc, ha]
  have e0 : Go.nonNil (some com) m = (.ok com, m) := rfl
  rw [Go.bind_run e0]
  cases hpts : com.points with
  | nil =>
    have e1 : com.curveType m = (.panic "index out of range", m) := by
      unfold CommitmentObj.curveType
      rw [hpts]
      rfl
    exact ⟨_, _, Go.bind_panics e1⟩
  | cons =>
    have e1 : com.curveType m = (.ok K256, m) := by
      unfold CommitmentObj.curveType
      rw [hpts]
      rfl
    have e2 : Go.lift (.ok (a, rng)) m = (.ok (a, rng), m) := rfl
    obtain ⟨r, m1, e3, rr⟩ := newSc_ret (E := Writes ∅ m) (m := m) a
    have key : ∃ e m', corruptCipher r targets (some c) m1 = (.panic e, m') := by
      cases c with
      | single c =>
        rcases at_opt.1 hdc with ⟨h, -⟩ | ⟨c', v, h, -, h2⟩
        · cases h
        cases h
        rcases v with x | x
        swap
        · exact (at_cipher h2).elim
        have h3 := (at_ciphertext.1 (at_cipher h2 : At (View.ciphertext View.sc) m c x)).2.2.2
        obtain ⟨cs, m2, e4, r4⟩ := cloneScs_ret (h3.mono rr.1)
        obtain ⟨e5, m5, h5⟩ := addAtTargets_panics cs r targets t ht (by
          have := r4.at.length
          have := h3.length
          simp only [CipherObj.recipients] at hout
          omega) m2
        refine ⟨e5, m5, ?_⟩
        unfold corruptCipher
        dsimp only
        rw [Go.bind_run e4]
        exact Go.bind_panics h5
      | pair c =>
        obtain ⟨e5, m5, h5⟩ := addAtTargets_panics (c.ctexts.map Prod.fst) r targets t ht (by
          simp only [CipherObj.recipients] at hout
          simpa using hout) m1
        exact ⟨e5, m5, Go.bind_panics h5⟩
    obtain ⟨e, m', h⟩ := key
    refine ⟨e, m', ?_⟩
    rw [Go.bind_run e1, Go.bind_run e2, Go.bind_run e3]
    exact Go.bind_panics h

end

/-- A generator whose stream consists of ones. -/
def onesPrim : Prim := { zeroPrim with chacha20 := fun _ _ => 1 }

theorem onesPrim_random (s : Seed) : ∃ a rng, a ≠ 0 ∧ Scalar.random (s.rng onesPrim) = .ok (a, rng) := by
  refine ⟨(beVal ((List.range 32).map fun _ => 1) : Fn), ⟨fun _ => 1, 32⟩, by decide +kernel, ?_⟩
  refine ((C21_random_scalar _).1 _ _).2 ⟨0, by simp, ?_, by simp [Seed.rng, onesPrim]⟩
  show beVal ((List.range 32).map fun _ => 1) = (beVal ((List.range 32).map fun _ => 1) : Fn).val
  decide +kernel

/-- A memory of eight scalars and eight points. -/
def eightObjects : Mem := ⟨fun _ => 3, fun _ => G, fun _ => [], fun _ => 0, 8, ∅⟩

/-- A dealing with a pair ciphertext in that memory, all objects different. -/
def pairDealing : DealingObj := ⟨some (.pair ⟨0, 1, ⟨0, 1⟩, [(2, 3), (4, 5)]⟩), some ⟨.pedersen, [2]⟩, none⟩

/-- C127 is false: damaging a dealing with a pair ciphertext changes the dealing given. -/
theorem C127_false (seed : Seed) : Has View.dealing eightObjects pairDealing ∧ (View.dealing.objs pairDealing).Nodup ∧
    ∃ o m', corruptDealing onesPrim pairDealing [1] seed eightObjects = (.ok o, m') ∧
      View.dealing.val m' pairDealing ≠ View.dealing.val eightObjects pairDealing := by
  have h1 : Has View.dealing eightObjects pairDealing := by
    simp [Has, pairDealing, eightObjects, View.dealing, View.via, View.prod, View.opt, View.cipher, View.ciphertext, View.list,
      View.commitment, View.proof, View.data, View.pt, View.sc, Obj.addr]
  have h2 : (View.dealing.objs pairDealing).Nodup := by
    simp [pairDealing, View.dealing, View.via, View.prod, View.opt, View.cipher, View.ciphertext, View.list,
      View.commitment, View.proof, View.data, View.pt, View.sc]
  refine ⟨h1, h2, ?_⟩
  have h := C127_pair_changed onesPrim eightObjects pairDealing [1] seed h1 h2 _ rfl _ rfl (by simp)
    (fun p hp => by cases hp) (by simp) (by simp) (by intro t ht; rw [List.mem_singleton.1 ht]; decide)
  obtain ⟨a, rng, ha, e⟩ := onesPrim_random seed
  rw [Protocol.corrupt_eq (ct := .pair ⟨G, G, ⟨3, 3⟩, [(3, 3), (3, 3)]⟩) (cm := ⟨.pedersen, [G]⟩) rfl rfl, e] at h
  obtain ⟨o, m', e', -, -, hv, -⟩ := h
  refine ⟨o, m', e', ?_⟩
  rw [hv]
  intro hx
  have h3 := congrArg Dealings.Dealing.ciphertext hx
  change some (Protocol.shift [1] a (.pair ⟨G, G, ⟨3, 3⟩, [(3, 3), (3, 3)]⟩)) =
    some (.pair ⟨G, G, ⟨3, 3⟩, [(3, 3), (3, 3)]⟩) at h3
  simp [Protocol.shift, node] at h3
  exact ha h3

/-- C127: the hypotheses of the part that holds are met, by a dealing in which all points are one object and all scalars are
one object. -/
example (seed : Seed) : ∃ o m', corruptDealing zeroPrim ⟨some (.single ⟨0, 0, ⟨0, 0⟩, [0, 0]⟩), some ⟨.simple, [0]⟩, none⟩ [1]
    seed eightObjects = (.ok o, m') ∧ Writes ∅ eightObjects m' := by
  have h := C127_single_partial zeroPrim eightObjects ⟨some (.single ⟨0, 0, ⟨0, 0⟩, [0, 0]⟩), some ⟨.simple, [0]⟩, none⟩ [1] seed
    (by
      simp [Has, eightObjects, View.dealing, View.via, View.prod, View.opt, View.cipher, View.ciphertext, View.list,
        View.commitment, View.proof, View.data, View.pt, View.sc, Obj.addr])
    _ rfl _ rfl (by simp) (fun p hp => by cases hp) (by simp) (by simp)
    (by intro t ht; rw [List.mem_singleton.1 ht]; decide)
  rw [Protocol.corrupt_eq (ct := .single ⟨G, G, ⟨3, 3⟩, [3, 3]⟩) (cm := ⟨.simple, [G]⟩) rfl rfl, Mega.zeroPrim_random] at h
  obtain ⟨o, m', e', w, -⟩ := h
  exact ⟨o, m', e', w⟩

/-- C127: an index that is negative. -/
example (seed : Seed) : ∃ e m', corruptDealing onesPrim pairDealing [0, -1] seed eightObjects = (.panic e, m') := by
  obtain ⟨a, rng, -, e⟩ := onesPrim_random seed
  exact C127_out_of_range onesPrim eightObjects pairDealing [0, -1] seed (C127_false seed).1 _ rfl _ rfl a rng e (-1)
    (by simp) (.inl (by decide))

end Verif.Heap
