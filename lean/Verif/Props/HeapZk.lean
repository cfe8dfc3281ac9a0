import Verif.Lemmas.HeapMega
import Verif.Props.Mega

/-!
C119–C121: the pointer code of zk and mega.

As in C112–C114 the statements quantify over every memory and every choice of existing arguments, which may be the same
object or share objects in any way.
-/

set_option autoImplicit false

namespace Verif.Heap

open Mega (zeroPrim zeroPrim_random)

attribute [local irreducible] Zk.Dlog.create Zk.Dlog.verify Zk.EqOpen.create Zk.EqOpen.verify Zk.Product.create
  Zk.Product.verify Mega.Single.encrypt Mega.Pair.encrypt Mega.Single.decrypt Mega.Pair.decrypt
  Mega.Single.decryptFromSharedSecret Mega.Pair.decryptFromSharedSecret Mega.Single.decryptAndCheck
  Mega.Pair.decryptAndCheck Mega.genKeypair

section

variable (P : Prim) (m : Mem) (ad : Bytes)

theorem has_sc {m : Mem} {a : Addr} (h : a < m.next) : At View.sc m a (m.sc a) := at_sc.2 ⟨h, rfl⟩
theorem has_pt {m : Mem} {a : Addr} (h : a < m.next) : At View.pt m a (m.pt a) := at_pt.2 ⟨h, rfl⟩

/-! ### C119 -/

/-- C119, equality of discrete logarithms: `Create` returns a proof made of two new objects, `Verify` and
`RecoverCommitments` do on memory what they do on values; nothing that existed changes, also if they fail. -/
theorem C119_dlog (seed : Seed) (x g h gx hx : Addr) (pf : ProofObj) (hx' : x < m.next) (hg : g < m.next)
    (hh : h < m.next) (hgx : gx < m.next) (hhx : hx < m.next) (hpf : Has View.proof m pf) :
    Outcome (Writes ∅ m) (dlogCreate P seed x g h ad) m (Zk.Dlog.create P seed (m.sc x) (m.pt g) (m.pt h) ad)
      (Ret View.proof m) ∧
    Outcome (Writes ∅ m) (dlogVerify P pf g h gx hx ad) m
      (Zk.Dlog.verify P (View.proof.val m pf) (m.pt g) (m.pt h) (m.pt gx) (m.pt hx) ad) (Ret View.data m) ∧
    Outcome (Writes ∅ m) (dlogRecover ⟨g, h, gx, hx⟩ pf) m
      (.ok (Zk.Dlog.recoverCommitments ⟨m.pt g, m.pt h, m.pt gx, m.pt hx⟩ (View.proof.val m pf)))
      (Ret (View.pt.prod View.pt) m) :=
  ⟨dlogCreate_ret (has_sc hx') (has_pt hg) (has_pt hh),
    dlogVerify_ret (has_pt hg) (has_pt hh) (has_pt hgx) (has_pt hhx) hpf.at,
    dlogRecover_ret (has_pt hg) (has_pt hh) (has_pt hgx) (has_pt hhx) hpf.at⟩

/-- C119, equal openings. -/
theorem C119_equal_openings (seed : Seed) (secret masking ped simple : Addr) (pf : ProofObj) (hs : secret < m.next)
    (hk : masking < m.next) (hp : ped < m.next) (hq : simple < m.next) (hpf : Has View.proof m pf) :
    Outcome (Writes ∅ m) (eqCreate P seed secret masking ad) m
      (Zk.EqOpen.create P seed (m.sc secret) (m.sc masking) ad) (Ret View.proof m) ∧
    Outcome (Writes ∅ m) (eqVerify P pf ped simple ad) m
      (Zk.EqOpen.verify P (View.proof.val m pf) (m.pt ped) (m.pt simple) ad) (Ret View.data m) :=
  ⟨eqCreate_ret (has_sc hs) (has_sc hk), eqVerify_ret (has_pt hp) (has_pt hq) hpf.at⟩

/-- C119, products. -/
theorem C119_product (seed : Seed) (a b bm c cm l r p : Addr) (pf : ProductProofObj) (ha : a < m.next)
    (hb : b < m.next) (hbm : bm < m.next) (hc : c < m.next) (hcm : cm < m.next) (hl : l < m.next) (hr : r < m.next)
    (hp : p < m.next) (hpf : Has View.productProof m pf) :
    Outcome (Writes ∅ m) (productCreate P seed a b bm c cm ad) m
      (Zk.Product.create P seed (m.sc a) (m.sc b) (m.sc bm) (m.sc c) (m.sc cm) ad) (Ret View.productProof m) ∧
    Outcome (Writes ∅ m) (productVerify P pf l r p ad) m
      (Zk.Product.verify P (View.productProof.val m pf) (m.pt l) (m.pt r) (m.pt p) ad) (Ret View.data m) :=
  ⟨productCreate_ret (has_sc ha) (has_sc hb) (has_sc hbm) (has_sc hc) (has_sc hcm),
    productVerify_ret (has_pt hl) (has_pt hr) (has_pt hp) hpf.at⟩

/-- C119, one after the other: a proof just made is accepted, and all the objects that existed before are as they
were. -/
theorem C119_create_then_verify (seed : Seed) (x g h gx hx : Addr) (hx' : x < m.next) (hg : g < m.next)
    (hh : h < m.next) (hgx : gx < m.next) (hhx : hx < m.next) (egx : m.pt gx = m.sc x • m.pt g)
    (ehx : m.pt hx = m.sc x • m.pt h) (pf : ProofObj) (m' : Mem) (hrun : dlogCreate P seed x g h ad m = (.ok pf, m')) :
    ∃ m'', dlogVerify P pf g h gx hx ad m' = (.ok (), m'') ∧ Writes ∅ m m'' := by
  have h1 := dlogCreate_ret (P := P) (seed := seed) (ad := ad) (has_sc hx') (has_pt hg) (has_pt hh)
  rcases e : Zk.Dlog.create P seed (m.sc x) (m.pt g) (m.pt h) ad with v | s | s | _
  · rw [e] at h1
    obtain ⟨o, m1, r1, hr⟩ := h1
    rw [hrun] at r1
    obtain ⟨⟨⟩, rfl⟩ := Prod.mk.inj r1
    have h2 := dlogVerify_ret (P := P) (ad := ad) ((has_pt hg).mono hr.1) ((has_pt hh).mono hr.1)
      ((has_pt hgx).mono hr.1) ((has_pt hhx).mono hr.1) hr.at
    rw [egx, ehx, (C45_dlog_completeness P seed (m.sc x) (m.pt g) (m.pt h) ad).1 v e] at h2
    obtain ⟨u, m'', r2, w⟩ := h2
    exact ⟨m'', r2, hr.1.trans_empty w.1⟩
  all_goals
    rw [e] at h1
    obtain ⟨m1, r1, -⟩ := h1
    rw [hrun] at r1
    cases (Prod.mk.inj r1).1

/-- C119: both bases are one object and the witness is in use; the proof is made and nothing changes. -/
example : ∃ pf m', dlogCreate zeroPrim ⟨[]⟩ 0 1 1 [] ⟨fun _ => 3, fun _ => G, fun _ => [], fun _ => 0, 2, ∅⟩ =
    (.ok pf, m') ∧ m'.sc 0 = 3 ∧ m'.pt 1 = G ∧ pf.challenge ≠ pf.response := by
  have h := (C119_dlog zeroPrim ⟨fun _ => 3, fun _ => G, fun _ => [], fun _ => 0, 2, ∅⟩ [] ⟨[]⟩ 0 1 1 1 1 ⟨0, 0⟩
    (by simp) (by simp) (by simp) (by simp) (by simp) (by simp [Has, View.proof, View.via, View.prod, View.sc,
      Obj.addr])).1
  obtain ⟨v, e⟩ := (C45_dlog_completeness zeroPrim ⟨[]⟩ 3 G G []).2.1 _ _ (zeroPrim_random _)
  rw [e] at h
  obtain ⟨pf, m', r, w, -, nd, -⟩ := h
  refine ⟨pf, m', r, w.sc0 (by simp), w.pt0 (by simp), ?_⟩
  simpa [View.proof, View.via, View.prod, View.sc] using nd

/-! ### C120 -/

/-- C120: encryption on memory: the ciphertext is made of new objects, no two the same, and nothing that existed
(plaintexts, keys) changes. -/
theorem C120_encrypt (seed : Seed) (dealer : NodeIndex) (pts pks : List Addr) (pairs : List (Addr × Addr))
    (hp : Has View.sc.list m pts) (hk : Has View.pt.list m pks) (hpp : Has (View.sc.prod View.sc).list m pairs) :
    Outcome (Writes ∅ m) (encryptSingle P seed pts pks dealer ad) m
      (Mega.Single.encrypt P seed (pts.map m.sc) (pks.map m.pt) dealer ad) (Ret (View.ciphertext View.sc) m) ∧
    Outcome (Writes ∅ m) (encryptPair P seed pairs pks dealer ad) m
      (Mega.Pair.encrypt P seed (pairs.map fun p => (m.sc p.1, m.sc p.2)) (pks.map m.pt) dealer ad)
      (Ret (View.ciphertext (View.sc.prod View.sc)) m) :=
  ⟨encryptSingle_ret hp.at hk.at, encryptPair_ret hpp.at hk.at⟩

/-- C120: decryption on memory leaves the ciphertext, the keys and the commitment as they were and returns new
objects. -/
theorem C120_decrypt (dealer i : NodeIndex) (c : CiphertextObj Addr) (c' : CiphertextObj (Addr × Addr))
    (com : CommitmentObj) (sk pk s : Addr) (hc : Has (View.ciphertext View.sc) m c)
    (hc' : Has (View.ciphertext (View.sc.prod View.sc)) m c') (hcom : Has View.commitment m com) (hsk : sk < m.next)
    (hpk : pk < m.next) (hs : s < m.next) :
    Outcome (Writes ∅ m) (decryptSharedSingle P c ad dealer i pk s) m
      (Mega.Single.decryptFromSharedSecret P ((View.ciphertext View.sc).val m c) ad dealer i (m.pt pk) (m.pt s))
      (Ret View.sc m) ∧
    Outcome (Writes ∅ m) (decryptSharedPair P c' ad dealer i pk s) m
      (Mega.Pair.decryptFromSharedSecret P ((View.ciphertext (View.sc.prod View.sc)).val m c') ad dealer i (m.pt pk)
        (m.pt s)) (Ret (View.sc.prod View.sc) m) ∧
    Outcome (Writes ∅ m) (decryptSingle P c ad dealer i sk pk) m
      (Mega.Single.decrypt P ((View.ciphertext View.sc).val m c) ad dealer i (m.sc sk) (m.pt pk)) (Ret View.sc m) ∧
    Outcome (Writes ∅ m) (decryptPair P c' ad dealer i sk pk) m
      (Mega.Pair.decrypt P ((View.ciphertext (View.sc.prod View.sc)).val m c') ad dealer i (m.sc sk) (m.pt pk))
      (Ret (View.sc.prod View.sc) m) ∧
    Outcome (Writes ∅ m) (decryptAndCheckSingle P c com ad dealer i sk pk) m
      (Mega.Single.decryptAndCheck P ((View.ciphertext View.sc).val m c) (View.commitment.val m com) ad dealer i
        (m.sc sk) (m.pt pk)) (Ret View.opening m) ∧
    Outcome (Writes ∅ m) (decryptAndCheckPair P c' com ad dealer i sk pk) m
      (Mega.Pair.decryptAndCheck P ((View.ciphertext (View.sc.prod View.sc)).val m c') (View.commitment.val m com) ad
        dealer i (m.sc sk) (m.pt pk)) (Ret View.opening m) :=
  ⟨decryptSharedSingle_ret hc.at (has_pt hpk) (has_pt hs), decryptSharedPair_ret hc'.at (has_pt hpk) (has_pt hs),
    decryptSingle_ret hc.at (has_sc hsk) (has_pt hpk), decryptPair_ret hc'.at (has_sc hsk) (has_pt hpk),
    decryptAndCheckSingle_ret hc.at hcom.at (has_sc hsk) (has_pt hpk),
    decryptAndCheckPair_ret hc'.at hcom.at (has_sc hsk) (has_pt hpk)⟩

/-- C120: the checks of ciphertexts and openings, and key generation. -/
theorem C120_checks (seed : Seed) (dealer i : NodeIndex) (n : Int) (c : CiphertextObj Addr)
    (c' : CiphertextObj (Addr × Addr)) (com : CommitmentObj) (o : OpeningObj) (hc : Has (View.ciphertext View.sc) m c)
    (hc' : Has (View.ciphertext (View.sc.prod View.sc)) m c') (hcom : Has View.commitment m com)
    (ho : Has View.opening m o) :
    Outcome (Writes ∅ m) (checkValiditySingle P c n ad dealer) m
      (Mega.Single.checkValidity P ((View.ciphertext View.sc).val m c) n ad dealer) (Ret View.data m) ∧
    Outcome (Writes ∅ m) (checkValidityPair P c' n ad dealer) m
      (Mega.Pair.checkValidity P ((View.ciphertext (View.sc.prod View.sc)).val m c') n ad dealer) (Ret View.data m) ∧
    Outcome (Writes ∅ m) (checkOpening com i o) m ((View.commitment.val m com).checkOpening i (View.opening.val m o))
      (Ret View.data m) ∧
    Outcome (Writes ∅ m) (genKeypair P seed) m (Mega.genKeypair P seed) (Ret (View.pt.prod View.sc) m) :=
  ⟨checkValiditySingle_ret hc.at, checkValidityPair_ret hc'.at, checkOpening_ret hcom.at ho.at, genKeypair_ret⟩

/-- C120, one after the other: what was encrypted is decrypted, to a new object; plaintexts and keys are as they were. -/
theorem C120_encrypt_then_decrypt (seed : Seed) (dealer i : NodeIndex) (pts pks : List Addr) (keys : List Fn)
    (hp : Has View.sc.list m pts) (hk : Has View.pt.list m pks) (hkeys : pks.map m.pt = keys.map Point.mulByG)
    (c : CiphertextObj Addr) (m' : Mem) (hrun : encryptSingle P seed pts pks dealer ad m = (.ok c, m')) (hi : 0 ≤ i.toInt)
    (pt pk sk : Addr) (hpt : pts[i.toInt.toNat]? = some pt) (hpk : pks[i.toInt.toNat]? = some pk)
    (hsk : keys[i.toInt.toNat]? = some (m.sc sk)) (hsk' : sk < m.next) :
    ∃ r m'', decryptSingle P c ad dealer i sk pk m' = (.ok r, m'') ∧ m''.sc r = m.sc pt ∧ m.next ≤ r ∧
      Writes ∅ m m'' := by
  have h1 := encryptSingle_ret (P := P) (seed := seed) (ad := ad) (dealer := dealer) hp.at hk.at
  change Outcome _ _ _ (Mega.Single.encrypt P seed (pts.map m.sc) (pks.map m.pt) dealer ad) _ at h1
  rw [hkeys] at h1
  rcases e : Mega.Single.encrypt P seed (pts.map m.sc) (keys.map Point.mulByG) dealer ad with v | s | s | _
  · rw [e] at h1
    obtain ⟨o, m1, r1, hr⟩ := h1
    rw [hrun] at r1
    obtain ⟨⟨⟩, rfl⟩ := Prod.mk.inj r1
    have hpk' : pk < m.next := (hk.at.mem (List.mem_of_getElem? hpk)) (.pt pk) (by simp [View.pt])
    have epk : m.pt pk = Point.mulByG (m.sc sk) := by
      have h := congrArg (fun l => l[i.toInt.toNat]?) hkeys
      simpa [List.getElem?_map, hpk, hsk] using h
    have h2 := decryptSingle_ret (P := P) (ad := ad) (dealer := dealer) (recipient := i) hr.at
      ((has_sc hsk').mono hr.1) ((has_pt hpk').mono hr.1)
    rw [epk, (C49_single_roundtrip P seed _ keys dealer ad v e).2 i (m.sc sk) (m.sc pt) hi hsk
      (by rw [List.getElem?_map, hpt]; rfl)] at h2
    obtain ⟨r, m'', r2, w⟩ := h2
    exact ⟨r, m'', r2, w.2.2.2, hr.1.next.trans w.new_sc.1, hr.1.trans_empty w.1⟩
  all_goals
    rw [e] at h1
    obtain ⟨m1, r1, -⟩ := h1
    rw [hrun] at r1
    cases (Prod.mk.inj r1).1

/-- C120: two plaintexts that are one object, for two recipients that are one object. -/
example : ∃ c m', encryptSingle zeroPrim ⟨[]⟩ [0, 0] [1, 1] 0 [] ⟨fun _ => 3, fun _ => G, fun _ => [], fun _ => 0, 2, ∅⟩ =
    (.ok c, m') ∧ c.ctexts.Nodup ∧ c.ctexts.length = 2 ∧ m'.sc 0 = 3 ∧ m'.pt 1 = G := by
  have h := (C120_encrypt zeroPrim ⟨fun _ => 3, fun _ => G, fun _ => [], fun _ => 0, 2, ∅⟩ [] ⟨[]⟩ 0 [0, 0] [1, 1] []
    (by simp [Has, View.list, View.sc, Obj.addr]) (by simp [Has, View.list, View.pt, Obj.addr])
    (by simp [Has, View.list])).1
  obtain ⟨v, e⟩ := (encrypt_nonvacuous ⟨[]⟩ [G, G] 0 [] (by simp)).1 [3, 3] rfl
  have hl : v.ctexts.length = 2 := by
    have e' := e
    change Mega.Single.encrypt zeroPrim ⟨[]⟩ [3, 3] [G, G] 0 [] = _ at e'
    have hG : [G, G] = [(1 : Fn), 1].map Point.mulByG := by simp [Point.mulByG]
    rw [hG] at e'
    have := (C49_single_roundtrip zeroPrim ⟨[]⟩ [3, 3] [1, 1] 0 [] v e').1
    unfold Mega.Single.checkValidity at this
    by_contra hne
    rw [if_pos (by simpa using fun h => hne (by exact_mod_cast h))] at this
    cases this
  change Outcome _ _ _ (Mega.Single.encrypt zeroPrim ⟨[]⟩ [3, 3] [G, G] 0 []) _ at h
  rw [e] at h
  obtain ⟨c, m', r, hr⟩ := h
  refine ⟨c, m', r, ?_, ?_, hr.1.sc0 (by simp), hr.1.pt0 (by simp)⟩
  · have nd : (View.pt.objs c.ephemeralKey ++ (View.pt.objs c.popPublicKey ++ (View.proof.objs c.popProof ++
      View.sc.list.objs c.ctexts))).Nodup := hr.2.2.1
    have := (List.nodup_append.1 (List.nodup_append.1 (List.nodup_append.1 nd).2.1).2.1).2.1
    rw [objs_list_sc] at this
    exact List.Nodup.of_map _ this
  · rw [(at_ciphertext.1 hr.at).2.2.2.length, hl]

/-! ### C121 -/

/-- The copy `o'` of `o` stands for the same value, and stays as it is whatever is written to the objects of `o`, and the
other way round. -/
def IndependentCopy {ο ν : Type} (V : View ο ν) (m : Mem) (o o' : ο) (m' : Mem) : Prop :=
  V.val m' o' = V.val m o ∧ V.val m' o = V.val m o ∧
  (∀ m'', Writes {x | x ∈ V.objs o} m' m'' → V.val m'' o' = V.val m o) ∧
  (∀ m'', Writes {x | x ∈ V.objs o'} m' m'' → V.val m'' o = V.val m o)

theorem Ret.independent {ο ν : Type} {V : View ο ν} {m m' : Mem} {o o' : ο} (ho : Has V m o)
    (h : Ret V m (V.val m o) o' m') : IndependentCopy V m o o' m' := by
  have hd : ∀ x ∈ V.objs o, x ∉ V.objs o' := by
    intro x hx hx'
    have h1 := ho x hx
    have h2 := (h.2.1 x hx').1
    omega
  have ho' := ho.at.mono h.1
  exact ⟨h.2.2.2, ho'.2, fun m'' w => (h.at.write w fun x hx hx' => hd x hx' hx).2,
    fun m'' w => (ho'.write w fun x hx hx' => hd x hx hx').2⟩

/-- C121, the part that holds: `Clone` of proofs of equal discrete logarithms, of proofs of equal openings and of
single ciphertexts gives an independent copy.  Missing: `ProofOfProduct.Clone`, see `C121_false`. -/
theorem C121_clone_partial (pf : ProofObj) (c : CiphertextObj Addr) (hpf : Has View.proof m pf)
    (hc : Has (View.ciphertext View.sc) m c) :
    (∃ pf' m', cloneProof pf m = (.ok pf', m') ∧ Writes ∅ m m' ∧ IndependentCopy View.proof m pf pf' m') ∧
    (∃ c' m', cloneCiphertextSingle c m = (.ok c', m') ∧ Writes ∅ m m' ∧
      IndependentCopy (View.ciphertext View.sc) m c c' m') := by
  obtain ⟨o, m', r, h⟩ := cloneProof_ret hpf.at
  obtain ⟨o2, m2, r2, h2⟩ := cloneCiphertextSingle_ret hc.at
  exact ⟨⟨o, m', r, h.1, h.independent hpf⟩, ⟨o2, m2, r2, h2.1, h2.independent hc⟩⟩

/-- C121 is false: the clone of a proof of a product stands for the same value but is made of the same scalars, so that
adding to the challenge of the clone changes the original, for every proof. -/
theorem C121_false (pf : ProductProofObj) (d : Addr) (hd : m.sc d ≠ 0) :
    ∃ pf' m', cloneProductProof pf m = (.ok pf', m') ∧ View.productProof.val m' pf' = View.productProof.val m pf ∧
      ∃ r m'', addSc pf'.challenge pf'.challenge d m' = (.ok r, m'') ∧
        (View.productProof.val m'' pf).challenge ≠ (View.productProof.val m pf).challenge := by
  refine ⟨pf, m, rfl, rfl, pf.challenge, m.setSc pf.challenge (m.sc pf.challenge + m.sc d), rfl, ?_⟩
  change (m.setSc pf.challenge (m.sc pf.challenge + m.sc d)).sc pf.challenge ≠ m.sc pf.challenge
  rw [Mem.setSc_self]
  simpa using hd

example : ¬ ∃ pf' m', cloneProductProof ⟨0, 1, 2⟩ ⟨fun _ => 3, fun _ => 0, fun _ => [], fun _ => 0, 3, ∅⟩ = (.ok pf', m') ∧
    IndependentCopy View.productProof ⟨fun _ => 3, fun _ => 0, fun _ => [], fun _ => 0, 3, ∅⟩ ⟨0, 1, 2⟩ pf' m' := by
  rintro ⟨pf', m', e, -, -, -, h⟩
  obtain ⟨⟨⟩, rfl⟩ := Prod.mk.inj e
  have := h (Mem.setSc ⟨fun _ => 3, fun _ => 0, fun _ => [], fun _ => 0, 3, ∅⟩ 0 4)
    ((Writes.refl _ _).setSc (.inl (by simp [View.productProof, View.via, View.prod, View.sc])))
  have h4 : (4 : Fn) = 3 := congrArg Zk.Product.Proof.challenge this
  exact absurd h4 (by decide +kernel)

example : ∃ pf' m', cloneProof ⟨0, 0⟩ ⟨fun _ => 3, fun _ => 0, fun _ => [], fun _ => 0, 1, ∅⟩ = (.ok pf', m') ∧
    IndependentCopy View.proof ⟨fun _ => 3, fun _ => 0, fun _ => [], fun _ => 0, 1, ∅⟩ ⟨0, 0⟩ pf' m' := by
  obtain ⟨⟨pf', m', r, -, h⟩, -⟩ := C121_clone_partial ⟨fun _ => 3, fun _ => 0, fun _ => [], fun _ => 0, 1, ∅⟩ ⟨0, 0⟩
    ⟨0, 0, ⟨0, 0⟩, []⟩ (by simp [Has, View.proof, View.via, View.prod, View.sc, Obj.addr])
    (by simp [Has, View.ciphertext, View.proof, View.via, View.prod, View.sc, View.pt, View.list, Obj.addr])
  exact ⟨pf', m', r, h⟩

end

end Verif.Heap
