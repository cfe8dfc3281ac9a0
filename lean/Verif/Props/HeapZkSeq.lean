import Verif.Props.HeapZk

/-!
C119, C120 for the other two kinds of proofs and for pairs: one call after the other on memory.
-/

set_option autoImplicit false

namespace Verif.Heap

open Mega (zeroPrim zeroPrim_random)

attribute [local irreducible] Zk.EqOpen.create Zk.EqOpen.verify Zk.Product.create Zk.Product.verify Mega.Pair.encrypt
  Mega.Pair.decrypt

variable (P : Prim) (m : Mem) (ad : Bytes)

/-- C119, one after the other, equal openings: a proof just made is accepted for objects that hold the two commitments, and all
that existed before is as it was. -/
theorem C119_equal_openings_then_verify (seed : Seed) (secret masking ped simple : Addr) (hs : secret < m.next)
    (hk : masking < m.next) (hp : ped < m.next) (hq : simple < m.next)
    (ep : m.pt ped = m.sc secret • G + m.sc masking • Point.H) (eq : m.pt simple = m.sc secret • G) (pf : ProofObj) (m' : Mem)
    (hrun : eqCreate P seed secret masking ad m = (.ok pf, m')) :
    ∃ m'', eqVerify P pf ped simple ad m' = (.ok (), m'') ∧ Writes ∅ m m'' := by
  have h1 := eqCreate_ret (P := P) (seed := seed) (ad := ad) (has_sc hs) (has_sc hk)
  rcases e : Zk.EqOpen.create P seed (m.sc secret) (m.sc masking) ad with v | s | s | _
  · rw [e] at h1
    obtain ⟨o, m1, r1, hr⟩ := h1
    rw [hrun] at r1
    obtain ⟨⟨⟩, rfl⟩ := Prod.mk.inj r1
    have h2 := eqVerify_ret (P := P) (ad := ad) ((has_pt hp).mono hr.1) ((has_pt hq).mono hr.1) hr.at
    rw [ep, eq] at h2
    have hv := (C46_equal_openings_completeness P seed (m.sc secret) (m.sc masking) ad).1 v e
    rw [show Point.pedersen (m.sc secret) (m.sc masking) = m.sc secret • G + m.sc masking • Point.H from Commitment.pedersen_eq ..] at hv
    rw [show Zk.EqOpen.verify P v (m.sc secret • G + m.sc masking • Point.H) (m.sc secret • G) ad = .ok () from hv] at h2
    obtain ⟨u, m'', r2, w⟩ := h2
    exact ⟨m'', r2, hr.1.trans_empty w.1⟩
  all_goals
    rw [e] at h1
    obtain ⟨m1, r1, -⟩ := h1
    rw [hrun] at r1
    cases (Prod.mk.inj r1).1

/-- C119, one after the other, products. -/
theorem C119_product_then_verify (seed : Seed) (a b bm c cm l r p : Addr) (ha : a < m.next) (hb : b < m.next)
    (hbm : bm < m.next) (hc : c < m.next) (hcm : cm < m.next) (hl : l < m.next) (hr' : r < m.next) (hp : p < m.next)
    (ec : m.sc c = m.sc a * m.sc b) (el : m.pt l = m.sc a • G) (er : m.pt r = m.sc b • G + m.sc bm • Point.H)
    (ep : m.pt p = m.sc c • G + m.sc cm • Point.H) (pf : ProductProofObj) (m' : Mem)
    (hrun : productCreate P seed a b bm c cm ad m = (.ok pf, m')) :
    ∃ m'', productVerify P pf l r p ad m' = (.ok (), m'') ∧ Writes ∅ m m'' := by
  have h1 := productCreate_ret (P := P) (seed := seed) (ad := ad) (has_sc ha) (has_sc hb) (has_sc hbm) (has_sc hc) (has_sc hcm)
  rcases e : Zk.Product.create P seed (m.sc a) (m.sc b) (m.sc bm) (m.sc c) (m.sc cm) ad with v | s | s | _
  · rw [e] at h1
    obtain ⟨o, m1, r1, hr⟩ := h1
    rw [hrun] at r1
    obtain ⟨⟨⟩, rfl⟩ := Prod.mk.inj r1
    have h2 := productVerify_ret (P := P) (ad := ad) ((has_pt hl).mono hr.1) ((has_pt hr').mono hr.1) ((has_pt hp).mono hr.1) hr.at
    have hv := (C47_product_completeness P seed (m.sc a) (m.sc b) (m.sc bm) (m.sc c) (m.sc cm) ad v e).1 ec
    rw [show Point.pedersen (m.sc b) (m.sc bm) = m.sc b • G + m.sc bm • Point.H from Commitment.pedersen_eq ..,
      show Point.pedersen (m.sc c) (m.sc cm) = m.sc c • G + m.sc cm • Point.H from Commitment.pedersen_eq ..] at hv
    rw [el, er, ep] at h2
    rw [show Zk.Product.verify P v (m.sc a • G) (m.sc b • G + m.sc bm • Point.H) (m.sc c • G + m.sc cm • Point.H) ad = .ok ()
      from hv] at h2
    obtain ⟨u, m'', r2, w⟩ := h2
    exact ⟨m'', r2, hr.1.trans_empty w.1⟩
  all_goals
    rw [e] at h1
    obtain ⟨m1, r1, -⟩ := h1
    rw [hrun] at r1
    cases (Prod.mk.inj r1).1

/-- C120, one after the other, pairs: what was encrypted is decrypted, to two new objects. -/
theorem C120_encrypt_pair_then_decrypt (seed : Seed) (dealer i : NodeIndex) (pts : List (Addr × Addr)) (pks : List Addr)
    (keys : List Fn) (hp : Has (View.sc.prod View.sc).list m pts) (hk : Has View.pt.list m pks)
    (hkeys : pks.map m.pt = keys.map Point.mulByG) (c : CiphertextObj (Addr × Addr)) (m' : Mem)
    (hrun : encryptPair P seed pts pks dealer ad m = (.ok c, m')) (hi : 0 ≤ i.toInt)
    (pt : Addr × Addr) (pk sk : Addr) (hpt : pts[i.toInt.toNat]? = some pt) (hpk : pks[i.toInt.toNat]? = some pk)
    (hsk : keys[i.toInt.toNat]? = some (m.sc sk)) (hsk' : sk < m.next) :
    ∃ r m'', decryptPair P c ad dealer i sk pk m' = (.ok r, m'') ∧ m''.sc r.1 = m.sc pt.1 ∧ m''.sc r.2 = m.sc pt.2 ∧
      r.1 ≠ r.2 ∧ m.next ≤ r.1 ∧ m.next ≤ r.2 ∧ Writes ∅ m m'' := by
  have h1 := encryptPair_ret (P := P) (seed := seed) (ad := ad) (dealer := dealer) hp.at hk.at
  change Outcome _ _ _ (Mega.Pair.encrypt P seed (pts.map fun p => (m.sc p.1, m.sc p.2)) (pks.map m.pt) dealer ad) _ at h1
  rw [hkeys] at h1
  rcases e : Mega.Pair.encrypt P seed (pts.map fun p => (m.sc p.1, m.sc p.2)) (keys.map Point.mulByG) dealer ad with v | s | s | _
  · rw [e] at h1
    obtain ⟨o, m1, r1, hr⟩ := h1
    rw [hrun] at r1
    obtain ⟨⟨⟩, rfl⟩ := Prod.mk.inj r1
    have hpk' : pk < m.next := (hk.at.mem (List.mem_of_getElem? hpk)) (.pt pk) (by simp [View.pt])
    have epk : m.pt pk = Point.mulByG (m.sc sk) := by
      have h := congrArg (fun l => l[i.toInt.toNat]?) hkeys
      simpa [List.getElem?_map, hpk, hsk] using h
    have h2 := decryptPair_ret (P := P) (ad := ad) (dealer := dealer) (recipient := i) hr.at
      ((has_sc hsk').mono hr.1) ((has_pt hpk').mono hr.1)
    rw [epk, (C50_pair_roundtrip P seed _ keys dealer ad v e).2 i (m.sc sk) (m.sc pt.1, m.sc pt.2) hi hsk
      (by rw [List.getElem?_map, hpt]; rfl)] at h2
    obtain ⟨r, m'', r2, w, hnew, nd, hval⟩ := h2
    have n1 := hnew (.sc r.1) (by simp [View.prod, View.sc])
    have n2 := hnew (.sc r.2) (by simp [View.prod, View.sc])
    obtain ⟨v1, v2⟩ := Prod.mk.inj hval
    refine ⟨r, m'', r2, v1, v2, ?_, hr.1.next.trans n1.1, hr.1.next.trans n2.1, hr.1.trans_empty w⟩
    simpa [View.prod, View.sc] using nd
  all_goals
    rw [e] at h1
    obtain ⟨m1, r1, -⟩ := h1
    rw [hrun] at r1
    cases (Prod.mk.inj r1).1

/-- C119: secret and mask are one object; the proof of equal openings is made and accepted. -/
example : let m : Mem := ⟨fun _ => 3, fun a => if a = 0 then (3 : Fn) • G + (3 : Fn) • Point.H else (3 : Fn) • G, fun _ => [], fun _ => 0, 2, ∅⟩
    ∃ pf m' m'', eqCreate zeroPrim ⟨[]⟩ 0 0 [] m = (.ok pf, m') ∧ eqVerify zeroPrim pf 0 1 [] m' = (.ok (), m'') := by
  intro m
  have h := eqCreate_ret (P := zeroPrim) (seed := ⟨[]⟩) (ad := []) (m := m) (s := 0) (k := 0) (has_sc (by decide)) (has_sc (by decide))
  obtain ⟨v, e⟩ := (C46_equal_openings_completeness zeroPrim ⟨[]⟩ 3 3 []).2 _ _ (zeroPrim_random _)
  rw [show Zk.EqOpen.create zeroPrim ⟨[]⟩ (m.sc 0) (m.sc 0) [] = .ok v from e] at h
  obtain ⟨pf, m', r, -⟩ := h
  obtain ⟨m'', r2, -⟩ := C119_equal_openings_then_verify zeroPrim m [] ⟨[]⟩ 0 0 0 1 (by decide) (by decide) (by decide) (by decide)
    rfl rfl pf m' r
  exact ⟨pf, m', m'', r, r2⟩

end Verif.Heap
