import Verif.Lemmas.Protocol
import Verif.Props.Sign

/-! C116: shares of nodes that complained.  C117: nonce transcripts must be unmasked. -/

set_option autoImplicit false

namespace Verif

open Polynomial Dealings Mega Protocol

/-! ### C116 -/

/-- A node that for each dealing of a transcript either opens it or is given enough correct openings of other nodes gets a
share, whoever the dealers are; and the share opens the transcript at the node's index. -/
theorem C116_recovery (P : Prim) (t : Int) (ds : DealingMap) (cm : NodeIndex → Commitment) (op : Op) (T : Com) (ad : Bytes)
    (i : NodeIndex) (k : Fn) (pk : Pt) (provided : List (NodeIndex × OpeningMap)) (hc : Commits ds cm)
    (hn : OMap.Sorted BitVec.toInt ds) (ht : 0 < t) (hk : ∀ x ∈ ds, (cm x.1).kind = op.dealingKind)
    (hT : newTranscript t ds op = .ok (some T))
    (ho : ∀ x ∈ ds, match OMap.get BitVec.toInt x.1 provided with
      | none => ∃ o, openDealing P x.2 ad x.1 i k pk = .ok o
      | some shares => (shares.map Prod.fst).Nodup ∧ (cm x.1).points.length ≤ shares.length ∧
          ∀ y ∈ shares, Opens (cm x.1) y.1 y.2) :
    ∃ o, fromDealingsAndOpenings P ds provided (some T) ad i k pk = .ok o ∧ Opens T.c i o := by
  have hnd := OMap.nodup_keys hn
  obtain ⟨w, hs⟩ := newTranscript_shape hc hnd hT
  have hex : ∀ x ∈ ds, ∃ o, (match OMap.get BitVec.toInt x.1 provided with
      | some shares => reconstructShare x.2 shares i
      | none => openDealing P x.2 ad x.1 i k pk) = .ok o ∧ Opens (cm x.1) i o := by
    intro x hx
    have hx' := ho x hx
    cases hg : OMap.get BitVec.toInt x.1 provided with
    | none =>
      rw [hg] at hx'
      obtain ⟨o, h⟩ := hx'
      exact ⟨o, h, (openDealing_ok (hc x hx) h).2⟩
    | some shares =>
      rw [hg] at hx'
      obtain ⟨h1, h2, h3⟩ := hx'
      have hinj : ∀ y ∈ shares, ∀ z ∈ shares, y.1 = z.1 → y = z := fun y hy z hz e => List.inj_on_of_nodup_map h1 hy hz e
      have hf : ∀ j, ∃ o, ∀ y ∈ shares, y.1 = j → y.2 = o := by
        intro j
        by_cases hj : ∃ y ∈ shares, y.1 = j
        · obtain ⟨y, hy, rfl⟩ := hj
          exact ⟨y.2, fun z hz e => by rw [hinj z hz y hy e]⟩
        · exact ⟨.simple 0, fun y hy e => absurd ⟨y, hy, e⟩ hj⟩
      choose o hoo using hf
      have hshares : shares = (shares.map Prod.fst).map fun j => (j, o j) := by
        rw [List.map_map]
        conv_lhs => rw [← List.map_id shares]
        refine List.map_congr_left fun y hy => ?_
        simp only [Function.comp_apply, id]
        rw [← hoo y.1 y hy rfl]
      have hlen := hs.lengths x hx
      obtain ⟨res, h4, h5, -⟩ := C64_reconstruction x.2 (cm x.1) (hc x hx)
        (by intro e; rw [e] at hlen; simp at hlen; omega) (shares.map Prod.fst) o h1 (by rw [List.length_map]; exact h2)
        (fun j hj => by
          obtain ⟨y, hy, rfl⟩ := List.mem_map.1 hj
          rw [← hoo y.1 y hy rfl]
          exact h3 y hy) i
      rw [← hshares] at h4
      exact ⟨res, h4, h5⟩
  have hfun : ∀ j, ∃ o, ∀ x ∈ ds, x.1 = j → (match OMap.get BitVec.toInt x.1 provided with
      | some shares => reconstructShare x.2 shares i
      | none => openDealing P x.2 ad x.1 i k pk) = .ok o ∧ Opens (cm x.1) i o := by
    intro j
    by_cases hj : ∃ x ∈ ds, x.1 = j
    · obtain ⟨x, hx, rfl⟩ := hj
      obtain ⟨o, h⟩ := hex x hx
      refine ⟨o, fun y hy e => ?_⟩
      rw [List.inj_on_of_nodup_map hnd hy hx e]
      exact h
    · exact ⟨.simple 0, fun x hx e => absurd ⟨x, hx, e⟩ hj⟩
  choose o hoo using hfun
  have hval : ∃ v, fromDealingsAndOpenings P ds provided (some T) ad i k pk = .ok v := by
    rw [fromDealingsAndOpenings, Res.mapM'_ok (g := fun x => o x.1), Res.ok_bind,
      combineOpenings_eq hs ht hk i o fun x hx => (hoo x.1 x hx rfl).2]
    · exact ⟨_, rfl⟩
    · exact fun x hx => (hoo x.1 x hx rfl).1
  obtain ⟨v, hv⟩ := hval
  obtain ⟨c, e, h⟩ := (C63_shares_consistent P ds provided (some T) ad i k pk v).2 hv
  cases e
  exact ⟨v, hv, h⟩

/-- If moreover the commitments are to polynomials and all openings are their values, then the share is the very one the
node would have got from dealings that it can open. -/
theorem C116_same_share (P : Prim) (dealers : List NodeIndex) (d d' : NodeIndex → Dealing) (q r : NodeIndex → List Fn)
    (kind : Kind) (T : Option Com) (ad : Bytes) (i : NodeIndex) (k : Fn) (pk : Pt) (provided : List (NodeIndex × OpeningMap))
    (hq : ∀ j ∈ dealers, q j ≠ [] ∧ (r j).length = (q j).length)
    (hc : ∀ j ∈ dealers, (d j).commitment = some (match kind with
      | .simple => ⟨.simple, (q j).map fun v : Fn => v • G⟩
      | .pedersen => ⟨.pedersen, List.zipWith (fun v m : Fn => v • G + m • Point.H) (q j) (r j)⟩))
    (value : NodeIndex → NodeIndex → Opening)
    (hvalue : ∀ j l, value j l = match kind with
      | .simple => .simple ((toPoly (q j)).eval (place l))
      | .pedersen => .pedersen ((toPoly (q j)).eval (place l)) ((toPoly (r j)).eval (place l)))
    (ho : ∀ j ∈ dealers, match OMap.get BitVec.toInt j provided with
      | none => openDealing P (d j) ad j i k pk = .ok (value j i)
      | some shares => (shares.map Prod.fst).Nodup ∧ (q j).length ≤ shares.length ∧ ∀ y ∈ shares, y.2 = value j y.1)
    (ho' : ∀ j ∈ dealers, openDealing P (d' j) ad j i k pk = .ok (value j i)) :
    fromDealingsAndOpenings P (mapOf dealers d) provided T ad i k pk = fromDealings P (mapOf dealers d') T ad i k pk := by
  have hv : ∀ j l, value j l = valueOf kind (q j) (r j) l := fun j l => by rw [hvalue]; cases kind <;> rfl
  have h1 : Res.mapM' (fun x : NodeIndex × Dealing => openDealing P x.2 ad x.1 i k pk) (mapOf dealers d') =
      .ok ((mapOf dealers d').map fun x => value x.1 i) := Res.mapM'_ok fun x hx => by
    obtain ⟨j, hj, rfl⟩ := List.mem_map.1 hx
    exact ho' j hj
  have h2 : Res.mapM' (fun x : NodeIndex × Dealing =>
      match OMap.get BitVec.toInt x.1 provided with
      | some shares => reconstructShare x.2 shares i
      | none => openDealing P x.2 ad x.1 i k pk) (mapOf dealers d) = .ok ((mapOf dealers d).map fun x => value x.1 i) := by
    refine Res.mapM'_ok fun x hx => ?_
    obtain ⟨j, hj, rfl⟩ := List.mem_map.1 hx
    have h := ho j hj
    simp only
    cases hg : OMap.get BitVec.toInt j provided with
    | none => rw [hg] at h; exact h
    | some shares =>
      rw [hg] at h
      obtain ⟨e1, e2, e3⟩ := h
      obtain ⟨hqj, hrj⟩ := hq j hj
      have hcom : (d j).commitment = some (commitTo kind (q j) (r j)) := by rw [hc j hj]; cases kind <;> rfl
      have hlen : (commitTo kind (q j) (r j)).points.length = (q j).length := commitTo_length rfl hrj
      have hshares : shares = (shares.map Prod.fst).map fun y => (y, value j y) := by
        rw [List.map_map]
        conv_lhs => rw [← List.map_id shares]
        refine List.map_congr_left fun y hy => ?_
        simp only [Function.comp_apply, id]
        rw [← e3 y hy]
      obtain ⟨res, h4, h5, h6, h7⟩ := C64_reconstruction (d j) _ hcom
        (by intro e; rw [e] at hlen; exact hqj (List.length_eq_zero_iff.1 hlen.symm)) (shares.map Prod.fst) (value j) e1
        (by rw [hlen, List.length_map]; exact e2) (fun y _ => by rw [hv]; exact opens_valueOf kind hqj hrj y) i
      rw [← hshares] at h4
      simp only
      rw [h4]
      congr 1
      cases kind with
      | simple => exact (h6 rfl _ (by rw [hv]; exact opens_valueOf .simple hqj hrj i)).symm
      | pedersen =>
        rw [hvalue]
        exact h7 (q j) (r j) rfl hrj.symm fun y _ => hvalue j y
  rw [fromDealings, h1, Res.ok_bind]
  refine Eq.trans (b := Res.bind (.ok ((mapOf dealers d).map fun x => value x.1 i))
    (fun openings => combineOpenings ((mapOf dealers d).map Prod.fst) openings T i)) ?_ ?_
  · rw [← h2]; rfl
  · show combineOpenings _ _ T i = _
    simp [mapOf, Function.comp_def]

/-- A case of C116: the only dealing has no ciphertext at all, and node 2 gets its share from the openings of nodes 0 and 4. -/
example : ∃ T o, newTranscript 2 [(0, ⟨none, some ⟨.pedersen, List.zipWith Point.pedersen [6, 1] [2, 3]⟩, none⟩)] .random =
      .ok (some T) ∧
    fromDealingsAndOpenings zeroPrim [(0, ⟨none, some ⟨.pedersen, List.zipWith Point.pedersen [6, 1] [2, 3]⟩, none⟩)]
      [(0, [(0, .pedersen 7 5), (4, .pedersen 11 17)])] (some T) [] 2 1 G = .ok o := by
  have hc : Commits [(0, ⟨none, some ⟨.pedersen, List.zipWith Point.pedersen [6, 1] [2, 3]⟩, none⟩)]
      (fun _ => ⟨.pedersen, List.zipWith Point.pedersen [6, 1] [2, 3]⟩) := by
    intro x hx
    simp only [List.mem_singleton] at hx
    subst hx
    rfl
  have hT := newTranscript_random hc (t := 2) (by omega) (by intro x hx; rfl) (by intro x hx; rfl)
  have hv : ∀ (j : NodeIndex) (a b : Fn), 6 + place j = a → 2 + place j * 3 = b →
      Opens ⟨.pedersen, List.zipWith Point.pedersen [6, 1] [2, 3]⟩ j (.pedersen a b) := by
    rintro j a b rfl rfl
    refine ⟨rfl, ?_⟩
    rw [valueAtNode, valueAt]
    refine (Fin.sum_univ_two (fun k : Fin 2 => place j ^ (k : ℕ) •
      ([Point.pedersen 6 2, Point.pedersen 1 3] : List Pt)[k])).trans ?_
    simp [Point.pedersen, Point.mulPoints]
    module
  obtain ⟨o, ho, -⟩ := C116_recovery zeroPrim 2 _ _ .random _ [] 2 1 G [(0, [(0, .pedersen 7 5), (4, .pedersen 11 17)])] hc
    (by simp [OMap.Sorted]) (by omega) (by intro x hx; rfl) hT (by
      intro x hx
      simp only [List.mem_singleton] at hx
      subst hx
      refine ⟨by simp, by simp, fun y hy => ?_⟩
      simp only [List.mem_cons, List.not_mem_nil, or_false] at hy
      rcases hy with rfl | rfl
      · exact hv _ _ _ (by decide +kernel) (by decide +kernel)
      · exact hv _ _ _ (by decide +kernel) (by decide +kernel))
  exact ⟨_, o, hT, ho⟩

/-! ### C117 -/

open Sign in
/-- A nonce transcript is accepted only if it is the result of an interpolation and not masked; the nonce's public point is
then its constant term.  With any other transcript nothing can be signed, combined or verified (for message hashes of more
than 64 bytes verification panics first). -/
theorem C117_unmasked_nonce (P : Prim) (path : List Key.Index) (hashedMsg randomness : Bytes) (keyT presigT : Option Com) :
    (∀ d, deriveRho P hashedMsg randomness path keyT presigT = .ok d →
      ∃ p rest, presigT = some ⟨.interpolation, ⟨.simple, p :: rest⟩⟩ ∧ d.randomizedPresig = p + d.randomizer • G) ∧
    ((∀ pts, presigT ≠ some ⟨.interpolation, ⟨.simple, pts⟩⟩) →
      (deriveRho P hashedMsg randomness path keyT presigT).isErr = true ∧
      (∀ lambda kl xl, (SigShare.new P path hashedMsg randomness keyT presigT lambda kl xl).isErr = true) ∧
      (∀ (sh : SigShare) signer l kl xl,
        (sh.verify P path hashedMsg randomness signer keyT presigT l kl xl).isErr = true) ∧
      (∀ threshold shares, (combine P path hashedMsg randomness keyT presigT threshold shares).isErr = true) ∧
      (∀ sig : Signature, hashedMsg.length ≤ 64 → (sig.verify P path hashedMsg randomness keyT presigT).isErr = true)) := by
  constructor
  · intro d hd
    obtain ⟨pre, pk, c, h1, -, -, -, h5, -⟩ := deriveRho_ok hd
    obtain _ | ⟨w, kind, pts⟩ := presigT
    · cases h1
    · cases w <;> cases kind <;> try cases h1
      cases pts with
      | nil => cases h1
      | cons p rest => exact ⟨p, rest, rfl, by rw [h5]; rw [Res.ok.inj h1]⟩
  · intro h
    have hpre : preSigOf presigT = .err "unexpected commitment type" := by
      obtain _ | ⟨w, kind, pts⟩ := presigT
      · rfl
      · cases w <;> cases kind <;> first | rfl | exact absurd rfl (h pts)
    have hd : deriveRho P hashedMsg randomness path keyT presigT = .err "unexpected commitment type" := by
      rw [deriveRho, hpre]; rfl
    refine ⟨by rw [hd]; rfl, fun _ _ _ => by rw [SigShare.new, hd]; rfl, fun sh _ _ _ _ => by rw [SigShare.verify, hd]; rfl,
      fun threshold shares => ?_, fun sig hl => ?_⟩
    · rw [combine, hd]
      split_ifs <;> rfl
    · rw [Signature.verify, hd]
      split_ifs
      · rfl
      · rw [convertHashToInteger, Scalar.fromBytesWide, Scalar.fromWideBytes, if_neg (by omega)]
        rfl

/-- A case of C117: a masked nonce transcript. -/
example : (Sign.deriveRho zeroPrim [1] [2] [] none (some ⟨.interpolation, ⟨.pedersen, [G]⟩⟩)).isErr = true :=
  ((C117_unmasked_nonce zeroPrim [] [1] [2] none (some ⟨.interpolation, ⟨.pedersen, [G]⟩⟩)).2 (by simp)).1

end Verif
