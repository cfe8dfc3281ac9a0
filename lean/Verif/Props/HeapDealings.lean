import Verif.Lemmas.HeapTranscript
import Verif.Props.Dealings
import Verif.Props.HeapZk

/-!
C122, C123: the pointer code of dealings.

As in C112–C114 and C119–C121 the statements quantify over every memory and every choice of existing arguments, which may
be the same object or share objects in any way.
-/

set_option autoImplicit false

namespace Verif.Heap

open Mega (zeroPrim)

attribute [local irreducible] Dealings.new Dealings.publiclyVerify Dealings.privateVerify Dealings.newTranscript
  Dealings.reconstructShare Dealings.openDealing Dealings.combineOpenings Dealings.fromDealings
  Dealings.fromDealingsAndOpenings

section

variable (P : Prim) (m : Mem) (ad : Bytes)

/-- A call that returned normally did so on values too. -/
theorem Outcome.ran {α β : Type} {E : Mem → Prop} {g : Go α} {m m' : Mem} {r : Res β} {R : β → α → Mem → Prop} {a : α}
    (h : Outcome E g m r R) (e : g m = (.ok a, m')) : ∃ v, r = .ok v ∧ R v a m' := by
  cases r with
  | ok v =>
    obtain ⟨a', m1, e', h⟩ := h
    rw [e] at e'
    obtain ⟨⟨⟩, rfl⟩ := Prod.mk.inj e'
    exact ⟨v, rfl, h⟩
  | err s =>
    obtain ⟨m1, e', -⟩ := h
    rw [e] at e'
    cases (Prod.mk.inj e').1
  | panic s =>
    obtain ⟨m1, e', -⟩ := h
    rw [e] at e'
    cases (Prod.mk.inj e').1
  | diverge =>
    obtain ⟨m1, e', -⟩ := h
    rw [e] at e'
    cases (Prod.mk.inj e').1

/-! ### C122 -/

/-- C122: making a dealing on memory gives the dealing made on values, built from new objects, no two the same (so none
of them belongs to the shares or the keys); nothing that existed changes, also if it fails. -/
theorem C122_new_dealing (shares : SharesObj) (seed : Seed) (threshold : Int) (pks : List Addr) (dealer : NodeIndex)
    (hs : Has View.shares m shares) (hk : Has View.pt.list m pks) :
    Outcome (Writes ∅ m) (newDealing P shares seed threshold pks dealer ad) m
      (Dealings.new P (View.shares.val m shares) seed threshold (pks.map m.pt) dealer ad) (Ret View.dealing m) :=
  newDealing_ret hs.at hk.at

/-- C122: verifying a dealing on memory ends as it does on values and changes nothing that existed. -/
theorem C122_verify (d : DealingObj) (curve : CurveType) (op : OpObj) (threshold receivers : Int)
    (dealer i : NodeIndex) (sk pk : Addr) (hd : Has View.dealing m d) (hop : Has View.op m op) (hs : sk < m.next)
    (hk : pk < m.next) :
    Outcome (Writes ∅ m) (publiclyVerify P d curve op threshold dealer receivers ad) m
      (Dealings.publiclyVerify P (View.dealing.val m d) curve (View.op.val m op) threshold dealer receivers ad)
      (Ret View.data m) ∧
    Outcome (Writes ∅ m) (privateVerify P d curve sk pk ad dealer i) m
      (Dealings.privateVerify P (View.dealing.val m d) curve (m.sc sk) (m.pt pk) ad dealer i) (Ret View.data m) :=
  ⟨publiclyVerify_ret hd.at hop.at, privateVerify_ret hd.at (has_sc hs) (has_pt hk)⟩

/-- C122, one after the other: the dealing of an honest dealer passes both verifications in every later memory in which
the objects that existed after its making are as they were. -/
theorem C122_deal_then_verify (shares : SharesObj) (op : OpObj) (seed : Seed) (threshold : Int) (pks : List Addr)
    (keys : List Fn) (dealer : NodeIndex) (hs : Has View.shares m shares) (hk : Has View.pt.list m pks)
    (hop : Has View.op m op) (hkeys : pks.map m.pt = keys.map Point.mulByG)
    (hm : Dealings.Matches dealer (View.shares.val m shares) (View.op.val m op)) (d : DealingObj) (m' : Mem)
    (hrun : newDealing P shares seed threshold pks dealer ad m = (.ok d, m')) (later : Mem) (hl : Writes ∅ m' later) :
    (∃ m'', publiclyVerify P d K256 op threshold dealer keys.length ad later = (.ok (), m'') ∧ Writes ∅ later m'') ∧
    ∀ (i : NodeIndex) (pk sk : Addr), 0 ≤ i.toInt → pks[i.toInt.toNat]? = some pk →
      keys[i.toInt.toNat]? = some (m.sc sk) → sk < m.next →
      ∃ m'', privateVerify P d K256 sk pk ad dealer i later = (.ok (), m'') ∧ Writes ∅ later m'' := by
  obtain ⟨v, e, hr⟩ := (C122_new_dealing P m ad shares seed threshold pks dealer hs hk).ran hrun
  rw [hkeys] at e
  obtain ⟨hpub, hpriv⟩ := C54_honest_dealings_verify P _ _ seed threshold keys dealer ad v hm e
  have w := hr.1.trans_empty hl
  have hd := (hr.upto hl).at
  constructor
  · have h := publiclyVerify_ret (P := P) (dealer := dealer) (ad := ad) (curve := K256) (threshold := threshold)
      (receivers := keys.length) hd (hop.at.mono w)
    rw [hpub] at h
    obtain ⟨_, m'', r, h⟩ := h
    exact ⟨m'', r, h.1⟩
  · intro i pk sk hi hpk hsk hsk'
    have hpk' : pk < m.next := (hk.at.mem (List.mem_of_getElem? hpk)) (.pt pk) (by simp [View.pt])
    have epk : m.pt pk = Point.mulByG (m.sc sk) := by
      have h := congrArg (fun l => l[i.toInt.toNat]?) hkeys
      simpa [List.getElem?_map, hpk, hsk] using h
    have h := privateVerify_ret (P := P) (dealer := dealer) (ad := ad) (curve := K256) (recipient := i) hd
      ((has_sc hsk').mono w) ((has_pt hpk').mono w)
    rw [epk, hpriv i _ hi hsk] at h
    obtain ⟨_, m'', r, h⟩ := h
    exact ⟨m'', r, h.1⟩

/-- C122: a product dealing in which both factors, the mask and the secret key are one object, and all recipients are
one object. -/
example : ∃ d m', newDealing zeroPrim (.unmaskedTimesMasked 0 0 0) ⟨[]⟩ 2 [1, 1, 1] 4 []
    ⟨fun _ => 3, fun _ => Point.mulByG 3, fun _ => [], fun _ => 0, 2, ∅⟩ = (.ok d, m') ∧ m'.sc 0 = 3 ∧
    (View.dealing.objs d).Nodup := by
  have h := C122_new_dealing zeroPrim ⟨fun _ => 3, fun _ => Point.mulByG 3, fun _ => [], fun _ => 0, 2, ∅⟩ []
    (.unmaskedTimesMasked 0 0 0) ⟨[]⟩ 2 [1, 1, 1] 4 (by simp [Has, View.shares, View.prod, View.sc, Obj.addr])
    (by simp [Has, View.list, View.pt, Obj.addr])
  obtain ⟨v, e⟩ := dealing_exists (.unmaskedTimesMasked 3 3 3) ⟨[]⟩ 2 ([3, 3, 3].map Point.mulByG) 4 []
    (by norm_num) (by simp)
  change Outcome _ _ _ (Dealings.new zeroPrim (.unmaskedTimesMasked 3 3 3) ⟨[]⟩ 2 ([3, 3, 3].map Point.mulByG) 4 []) _ at h
  rw [e] at h
  obtain ⟨d, m', r, hr⟩ := h
  exact ⟨d, m', r, hr.1.sc0 (by simp), hr.2.2.1⟩

/-! ### C123 -/

/-- C123: combining dealings to a transcript, which is made of new objects; reading the transcript. -/
theorem C123_transcript (threshold : Int) (dealings : List (NodeIndex × DealingObj)) (op : OpObj) (t : Option ComObj)
    (i : NodeIndex) (hd : Has (View.omap View.dealing) m dealings) (hop : Has View.op m op)
    (ht : Has View.com.opt m t) :
    Outcome (Writes ∅ m) (newTranscript threshold dealings op) m
      (Dealings.newTranscript threshold ((View.omap View.dealing).val m dealings) (View.op.val m op))
      (Ret View.com.opt m) ∧
    Outcome (Writes ∅ m) (transcriptConstantTerm t) m (Dealings.constantTerm (View.com.opt.val m t)) (Ret View.pt m) ∧
    Outcome (Writes ∅ m) (transcriptEvaluateAt t i) m (Dealings.transcriptEvaluateAt (View.com.opt.val m t) i)
      (Ret View.pt m) :=
  ⟨newTranscript_ret hd.at hop.at, transcriptConstantTerm_ret ht.at, transcriptEvaluateAt_ret ht.at i⟩

/-- C123: opening dealings, reconstructing shares from openings and combining openings gives new objects. -/
theorem C123_openings (d : DealingObj) (dealings : List (NodeIndex × DealingObj)) (openings : List (NodeIndex × OpeningObj))
    (provided : List (NodeIndex × List (NodeIndex × OpeningObj))) (dealers : List NodeIndex) (os : List OpeningObj)
    (t : Option ComObj) (dealer i : NodeIndex) (sk pk : Addr) (hd : Has View.dealing m d)
    (hds : Has (View.omap View.dealing) m dealings) (ho : Has (View.omap View.opening) m openings)
    (hp : Has (View.omap (View.omap View.opening)) m provided) (hos : Has View.opening.list m os)
    (ht : Has View.com.opt m t) (hs : sk < m.next) (hk : pk < m.next) :
    Outcome (Writes ∅ m) (openDealing P d ad dealer i sk pk) m
      (Dealings.openDealing P (View.dealing.val m d) ad dealer i (m.sc sk) (m.pt pk)) (Ret View.opening m) ∧
    Outcome (Writes ∅ m) (reconstructShare d openings i) m
      (Dealings.reconstructShare (View.dealing.val m d) ((View.omap View.opening).val m openings) i)
      (Ret View.opening m) ∧
    Outcome (Writes ∅ m) (combineOpenings dealers os t i) m
      (Dealings.combineOpenings dealers (os.map (View.opening.val m)) (View.com.opt.val m t) i) (Ret View.opening m) ∧
    Outcome (Writes ∅ m) (fromDealings P dealings t ad i sk pk) m
      (Dealings.fromDealings P ((View.omap View.dealing).val m dealings) (View.com.opt.val m t) ad i (m.sc sk) (m.pt pk))
      (Ret View.opening m) ∧
    Outcome (Writes ∅ m) (fromDealingsAndOpenings P dealings provided t ad i sk pk) m
      (Dealings.fromDealingsAndOpenings P ((View.omap View.dealing).val m dealings)
        ((View.omap (View.omap View.opening)).val m provided) (View.com.opt.val m t) ad i (m.sc sk) (m.pt pk))
      (Ret View.opening m) :=
  ⟨openDealing_ret hd.at (has_sc hs) (has_pt hk), reconstructShare_ret hd.at ho.at, combineOpenings_ret hos.at ht.at,
    fromDealings_ret hds.at ht.at (has_sc hs) (has_pt hk),
    fromDealingsAndOpenings_ret hds.at hp.at ht.at (has_sc hs) (has_pt hk)⟩

/-- C123, one after the other: a transcript is made, and then a node gets its share twice.  The second share stands for
the same value, is made of other objects, and nothing that existed at the beginning has changed. -/
theorem C123_share_twice (threshold : Int) (dealings : List (NodeIndex × DealingObj)) (op : OpObj) (i : NodeIndex)
    (sk pk : Addr) (hd : Has (View.omap View.dealing) m dealings) (hop : Has View.op m op) (hs : sk < m.next)
    (hk : pk < m.next) (t : Option ComObj) (o : OpeningObj) (m1 m2 : Mem)
    (h1 : newTranscript threshold dealings op m = (.ok t, m1))
    (h2 : fromDealings P dealings t ad i sk pk m1 = (.ok o, m2)) :
    ∃ o' m3, fromDealings P dealings t ad i sk pk m2 = (.ok o', m3) ∧ View.opening.val m3 o' = View.opening.val m3 o ∧
      (∀ x ∈ View.opening.objs o', x ∉ View.opening.objs o) ∧ Writes ∅ m m3 := by
  obtain ⟨vt, et, rt⟩ := (newTranscript_ret (threshold := threshold) hd.at hop.at).ran h1
  have w1 := rt.1
  obtain ⟨v, e, r⟩ := (fromDealings_ret (P := P) (ad := ad) (i := i) (hd.at.mono w1) rt.at ((has_sc hs).mono w1)
    ((has_pt hk).mono w1)).ran h2
  have w2 := w1.trans_empty r.1
  have h3 := fromDealings_ret (P := P) (ad := ad) (i := i) (hd.at.mono w2) (rt.upto r.1).at ((has_sc hs).mono w2)
    ((has_pt hk).mono w2)
  rw [e] at h3
  obtain ⟨o', m3, e3, r3⟩ := h3
  refine ⟨o', m3, e3, r3.2.2.2.trans (r.upto r3.1).2.2.2.symm, fun x hx hx' => ?_, w2.trans_empty r3.1⟩
  have := (r3.2.1 x hx).1
  have := (r.2.1 x hx').2
  omega

/-- C123: the same dealing twice, both points of its commitment one object; the sum is made in new objects. -/
example : ∃ t m', newTranscript 2 [(0, ⟨none, some ⟨.pedersen, [1, 1]⟩, none⟩), (1, ⟨none, some ⟨.pedersen, [1, 1]⟩, none⟩)]
    .random ⟨fun _ => 3, fun _ => G, fun _ => [], fun _ => 0, 2, ∅⟩ = (.ok t, m') ∧
    View.com.opt.val m' t = some ⟨.summation, ⟨.pedersen, [0 + G + G, 0 + G + G]⟩⟩ ∧ m'.pt 1 = G := by
  have h := (C123_transcript ⟨fun _ => 3, fun _ => G, fun _ => [], fun _ => 0, 2, ∅⟩ 2
    [(0, ⟨none, some ⟨.pedersen, [1, 1]⟩, none⟩), (1, ⟨none, some ⟨.pedersen, [1, 1]⟩, none⟩)] .random none 0
    (by simp [Has, View.omap, View.list, View.prod, View.data, View.dealing, View.via, View.opt, View.commitment, View.pt,
      Obj.addr]) (by simp [Has, View.op]) (by simp [Has, View.opt])).1
  have e : Dealings.newTranscript 2 ((View.omap View.dealing).val ⟨fun _ => 3, fun _ => G, fun _ => [], fun _ => 0, 2, ∅⟩
      [(0, ⟨none, some ⟨.pedersen, [1, 1]⟩, none⟩), (1, ⟨none, some ⟨.pedersen, [1, 1]⟩, none⟩)])
      (View.op.val ⟨fun _ => 3, fun _ => G, fun _ => [], fun _ => 0, 2, ∅⟩ .random) =
      .ok (some ⟨.summation, ⟨.pedersen, [0 + G + G, 0 + G + G]⟩⟩) := by
    with_unfolding_all rfl
  rw [e] at h
  obtain ⟨t, m', r, hr⟩ := h
  exact ⟨t, m', r, hr.2.2.2, hr.1.pt0 (by simp)⟩

end

end Verif.Heap
