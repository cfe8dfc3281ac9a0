import Verif.Spec.OraclePads
import Verif.Props.Oracle
import Verif.Props.Mega

/-!
Property C152: in the random oracle model the entries of a ciphertext show nothing about the plaintexts to a program that does
not ask for a pad, and to ask for a pad is to write down the Diffie-Hellman point of ephemeral key and public key.
-/

set_option autoImplicit false

namespace Verif

open Zk RoCall Oracle Mega

namespace Oracle

theorem last_of_sorted {V : Type} {l : List (Bytes × V)} (hs : OMap.Sorted nameKey l) {x : Bytes × V} (hx : x ∈ l)
    (hmax : ∀ y ∈ l, ¬ nameKey x.1 < nameKey y.1) : ∃ l', l = l' ++ [x] := by
  obtain ⟨l', y, rfl⟩ : ∃ l' y, l = l' ++ [y] := by
    refine ⟨l.dropLast, l.getLast (List.ne_nil_of_mem hx), (List.dropLast_append_getLast _).symm⟩
  rcases List.mem_append.1 hx with h | h
  · exact absurd ((List.pairwise_append.1 hs).2.2 x h y (List.mem_singleton.2 rfl)) (hmax y (by simp))
  · rw [List.mem_singleton] at h
    exact ⟨l', by rw [h]⟩

/-- The Diffie-Hellman point stands at the end of what is hashed for a pad. -/
theorem tail33_pad {t : CType} {d r : NodeIndex} {ad : Bytes} {pk eph sh : Pt} {q : Question}
    (h : question (padTranscript t d r ad pk eph sh) = some q) : tail33 q = Point.serialize sh := by
  rw [padTranscript_eq] at h
  obtain ⟨m, hm, rfl⟩ := question_run.1 h
  have hrep := Ro.rep_run t.encryptionDst (padCalls d r ad pk eph sh)
  set r' := Ro.run t.encryptionDst (padCalls d r ad pk eph sh) with hr'
  have hmem : RoCall.enc (ptCall "shared_secret" sh) ∈ r'.inputs := (hrep.mem _).2 ⟨_, mem_pad.2.2.2.2.1, rfl⟩
  obtain ⟨l', hl'⟩ := last_of_sorted hrep.sorted hmem (by
    intro y hy
    obtain ⟨c, hc, rfl⟩ := (hrep.mem _).1 hy
    have hc' : c ∈ padCalls d r ad pk eph sh := by
      rw [padCalls_accepted] at hc
      exact (List.mem_filter.1 hc).1
    have key : c.name ∈ [ascii "dealer_index", ascii "recipient_index", ascii "associated_data", ascii "public_key",
        ascii "ephemeral_key", ascii "shared_secret"] := by
      have := List.mem_map_of_mem (f := RoCall.name) hc'
      exact this
    have all : ∀ x ∈ [ascii "dealer_index", ascii "recipient_index", ascii "associated_data", ascii "public_key",
        ascii "ephemeral_key", ascii "shared_secret"], ¬ nameKey (ascii "shared_secret") < nameKey x := by decide +kernel
    exact all _ key)
  rw [Ro.formRoInput_eq (List.ne_nil_of_mem hmem), Res.ok.injEq] at hm
  rw [tail33, ← hm, hl', List.flatMap_append, List.flatMap_singleton]
  have hchunk : ∃ pre, Ro.chunk (RoCall.enc (ptCall "shared_secret" sh)) = pre ++ Point.serialize sh := by
    obtain ⟨a, ha⟩ : ∃ a, Point.serializeTagged sh = a ++ Point.serialize sh := ⟨_, rfl⟩
    refine ⟨[UInt8.ofNat (ascii "shared_secret").length] ++ ascii "shared_secret" ++
      ([Ro.tyPoint] ++ toBE 4 (Point.serializeTagged sh).length ++ a), ?_⟩
    simp only [Ro.chunk, RoCall.enc, ptCall]
    rw [List.append_assoc _ _ (Point.serialize sh), List.append_assoc _ a (Point.serialize sh), ← ha]
  obtain ⟨pre, hpre⟩ := hchunk
  rw [hpre, ← List.append_assoc]
  rw [List.drop_left' (by simp only [List.length_append, Point.length_serialize]; omega)]

theorem disjoint_questions {r r' : Ro} (hd : r.Disjoint r') {q : Question} (h : question r = some q)
    (h' : question r' = some q) : False := by
  unfold question at h h'
  split at h
  · rename_i m hm
    split at h'
    · rename_i m' hm'
      exact hd m m' hm hm' ((Option.some.inj h).trans (Option.some.inj h').symm)
    · cases h'
  · cases h

theorem index_eq {m i j : Nat} (hm : m ≤ 2 ^ 32) (hi : i < m) (hj : j < m)
    (h : (BitVec.ofNat 64 i).toNat % 2 ^ 32 = (BitVec.ofNat 64 j).toNat % 2 ^ 32) : i = j := by
  simp only [BitVec.toNat_ofNat] at h
  omega

/-- Different positions, different questions. -/
theorem pads_injective {D : Finset Question} {m : Nat} (hm : m ≤ 2 ^ 32) {t : CType} {d : NodeIndex} {ad : Bytes} {beta : Fn}
    {keys : Fin m → Pt} {qs : Fin m → D} (hqs : ∀ i : Fin m, within D (padOf t d ad beta i (keys i)) = some (qs i)) :
    Function.Injective qs := by
  intro i j hij
  have hi := within_eq.1 (hqs i)
  have hj := within_eq.1 (hqs j)
  rw [hij] at hi
  by_contra hne
  exact disjoint_questions (C77_pad_binding_partial t t d (BitVec.ofNat 64 i) d (BitVec.ofNat 64 j) ad ad (keys i) (beta • G)
    (beta • keys i) (keys j) (beta • G) (beta • keys j) fun h => hne (Fin.ext (index_eq hm i.2 j.2 h.2.2.1))) hi hj

variable {D : Finset Question} {A R : Type} {m : Nat}

theorem share_le_add {α : Type} [Finite α] (p p1 p2 : α → Prop) (h : ∀ a, p a → p1 a ∨ p2 a) :
    share p ≤ share p1 + share p2 := by
  rw [share, share, share, ← add_div]
  refine div_le_div_of_nonneg_right ?_ (Nat.cast_nonneg _)
  have : Nat.card {a // p a} ≤ Nat.card {a // p1 a} + Nat.card {a // p2 a} := by
    classical
    rw [← Nat.card_sum]
    refine Nat.card_le_card_of_injective
      (fun a : {a // p a} => if h1 : p1 a.1 then Sum.inl ⟨a.1, h1⟩ else Sum.inr ⟨a.1, (h a.1 a.2).resolve_left h1⟩) ?_
    intro a b hab
    dsimp only at hab
    split_ifs at hab
    · exact Subtype.ext (Subtype.mk.inj (Sum.inl.inj hab))
    · exact Subtype.ext (Subtype.mk.inj (Sum.inr.inj hab))
  exact_mod_cast this

theorem codeOracle_eq {P : Prim} {r : Ro} {q : Question} (hq : question r = some q) {a : Fn}
    (h : r.outputScalars P 1 = .ok [a]) : codeOracle P q = a := by
  unfold question at hq
  split at hq
  · rename_i m hm
    rw [Ro.outputScalars, hm, Res.ok_bind] at h
    rw [← Option.some.inj hq]
    simp only [codeOracle, h]
  · cases hq

theorem codeOracle2_eq {P : Prim} {r : Ro} {q : Question} (hq : question r = some q) {a b : Fn}
    (h : r.outputScalars P 2 = .ok [a, b]) : codeOracle2 P q = (a, b) := by
  unfold question at hq
  split at hq
  · rename_i m hm
    rw [Ro.outputScalars, hm, Res.ok_bind] at h
    rw [← Option.some.inj hq]
    simp only [codeOracle2, h]
  · cases hq

end Oracle

variable {D : Finset Question} {A R : Type} {m : Nat}

/-- C152, the two games: what happens before a pad of a hidden position is asked for, and how often that happens, is the same when
the entries at these positions are made up at random, independently of oracle and plaintexts. -/
theorem C152_made_up [Finite A] [AddCommGroup A] (hm : m ≤ 2 ^ 32) (t : CType) (d : NodeIndex) (ad : Bytes) (beta : Fn)
    (keys : Fin m → Pt) (qs : Fin m → D) (hqs : ∀ i : Fin m, within D (padOf t d ad beta i (keys i)) = some (qs i))
    (hidden : Finset (Fin m)) (plain : Fin m → A) (g : (D → A) → (Fin m → A) → Alg D A R) (hg : Fair qs hidden g)
    (win : R → Prop) :
    share (fun O : D → A => let p := g O (entries qs plain O); ¬ AsksFor qs hidden p O ∧ win (p.run O)) =
      share (fun x : (D → A) × (hidden → A) =>
        let p := g x.1 (madeUp qs plain hidden x.1 x.2); ¬ AsksFor qs hidden p x.1 ∧ win (p.run x.1)) ∧
    share (fun O : D → A => AsksFor qs hidden (g O (entries qs plain O)) O) =
      share (fun x : (D → A) × (hidden → A) => AsksFor qs hidden (g x.1 (madeUp qs plain hidden x.1 x.2)) x.1) := by
  have hinj := pads_injective hm hqs
  set qh : hidden → D := fun i => qs i.1 with hqh
  have hinj' : Function.Injective qh := fun i j h => Subtype.ext (hinj h)
  have hfor : ∀ (p : Alg D A R) (O : D → A), AsksFor qs hidden p O ↔ AsksOne qh p O := fun p O =>
    ⟨fun ⟨i, hi, h⟩ => ⟨⟨i, hi⟩, h⟩, fun ⟨i, h⟩ => ⟨i.1, i.2, h⟩⟩
  have hent : ∀ O : D → A, entries qs plain O = madeUp qs plain hidden O fun i => O (qh i) + plain i.1 := by
    intro O
    funext i
    simp only [entries, madeUp, hqh, dite_eq_ite, ite_self]
  have hoff : ∀ O O' : D → A, AgreeOff qh O O' → ∀ x, (∀ i ∈ hidden, qs i ≠ x) → O x = O' x := fun O O' h x hx =>
    h x fun i => hx i.1 i.2
  have hmade : ∀ (O O' : D → A) (e : hidden → A), AgreeOff qh O O' →
      madeUp qs plain hidden O e = madeUp qs plain hidden O' e := by
    intro O O' e h
    funext i
    simp only [madeUp]
    split_ifs with hi
    · rfl
    · rw [hoff O O' h (qs i) fun j hj hji => hi (hinj hji ▸ hj)]
  have hprog : ∀ (O O' : D → A) (e : hidden → A), AgreeOff qh O O' →
      g O (madeUp qs plain hidden O e) = g O' (madeUp qs plain hidden O' e) := by
    intro O O' e h
    rw [hmade O O' e h, hg O O' (hoff O O' h)]
  simp only [hent, hfor]
  constructor
  · refine fresh_answers qh hinj' (fun i => plain i.1)
      (fun O e => ¬ AsksOne qh (g O (madeUp qs plain hidden O e)) O ∧ win ((g O (madeUp qs plain hidden O e)).run O)) ?_
    intro O O' e h
    rw [hprog O O' e h, asksOne_congr qh h]
    refine and_congr_right fun hn => ?_
    rw [run_congr qh h _ fun hh => hn ((asksOne_congr qh h _).1 hh)]
  · refine fresh_answers qh hinj' (fun i => plain i.1) (fun O e => AsksOne qh (g O (madeUp qs plain hidden O e)) O) ?_
    intro O O' e h
    rw [hprog O O' e h, asksOne_congr qh h]

/-- C152: two lists of plaintexts that agree outside the hidden positions are told apart with an advantage of at most the share of
oracles and random entries for which a pad is asked for. -/
theorem C152_indistinguishable [Finite A] [AddCommGroup A] (hm : m ≤ 2 ^ 32) (t : CType) (d : NodeIndex) (ad : Bytes)
    (beta : Fn) (keys : Fin m → Pt) (qs : Fin m → D)
    (hqs : ∀ i : Fin m, within D (padOf t d ad beta i (keys i)) = some (qs i)) (hidden : Finset (Fin m)) (plain plain' : Fin m → A)
    (hagree : ∀ i ∉ hidden, plain i = plain' i) (g : (D → A) → (Fin m → A) → Alg D A R) (hg : Fair qs hidden g)
    (win : R → Prop) :
    share (fun O : D → A => win ((g O (entries qs plain O)).run O)) ≤
      share (fun O : D → A => win ((g O (entries qs plain' O)).run O)) +
        share (fun x : (D → A) × (hidden → A) => AsksFor qs hidden (g x.1 (madeUp qs plain hidden x.1 x.2)) x.1) := by
  obtain ⟨h1, h2⟩ := C152_made_up hm t d ad beta keys qs hqs hidden plain g hg win
  obtain ⟨h1', -⟩ := C152_made_up hm t d ad beta keys qs hqs hidden plain' g hg win
  have hsame : ∀ (O : D → A) (e : hidden → A), madeUp qs plain hidden O e = madeUp qs plain' hidden O e := by
    intro O e
    funext i
    simp only [madeUp]
    split_ifs with hi
    · rfl
    · rw [hagree i hi]
  rw [← h2]
  calc _ ≤ share (fun O : D → A => let p := g O (entries qs plain O); ¬ AsksFor qs hidden p O ∧ win (p.run O)) +
        share (fun O : D → A => AsksFor qs hidden (g O (entries qs plain O)) O) := by
        refine share_le_add _ _ _ fun O hO => ?_
        by_cases ha : AsksFor qs hidden (g O (entries qs plain O)) O
        · exact Or.inr ha
        · exact Or.inl ⟨ha, hO⟩
    _ ≤ _ := by
        refine add_le_add ?_ le_rfl
        rw [h1]
        simp only [hsame]
        rw [← h1']
        exact share_mono fun O hO => hO.2

/-- C152, to ask for a pad is to write down the Diffie-Hellman point. -/
theorem C152_shared_secret (t : CType) (d : NodeIndex) (ad : Bytes) (beta : Fn) (keys : Fin m → Pt) (qs : Fin m → D)
    (hqs : ∀ i : Fin m, within D (padOf t d ad beta i (keys i)) = some (qs i)) (hidden : Finset (Fin m)) (g : Alg D A R) (O : D → A)
    (h : AsksFor qs hidden g O) : ∃ q ∈ g.asked O, ∃ i ∈ hidden, tail33 q.1 = Point.serialize (beta • keys i) := by
  obtain ⟨i, hi, hq⟩ := h
  exact ⟨qs i, hq, i, hi, tail33_pad (within_eq.1 (hqs i))⟩

/-- C152, the link to the code: with the code's hash functions as oracles, the entries of ciphertexts are `entries`, and the rest
of a ciphertext does not depend on the plaintexts. -/
theorem C152_code (P : Prim) (seed : Seed) (keys : List Pt) (d : NodeIndex) (ad : Bytes) :
    (∀ (plain : List Fn) (ct : Ciphertext Fn), Single.encrypt P seed plain keys d ad = .ok ct →
      ∃ beta : Fn, ct.ephemeralKey = beta • G ∧ plain.length = keys.length ∧
        (∀ qs : Fin keys.length → D, (∀ i : Fin keys.length, within D (padOf .single d ad beta i keys[i]) = some (qs i)) →
          ct.ctexts = List.ofFn (entries qs (fun i => plain.getD i 0) fun q => codeOracle P q.1)) ∧
        ∀ plain' : List Fn, plain'.length = keys.length → ∃ ct', Single.encrypt P seed plain' keys d ad = .ok ct' ∧
          ct'.ephemeralKey = ct.ephemeralKey ∧ ct'.popPublicKey = ct.popPublicKey ∧ ct'.popProof = ct.popProof) ∧
    (∀ (plain : List (Fn × Fn)) (ct : Ciphertext (Fn × Fn)), Pair.encrypt P seed plain keys d ad = .ok ct →
      ∃ beta : Fn, ct.ephemeralKey = beta • G ∧ plain.length = keys.length ∧
        (∀ qs : Fin keys.length → D, (∀ i : Fin keys.length, within D (padOf .pairs d ad beta i keys[i]) = some (qs i)) →
          ct.ctexts = List.ofFn (entries qs (fun i => plain.getD i 0) fun q => codeOracle2 P q.1)) ∧
        ∀ plain' : List (Fn × Fn), plain'.length = keys.length → ∃ ct', Pair.encrypt P seed plain' keys d ad = .ok ct' ∧
          ct'.ephemeralKey = ct.ephemeralKey ∧ ct'.popPublicKey = ct.popPublicKey ∧ ct'.popProof = ct.popProof) := by
  constructor
  · intro plain ct h
    rw [Single.encrypt] at h
    obtain ⟨u, hcheck, h⟩ := Res.bind_eq_ok.1 h
    obtain ⟨⟨beta, v, pub, pf⟩, heph, h⟩ := Res.bind_eq_ok.1 h
    obtain ⟨hlen, hne⟩ := (checkPlaintexts_ok_iff _ _).1 hcheck
    obtain ⟨hv, -⟩ := computeEphKeyAndPop_spec heph
    obtain ⟨cs, hcs, hcl, hent⟩ := Single.encryptLoop_spec P d ad beta v 0 keys plain hlen
    simp only [hcs, Res.ok_bind, Res.ok.injEq] at h
    subst h
    refine ⟨beta, hv, hlen, fun qs hqs => ?_, fun plain' hl' => ?_⟩
    · refine List.ext_getElem? fun j => ?_
      by_cases hj : j < keys.length
      · have hjp : j < plain.length := hlen ▸ hj
        obtain ⟨h0, e1, e2⟩ := hent j keys[j] plain[j] (List.getElem?_eq_getElem hj) (List.getElem?_eq_getElem hjp)
        rw [Nat.zero_add, hv] at e1
        have hq := codeOracle_eq (within_eq.1 (hqs ⟨j, hj⟩)) e1
        rw [e2, List.getElem?_ofFn, dif_pos hj, entries, hq]
        simp only [List.getD_eq_getElem?_getD, List.getElem?_eq_getElem hjp, Option.getD_some]
      · rw [List.getElem?_eq_none (by dsimp only; omega), List.getElem?_ofFn, dif_neg hj]
    · obtain ⟨cs', hcs', -, -⟩ := Single.encryptLoop_spec P d ad beta v 0 keys plain' hl'
      have hne' : plain' ≠ [] := by
        rintro rfl
        exact hne (List.length_eq_zero_iff.1 (hlen.trans hl'.symm))
      exact ⟨⟨v, pub, pf, cs'⟩, by simp only [Single.encrypt, (checkPlaintexts_ok_iff _ _).2 ⟨hl', hne'⟩, heph, hcs', Res.ok_bind],
        rfl, rfl, rfl⟩
  · intro plain ct h
    rw [Pair.encrypt] at h
    obtain ⟨u, hcheck, h⟩ := Res.bind_eq_ok.1 h
    obtain ⟨⟨beta, v, pub, pf⟩, heph, h⟩ := Res.bind_eq_ok.1 h
    obtain ⟨hlen, hne⟩ := (checkPlaintexts_ok_iff _ _).1 hcheck
    obtain ⟨hv, -⟩ := computeEphKeyAndPop_spec heph
    obtain ⟨cs, hcs, hcl, hent⟩ := Pair.encryptLoop_spec P d ad beta v 0 keys plain hlen
    simp only [hcs, Res.ok_bind, Res.ok.injEq] at h
    subst h
    refine ⟨beta, hv, hlen, fun qs hqs => ?_, fun plain' hl' => ?_⟩
    · refine List.ext_getElem? fun j => ?_
      by_cases hj : j < keys.length
      · have hjp : j < plain.length := hlen ▸ hj
        obtain ⟨h0, h1, e1, e2⟩ := hent j keys[j] plain[j] (List.getElem?_eq_getElem hj) (List.getElem?_eq_getElem hjp)
        rw [Nat.zero_add, hv] at e1
        have hq := codeOracle2_eq (within_eq.1 (hqs ⟨j, hj⟩)) e1
        rw [e2, List.getElem?_ofFn, dif_pos hj, entries, hq]
        simp only [List.getD_eq_getElem?_getD, List.getElem?_eq_getElem hjp, Option.getD_some]
        rfl
      · rw [List.getElem?_eq_none (by dsimp only; omega), List.getElem?_ofFn, dif_neg hj]
    · obtain ⟨cs', hcs', -, -⟩ := Pair.encryptLoop_spec P d ad beta v 0 keys plain' hl'
      have hne' : plain' ≠ [] := by
        rintro rfl
        exact hne (List.length_eq_zero_iff.1 (hlen.trans hl'.symm))
      exact ⟨⟨v, pub, pf, cs'⟩, by simp only [Pair.encrypt, (checkPlaintexts_ok_iff _ _).2 ⟨hl', hne'⟩, heph, hcs', Res.ok_bind],
        rfl, rfl, rfl⟩

/-- A set of questions with those of all pads always exists. -/
example (t : CType) (d : NodeIndex) (ad : Bytes) (beta : Fn) (keys : Fin m → Pt) :
    ∃ (D : Finset Question) (qs : Fin m → D), ∀ i : Fin m, within D (padOf t d ad beta i (keys i)) = some (qs i) := by
  classical
  have hex : ∀ i : Fin m, ∃ q, question (padOf t d ad beta i (keys i)) = some q := by
    intro i
    rw [padOf, padTranscript_eq]
    obtain ⟨x, hx⟩ := Ro.form_ok_of_accepted (ds := t.encryptionDst)
      (List.ne_nil_of_mem (mem_pad (d := d) (r := BitVec.ofNat 64 i) (ad := ad) (pk := keys i) (eph := beta • G)
        (shared := beta • keys i)).1)
    exact ⟨_, question_run.2 ⟨x, hx, rfl⟩⟩
  choose f hf using hex
  exact ⟨Finset.univ.image f, fun i => ⟨f i, Finset.mem_image_of_mem f (Finset.mem_univ i)⟩, fun i => within_eq.2 (hf i)⟩

/-- A program that asks for a pad (it has the secret key `k`, so it can) reads the plaintext: the bound is not zero for free. -/
example (D : Finset Question) (q : D) (p : Fn) (O : D → Fn) :
    let g : (Fin 1 → Fn) → Alg D Fn Fn := fun e => .ask q fun a => .done (e 0 - a)
    (g (entries (fun _ => q) (fun _ => p) O)).run O = p := by
  simp [Alg.run, entries]

end Verif
