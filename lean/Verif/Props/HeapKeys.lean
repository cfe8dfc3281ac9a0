import Verif.Model.HeapKeys
import Verif.Lemmas.HeapMega
import Verif.Lemmas.Point
import Verif.Props.Scalar

/-!
C168: whether a key of mega stays as it is when its caller changes points and scalars in place.
-/

set_option autoImplicit false

namespace Verif.Heap

/-- Whatever of the objects in `W` gets changed after `m`, `Serialize` of the key (`ser`) gives `bytes` and changes nothing. -/
def KeepsBytes (ser : Go Bytes) (W : Set Obj) (m : Mem) (bytes : Bytes) : Prop :=
  ∀ m', Writes W m m' → ser m' = (.ok bytes, m')

theorem keepsBytes_public {m m' : Mem} {v : Pt} {k : PublicKeyObj} (r : Ret View.pt m v k.point m') (W : Set Obj)
    (hW : ∀ x ∈ W, x.addr < m.next) : KeepsBytes (serializePublicKey k) W m' (Point.serialize v) := by
  intro m'' w
  have := (at_pt.1 (r.at.write w fun x hx hx' => absurd (hW x hx') (not_lt.2 (r.2.1 x hx).1))).2
  change (Res.ok (Point.serialize (m''.pt k.point)), m'') = _
  rw [this]

theorem keepsBytes_private {m m' : Mem} {v : Fn} {k : PrivateKeyObj} (r : Ret View.sc m v k.secret m') (W : Set Obj)
    (hW : ∀ x ∈ W, x.addr < m.next) : KeepsBytes (serializePrivateKey k) W m' (Scalar.serialize v) := by
  intro m'' w
  have := (at_sc.1 (r.at.write w fun x hx hx' => absurd (hW x hx') (not_lt.2 (r.2.1 x hx).1))).2
  change (Res.ok (Scalar.serialize (m''.sc k.secret)), m'') = _
  rw [this]

/-- C168, the part that holds.  The public key made from a private key, a generated private key, and decoded keys (public
keys on the curve) keep their bytes whatever is done to the objects that existed before; in particular a public key survives changes of the
scalar of its private key.  Missing: keys made by `NewMEGaPublicKey` and `NewMEGaPrivateKey`, and what `PublicPoint` and
`SecretScalar` hand out, see `C168_false`. -/
theorem C168_keys_partial (m : Mem) (W : Set Obj) (hW : ∀ x ∈ W, x.addr < m.next) :
    (∀ k : PrivateKeyObj, k.secret < m.next → ∃ q m', publicKeyOf k m = (.ok q, m') ∧ Writes ∅ m m' ∧
      KeepsBytes (serializePublicKey q) W m' (Point.serialize (m.sc k.secret • G))) ∧
    (∀ (r r' : Rng) (x : Fn), Scalar.random r = .ok (x, r') → ∃ k m', generatePrivateKey r m = (.ok k, m') ∧ Writes ∅ m m' ∧
      KeepsBytes (serializePrivateKey k) W m' (Scalar.serialize x)) ∧
    (∀ (value : Bytes) (x : Fn), Mega.privateKeyDeserialize K256 value = .ok (some x) →
      ∃ k m', deserializePrivateKey value m = (.ok k, m') ∧ Writes ∅ m m' ∧
      KeepsBytes (serializePrivateKey k) W m' (Scalar.serialize x)) ∧
    (∀ (value : Bytes) (Q : Pt), Mega.publicKeyDeserialize K256 value = .ok (some (Point.raw Q)) →
      ∃ k m', deserializePublicKey value m = (.ok k, m') ∧ Writes ∅ m m' ∧
      KeepsBytes (serializePublicKey k) W m' (Point.serialize Q)) := by
  refine ⟨fun k hk => ?_, fun r r' x hr => ?_, fun value x hd => ?_, fun value Q hd => ?_⟩
  · obtain ⟨p, m', e, h⟩ := mulByG_ret (E := fun _ => True) (at_sc.2 ⟨hk, rfl⟩)
    refine ⟨⟨p⟩, m', ?_, h.1, keepsBytes_public (k := ⟨p⟩) h W hW⟩
    rw [publicKeyOf, run_bind, e]
    rfl
  · obtain ⟨s, m', e, h⟩ := newSc_ret (E := fun _ => True) (m := m) x
    refine ⟨⟨s⟩, m', ?_, h.1, keepsBytes_private (k := ⟨s⟩) h W hW⟩
    rw [generatePrivateKey, hr]
    change Go.andThen (newSc x m) (fun s => pure (PrivateKeyObj.mk s)) = _
    rw [e]
    rfl
  · obtain ⟨s, m', e, h⟩ := newSc_ret (E := fun _ => True) (m := m) x
    refine ⟨⟨s⟩, m', ?_, h.1, keepsBytes_private (k := ⟨s⟩) h W hW⟩
    rw [deserializePrivateKey, hd]
    change Go.andThen (newSc x m) (fun s => pure (PrivateKeyObj.mk s)) = _
    rw [e]
    rfl
  · obtain ⟨p, m', e, h⟩ := newPt_ret (E := fun _ => True) (m := m) Q
    refine ⟨⟨p⟩, m', ?_, h.1, keepsBytes_public (k := ⟨p⟩) h W hW⟩
    rw [deserializePublicKey, hd, run_bind]
    change (match Point.ofRaw? (Point.raw Q) with
      | some v => newPt v >>= fun p => pure (PublicKeyObj.mk p)
      | none => Go.panic "not modelled: point off the curve") m = _
    rw [Point.ofRaw?_raw]
    change Go.andThen (newPt Q m) (fun p => pure (PublicKeyObj.mk p)) = _
    rw [e]
    rfl

/-- C168 is false.  After `NewMEGaPublicKey(p)`, adding anything but the identity to `p` in place changes the bytes of the key,
for every point; so does adding to what `PublicPoint` of any key returns.  The same for private keys and scalars. -/
theorem C168_false (m : Mem) (a d : Addr) :
    (m.pt d ≠ 0 → ∃ k, newPublicKey a m = (.ok k, m) ∧ ∃ b b' m', serializePublicKey k m = (.ok b, m) ∧
      addPt a a d m = (.ok a, m') ∧ serializePublicKey k m' = (.ok b', m') ∧ b' ≠ b) ∧
    (m.pt d ≠ 0 → ∀ k : PublicKeyObj, ∃ p, publicPoint k m = (.ok p, m) ∧ ∃ b b' m', serializePublicKey k m = (.ok b, m) ∧
      addPt p p d m = (.ok p, m') ∧ serializePublicKey k m' = (.ok b', m') ∧ b' ≠ b) ∧
    (m.sc d ≠ 0 → ∃ k, newPrivateKey a m = (.ok k, m) ∧ ∃ b b' m', serializePrivateKey k m = (.ok b, m) ∧
      addSc a a d m = (.ok a, m') ∧ serializePrivateKey k m' = (.ok b', m') ∧ b' ≠ b) ∧
    (m.sc d ≠ 0 → ∀ k : PrivateKeyObj, ∃ s, secretScalar k m = (.ok s, m) ∧ ∃ b b' m', serializePrivateKey k m = (.ok b, m) ∧
      addSc s s d m = (.ok s, m') ∧ serializePrivateKey k m' = (.ok b', m') ∧ b' ≠ b) := by
  have hp : ∀ p : Addr, m.pt d ≠ 0 →
      Point.serialize ((m.setPt p (m.pt p + m.pt d)).pt p) ≠ Point.serialize (m.pt p) := by
    intro p hd h
    have := Point.serialize_injective h
    rw [Mem.setPt_self] at this
    exact hd (by simpa using this)
  have hs : ∀ s : Addr, m.sc d ≠ 0 →
      Scalar.serialize ((m.setSc s (m.sc s + m.sc d)).sc s) ≠ Scalar.serialize (m.sc s) := by
    intro s hd h
    have := Scalar.serialize_inj h
    rw [Mem.setSc_self] at this
    exact hd (by simpa using this)
  exact ⟨fun hd => ⟨⟨a⟩, rfl, _, _, _, rfl, rfl, rfl, hp a hd⟩, fun hd k => ⟨k.point, rfl, _, _, _, rfl, rfl, rfl, hp k.point hd⟩,
    fun hd => ⟨⟨a⟩, rfl, _, _, _, rfl, rfl, rfl, hs a hd⟩, fun hd k => ⟨k.secret, rfl, _, _, _, rfl, rfl, rfl, hs k.secret hd⟩⟩

/-- A public key stays that of the scalar 3 after the private key's scalar was overwritten by 4. -/
example : ∃ q m', publicKeyOf ⟨0⟩ ⟨fun _ => 3, fun _ => G, fun _ => [], fun _ => 0, 1, ∅⟩ = (.ok q, m') ∧
    serializePublicKey q (m'.setSc 0 4) = (.ok (Point.serialize ((3 : Fn) • G)), m'.setSc 0 4) := by
  obtain ⟨q, m', e, -, h⟩ := (C168_keys_partial ⟨fun _ => 3, fun _ => G, fun _ => [], fun _ => 0, 1, ∅⟩ {.sc 0}
    (by rintro x rfl; exact Nat.one_pos)).1 ⟨0⟩ Nat.one_pos
  exact ⟨q, m', e, h _ ((Writes.refl _ _).setSc (.inl rfl))⟩

/-- A key decoded from the bytes of 3 keeps them when an older scalar is overwritten. -/
example : ∃ k m', deserializePrivateKey (Scalar.serialize 3) ⟨fun _ => 5, fun _ => G, fun _ => [], fun _ => 0, 1, ∅⟩ = (.ok k, m') ∧
    serializePrivateKey k (m'.setSc 0 4) = (.ok (Scalar.serialize 3), m'.setSc 0 4) := by
  obtain ⟨k, m', e, -, h⟩ := (C168_keys_partial ⟨fun _ => 5, fun _ => G, fun _ => [], fun _ => 0, 1, ∅⟩ {.sc 0}
    (by rintro x rfl; exact Nat.one_pos)).2.2.1 _ 3 (Verif.C01_scalar_roundtrip.1 3).2.2
  exact ⟨k, m', e, h _ ((Writes.refl _ _).setSc (.inl rfl))⟩

/-- The hypothesis on decoded public keys holds for the encoding of every point. -/
example (Q : Pt) : Mega.publicKeyDeserialize K256 (Point.serialize Q) = .ok (some (Point.raw Q)) := Point.deserialize_serialize Q

/-- The key made from the object 0 changes when the point G in it is doubled. -/
example : ∃ (m m' : Mem) (k : PublicKeyObj) (b b' : Bytes), m.pt 0 = G ∧ newPublicKey 0 m = (.ok k, m) ∧
    addPt 0 0 0 m = (.ok 0, m') ∧ serializePublicKey k m = (.ok b, m) ∧ serializePublicKey k m' = (.ok b', m') ∧ b' ≠ b := by
  obtain ⟨k, e, b, b', m', h1, h2, h3, h4⟩ :=
    (C168_false ⟨fun _ => 3, fun _ => G, fun _ => [], fun _ => 0, 1, ∅⟩ 0 0).1 G_ne_zero
  exact ⟨_, m', k, b, b', rfl, e, h2, h1, h3, h4⟩

end Verif.Heap
