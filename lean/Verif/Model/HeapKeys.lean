import Verif.Model.HeapZk

/-!
mega/key.go on memory.

A key is not assigned to after its construction, so it is the record of the address it holds.
-/

set_option autoImplicit false

namespace Verif.Heap

/-- mega/key.go:26-28 `MEGaPublicKey`. -/
structure PublicKeyObj where
  point : Addr

/-- mega/key.go:59-61 `MEGaPrivateKey`. -/
structure PrivateKeyObj where
  secret : Addr

/-- mega/key.go:33-39 `PublicKey.Deserialize` for K256 (curve/k256_point.go:39-45 makes a new point).  A decoded point off the
curve is not modelled on memory. -/
def deserializePublicKey (value : Bytes) : Go PublicKeyObj := do
  let x ← Go.lift (Mega.publicKeyDeserialize K256 value)
  match x with
  | some raw =>
    match Point.ofRaw? raw with
    | some v => do
      let p ← newPt v
      pure ⟨p⟩
    | none => Go.panic "not modelled: point off the curve"
  | none => Go.panic "not reached for K256"

/-- mega/key.go:41-45 `NewMEGaPublicKey`: the pointer is kept. -/
def newPublicKey (point : Addr) : Go PublicKeyObj := pure ⟨point⟩

/-- mega/key.go:47-49 `MEGaPublicKey.Serialize`. -/
def serializePublicKey (k : PublicKeyObj) : Go Bytes := do
  let v ← readPt k.point
  pure (Point.serialize v)

/-- mega/key.go:51-53 `PublicPoint`: the pointer is handed out. -/
def publicPoint (k : PublicKeyObj) : Go Addr := pure k.point

/-- mega/key.go:63-67 `NewMEGaPrivateKey`: the pointer is kept. -/
def newPrivateKey (secret : Addr) : Go PrivateKeyObj := pure ⟨secret⟩

/-- mega/key.go:71-73 `MEGaPrivateKey.PublicKey`. -/
def publicKeyOf (k : PrivateKeyObj) : Go PublicKeyObj := do
  let p ← mulByG k.secret
  newPublicKey p

/-- mega/key.go:78-83 `GeneratePrivateKey` for K256. -/
def generatePrivateKey (r : Rng) : Go PrivateKeyObj := do
  let x ← Go.lift (Scalar.random r)
  let s ← newSc x.1
  pure ⟨s⟩

/-- mega/key.go:85-93 `PrivateKey.Deserialize` for K256 (curve/k256_scalar.go:22-32 makes a new scalar). -/
def deserializePrivateKey (value : Bytes) : Go PrivateKeyObj := do
  let x ← Go.lift (Mega.privateKeyDeserialize K256 value)
  match x with
  | some v => do
    let s ← newSc v
    pure ⟨s⟩
  | none => Go.panic "not reached for K256"

/-- mega/key.go:95-97 `MEGaPrivateKey.Serialize`. -/
def serializePrivateKey (k : PrivateKeyObj) : Go Bytes := do
  let v ← readSc k.secret
  pure (Scalar.serialize v)

/-- mega/key.go:99-101 `SecretScalar`: the pointer is handed out. -/
def secretScalar (k : PrivateKeyObj) : Go Addr := pure k.secret

end Verif.Heap
