import Verif.Model.HeapZk

/-!
poly/commitment.go, constructors and accessors on memory.

A commitment is not assigned to after its construction, so it is the record of the addresses it holds.  That the slice of the pointers is
shared as well (so that an element of it can be replaced) is left out.
-/

set_option autoImplicit false

namespace Verif.Heap

/-- curve/k256_point.go:174-177 `Assign`. -/
def assignPt (s o : Addr) : Go Addr := fun m => (.ok s, m.setPt s (m.pt o))

/-- poly/commitment.go:139-141, 259-261 `New`: the pointers are kept. -/
def newCommitment (kind : Kind) (points : List Addr) : Go CommitmentObj := pure ⟨kind, points⟩

/-- poly/commitment.go:200-202, 323-325 `Points`: the pointers are handed out. -/
def commitmentPoints (c : CommitmentObj) : Go (List Addr) := pure c.points

/-- poly/commitment.go:142-151 `simpleCommitment.Create`. -/
def createSimpleCommitment (poly : Addr) (num : Int) : Go CommitmentObj := do
  let points ← createSimple poly num
  newCommitment .simple points

/-- poly/commitment.go:263-272 `pedersenCommitment.Create`. -/
def createPedersenCommitment (values masking : Addr) (num : Int) : Go CommitmentObj := do
  let points ← createPedersen values masking num
  newCommitment .pedersen points

/-- poly/commitment.go:152-160, 274-282 `Clone`. -/
def cloneCommitmentObj (c : CommitmentObj) : Go CommitmentObj := do
  let points ← cloneCommitment c.points
  pure ⟨c.kind, points⟩

/-- poly/commitment.go:184-194, 307-317 `StableRepresentation`. -/
def stableRepresentation (c : CommitmentObj) : Go Bytes := do
  let vs ← Go.mapM' readPt c.points
  Go.lift (Commitment.stableRepresentation ⟨c.kind, vs⟩)

end Verif.Heap
