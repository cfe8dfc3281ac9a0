import Verif.Base.Bytes

/-!
CBOR data items after RFC 8949, as a reader: the part without indefinite lengths, tags, simple values and floating-point
numbers.  Nothing here refers to the code; a byte string is read from left to right, and what is read is returned with the
rest of the string.
-/

namespace Verif.Cbor

/-- A data item (RFC 8949, section 2): unsigned and negative integers (`negative n` stands for `-1 - n`), byte strings, text
strings, arrays and maps, the latter as the list of keys and values, alternately. -/
inductive Item where
  | unsigned (n : Nat)
  | negative (n : Nat)
  | bytes (b : Bytes)
  | text (b : Bytes)
  | array (l : List Item)
  | map (l : List Item)

/-- RFC 8949, section 3: the initial byte holds the major type in its three high-order bits; the argument is in the five
low-order bits or in the 1, 2, 4 or 8 bytes that follow, in network byte order. -/
def readHead : Bytes → Option (Nat × Nat × Bytes)
  | [] => none
  | x :: r =>
    let major := x.toNat / 32
    let info := x.toNat % 32
    if info < 24 then some (major, info, r)
    else
      let k := if info = 24 then 1 else if info = 25 then 2 else if info = 26 then 4 else if info = 27 then 8 else 0
      if k = 0 ∨ r.length < k then none else some (major, beVal (r.take k), r.drop k)

mutual

/-- One data item at the beginning of a byte string; `fuel` bounds the nesting and the number of items. -/
def readItem : Nat → Bytes → Option (Item × Bytes)
  | 0, _ => none
  | fuel + 1, b =>
    match readHead b with
    | none => none
    | some (major, n, r) =>
      match major with
      | 0 => some (.unsigned n, r)
      | 1 => some (.negative n, r)
      | 2 => if n ≤ r.length then some (.bytes (r.take n), r.drop n) else none
      | 3 => if n ≤ r.length then some (.text (r.take n), r.drop n) else none
      | 4 => (readItems fuel n r).map fun x => (.array x.1, x.2)
      | 5 => (readItems fuel (2 * n) r).map fun x => (.map x.1, x.2)
      | _ => none

/-- A number of data items, one after the other. -/
def readItems : Nat → Nat → Bytes → Option (List Item × Bytes)
  | 0, _, _ => none
  | _ + 1, 0, r => some ([], r)
  | fuel + 1, k + 1, r =>
    match readItem fuel r with
    | none => none
    | some (x, r) => (readItems fuel k r).map fun y => (x :: y.1, y.2)

end

/-- The byte string is exactly one data item. -/
def Is (b : Bytes) (x : Item) : Prop := ∃ fuel, readItem fuel b = some (x, [])

end Verif.Cbor
