import Verif.Model.FieldElem

/-! Helper lemmas about scalar encodings. -/

namespace Verif

namespace Scalar

theorem k256Deserialize_eq (b : Bytes) :
    k256Deserialize b =
      if beVal (b.drop (b.length - 32)) < n then .ok (beVal (b.drop (b.length - 32)) : Fn)
      else .err "invalid byte sequence" := by
  rw [k256Deserialize, setBytes, leVal_copyInto_reverse]

theorem serialize_eq (s : Fn) : serialize s = toBE 32 s.val := rfl

theorem length_serialize (s : Fn) : (serialize s).length = 32 := by
  rw [serialize_eq, length_toBE]

theorem val_lt_pow (s : Fn) : s.val < 256 ^ 32 := lt_trans (ZMod.val_lt s) (by decide +kernel)

theorem beVal_serialize (s : Fn) : beVal (serialize s) = s.val := by
  rw [serialize_eq, beVal_toBE_of_lt (val_lt_pow s)]

theorem serialize_inj {s t : Fn} (h : serialize s = serialize t) : s = t := by
  have := congrArg beVal h
  rw [beVal_serialize, beVal_serialize] at this
  exact ZMod.val_injective _ this

theorem k256Deserialize_serialize (s : Fn) : k256Deserialize (serialize s) = .ok s := by
  rw [k256Deserialize_eq, length_serialize, Nat.sub_self, List.drop_zero, beVal_serialize,
    if_pos (ZMod.val_lt s), ZMod.natCast_val, ZMod.cast_id]

theorem val_natCast_of_lt {k : Nat} (h : k < n) : ((k : Nat) : Fn).val = k := ZMod.val_cast_of_lt h

end Scalar

end Verif
