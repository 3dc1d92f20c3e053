/-
Model of `SequenceHash` (`src/toron/_utils.py` lines 470-523) and `splitmix64` (lines 526-554).
-/
import Verif.Model.BitFlags

namespace Toron

/-- `value.to_bytes(length=8, byteorder='big')` for `0 ≤ value < 2^64`. -/
def toBytes8 (n : Nat) : List Byte :=
  [7, 6, 5, 4, 3, 2, 1, 0].map fun i => BitVec.ofNat 8 (n / 256 ^ i)

/-- State of a `SequenceHash` object (`_utils.py` lines 498-500). The SHA-256 object is modelled by
the message fed to it so far: SHA-256 itself is not modelled, so "same digest" is modelled by
"same message" (no collisions). -/
structure SeqHash where
  message : List Byte
  prev : Int
  deriving DecidableEq, Repr

/-- `SequenceHash.__init__` with no iterable (`_utils.py` lines 498-500). -/
def SeqHash.empty : SeqHash := { message := [], prev := -1 }

/-- `SequenceHash.add_value` (`_utils.py` lines 506-519): `ValueError` unless strictly greater than
the previous value; `OverflowError` of `to_bytes` re-raised as `ValueError`. -/
def SeqHash.addValue (s : SeqHash) (value : Int) : Except Err SeqHash :=
  if ¬ value > s.prev then .error (.valueError "illegal value")
  else if value < 0 ∨ value ≥ 2 ^ 64 then .error (.valueError "overflow")
  else .ok { message := s.message ++ toBytes8 value.toNat, prev := value }

/-- `SequenceHash(iterable)` followed by `get_hexdigest()` (`_utils.py` lines 498-523). -/
def seqHash (values : List Int) : Except Err (List Byte) :=
  (values.foldlM SeqHash.addValue SeqHash.empty).map (·.message)

/-- The mask used by `splitmix64`. -/
def mask64 : Nat := 0xffffffffffffffff

/-- `splitmix64` (`_utils.py` lines 546-554), on non-negative integers. -/
def splitmix64 (x : Nat) : Nat :=
  let x := (x + 0x9e3779b97f4a7c15) &&& mask64
  let x := ((x ^^^ (x >>> 30)) * 0xbf58476d1ce4e5b9) &&& mask64
  let x := ((x ^^^ (x >>> 27)) * 0x94d049bb133111eb) &&& mask64
  x ^^^ (x >>> 31)

end Toron
