/-
Model of `class BitFlags` (`src/toron/_utils.py` lines 842-1052).
-/
import Verif.Py

namespace Toron

/-- A byte. -/
abbrev Byte := BitVec 8

/-- `byte_string.rstrip(b'\x00')`: remove trailing zero bytes. -/
def rstripZeros : List Byte → List Byte
  | [] => []
  | b :: bs => match rstripZeros bs with
    | [] => if b = 0 then [] else [b]
    | r => b :: r

/-- Shift-in loop of `_bitstream_to_bytes` (`_utils.py` lines 952-955): fold
`(decimal_number << 1) | bit` over an eight-bit word, starting with 0.
(The Python integer never exceeds 255 here, as the word has eight bits.) -/
def packWord (word : List Bool) : Byte :=
  word.foldl (fun n bit => (n <<< 1) ||| (if bit then 1#8 else 0#8)) 0#8

/-- The unstripped part of `_bitstream_to_bytes` (`_utils.py` lines 947-956):
`zip_longest(*repeat(normalized, 8), fillvalue=0)` yields words of eight, the last one
padded with zeros. Elements of the stream are already reduced to their truth value. -/
def bitsToBytesRaw : List Bool → List Byte
  | a :: b :: c :: d :: e :: f :: g :: h :: rest =>
      packWord [a, b, c, d, e, f, g, h] :: bitsToBytesRaw rest
  | [] => []
  | short => [packWord (short ++ List.replicate (8 - short.length) false)]

/-- `BitFlags._bitstream_to_bytes` (`_utils.py` lines 930-958). -/
def bitstreamToBytes (stream : List Bool) : List Byte := rstripZeros (bitsToBytesRaw stream)

/-- Inner loop of `_bytes_to_bitstream` (`_utils.py` lines 978-980): `(byte >> i) & 1` for
`i` from 7 to 0. -/
def byteToBits (byte : Byte) : List Bool :=
  [7, 6, 5, 4, 3, 2, 1, 0].map fun i => ((byte >>> i) &&& 1#8) == 1#8

/-- `BitFlags._bytes_to_bitstream` (`_utils.py` lines 961-980). -/
def bytesToBitstream (bytes : List Byte) : List Bool := bytes.flatMap byteToBits

/-- Instances hold one attribute, `_bytes` (`_utils.py` line 896). -/
structure BitFlags where
  bytes : List Byte
  deriving DecidableEq, Repr

namespace BitFlags

/-- `BitFlags(byte_string)` (`_utils.py` lines 920-921). -/
def ofBytes (b : List Byte) : BitFlags := ⟨rstripZeros b⟩

/-- `BitFlags(iterable)` and `BitFlags(bit1, bit2, ...)` with other than one argument
(`_utils.py` lines 922-927). -/
def ofBits (bits : List Bool) : BitFlags := ⟨bitstreamToBytes bits⟩

/-- `__iter__` (`_utils.py` lines 1021-1023). -/
def toBits (f : BitFlags) : List Bool := bytesToBitstream f.bytes

/-- `__len__` (`_utils.py` lines 1017-1019). -/
def len (f : BitFlags) : Nat := f.bytes.length * 8

/-- `__getitem__` with an integer (`_utils.py` lines 994-1005). Negative indices count from the end. -/
def getItem (f : BitFlags) (index : Int) : Except Err Bool :=
  let lenSelf : Int := f.len
  let index := if index < 0 then lenSelf + index else index
  if ¬ (0 ≤ index ∧ index < lenSelf) then .error (.indexError "index out of range")
  else
    let i := index.toNat
    match f.bytes[i / 8]? with
    | none => .error (.indexError "bytes index out of range")
    | some byte => .ok (((byte >>> (7 - i % 8)) &&& 1#8) == 1#8)

/-- `__getitem__` with a slice `[start:stop]` of non-negative bounds and step 1
(`_utils.py` lines 1007-1010): slice the tuple of bits, build a new object. Negative bounds and
other steps are not modelled. -/
def getSlice (f : BitFlags) (start stop : Nat) : BitFlags :=
  ofBits ((f.toBits.take stop).drop start)

/-- `__eq__` between two instances (`_utils.py` lines 1033-1034). -/
def eq (a b : BitFlags) : Bool := a.bytes == b.bytes

/-- `__eq__` with another iterable (`_utils.py` lines 1036-1038). -/
def eqBits (a : BitFlags) (bits : List Bool) : Bool := a.bytes == bitstreamToBytes bits

/-- `zip_longest(a, b, fillvalue=0)` followed by `a | b` (`_utils.py` lines 1047-1048). -/
def zipOr : List Byte → List Byte → List Byte
  | [], bs => bs.map (0#8 ||| ·)
  | as, [] => as.map (· ||| 0#8)
  | a :: as, b :: bs => (a ||| b) :: zipOr as bs

/-- `__or__` (`_utils.py` lines 1042-1048). -/
def or (a b : BitFlags) : BitFlags := ofBytes (zipOr a.bytes b.bytes)

/-- The objects that a constructor can build. -/
inductive Constructed : BitFlags → Prop
  | bytes (b : List Byte) : Constructed (ofBytes b)
  | bits (b : List Bool) : Constructed (ofBits b)

end BitFlags
end Toron
