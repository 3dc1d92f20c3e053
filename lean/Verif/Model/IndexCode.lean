/-
Model of the index codes of the command line interface (`src/toron/cli/common.py` lines 309-358).
-/
import Verif.Model.Hashing
import Verif.Model.Selectors

namespace Toron.IndexCode

open Toron.Selectors (PyStr isSpace)

/-- One bit of zlib's `crc32` (imported in `common.py`): the register shifted by one, and the generator
polynomial subtracted if the bit shifted out is set. -/
def crcBit (s : BitVec 32) : BitVec 32 :=
  if s.getLsbD 0 then (s >>> 1) ^^^ 0xEDB88320#32 else s >>> 1

/-- Eight bits of zlib's `crc32`. -/
def crc8 (s : BitVec 32) : BitVec 32 :=
  crcBit (crcBit (crcBit (crcBit (crcBit (crcBit (crcBit (crcBit s)))))))

/-- One byte of zlib's `crc32`. -/
def crcByte (s : BitVec 32) (b : Byte) : BitVec 32 := crc8 (s ^^^ b.setWidth 32)

/-- zlib's `crc32`. (Computed bit by bit; zlib uses tables.) -/
def crc32 (bytes : List Byte) : BitVec 32 := bytes.foldl crcByte 0xFFFFFFFF#32 ^^^ 0xFFFFFFFF#32

/-- `Struct('>q').pack` (`common.py` line 314); `struct.error` outside the range of 64-bit integers. -/
def packI64 (i : Int) : Except Err (List Byte) :=
  if -2 ^ 63 ≤ i ∧ i < 2 ^ 63 then .ok (toBytes8 (i % 2 ^ 64).toNat)
  else .error (.exception "struct.error")

/-- `crc32(pack_i64_be(index_id) + unique_id_bytes) & 0xffffffff` (`common.py` lines 320, 341). -/
def checksum (i : Int) (uid : List Byte) : Except Err (BitVec 32) := do
  let b ← packI64 i
  .ok (crc32 (b ++ uid))

/-- The digit of a number less than 16, upper case. -/
def digitChar (n : Nat) : Char := if n < 10 then Char.ofNat (48 + n) else Char.ofNat (55 + n)

/-- `f'{n}'` of a natural number. -/
def decDigits (n : Nat) : PyStr :=
  if _h : n < 10 then [digitChar n] else decDigits (n / 10) ++ [digitChar (n % 10)]
termination_by n

/-- `f'{i}'` of an integer. -/
def decInt (i : Int) : PyStr := if i < 0 then '-' :: decDigits i.natAbs else decDigits i.natAbs

/-- `f'{checksum:08X}'` of a number below 2^32. -/
def hex8 (n : Nat) : PyStr := [7, 6, 5, 4, 3, 2, 1, 0].map fun i => digitChar (n / 16 ^ i % 16)

/-- `index_id_to_code` (`common.py` lines 317-321). -/
def toCode (i : Int) (uid : List Byte) : Except Err PyStr := do
  let c ← checksum i uid
  .ok (decInt i ++ 'X' :: hex8 c.toNat)

/-- The value of a digit in `int(text, base)`. (Python also reads decimal digits of other scripts; not
modelled.) -/
def digitVal (c : Char) : Option Nat :=
  let n := c.toNat
  if 48 ≤ n ∧ n ≤ 57 then some (n - 48)
  else if 65 ≤ n ∧ n ≤ 90 then some (n - 55)
  else if 97 ≤ n ∧ n ≤ 122 then some (n - 87)
  else none

/-- The digits of `int(text, base)`: single underscores are allowed between digits. `p` is whether a digit
has just been read. -/
def parseDigits (base : Nat) : Nat → Bool → PyStr → Option Nat
  | acc, p, [] => if p then some acc else none
  | acc, p, c :: cs =>
    if c = '_' then if p then parseDigits base acc false cs else none
    else match digitVal c with
      | some d => if d < base then parseDigits base (acc * base + d) true cs else none
      | none => none

/-- The prefix `0x` that `int(text, 16)` allows, with one underscore after it. -/
def dropPrefix (base : Nat) : PyStr → PyStr
  | '0' :: x :: rest =>
    if base = 16 ∧ (x = 'x' ∨ x = 'X') then
      match rest with
      | '_' :: rest' => rest'
      | _ => rest
    else '0' :: x :: rest
  | s => s

/-- `text.strip()`. -/
def strip (s : PyStr) : PyStr := ((s.dropWhile isSpace).reverse.dropWhile isSpace).reverse

/-- The unsigned part of `int(text, base)`. In base 10 more than 4300 digits are refused (the default of
`sys.set_int_max_str_digits`). -/
def parseUnsigned (base : Nat) (t : PyStr) : Option Nat :=
  if base = 10 ∧ 4300 < (t.filter fun c => c != '_').length then none
  else parseDigits base 0 false (dropPrefix base t)

/-- The sign of `int(text, base)`. -/
def parseSigned (base : Nat) : PyStr → Option Int
  | [] => none
  | c :: t =>
    if c = '-' then (parseUnsigned base t).map fun n : Nat => -(n : Int)
    else if c = '+' then (parseUnsigned base t).map fun n : Nat => (n : Int)
    else (parseUnsigned base (c :: t)).map fun n : Nat => (n : Int)

/-- `int(text, base)` for base 10 and 16, `none` for `ValueError`. -/
def parseInt (base : Nat) (s : PyStr) : Option Int := parseSigned base (strip s)

/-- `index_code.partition('X')` (`common.py` line 329): before and after the first `X`. -/
def partitionX : PyStr → PyStr × PyStr
  | [] => ([], [])
  | c :: cs => if c = 'X' then ([], cs) else (c :: (partitionX cs).1, (partitionX cs).2)

/-- `index_code_to_id` (`common.py` lines 324-344). -/
def toId (code : PyStr) (uid : List Byte) : Except Err Int :=
  match parseInt 10 (partitionX code).1, parseInt 16 (partitionX code).2 with
  | some i, some c => do
    let x ← checksum i uid
    if c ≠ (x.toNat : Int) then .error (.valueError "checksum mismatch for index code") else .ok i
  | _, _ => .error (.valueError "badly formatted index code")

/-- `is_index_code` (`common.py` lines 347-358): only `ValueError` and `AttributeError` are caught. -/
def isCode (value : PyStr) (uid : List Byte) : Except Err Bool :=
  match toId value uid with
  | .ok _ => .ok true
  | .error (.valueError _) => .ok false
  | .error e => .error e

end Toron.IndexCode
