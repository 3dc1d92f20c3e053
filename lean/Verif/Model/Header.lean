/-
Which files are taken for Toron files: `get_backend_from_path` (`src/toron/data_access.py` lines 108-136), the marks set by
`create_node_schema` (`src/toron/dal1/schema.py` lines 229-230) and `is_supported_schema` (lines 438-451).

A file is its bytes. Of SQLite's file format only the header is modelled: the name of the format, and where
`application_id` and `user_version` are stored.
-/
import Verif.Model.BitFlags

namespace Toron.Header

/-- `b'SQLite format 3\x00'` (`data_access.py` line 124). -/
def sqliteName : List Byte := [0x53, 0x51, 0x4c, 0x69, 0x74, 0x65, 0x20, 0x66, 0x6f, 0x72, 0x6d, 0x61, 0x74, 0x20, 0x33, 0]

/-- `TORON_MAGIC_NUMBER` (`data_models.py` line 49). -/
def toronMark : List Byte := [0x01, 0x2d, 0x84, 0xc8]

/-- `b'DAL1'`. -/
def dal1 : List Byte := [0x44, 0x41, 0x4c, 0x31]

/-- `header[start:stop]`. -/
def slice (l : List Byte) (start stop : Nat) : List Byte := (l.take stop).drop start

/-- `get_backend_from_path` (`data_access.py` lines 108-136): whether the result is `'DAL1'`; otherwise there is a
`ValueError`. -/
def isToron (file : List Byte) : Bool :=
  let header := file.take 72
  header.take 16 == sqliteName && (slice header 68 72 == toronMark && slice header 60 64 == dal1)

/-- A database as SQLite writes it, by what its header says; `before` are the bytes between the name of the format and
`user_version`, `between` those between it and `application_id`. Both numbers are stored without sign. -/
structure Db where
  before : List Byte
  version : Nat
  between : List Byte
  app : Nat
  rest : List Byte
  deriving DecidableEq, Repr

/-- Four bytes, the highest first. -/
def bigEndian (n : Nat) : List Byte :=
  [BitVec.ofNat 8 (n / 2 ^ 24), BitVec.ofNat 8 (n / 2 ^ 16), BitVec.ofNat 8 (n / 2 ^ 8), BitVec.ofNat 8 n]

/-- `int.from_bytes(…, 'big')`. -/
def fromBytes (l : List Byte) : Nat := l.foldl (fun n b => n * 256 + b.toNat) 0

/-- The file with a database. -/
def Db.file (d : Db) : List Byte :=
  sqliteName ++ (d.before ++ (bigEndian d.version ++ (d.between ++ (bigEndian d.app ++ d.rest))))

/-- `PRAGMA main.application_id = …` and `PRAGMA main.user_version = …` in `create_node_schema` (`schema.py` lines
229-230). -/
def Db.mark (d : Db) : Db := { d with app := fromBytes toronMark, version := fromBytes dal1 }

/-- The number that a PRAGMA shows: four bytes with sign. -/
def shown (n : Nat) : Int := if n < 2 ^ 31 then n else (n : Int) - 2 ^ 32

/-- `n.to_bytes(length=4, byteorder='big')`, `none` for an `OverflowError`. -/
def toBytes (n : Int) : Option (List Byte) :=
  if 0 ≤ n ∧ n < 2 ^ 32 then some (bigEndian n.toNat) else none

/-- `is_supported_schema` (`schema.py` lines 438-451), `none` if the exception is passed on. -/
def Db.isSupported (d : Db) : Option Bool := do
  let app ← toBytes (shown d.app)
  let version ← toBytes (shown d.version)
  some (app == toronMark && version == dal1)

end Toron.Header
