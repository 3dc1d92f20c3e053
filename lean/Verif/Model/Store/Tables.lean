/-
The tables of a dataspace (`src/toron/dal1/schema.py` lines 121-249) and the program monad.

Rows are listed in rowid order. Ids are natural numbers, floating-point values are rationals, a
sequence hash is represented by the sequence that was hashed (see C09). Text that has no influence on the
modelled behaviour (descriptions, user properties, version and date properties) is left out.
-/
import Verif.Model.BitFlags
import Verif.Model.Granularity
import Verif.Model.Partitions
import Verif.Model.Selectors
import Mathlib.Algebra.Order.Ring.Rat

namespace Toron.Space

open Toron.Selectors (PyStr Sel)

/-- A row of `label_index` (`schema.py` lines 127-130 and `column_def_label_index` lines 272-275). -/
structure IndexRec where
  id : Nat
  labels : List PyStr
  deriving DecidableEq, Repr

/-- A row of `label_location` (`schema.py` lines 132-135, 278-281). -/
structure LocRec where
  id : Nat
  labels : List PyStr
  deriving DecidableEq, Repr

/-- A row of `label_structure` (`schema.py` lines 137-141, 284-287). -/
structure StructRec where
  id : Nat
  gran : Option Gran
  bits : List Bool
  deriving DecidableEq, Repr

/-- A row of `weight_group` (`schema.py` lines 143-150). Selectors are kept parsed. -/
structure WGroup where
  id : Nat
  name : PyStr
  selectors : List Sel
  complete : Bool

/-- A row of `weight` (`schema.py` lines 152-160). -/
structure Weight where
  id : Nat
  group : Nat
  index : Nat
  value : ℚ
  deriving DecidableEq, Repr

/-- An attribute dictionary as an association list. -/
abbrev Attrs := List (PyStr × PyStr)

/-- A row of `attribute_group` (`schema.py` lines 162-166); `attrs` is sorted by key, as in the stored
JSON text (`repositories.py` line 566). -/
structure AGroup where
  id : Nat
  attrs : Attrs
  deriving DecidableEq, Repr

/-- A row of `quantity` (`schema.py` lines 168-176). -/
structure Quant where
  id : Nat
  loc : Nat
  ag : Nat
  value : ℚ
  deriving DecidableEq, Repr

/-- A row of `link` (`schema.py` lines 183-196). -/
structure Link where
  id : Nat
  other : PyStr
  hint : Option PyStr
  name : PyStr
  selectors : List Sel
  isDefault : Bool
  otherHash : Option (List Int)
  complete : Bool

/-- A row of `mapping` (`schema.py` lines 198-210). `other` is any integer (the schema only asks for
`TYPEOF(other_index_id) = 'integer'`). -/
structure Mapping where
  id : Nat
  link : Nat
  other : Int
  index : Nat
  level : List Byte
  value : ℚ
  prop : Option ℚ
  deriving DecidableEq, Repr

/-- The contents of a dataspace, with the connection's foreign-key switch `fk`. The last fields are
entries of the `property` table (`none`: no such key). `seq` is `sqlite_sequence` for `label_index`. -/
structure Store where
  fk : Bool
  cols : List PyStr
  index : List IndexRec
  seq : Nat
  locs : List LocRec
  structs : List StructRec
  wgroups : List WGroup
  weights : List Weight
  agroups : List AGroup
  quants : List Quant
  links : List Link
  maps : List Mapping
  indexHash : List Nat
  partDefs : Option (List (Finset PyStr))
  regAttrs : Option (List PyStr)
  display : Option (List PyStr)
  defaultWG : Option (Option Nat)
  domain : Option PyStr
  uid : PyStr

/-- A new dataspace (`create_schema_tables`, `schema.py` lines 121-249): the undefined record, the
hash of `[0]`, foreign keys switched on (line 124). -/
def Store.new (uid : PyStr) : Store where
  fk := true
  cols := []
  index := [⟨0, []⟩]
  seq := 0
  locs := []
  structs := []
  wgroups := []
  weights := []
  agroups := []
  quants := []
  links := []
  maps := []
  indexHash := [0]
  partDefs := none
  regAttrs := none
  display := none
  defaultWG := none
  domain := none
  uid := uid

/-- Programs over a store that may raise. An exception discards the changes made since the
enclosing `try` (in the modelled code every `try` body is one SQL statement followed by nothing
that changes the store, and SQL statements are atomic). -/
abbrev M := StateT Store (Except Err)

/-- Replace the contents of the store. -/
def put (s : Store) : M Unit := set s

/-- `if b: …`. -/
def whenM (b : Bool) (m : M Unit) : M Unit := if b then m else pure ()

/-- `_managed_transaction` (`src/toron/space.py` lines 228-249) together with the deferred foreign
keys checked by COMMIT (`schema.py` lines 158, 208): run, commit if no exception was raised and every weight
and mapping refers to an existing index record (when foreign keys are on), otherwise roll back. -/
def fkOk (s : Store) : Bool :=
  !s.fk ||
    (s.weights.all (fun w => s.index.any (fun r => r.id == w.index)) &&
      s.maps.all (fun m => s.index.any (fun r => r.id == m.index)))

/-- See `fkOk`. The result is the state after the call and the outcome of the call. -/
def runTx {α : Type} (m : M α) (s : Store) : Store × Except Err α :=
  match m s with
  | .ok (a, s') => if fkOk s' then (s', .ok a) else (s, .error (.integrityError "FOREIGN KEY"))
  | .error e => (s, .error e)

/-- `INTEGER PRIMARY KEY` without AUTOINCREMENT: one more than the largest id in use. -/
def nextId (ids : List Nat) : Nat := ids.foldr max 0 + 1

/-- ASCII lower case of a column name: SQLite compares column names that way. -/
def asciiLower (s : PyStr) : PyStr :=
  s.map fun c => if 'A' ≤ c ∧ c ≤ 'Z' then Char.ofNat (c.toNat + 32) else c

end Toron.Space
