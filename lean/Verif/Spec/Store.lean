/-
What it means for the tables of a dataspace to be in order. These predicates are used to state
properties; they mention only the table contents.
-/
import Verif.Model.Store.Tables

namespace Toron.Space

open Toron.Selectors (PyStr)

/-- The ids of the index records. -/
def Store.ids (s : Store) : List Nat := s.index.map (·.id)

/-- The undefined record: id 0, every label is a dash. -/
def Store.undefinedRecord (s : Store) : IndexRec := ⟨0, List.replicate s.cols.length ['-']⟩

/-- Names a user may not give to a label column or an attribute
(`README`/`docs`: the columns of the tables and the special words `domain`, `value`, `weight`). -/
def reserved : List String :=
  ["index_id", "_location_id", "_structure_id", "_granularity", "domain", "value", "weight"]

/-- Names are compared without regard to ASCII case by the database. -/
def sameName (a b : PyStr) : Prop := asciiLower a = asciiLower b

end Toron.Space
