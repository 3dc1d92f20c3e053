/-
Model of `get_mapping` (`src/toron/graph.py` lines 418-510).
-/
import Verif.Model.Graph
import Verif.Model.Text

namespace Toron.Space

open Toron.Selectors (PyStr)

/-- A field of a listed row: `None`, an id, a text or a number. -/
inductive MapCell where
  | none
  | id (i : Int)
  | text (t : PyStr)
  | number (q : ℚ)
  deriving DecidableEq, Repr

/-- `domain` (`space.py` lines 257-265) as a list: nothing if there is no domain or the domain is empty
(`graph.py` lines 431-444). -/
def Store.domainVals (s : Store) : List PyStr :=
  match s.domain with
  | Option.none => []
  | some [] => []
  | some d => [d]

/-- The fields for one side of a row (`graph.py` lines 479-500): the id, the domain, the labels. -/
def Store.sideCells (s : Store) : Option Int → List MapCell
  | Option.none => .none :: (s.domainVals.map fun _ => .none) ++ s.cols.map fun _ => .none
  | some i => .id i :: (s.domainVals.map .text) ++
      (match s.index.find? (fun r => (r.id : Int) == i) with
        | some r => r.labels.map .text
        | Option.none => s.cols.map fun _ => .none)

/-- One row (`graph.py` lines 475-510). -/
def mappingRow (src trg : Store) (e : MapElement) : List MapCell :=
  src.sideCells e.source ++
  [match e.value with | some q => .number q | Option.none => .none] ++
  trg.sideCells (e.target.map Int.ofNat) ++
  [match Text.ambiguousText e.level trg.cols with | some t => .text t | Option.none => .none]

/-- The header (`graph.py` lines 457-467). -/
def mappingHeader (src trg : Store) (name : PyStr) : List MapCell :=
  [.text "index_id".toList] ++ (src.domainVals.map fun _ => .text "domain".toList) ++ src.cols.map .text ++
  [.text name] ++
  [.text "index_id".toList] ++ (trg.domainVals.map fun _ => .text "domain".toList) ++ trg.cols.map .text ++
  [.text "ambiguous_fields".toList]

/-- `get_mapping` (`graph.py` lines 418-510), as the list of all rows. No link has the name `None`, see
`generate_mapping_elements` (`data_service.py` lines 581-588). -/
def getMapping (src trg : Store) (name : Option PyStr) (header : Bool) : Except Err (List (List MapCell)) :=
  match name with
  | Option.none => .error (.exception "no link named None")
  | some name => do
    let els ← trg.mappingElements src name
    return (if header then [mappingHeader src trg name] else []) ++ els.map (mappingRow src trg)

end Toron.Space
