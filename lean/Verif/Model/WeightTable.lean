/-
Model of `get_weights` (`src/toron/graph.py` lines 569-627) with header, domain and labels.
-/
import Verif.Model.TableLoad
import Verif.Model.Graph

namespace Toron.TableLoad

open Toron.Selectors (PyStr)
open Toron.Tabular (Cell)
open Toron.Space
open Toron.IndexCsv (idName)
open Toron.QuantCsv (domainName)

/-- A group by its name (`graph.py` lines 598-604). -/
def askedGroup (s : Store) (n : PyStr) : Except Err WGroup :=
  match s.findWGroup n with
  | some g => .ok g
  | none => .error (.valueError "weight not found")

/-- The groups that are asked for (`graph.py` lines 590-604). A single name is a list of one. -/
def askedGroups (s : Store) : Option (List PyStr) → Except Err (List WGroup)
  | none => .ok s.wgroups
  | some names => names.mapM (askedGroup s)

/-- The names of the columns (`graph.py` lines 581-588, 606-610). -/
def weightHeader (s : Store) (groups : List WGroup) : List PyStr :=
  idName :: (if s.getDomain = [] then [] else [domainName]) ++ s.cols ++ groups.map (·.name)

/-- A value, or `None`. -/
def numCell : Option ℚ → Cell
  | some x => .num x
  | none => .none

/-- The weight of a record as listed (`graph.py` lines 618-625). -/
def listedWeight (s : Store) (g : WGroup) (i : Nat) : Option ℚ :=
  match s.weightOf g.id i with
  | some w => some w
  | none => if i = 0 then some 0 else none

/-- A row (`graph.py` lines 616-627). -/
def weightCells (s : Store) (groups : List WGroup) (r : IndexRec) : List Cell :=
  Cell.num (r.id : ℚ) :: (if s.getDomain = [] then [] else [Cell.text s.getDomain]) ++ r.labels.map Cell.text ++
    groups.map fun g => numCell (listedWeight s g r.id)

/-- `get_weights` (`graph.py` lines 569-627). -/
def getWeights (s : Store) (names : Option (List PyStr)) (header : Bool) : Except Err (List (List Cell)) := do
  let groups ← askedGroups s names
  .ok ((if header then [(weightHeader s groups).map Cell.text] else []) ++ s.index.map (weightCells s groups))

end Toron.TableLoad
