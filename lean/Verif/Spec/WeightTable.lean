/-
The columns of a table of weights.
-/
import Verif.Model.WeightTable
import Verif.Spec.TableLoad
import Verif.Spec.Policies

namespace Toron.Space

open Toron.Selectors (PyStr)

/-- The names of the groups that are listed: those that are given, or all. -/
def Store.listed (s : Store) (names : Option (List PyStr)) : List PyStr := names.getD (s.wgroups.map (·.name))

end Toron.Space

namespace Toron.TableLoad

open Toron.Selectors (PyStr)
open Toron.Space
open Toron.IndexCsv (idName)
open Toron.QuantCsv (domainName)

/-- Names of groups that can be columns of the table: different, and no names of other columns. -/
structure ColumnNames (s : Store) (names : List PyStr) : Prop where
  nodup : names.Nodup
  cols : ∀ n ∈ names, n ∉ s.cols
  id : idName ∉ names
  domain : domainName ∉ names

end Toron.TableLoad
