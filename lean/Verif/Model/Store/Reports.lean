/-
The counters of the methods that take a table, and the warnings built from them.
-/
import Verif.Model.Store.Ops

namespace Toron.Space

open Toron.Selectors (PyStr)

/-- The keys of the counters. -/
inductive Key where
  | emptyStr | noIndex | mismatch | valueMismatch | levelMismatch | badLevel | approximate | noMatch | noWeight
  | noMapping | merged | inserted | updated | deleted | reified
  | notRealnum | undefinedRecord | skipped | overwritten | summed
  deriving DecidableEq, Repr

/-- The keys of `warning_text` in order (`space.py` lines 120-135). -/
def warningOrder : List Key :=
  [.emptyStr, .noIndex, .mismatch, .valueMismatch, .levelMismatch, .badLevel, .approximate, .noMatch, .noWeight,
    .noMapping, .merged, .inserted, .updated, .deleted, .reified]

/-- `warn_if_issues` (`space.py` lines 101-149): no warning, or one with the parts of its text in order, each with
its number. A counter is given by the keys in the order in which they were counted. -/
def warnIfIssues (expected : Key) (counter : List Key) : Option (List (Key × Nat)) :=
  if counter = [] ∨ distinct counter = [expected] then none
  else some (((warningOrder.filter fun k => decide (k ∈ counter ∧ k ≠ expected)) ++ [expected]).map
    fun k => (k, counter.count k))

/-- The warnings sent to the log, in order, each with its number (for example `space.py` lines 1366-1389). -/
def logWarnings (order counter : List Key) : List (Key × Nat) :=
  (order.filter fun k => decide (k ∈ counter)).map fun k => (k, counter.count k)

/-- The keys counted while the rows are taken one after the other. -/
def counted {α ρ : Type} (f : α → ρ → M α) (keys : Store → ρ → List Key) : α → List ρ → Store → List Key
  | _, [], _ => []
  | a, r :: rs, s => keys s r ++
    match f a r s with
    | .ok (a', s') => counted f keys a' rs s'
    | .error _ => []

/-- `update_index`, one row (`space.py` lines 913-957). -/
def updateIndexKeys (s : Store) (row : Nat × List PyStr) : List Key :=
  if [] ∈ row.2 then [.emptyStr]
  else match s.index.find? (fun r => r.id == row.1) with
    | none => [.noIndex]
    | some _ => match s.findByLabels row.2 with
      | none => [.updated]
      | some _ => [.merged, .updated]

/-- The counter of `update_index` (`space.py` lines 901, 913-957). -/
def updateIndexCounter (merge : Bool) (rows : List (Nat × List PyStr)) (s : Store) : List Key :=
  counted (updateIndexRow merge) updateIndexKeys ⟨[], false⟩ rows s

/-- The warning of `update_index` (`space.py` line 990). -/
def updateIndexWarning (merge : Bool) (rows : List (Nat × List PyStr)) (s : Store) :=
  warnIfIssues .updated (updateIndexCounter merge rows s)

/-- `delete_index`, one row (`space.py` lines 1030-1050). -/
def deleteIndexKeys (s : Store) (row : Nat × List PyStr) : List Key :=
  match s.index.find? (fun r => r.id == row.1) with
  | none => [.noIndex]
  | some r => if r.labels ≠ row.2 then [.mismatch] else [.deleted]

/-- The counter of `delete_index` for a table (`space.py` lines 1009, 1028-1050). -/
def deleteIndexCounter (rows : List (Nat × List PyStr)) (s : Store) : List Key :=
  counted deleteIndexRow deleteIndexKeys false rows s

/-- The warning of `delete_index` (`space.py` line 1114). -/
def deleteIndexWarning (rows : List (Nat × List PyStr)) (s : Store) :=
  warnIfIssues .deleted (deleteIndexCounter rows s)

/-- The key of a result of `add_or_resolve` (`space.py` lines 1347-1356). -/
def Resolved.key : Resolved → Key
  | .inserted => .inserted
  | .skipped => .skipped
  | .overwritten => .overwritten
  | .summed => .summed

/-- `insert_weights`, one row (`space.py` lines 1306-1358). -/
def insertWeightKeys (group : Nat) (p : Policy) (s : Store) (row : WeightRow) : List Key :=
  match row.value with
  | none => [.notRealnum]
  | some v =>
    match s.weightRowRecord row with
    | none =>
      match row.idv with
      | none => [.noMatch]
      | some i => if s.index.any (fun r => r.id == i) then [.mismatch] else [.noIndex]
    | some r =>
      if r.id = 0 then [.undefinedRecord]
      else match weightAddOrResolve group r.id v p s with
        | .ok (res, _) => [res.key]
        | .error _ => []

/-- The counter of `insert_weights` (`space.py` lines 1285, 1304-1358). -/
def insertWeightsCounter (name : PyStr) (p : Policy) (rows : List WeightRow) (s : Store) : List Key :=
  match wgroupGetOrAdd name s with
  | .ok (g, s') => counted (insertWeightRow g.id p) (insertWeightKeys g.id p) false rows s'
  | .error _ => []

/-- The warnings of `insert_weights` (`space.py` lines 1369-1390). -/
def insertWeightsWarning (name : PyStr) (p : Policy) (rows : List WeightRow) (s : Store) :=
  logWarnings [.skipped, .overwritten, .summed, .notRealnum, .undefinedRecord, .noIndex, .mismatch, .noMatch]
    (insertWeightsCounter name p rows s)

/-- `update_weights`, one row (`space.py` lines 1419-1449). -/
def updateWeightKeys (group : Nat) (s : Store) (row : Nat × List PyStr × ℚ) : List Key :=
  match s.index.find? (fun r => r.id == row.1) with
  | none => [.noIndex]
  | some r =>
    if r.labels ≠ row.2.1 then [.mismatch]
    else match s.findWeight group r.id with
      | some _ => [.updated]
      | none => [.inserted]

/-- The counter of `update_weights` (`space.py` lines 1406, 1419-1449). -/
def updateWeightsCounter (name : PyStr) (rows : List (Nat × List PyStr × ℚ)) (s : Store) : List Key :=
  match s.findWGroup name with
  | some g => counted (updateWeightRow g.id) (updateWeightKeys g.id) false rows s
  | none => []

/-- The warnings of `update_weights` (`space.py` lines 1458-1475). -/
def updateWeightsWarning (name : PyStr) (rows : List (Nat × List PyStr × ℚ)) (s : Store) :=
  logWarnings [.inserted, .noIndex, .mismatch] (updateWeightsCounter name rows s)

/-- `delete_weights`, one row (`space.py` lines 1523-1545). -/
def deleteWeightKeys (group : Nat) (s : Store) (row : Nat × List PyStr) : List Key :=
  match s.index.find? (fun r => r.id == row.1) with
  | none => [.noIndex]
  | some r =>
    if r.labels ≠ row.2 then [.mismatch]
    else match s.findWeight group r.id with
      | some _ => [.deleted]
      | none => [.noWeight]

/-- The counter of `delete_weights` for a table (`space.py` lines 1501, 1523-1545). -/
def deleteWeightsCounter (name : PyStr) (rows : List (Nat × List PyStr)) (s : Store) : List Key :=
  match s.findWGroup name with
  | some g => counted (deleteWeightRow g.id) (deleteWeightKeys g.id) false rows s
  | none => []

/-- The warnings of `delete_weights` (`space.py` lines 1572-1579). -/
def deleteWeightsWarning (name : PyStr) (rows : List (Nat × List PyStr)) (s : Store) :=
  logWarnings [.mismatch, .noIndex, .noWeight] (deleteWeightsCounter name rows s)

/-- The checks common to the methods for mappings (`space.py` lines 1889-1908, 1989-2003). -/
def mapRowKeys (s : Store) (row : MapRow) : Option (List Key) :=
  match s.index.find? (fun r => r.id == row.index) with
  | none => some [.noIndex]
  | some r => if r.labels ≠ row.labels then some [.mismatch]
    else if !s.levelOk row.level then some [.badLevel] else none

/-- `insert_mappings`, one row (`space.py` lines 1884-1923). -/
def insertMappingKeys (s : Store) (row : MapRow) : List Key := (mapRowKeys s row).getD [.inserted]

/-- The counter of `insert_mappings` (`space.py` lines 1871, 1884-1923). -/
def insertMappingsCounter (ref : PyStr) (name : Option PyStr) (rows : List MapRow) (s : Store) : List Key :=
  match getLink s.links ref name with
  | .ok l => counted (insertMappingRow l.id) insertMappingKeys false rows s
  | .error _ => []

/-- The warning of `insert_mappings` (`space.py` line 1945). -/
def insertMappingsWarning (ref : PyStr) (name : Option PyStr) (rows : List MapRow) (s : Store) :=
  warnIfIssues .inserted (insertMappingsCounter ref name rows s)

/-- `update_mappings`, one row (`space.py` lines 1984-2030). -/
def updateMappingKeys (link : Nat) (s : Store) (row : MapRow) : List Key :=
  (mapRowKeys s row).getD (match s.findMap link row.other row.index with
    | some _ => [.updated]
    | none => [.inserted])

/-- The counter of `update_mappings` (`space.py` lines 1963, 1984-2030). -/
def updateMappingsCounter (ref : PyStr) (name : Option PyStr) (rows : List MapRow) (s : Store) : List Key :=
  match getLink s.links ref name with
  | .ok l => counted (updateMappingRow l.id) (updateMappingKeys l.id) (false, false) rows s
  | .error _ => []

/-- The warning of `update_mappings` (`space.py` lines 2059-2063). -/
def updateMappingsWarning (ref : PyStr) (name : Option PyStr) (rows : List MapRow) (s : Store) :=
  warnIfIssues .updated (updateMappingsCounter ref name rows s)

/-- `delete_mappings`, one row (`space.py` lines 2122-2160). -/
def deleteMappingKeys (link : Nat) (s : Store) (row : MapRow) : List Key :=
  match s.index.find? (fun r => r.id == row.index) with
  | none => [.noIndex]
  | some r =>
    if r.labels ≠ row.labels then [.mismatch]
    else match s.findMap link row.other row.index with
      | none => [.noMapping]
      | some m =>
        if m.value ≠ row.value then [.valueMismatch]
        else if m.level ≠ fullLevel s.cols.length then [.approximate]
        else [.deleted]

/-- The counter of `delete_mappings` for a table (`space.py` lines 2093, 2122-2160). -/
def deleteMappingsCounter (ref : PyStr) (name : Option PyStr) (rows : List MapRow) (s : Store) : List Key :=
  match getLink s.links ref name with
  | .ok l => counted (deleteMappingRow l.id) (deleteMappingKeys l.id) false rows s
  | .error _ => []

/-- The warning of `delete_mappings` (`space.py` line 2209). -/
def deleteMappingsWarning (ref : PyStr) (name : Option PyStr) (rows : List MapRow) (s : Store) :=
  warnIfIssues .deleted (deleteMappingsCounter ref name rows s)

end Toron.Space
