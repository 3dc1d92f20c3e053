/-
The older method for loading index records.
-/
import Verif.Model.Store.Space

namespace Toron.Space

open Toron.Selectors (PyStr)

/-- One row of `insert_index_OLD` (`space.py` lines 818-835): a record that cannot be added is counted and skipped.
The labels are in the order of the columns; picking them from the input row by position (line 824) and the counters other
than `inserted` are left out. -/
def insertIndexOldRow (inserted : Bool) (labels : List PyStr) : M Bool := fun s =>
  match indexAdd labels s with
  | .ok (_, s') => .ok (true, s')
  | .error (.valueError _) => .ok (inserted, s)
  | .error e => .error e

/-- What follows if a record was added (`space.py` lines 837-864). -/
def afterOldRecords : M Unit := do
  refreshIndexHash
  refreshOrRebuild
  (← get).wgroups.forM fun g => whenM g.complete (wgroupUpdate { g with complete := false })
  (← get).links.forM fun l => whenM l.complete (linkUpdate { l with complete := false })

/-- `insert_index_OLD` (`space.py` lines 793-864), for input that has all label columns. Without label columns the call of
`IndexRepository.add` (line 828) lacks its first argument. -/
def insertIndexOld (rows : List (List PyStr)) : M Unit := do
  let s ← get
  if s.cols = [] ∧ rows ≠ [] then throw (.exception "add() missing 1 required positional argument")
  else do
    let inserted ← rows.foldlM insertIndexOldRow false
    whenM inserted afterOldRecords

end Toron.Space
