/-
Model of the report about weights that a reading writes to the log: `find_matching_weight_groups`
(`src/toron/data_service.py` lines 650-687) and its use in `__call__` (`src/toron/space.py` lines 2920-2937).
-/
import Verif.Model.Store.Read

namespace Toron.Space

open Toron.Selectors (PyStr Sel CaseMap getGreatestUniqueSpecificity)

/-- `attribute_repo.get(x)` (`repositories.py` lines 568-578); `none` stands for the `KeyError`. -/
def Store.getAGroup (s : Store) (i : Nat) : Option AGroup := s.agroups.find? (fun g => g.id == i)

/-- The attribute groups to match (`data_service.py` lines 674-678): an empty list of ids counts like none given. -/
def Store.groupsToMatch (s : Store) : Option (List Nat) → List (Option AGroup)
  | some (i :: is) => (i :: is).map s.getAGroup
  | _ => s.agroups.map some

/-- One turn of the loop that yields the matches (`data_service.py` lines 681-687). A missing attribute group
would raise a `KeyError`. -/
def Store.matchGroup (s : Store) (cm : CaseMap) (dflt : Nat) : Option AGroup → Except Err (List (AGroup × WGroup))
  | none => .error (.keyError "no attribute group with id")
  | some g => do
    let i ← getGreatestUniqueSpecificity cm g.attrs s.selectorDict dflt
    match s.wgroups.find? (fun w => w.id == i) with
    | some w => .ok [(g, w)]
    | none => .error (.keyError "no weight group with id")

/-- `find_matching_weight_groups` (`data_service.py` lines 650-687), consumed to its end. -/
def Store.findMatchingWeightGroups (s : Store) (cm : CaseMap) (ids : Option (List Nat)) :
    Except Err (List (AGroup × WGroup)) := do
  let dflt ← s.getDefaultWG
  flatMapE (s.matchGroup cm dflt.id) (s.groupsToMatch ids)

/-- `matches_dict[name].append(attrs)` unless it is there (`space.py` lines 2930-2933). The dictionary is a list in the
order of insertion. -/
def addMatch (name : PyStr) (a : Attrs) : List (PyStr × List Attrs) → List (PyStr × List Attrs)
  | [] => [(name, [a])]
  | e :: es =>
    if e.1 = name then (if a ∈ e.2 then e :: es else (e.1, e.2 ++ [a]) :: es) else e :: addMatch name a es

/-- The names of weight groups and the attributes they are said to be used for, which a reading writes to the log
(`space.py` lines 2905-2936). -/
def Store.weightsReport (s : Store) (cm : CaseMap) (selectors : List Sel) : Except Err (List (PyStr × List Attrs)) := do
  let filter ← s.attributeFilter cm selectors
  let found ← s.findMatchingWeightGroups cm filter
  .ok (found.foldl (fun d p => addMatch p.2.name p.1.attrs d) [])

end Toron.Space
