/-
Model of reading a dataspace: `_disaggregate` and `__call__` (`src/toron/space.py` lines 2762-2972).
The `NodeReader` built at the end is modelled in `Verif/Model/Reader.lean`.
-/
import Verif.Model.Store.Space
import Verif.Model.Disaggregate
import Verif.Model.Quantize

namespace Toron.Space

open Toron.Selectors (PyStr Sel CaseMap getGreatestUniqueSpecificity)

/-- `structure_repo.get_all()` (`repositories.py` lines 304-309): ordered by granularity, descending. -/
def Store.structsSorted (s : Store) : List StructRec := sortedBy (fun a b => granGe a.gran b.gran) s.structs

/-- `attributes.update(domain_dict)` (`space.py` lines 2767, 2831). -/
def Store.withDomain (s : Store) (a : Attrs) : Attrs :=
  if s.getDomain = [] then a
  else a.filter (fun kv => kv.1 ≠ "domain".toList) ++ [("domain".toList, s.getDomain)]

/-- `get_default_weight_group` (`data_service.py` lines 631-647). -/
def Store.getDefaultWG (s : Store) : Except Err WGroup :=
  match s.defaultWG with
  | none => .error (.runtimeError "no default weight group is defined")
  | some none => .error (.typeError "property must be int")
  | some (some i) =>
    match s.wgroups.find? (fun g => g.id == i) with
    | some g => .ok g
    | none => .error (.keyError "no weight group with id")

/-- `selector_dict` (`space.py` lines 2795-2798). -/
def Store.selectorDict (s : Store) : List (Nat × Option (List Sel)) :=
  (s.wgroups.filter fun g => g.complete && !g.selectors.isEmpty).map fun g => (g.id, some g.selectors)

/-- `get_by_weight_group_id_and_index_id(...).value`. -/
def Store.weightOf (s : Store) (group index : Nat) : Option ℚ := (s.findWeight group index).map (·.value)

/-- `attribute_repo.get` (`repositories.py` lines 568-578). -/
def Store.getAttrs (s : Store) (ag : Nat) : Except Err Attrs :=
  match s.agroups.find? (fun g => g.id == ag) with
  | some g => .ok g.attrs
  | none => .error (.keyError "no attribute group with id")

/-- The index ids that match the labels of a location (`space.py` lines 2820-2826, 2847-2849). -/
def Store.matchingIds (s : Store) (labels : List PyStr) : List Nat :=
  (s.filterByLabel (labelCriteria s.cols labels)).map (·.id)

/-- One quantity (`space.py` lines 2814-2882). The lookups that the code makes once per location are made
here for each quantity. -/
def Store.disaggOne (s : Store) (cm : CaseMap) (dflt : Nat) (finest quantize : Bool) (l : LocRec)
    (q : Quant) : Except Err (List (Nat × Attrs × ℚ)) := do
  let ids := s.matchingIds l.labels
  match ids with
  | [] => .error (.runtimeError "no index matching")
  | i :: _ => do
    let attrs := s.withDomain (← s.getAttrs q.ag)
    if finest then .ok [(i, attrs, q.value)]
    else do
      let group ← getGreatestUniqueSpecificity cm attrs s.selectorDict dflt
      let parts ← disaggregateValue q.value ids (s.weightOf group)
      let parts ← if quantize then quantizeValues parts q.value else .ok parts
      .ok (parts.map fun p => (p.1, attrs, p.2))

/-- Concatenate the results of a fallible function. -/
def flatMapE {α β : Type} (f : α → Except Err (List β)) : List α → Except Err (List β)
  | [] => .ok []
  | x :: xs => do
    let a ← f x
    let b ← flatMapE f xs
    .ok (a ++ b)

/-- `_disaggregate` (`space.py` lines 2762-2882). `filter = none`: no attribute filter. -/
def Store.disaggregate (s : Store) (cm : CaseMap) (filter : Option (List Nat)) (quantize : Bool) :
    Except Err (List (Nat × Attrs × ℚ)) := do
  let dflt ← s.getDefaultWG
  if !dflt.complete then .error (.runtimeError "default weight group is not complete")
  else match s.structsSorted with
    | [] => .error (.indexError "list index out of range")
    | first :: rest =>
      flatMapE (fun st =>
        flatMapE (fun lq => s.disaggOne cm dflt.id (granEq st.gran first.gran) quantize lq.1 lq.2)
          ((s.quantsByBits st.bits).filter fun lq => match filter with
            | none => true
            | some ids => ids.contains lq.2.ag))
        (first :: rest)

/-- Which attribute groups match one of the selectors (`space.py` lines 2905-2918). -/
def Store.attributeFilter (s : Store) (cm : CaseMap) (selectors : List Sel) :
    Except Err (Option (List Nat)) :=
  if selectors = [] then .ok none
  else do
    let ids ← flatMapE (fun g : AGroup => do
      if ← Sel.evalAny cm g.attrs selectors then .ok [g.id] else .ok []) s.agroups
    .ok (some ids)

/-- The rows produced by `space(*selectors, quantize=…)` (`space.py` lines 2884-2941) before they are
grouped by the reader. The lookup of the matching weight groups (lines 2920-2936) only serves logging, but it
fails if there is no default weight group. -/
def Store.call (s : Store) (cm : CaseMap) (selectors : List Sel) (quantize : Bool) :
    Except Err (List (Nat × Attrs × ℚ)) := do
  let filter ← s.attributeFilter cm selectors
  let _ ← s.getDefaultWG
  s.disaggregate cm filter quantize

end Toron.Space
