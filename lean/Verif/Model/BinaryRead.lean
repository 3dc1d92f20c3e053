/-
Reading a dataspace (`src/toron/space.py` lines 2762-2941, see `Model/Store/Read`), computed with 53 significant bits (see
`Model/Binary`). The stored numbers may be any rational numbers, among them all floats.
-/
import Verif.Model.Binary
import Verif.Model.Store.Read

namespace Toron.Space

open Toron.Selectors (PyStr Sel CaseMap getGreatestUniqueSpecificity)

/-- One quantity (`space.py` lines 2814-2882). -/
def Store.disaggOneF (s : Store) (cm : CaseMap) (dflt : Nat) (finest quantize : Bool) (l : LocRec)
    (q : Quant) : Except Err (List (Nat × Attrs × ℚ)) := do
  let ids := s.matchingIds l.labels
  match ids with
  | [] => .error (.runtimeError "no index matching")
  | i :: _ => do
    let attrs := s.withDomain (← s.getAttrs q.ag)
    if finest then .ok [(i, attrs, q.value)]
    else do
      let group ← getGreatestUniqueSpecificity cm attrs s.selectorDict dflt
      let parts ← Binary.disaggregateValue q.value ids (s.weightOf group)
      let parts ← if quantize then Binary.quantizeValues parts q.value else .ok parts
      .ok (parts.map fun p => (p.1, attrs, p.2))

/-- `_disaggregate` (`space.py` lines 2762-2882). -/
def Store.disaggregateF (s : Store) (cm : CaseMap) (filter : Option (List Nat)) (quantize : Bool) :
    Except Err (List (Nat × Attrs × ℚ)) := do
  let dflt ← s.getDefaultWG
  if !dflt.complete then .error (.runtimeError "default weight group is not complete")
  else match s.structsSorted with
    | [] => .error (.indexError "list index out of range")
    | first :: rest =>
      flatMapE (fun st =>
        flatMapE (fun lq => s.disaggOneF cm dflt.id (granEq st.gran first.gran) quantize lq.1 lq.2)
          ((s.quantsByBits st.bits).filter fun lq => match filter with
            | none => true
            | some ids => ids.contains lq.2.ag))
        (first :: rest)

/-- The rows produced by `space(*selectors, quantize=…)` (`space.py` lines 2884-2941) before they are grouped. -/
def Store.callF (s : Store) (cm : CaseMap) (selectors : List Sel) (quantize : Bool) :
    Except Err (List (Nat × Attrs × ℚ)) := do
  let filter ← s.attributeFilter cm selectors
  let _ ← s.getDefaultWG
  s.disaggregateF cm filter quantize

end Toron.Space
