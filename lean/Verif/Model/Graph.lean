/-
Model of the listings and of the translation in `src/toron/graph.py`, and of `generate_mapping_elements`
(`src/toron/data_service.py` lines 559-617).
-/
import Verif.Model.Reader

namespace Toron.Space

open Toron.Selectors (PyStr Sel CaseMap getGreatestUniqueSpecificity)

/-- An element of a mapping (`graph.py` lines 355-359): source id, target id, level, value. -/
structure MapElement where
  source : Option Int
  target : Option Nat
  level : Option (List Byte)
  value : Option ℚ
  deriving DecidableEq, Repr

/-- `find_unmatched_index_ids` (`repositories.py` lines 111-128). -/
def Store.unmatchedIds (s : Store) (link : Nat) : List Nat :=
  (s.index.map (·.id)).filter fun i => i != 0 && !s.maps.any fun m => m.link == link && m.index == i

/-- The part of `generate_mapping_elements` after the link was found (`data_service.py` lines 589-617). -/
def Store.linkElements (trg src : Store) (l : Link) : List MapElement :=
  [⟨some 0, some 0, none, some 0⟩] ++
  ((trg.maps.filter fun m => m.link == l.id).map fun m => ⟨some m.other, some m.index, some m.level, some m.value⟩) ++
  (if l.complete then [] else (trg.unmatchedIds l.id).map fun i => ⟨none, some i, none, none⟩) ++
  (if some (src.indexHash.map Int.ofNat) = l.otherHash then []
   else (((src.index.map (·.id)).filter fun i : Nat => i != 0 && (trg.findMaps l.id i).isEmpty).map fun i : Nat =>
    ⟨some (i : Int), none, none, none⟩))

/-- `generate_mapping_elements` (`data_service.py` lines 559-617): the last link to the source with the given
name. -/
def Store.mappingElements (trg src : Store) (name : PyStr) : Except Err (List MapElement) :=
  match ((trg.links.filter fun l => l.other == src.uid).filter fun l => l.name == name).getLast? with
  | none => .error (.exception "no link with that name")
  | some l => .ok (trg.linkElements src l)

/-- The result of `_get_mapping_stats` (`graph.py` lines 149-220). -/
structure MapStats where
  srcCard : Int
  srcMatched : Int
  srcMissing : Int
  srcStale : Int
  trgCard : Int
  trgMatched : Int
  trgMissing : Int
  deriving DecidableEq, Repr

/-- `get_index_id_cardinality` (`repositories.py` lines 1194-1208). -/
def Store.mappedCard (s : Store) (link : Nat) : Nat :=
  (distinct ((s.maps.filter fun m => m.link == link && m.index != 0).map (·.index))).length + 1

/-- `_get_mapping_stats` (`graph.py` lines 149-220). -/
def Store.mappingStats (trg src : Store) (l : Link) : Except Err MapStats :=
  if l.other != src.uid then .error (.exception "link does not match source node")
  else
    let card : Int := src.index.length
    let others := trg.distinctOthers l.id
    let found := (others.filter fun o => src.index.any fun r => (r.id : Int) == o).length
    let matched : Int := if l.otherHash = some (src.indexHash.map Int.ofNat) then card else found
    .ok {
      srcCard := card
      srcMatched := matched
      srcMissing := if l.otherHash = some (src.indexHash.map Int.ofNat) then 0 else card - matched
      srcStale := if l.otherHash = some (src.indexHash.map Int.ofNat) then 0 else (others.length - found : Nat)
      trgCard := trg.index.length
      trgMatched := trg.mappedCard l.id
      trgMissing := trg.index.length - trg.mappedCard l.id }

/-- The default link of `_translate` (`graph.py` lines 645-657). -/
def Store.graphDefault (trg : Store) (ref : PyStr) (hash : List Int) : Except Err Nat :=
  match (findLinksByRef trg.links ref).find? fun l => l.isDefault with
  | none => .error (.runtimeError "no default link found for node")
  | some l =>
    if l.otherHash != some hash || !l.complete then .error (.runtimeError "default link is not complete")
    else .ok l.id

/-- One mapping of `_translate` (`graph.py` lines 684-689). -/
def Store.graphPart (trg : Store) (attrs : Attrs) (v : ℚ) (m : Mapping) : Except Err (List (Nat × Attrs × ℚ)) :=
  match m.prop with
  | none => .error (.typeError "expected float")
  | some p =>
    if trg.index.any fun r => r.id == m.index then .ok [(m.index, attrs, v * p)]
    else .error (.keyError "no index with id")

/-- `_translate` (`graph.py` lines 630-689). `ref` and `hash` are those of the quantity iterator; a row of the
data is (index id, attributes, value). -/
def Store.graphTranslate (trg : Store) (cm : CaseMap) (ref : PyStr) (hash : List Int)
    (data : List (Nat × Attrs × Option ℚ)) : Except Err (List (Nat × Attrs × ℚ)) := do
  let d ← trg.graphDefault ref hash
  let dict := ((findLinksByRef trg.links ref).filter fun l => l.complete && !l.selectors.isEmpty).map fun l =>
    (l.id, some l.selectors)
  flatMapE (fun row : Nat × Attrs × Option ℚ =>
    match row.2.2 with
    | none => .ok []
    | some v => do
      let l ← getGreatestUniqueSpecificity cm row.2.1 dict d
      flatMapE (trg.graphPart row.2.1 v) (trg.findMaps l row.1)) data

/-- `get_weights` (`graph.py` lines 569-627) without header, labels and domain: the record's id and its
weights in the groups, in the groups' order. -/
def Store.weightTable (s : Store) (groups : List WGroup) : List (Nat × List (Option ℚ)) :=
  s.index.map fun r => (r.id, groups.map fun g =>
    match s.weightOf g.id r.id with
    | some w => some w
    | none => if r.id = 0 then some 0 else none)

end Toron.Space
