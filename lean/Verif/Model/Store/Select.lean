/-
Model of the listings of a dataspace (`src/toron/space.py`): `select_index`, `select_weights`, `select_mappings`,
`select_quantities`, `select_quantities2`, `select_quantities_without_index`, `select_unmatched_quantities`.
Header rows are left out, except where asking for none makes a difference.
-/
import Verif.Model.Store.Read
import Verif.Model.Text

namespace Toron.Space

open Toron.Selectors (PyStr)

/-- `select_index` (`space.py` lines 875-887). -/
def Store.selectIndex (s : Store) (criteria : List (PyStr × PyStr)) : List (Nat × List PyStr) :=
  (s.filterByLabel criteria).map fun r => (r.id, r.labels)

/-- `_select_weights` (`space.py` lines 1215-1244), the data of `select_weights` (lines 1246-1270): nothing for
an unknown group. -/
def Store.selectWeights (s : Store) (group : PyStr) (criteria : List (PyStr × PyStr)) :
    List (Nat × List PyStr × Option ℚ) :=
  match s.findWGroup group with
  | none => []
  | some g => (s.filterByLabel criteria false).map fun r => (r.id, r.labels, s.weightOf g.id r.id)

/-- A row of `select_mappings`. -/
structure MapView where
  other : Option Int
  value : Option ℚ
  index : Nat
  labels : List PyStr
  ambiguous : Option PyStr
  deriving DecidableEq, Repr

/-- The rows of one index record in `select_mappings` (`space.py` lines 1722-1745): its mappings, or one row with
nothing if it has none. `if rel.mapping_level` is false for the empty level. -/
def Store.mapViews (s : Store) (link : Nat) (r : IndexRec) : List MapView :=
  match s.maps.filter fun m => m.link == link && m.index == r.id with
  | [] => [⟨none, none, r.id, r.labels, none⟩]
  | ms => ms.map fun m => ⟨some m.other, some m.value, r.id, r.labels,
      if m.level = [] then none else Text.ambiguousText (some m.level) s.cols⟩

/-- `select_mappings` (`space.py` lines 1699-1745). -/
def Store.selectMappings (s : Store) (ref : PyStr) (name : Option PyStr) (criteria : List (PyStr × PyStr)) :
    Except Err (List MapView) := do
  let l ← getLink s.links ref name
  return (s.filterByLabel criteria false).flatMap (s.mapViews l.id)

/-- A row of a quantity listing: the domain (if any), the labels, one cell for every attribute column, the
value. -/
structure QuantView where
  domain : List PyStr
  labels : List PyStr
  attrs : List (Option PyStr)
  value : ℚ
  deriving DecidableEq, Repr

/-- `get_all_attribute_names` (`repositories.py` lines 640-649): sorted by code points, without repetitions. -/
def Store.attrNames (s : Store) : List PyStr :=
  sortedBy (fun a b => decide (a.map Char.toNat ≤ b.map Char.toNat))
    (s.agroups.flatMap fun g => g.attrs.map (·.1)).dedup

/-- One row (`space.py` lines 2602-2609, 2642-2650, 2721-2729). -/
def Store.quantView (s : Store) (names : List PyStr) (l : LocRec) (q : Quant) : Except Err QuantView := do
  let attrs ← s.getAttrs q.ag
  return ⟨if s.getDomain = [] then [] else [s.getDomain], l.labels, names.map fun n => attrs.lookup n, q.value⟩

/-- The quantities of some locations, in the order of the listing. -/
def Store.quantViews (s : Store) (names : List PyStr) (locs : List LocRec) : Except Err (List QuantView) :=
  flatMapE (fun l => (s.quants.filter fun q => q.loc == l.id).mapM (s.quantView names l)) locs

/-- `select_quantities` (`space.py` lines 2580-2609). -/
def Store.selectQuantities (s : Store) : Except Err (List QuantView) := s.quantViews s.attrNames s.locs

/-- `select_quantities2` (`space.py` lines 2469-2500): the columns are the registered attributes. -/
def Store.selectQuantities2 (s : Store) : Except Err (List QuantView) :=
  if s.regAttrs.getD [] = [] then .error (.toronError "no attributes registered")
  else s.quantViews (s.regAttrs.getD []) s.locs

/-- Without a header the variable `attr_cols` is never assigned (`space.py` lines 2633-2636, 2712-2715), so that the
first row raises `UnboundLocalError`. -/
def Store.quantViewsHeader (s : Store) (header : Bool) (locs : List LocRec) : Except Err (List QuantView) :=
  if header then s.quantViews s.attrNames locs
  else flatMapE (fun l => (s.quants.filter fun q => q.loc == l.id).mapM fun q => do
    let _ ← s.getAttrs q.ag
    .error (.nameError "attr_cols")) locs

/-- `select_quantities_without_index` (`space.py` lines 2611-2650). -/
def Store.selectWithoutIndex (s : Store) (header : Bool) : Except Err (List QuantView) :=
  s.quantViewsHeader header s.locsWithoutIndex

/-- `select_unmatched_quantities` (`space.py` lines 2689-2729). -/
def Store.selectUnmatched (s : Store) (header : Bool) : Except Err (List QuantView) :=
  s.quantViewsHeader header s.nonmatchingLocs

end Toron.Space
