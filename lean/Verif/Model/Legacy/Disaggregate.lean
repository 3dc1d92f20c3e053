/-
Model of the two disaggregation methods of the legacy data access layer (`src/toron/_dal.py` lines 1916-2254).

The conditions `filter_rows_where` are taken after `_get_raw_quantities_format_args` (lines 1756-1815) has divided them
into conditions on label columns and conditions on attributes. The order of the resulting rows is not modelled.
-/
import Verif.Model.Legacy.Remove
import Verif.Model.SelectorText

namespace Toron.Legacy

open Toron.Selectors (PyStr Sel CaseMap Row parseSelector getMatchingKey)
open Toron.Space (IndexRec LocRec StructRec Weight AGroup Quant Attrs)

/-- A row of a result: record, attributes, amount. -/
structure Piece where
  index : Nat
  attrs : Attrs
  value : ℚ
  deriving DecidableEq, Repr

/-- A quantity that is to be split: labels of its location, attributes, amount, and the weighting chosen for it. -/
structure Source where
  labels : List PyStr
  attrs : Attrs
  value : ℚ
  weighting : Nat
  deriving DecidableEq, Repr

/-- The selectors of the complete weightings (`_dal.py` lines 2020-2028, 2171-2179). Weightings without selectors have
NULL there (lines 1344-1347), and `parse_all(None)` raises. -/
def Node.selectorLists (n : Node) : Except Err (List (Nat × Option (List Sel))) :=
  (n.weightings.filter (·.complete)).mapM fun g =>
    if g.selectors = [] then .error (.typeError "'NoneType' object is not iterable")
    else match g.selectors.mapM parseSelector with
      | some sels => .ok (g.id, some sels)
      | none => .error (.exception "SelectorSyntaxError")

/-- The function that filters attributes (`_dal.py` lines 1807-1811). -/
def keepsAttrs (attrsWhere : List (PyStr × PyStr)) (a : Attrs) : Bool :=
  attrsWhere.all fun kv => Row.get a kv.1 == kv.2

/-- The quantities with attributes and location (`_dal.py` lines 2001-2003, the filter of lines 1987-1990) and the weighting
that the SQL function finds for them (line 2007). It is simplified that the function is called for all of them: if it
raises for one of them, the statement fails. -/
def Node.sources (cm : CaseMap) (sels : List (Nat × Option (List Sel))) (attrsWhere : List (PyStr × PyStr)) (n : Node) :
    Except Err (List Source) :=
  (n.rawQuantities.filter fun q => keepsAttrs attrsWhere q.2.1).mapM fun q =>
    (getMatchingKey cm sels 1 q.2.1).map fun g => ⟨q.1, q.2.1, q.2.2, g⟩

/-- `_disaggregate_make_sql_constraints` (`_dal.py` lines 1917-1966): the labels of the location are those of the record where
the bit is set and empty elsewhere. -/
def fitsMask : List Bool → List PyStr → List PyStr → Bool
  | bit :: bits, l :: ls, x :: xs => (if bit then l == x else l == []) && fitsMask bits ls xs
  | _, _, _ => true

/-- The rows of the joins for one quantity (`_dal.py` lines 2004-2008): records with their weights. -/
def Node.rowsFor (n : Node) (bits : List Bool) (s : Source) : List (Nat × ℚ) :=
  n.index.flatMap fun r =>
    if fitsMask bits s.labels r.labels then
      (n.weights.filter fun w => w.index == r.id && w.group == s.weighting).map fun w => (r.id, w.value)
    else []

/-- The parts of the quantities for one level, each the given fraction of its quantity. -/
def Node.split (n : Node) (fraction : Source → List (Nat × ℚ) → (Nat × ℚ) → ℚ) (bits : List Bool) (srcs : List Source) :
    List Piece :=
  srcs.flatMap fun s => (n.rowsFor bits s).map fun x => ⟨x.1, s.attrs, s.value * fraction s (n.rowsFor bits s) x⟩

/-- The sum of the weights of joined rows (`SUM(…) OVER (PARTITION BY …)`). -/
def weightSum (rows : List (Nat × ℚ)) : ℚ := (rows.map (·.2)).sum

/-- The fraction of `_disaggregate_make_sql` (`_dal.py` lines 1997-2000); a division by zero is NULL. -/
def staticFraction (_ : Source) (rows : List (Nat × ℚ)) (x : Nat × ℚ) : ℚ :=
  if weightSum rows = 0 then 1 / rows.length else x.2 / weightSum rows

/-- `user_json_object_keep` (`_schema.py` lines 403-458); no keys means all of them. -/
def keepKeys (keys : List PyStr) (a : Attrs) : Option Attrs :=
  if keys = [] then some a
  else
    let kept := a.filter fun kv => decide (kv.1 ∈ keys)
    if kept = [] then none else some kept

/-- The row of the subquery `t5` for a record and attributes (`_dal.py` lines 2142-2152): what earlier levels have assigned to
the record for these attributes. -/
def earlier (keys : List PyStr) (prev : List Piece) (a : Attrs) (i : Nat) : Option ℚ :=
  match keepKeys keys a with
  | none => none
  | some k =>
    let ps := prev.filter fun p => p.index == i && keepKeys keys p.attrs == some k
    if ps = [] then none else some (ps.map (·.value)).sum

/-- The fraction of `_adaptive_disaggregate_make_sql` (`_dal.py` lines 2129-2133). A sum without any row is NULL, like a
division by zero. -/
def adaptiveFraction (keys : List PyStr) (prev : List Piece) (s : Source) (rows : List (Nat × ℚ)) (x : Nat × ℚ) : ℚ :=
  let before := rows.filterMap fun y => earlier keys prev s.attrs y.1
  if before.sum = 0 then staticFraction s rows x else (earlier keys prev s.attrs x.1).getD 0 / before.sum

/-- The records of the last statement (`_dal.py` lines 2066-2071, 2079-2081): those with the given labels. -/
def Node.recordsWhere (n : Node) (labelsWhere : List (PyStr × PyStr)) : List IndexRec :=
  n.index.filter fun r => labelsWhere.all fun cl => (n.cols.zip r.labels).lookup cl.1 == some cl.2

/-- The last statement (`_dal.py` lines 2074-2083, 2241-2248): rows grouped by record and attributes. (One of the methods
groups by the labels of the record, which are unique.) -/
def Node.grouped (n : Node) (labelsWhere : List (PyStr × PyStr)) (ps : List Piece) : List Piece :=
  let ps := ps.filter fun p => (n.recordsWhere labelsWhere).any fun r => r.id == p.index
  ((ps.map fun p => (p.index, p.attrs)).dedup).map fun k =>
    ⟨k.1, k.2, ((ps.filter fun p => p.index == k.1 && p.attrs == k.2).map (·.value)).sum⟩

/-- What both methods do first. The statement cannot be built without columns (`GROUP BY` is followed by a comma) or levels, and
the selector of an attribute needs a value (`selectors.py` lines 145-147). -/
def Node.prepare (cm : CaseMap) (attrsWhere : List (PyStr × PyStr)) (n : Node) : Except Err (List Source) := do
  let sels ← n.selectorLists
  if attrsWhere.any fun kv => kv.2 == [] then .error (.typeError "must use `op` and `val` together or not at all")
  else if n.cols = [] ∨ n.structs = [] then .error (.operationalError "syntax error")
  else n.sources cm sels attrsWhere

/-- `static_disaggregate` (`_dal.py` lines 2012-2089). -/
def Node.staticDisaggregate (cm : CaseMap) (labelsWhere attrsWhere : List (PyStr × PyStr)) (n : Node) :
    Except Err (List Piece) := do
  let srcs ← n.prepare cm attrsWhere
  .ok (n.grouped labelsWhere (n.structs.flatMap fun st => n.split staticFraction st.bits srcs))

/-- The levels, the finest first (`_dal.py` line 2186). -/
def Node.levels (n : Node) : List (List Bool) := (sortedBy (fun a b => granGe a.gran b.gran) n.structs).map (·.bits)

/-- `adaptive_disaggregate` (`_dal.py` lines 2158-2254) with `match_attributes` = `keys`. For the first level there is nothing
earlier, so that it is split like the others (lines 2205-2215). -/
def Node.adaptiveDisaggregate (cm : CaseMap) (keys : List PyStr) (labelsWhere attrsWhere : List (PyStr × PyStr)) (n : Node) :
    Except Err (List Piece) := do
  let srcs ← n.prepare cm attrsWhere
  .ok (n.grouped labelsWhere
    (n.levels.foldl (fun prev bits => n.split (adaptiveFraction keys prev) bits srcs ++ prev) []))

end Toron.Legacy
