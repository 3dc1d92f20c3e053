/-
Model of reading and deleting the quantities of a legacy node: `get_raw_quantities` and `delete_raw_quantities`
(`src/toron/_dal.py` lines 1756-1914).

The names of the columns are taken to be in normal form. The order of the rows that are read is not modelled.
-/
import Verif.Model.Legacy.Disaggregate

namespace Toron.Legacy

open Toron.Selectors (PyStr Row)
open Toron.Space (LocRec AGroup Quant Attrs)

/-- `d[key] = value`. -/
def setItem {β : Type} (key : PyStr) (value : β) : List (PyStr × β) → List (PyStr × β)
  | [] => [(key, value)]
  | (k, v) :: rest => if k = key then (key, value) :: rest else (k, v) :: setItem key value rest

/-- The loop of `_get_raw_quantities_format_args` (`_dal.py` lines 1794-1801): conditions on columns, conditions on attributes.
The keys of the former are normalized. -/
def divideWhere (cols : List PyStr) : List (PyStr × PyStr) → List (PyStr × PyStr) → List (PyStr × PyStr) →
    Except Err (List (PyStr × PyStr) × List (PyStr × PyStr))
  | locs, attrs, [] => .ok (locs, attrs)
  | locs, attrs, (k, v) :: rest =>
    match normName k with
    | .error e => .error e
    | .ok name =>
      if name ∈ cols then divideWhere cols (setItem name v locs) attrs rest
      else divideWhere cols locs (attrs ++ [(k, v)]) rest

/-- The row of the joins for a quantity (`_dal.py` lines 1829-1831, 1874-1876). -/
def Node.joined (n : Node) (q : Quant) : Option (LocRec × AGroup) :=
  match n.locs.find? fun l => l.id == q.loc, n.attrs.find? fun a => a.id == q.ag with
  | some l, some a => some (l, a)
  | _, _ => none

/-- The `WHERE` clause (`_dal.py` lines 1803-1813, 1832, 1853-1855, 1877). -/
def Node.chosen (n : Node) (locs attrs : List (PyStr × PyStr)) (x : LocRec × AGroup) : Bool :=
  (locs.all fun cv => (n.cols.zip x.1.labels).lookup cv.1 == some cv.2) && keepsAttrs attrs x.2.attrs

/-- A value in a row that is read: a text or the quantity. -/
inductive RawVal where
  | text (t : PyStr)
  | amount (value : ℚ)
  deriving DecidableEq, Repr

/-- A dictionary row (`_dal.py` lines 1837-1841). -/
def rawRow (cols : List PyStr) (x : LocRec × AGroup) (value : ℚ) : List (PyStr × RawVal) :=
  let labels := (cols.zip x.1.labels).foldl (fun d kv => setItem kv.1 (.text kv.2) d) []
  let both := x.2.attrs.foldl (fun d kv => setItem kv.1 (.text kv.2) d) labels
  setItem ['v', 'a', 'l', 'u', 'e'] (.amount value) both

/-- `get_raw_quantities(**where)` (`_dal.py` lines 1844-1859). -/
def Node.readRaw (n : Node) (cond : List (PyStr × PyStr)) : Except Err (List (List (PyStr × RawVal))) :=
  (divideWhere n.cols [] [] cond).map fun d =>
    n.quants.filterMap fun q =>
      match n.joined q with
      | some x => if n.chosen d.1 d.2 x then some (rawRow n.cols x q.value) else none
      | none => none

/-- `delete_raw_quantities(**where)` (`_dal.py` lines 1861-1914): the quantities, then the locations that are not used. -/
def Node.deleteRaw (n : Node) (cond : List (PyStr × PyStr)) : Except Err Node :=
  if cond = [] then .error (.typeError "requires at least one key-word argument")
  else (divideWhere n.cols [] [] cond).map fun d =>
    let quants := n.quants.filter fun q =>
      match n.joined q with
      | some x => !n.chosen d.1 d.2 x
      | none => true
    { n with quants := quants, locs := n.locs.filter fun l => quants.any fun q => q.loc == l.id }

end Toron.Legacy
