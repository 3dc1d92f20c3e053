/-
What correcting the labels of index records should do.
-/
import Verif.Spec.Proportions
import Verif.Spec.Store

namespace Toron.Space

open Toron.Selectors (PyStr)

/-- The records, and which record was merged into which, in the order in which that was done. -/
structure Relabelled where
  recs : List IndexRec
  into : List (Nat × Nat)
  deriving DecidableEq

/-- Give the record `i` new labels. -/
def withLabels (i : Nat) (labels : List PyStr) (recs : List IndexRec) : List IndexRec :=
  recs.map fun r => if r.id = i then ⟨i, labels⟩ else r

/-- One row of corrections: an id and the new labels. A row with an empty label or an unknown id is passed over, but the
id of a record that is gone because of an earlier row is an error. The undefined record (id 0) cannot be changed. If
another record already has the labels, the two are merged, or that is an error if merging was not asked for. -/
def Relabelled.row (merge : Bool) (t : Relabelled) (row : Nat × List PyStr) : Option Relabelled :=
  if [] ∈ row.2 then some t
  else if row.1 ∉ t.recs.map (·.id) then
    if row.1 ∈ t.into.map (·.1) then none else some t
  else if row.1 = 0 then none
  else
    match t.recs.find? fun r => decide (r.labels = row.2) with
    | none => some { t with recs := withLabels row.1 row.2 t.recs }
    | some o =>
      if o.id = row.1 then some t
      else if merge = false ∨ o.id = 0 then none
      else some ⟨withLabels row.1 row.2 (t.recs.filter fun r => decide (r.id ≠ o.id)), t.into ++ [(o.id, row.1)]⟩

/-- All rows, one after the other. -/
def Relabelled.rows (merge : Bool) (rs : List (Nat × List PyStr)) (t : Relabelled) : Option Relabelled :=
  rs.foldlM (Relabelled.row merge) t

/-- Where what belongs to the record `i` ends up. -/
def ends (into : List (Nat × Nat)) (i : Nat) : Nat := into.foldl (fun i p => if i = p.1 then p.2 else i) i

/-- Weights that are put together: none if there are none, otherwise one with their sum. -/
def putW (ws : List ℚ) : List ℚ := if ws = [] then [] else [ws.sum]

/-- The same for mappings with a value and a proportion. -/
def putM (ms : List (ℚ × Option ℚ)) : List (ℚ × Option ℚ) :=
  if ms = [] then [] else [((ms.map (·.1)).sum, propSum (ms.map (·.2)))]

/-- The values in group `g` of the records that `p` holds of. -/
def Store.weightsIn (s : Store) (g : Nat) (p : Nat → Bool) : List ℚ :=
  (s.weights.filter fun w => w.group == g && p w.index).map (·.value)

/-- The values and proportions of the mappings of a link from a source record at a level to the records that `p` holds
of. -/
def Store.mapsIn (s : Store) (k : Nat × Int × List Byte) (p : Nat → Bool) : List (ℚ × Option ℚ) :=
  (s.maps.filter fun m => decide (m.link = k.1 ∧ m.other = k.2.1 ∧ m.level = k.2.2) && p m.index).map
    fun m => (m.value, m.prop)

example : ends [(3, 2), (2, 5)] 3 = 5 := by decide

end Toron.Space
