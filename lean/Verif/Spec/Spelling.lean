/-
Other spellings: all labels of index records and locations replaced, each by one other text.
-/
import Verif.Model.Store.Ops
import Verif.Model.Store.Read
import Verif.Model.Reader
import Verif.Spec.Units

namespace Toron.Space

open Toron.Selectors (PyStr Sel CaseMap)

/-- A change of spelling: different labels stay different. The empty label and the label `-` of the undefined
record stay what they are. -/
structure Spelling where
  of : PyStr → PyStr
  inj : Function.Injective of
  empty : of [] = []
  dash : of ['-'] = ['-']

/-- An index record in another spelling. -/
def IndexRec.respell (w : Spelling) (r : IndexRec) : IndexRec := { r with labels := r.labels.map w.of }

/-- A location in another spelling. -/
def LocRec.respell (w : Spelling) (r : LocRec) : LocRec := { r with labels := r.labels.map w.of }

/-- A dataspace with all labels in another spelling. -/
def Store.respell (w : Spelling) (s : Store) : Store :=
  { s with index := s.index.map (·.respell w), locs := s.locs.map (·.respell w) }

/-- A row of index data in another spelling. -/
def IndexRow.respell (w : Spelling) (r : IndexRow) : IndexRow := { r with labels := r.labels.map (List.map w.of) }

/-- A row of weight data in another spelling. -/
def WeightRow.respell (w : Spelling) (r : WeightRow) : WeightRow := { r with labels := r.labels.map w.of }

/-- A row of mapping data in another spelling. -/
def MapRow.respell (w : Spelling) (r : MapRow) : MapRow := { r with labels := r.labels.map w.of }

/-- A row of quantity data in another spelling. -/
def QuantRow.respell (w : Spelling) (r : QuantRow) : QuantRow := { r with labels := r.labels.map w.of }

/-- Criteria in another spelling: the names of the columns stay. -/
def respellCriteria (w : Spelling) (cs : List (PyStr × PyStr)) : List (PyStr × PyStr) := cs.map fun kv => (kv.1, w.of kv.2)

/-- What is to be deleted, in another spelling. -/
def Target.respell {ρ : Type} (w : Spelling) (f : ρ → ρ) : Target ρ → Target ρ
  | .rows rs => .rows (rs.map f)
  | .criteria cs => .criteria (respellCriteria w cs)

/-- The same call with all labels in another spelling. -/
def Op.respell (w : Spelling) : Op → Op
  | .insertIndex ws wc pl pw rows => .insertIndex ws wc pl pw (rows.map (·.respell w))
  | .updateIndex m rows => .updateIndex m (rows.map fun r => (r.1, r.2.map w.of))
  | .deleteIndex t => .deleteIndex (t.respell w fun r => (r.1, r.2.map w.of))
  | .insertWeights n p rows => .insertWeights n p (rows.map (·.respell w))
  | .updateWeights n rows => .updateWeights n (rows.map fun r => (r.1, r.2.1.map w.of, r.2.2))
  | .deleteWeights n t => .deleteWeights n (t.respell w fun r => (r.1, r.2.map w.of))
  | .insertMappings2 r n rows => .insertMappings2 r n (rows.map (·.respell w))
  | .insertMappings r n c rows => .insertMappings r n c (rows.map (·.respell w))
  | .updateMappings r n c rows => .updateMappings r n c (rows.map (·.respell w))
  | .deleteMappings r n c t => .deleteMappings r n c (t.respell w (·.respell w))
  | .reifyMappings r n cs => .reifyMappings r n (respellCriteria w cs)
  | .insertQuantities2 al ap p rows => .insertQuantities2 al ap p (rows.map (·.respell w))
  | .insertQuantities a rows => .insertQuantities a (rows.map (·.respell w))
  | op => op

/-- The criteria of a call. -/
def Op.criteria : Op → List (PyStr × PyStr)
  | .deleteIndex (.criteria cs) => cs
  | .deleteWeights _ (.criteria cs) => cs
  | .deleteMappings _ _ _ (.criteria cs) => cs
  | .reifyMappings _ _ cs => cs
  | _ => []

/-- Every criterion of the call names a label column of the dataspace. (A criterion that does not is compared as
text with the label asked for; then it must be equal to it in both spellings or in none.) -/
def Op.NamesApart (w : Spelling) (s : Store) (op : Op) : Prop :=
  ∀ kv ∈ op.criteria, kv.1 ∈ s.cols ∨ (kv.1 = w.of kv.2 ↔ kv.1 = kv.2)

/-- The same for every call of a history. -/
def NamesApart (w : Spelling) : List Op → Store → Prop
  | [], _ => True
  | op :: ops, s => op.NamesApart w s ∧ NamesApart w ops (step op s).1

end Toron.Space
