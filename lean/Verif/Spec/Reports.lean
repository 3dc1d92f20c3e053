/-
What the rows of a table given to a method do, one after the other, and under which heading each is counted.
-/
import Verif.Model.Store.Reports
import Verif.Spec.Relabel

namespace Toron.Space

open Toron.Selectors (PyStr)

/-- Headings for rows that are left out. -/
def Key.skip : Key → Bool
  | .merged | .inserted | .updated | .deleted | .reified | .overwritten | .summed => false
  | _ => true

/-- The rows are taken in order. `R s row ks s'` says what a row does to the store and how it is counted. -/
inductive Account {ρ : Type} (R : Store → ρ → List Key → Store → Prop) : Store → List ρ → List Key → Store → Prop where
  | nil (s : Store) : Account R s [] [] s
  | cons {s t s' : Store} {row : ρ} {rows : List ρ} {ks ks' : List Key} :
      R s row ks t → Account R t rows ks' s' → Account R s (row :: rows) (ks ++ ks') s'

/-- A record has this id. -/
def Store.HasId (s : Store) (i : Nat) : Prop := ∃ r ∈ s.index, r.id = i

/-- The record with this id has these labels. -/
def Store.IsRecord (s : Store) (i : Nat) (labels : List PyStr) : Prop := ∃ r ∈ s.index, r.id = i ∧ r.labels = labels

/-- A row of `update_index`. -/
inductive UpdateIndexRow (s : Store) (row : Nat × List PyStr) : List Key → Store → Prop where
  | emptyStr : [] ∈ row.2 → UpdateIndexRow s row [.emptyStr] s
  | noIndex : ¬ s.HasId row.1 → UpdateIndexRow s row [.noIndex] s
  | updated : s.HasId row.1 → (∀ r ∈ s.index, r.labels ≠ row.2) →
      UpdateIndexRow s row [.updated] { s with index := withLabels row.1 row.2 s.index }
  | merged {s' : Store} {o : IndexRec} : s.HasId row.1 → o ∈ s.index → o.labels = row.2 →
      s'.index = withLabels row.1 row.2 (s.index.filter fun r => r.id != o.id) →
      UpdateIndexRow s row [.merged, .updated] s'

/-- A row of `delete_index`. -/
inductive DeleteIndexRow (s : Store) (row : Nat × List PyStr) : List Key → Store → Prop where
  | noIndex : ¬ s.HasId row.1 → DeleteIndexRow s row [.noIndex] s
  | mismatch : s.HasId row.1 → ¬ s.IsRecord row.1 row.2 → DeleteIndexRow s row [.mismatch] s
  | deleted {s' : Store} : s.IsRecord row.1 row.2 →
      s'.index = (s.index.filter fun r => r.id != row.1) →
      s'.weights = (s.weights.filter fun w => w.index != row.1) → (∀ m ∈ s'.maps, m.index ≠ row.1) →
      DeleteIndexRow s row [.deleted] s'

/-- The record that a row of weight data names: by its id and its labels, or by its labels. -/
def WeightRow.Names (s : Store) (row : WeightRow) (r : IndexRec) : Prop :=
  r ∈ s.index ∧ r.labels = row.labels ∧ ∀ i ∈ row.idv, r.id = i

/-- A row of `insert_weights`. -/
inductive InsertWeightRow (group : Nat) (p : Policy) (s : Store) (row : WeightRow) : List Key → Store → Prop where
  | notRealnum : row.value = none → InsertWeightRow group p s row [.notRealnum] s
  | noIndex {i : Nat} : row.idv = some i → ¬ s.HasId i → InsertWeightRow group p s row [.noIndex] s
  | mismatch {i : Nat} : row.idv = some i → s.HasId i → ¬ s.IsRecord i row.labels →
      InsertWeightRow group p s row [.mismatch] s
  | noMatch : row.idv = none → (∀ r ∈ s.index, r.labels ≠ row.labels) → InsertWeightRow group p s row [.noMatch] s
  | undefinedRecord {r : IndexRec} : row.Names s r → r.id = 0 → InsertWeightRow group p s row [.undefinedRecord] s
  | skipped {r : IndexRec} : row.Names s r → p = .ignore → (∃ w ∈ s.weights, w.group = group ∧ w.index = r.id) →
      InsertWeightRow group p s row [.skipped] s
  | inserted {r : IndexRec} {v : ℚ} {n : Nat} : row.Names s r → row.value = some v → r.id ≠ 0 →
      (∀ w ∈ s.weights, ¬ (w.group = group ∧ w.index = r.id)) →
      InsertWeightRow group p s row [.inserted] { s with weights := s.weights ++ [⟨n, group, r.id, v⟩] }
  | overwritten {r : IndexRec} {v : ℚ} {w : Weight} : row.Names s r → row.value = some v → p = .replace →
      w ∈ s.weights → w.group = group → w.index = r.id →
      InsertWeightRow group p s row [.overwritten]
        { s with weights := s.weights.map fun x => if x.id = w.id then { x with value := v } else x }
  | summed {r : IndexRec} {v : ℚ} {w : Weight} : row.Names s r → row.value = some v → p = .sum →
      w ∈ s.weights → w.group = group → w.index = r.id →
      InsertWeightRow group p s row [.summed]
        { s with weights := s.weights.map fun x => if x.id = w.id then { x with value := w.value + v } else x }

/-- A row of `update_weights`. -/
inductive UpdateWeightRow (group : Nat) (s : Store) (row : Nat × List PyStr × ℚ) : List Key → Store → Prop where
  | noIndex : ¬ s.HasId row.1 → UpdateWeightRow group s row [.noIndex] s
  | mismatch : s.HasId row.1 → ¬ s.IsRecord row.1 row.2.1 → UpdateWeightRow group s row [.mismatch] s
  | updated {w : Weight} : s.IsRecord row.1 row.2.1 → w ∈ s.weights → w.group = group → w.index = row.1 →
      UpdateWeightRow group s row [.updated]
        { s with weights := s.weights.map fun x => if x.id = w.id then { x with value := row.2.2 } else x }
  | inserted {n : Nat} : s.IsRecord row.1 row.2.1 → (∀ w ∈ s.weights, ¬ (w.group = group ∧ w.index = row.1)) →
      UpdateWeightRow group s row [.inserted] { s with weights := s.weights ++ [⟨n, group, row.1, row.2.2⟩] }

/-- A row of `delete_weights`. -/
inductive DeleteWeightRow (group : Nat) (s : Store) (row : Nat × List PyStr) : List Key → Store → Prop where
  | noIndex : ¬ s.HasId row.1 → DeleteWeightRow group s row [.noIndex] s
  | mismatch : s.HasId row.1 → ¬ s.IsRecord row.1 row.2 → DeleteWeightRow group s row [.mismatch] s
  | noWeight : s.IsRecord row.1 row.2 → (∀ w ∈ s.weights, ¬ (w.group = group ∧ w.index = row.1)) →
      DeleteWeightRow group s row [.noWeight] s
  | deleted {w : Weight} : s.IsRecord row.1 row.2 → w ∈ s.weights → w.group = group → w.index = row.1 →
      DeleteWeightRow group s row [.deleted] { s with weights := s.weights.filter fun x => x.id != w.id }

/-- A row of `insert_mappings`. -/
inductive InsertMappingRow (link : Nat) (s : Store) (row : MapRow) : List Key → Store → Prop where
  | noIndex : ¬ s.HasId row.index → InsertMappingRow link s row [.noIndex] s
  | mismatch : s.HasId row.index → ¬ s.IsRecord row.index row.labels → InsertMappingRow link s row [.mismatch] s
  | badLevel : s.IsRecord row.index row.labels → s.levelOk row.level = false →
      InsertMappingRow link s row [.badLevel] s
  | inserted {n : Nat} {level : List Byte} : s.IsRecord row.index row.labels → s.levelOk row.level = true →
      row.level = some level →
      InsertMappingRow link s row [.inserted]
        { s with maps := s.maps ++ [⟨n, link, row.other, row.index, level, row.value, none⟩] }

/-- A row of `update_mappings`. -/
inductive UpdateMappingRow (link : Nat) (s : Store) (row : MapRow) : List Key → Store → Prop where
  | noIndex : ¬ s.HasId row.index → UpdateMappingRow link s row [.noIndex] s
  | mismatch : s.HasId row.index → ¬ s.IsRecord row.index row.labels → UpdateMappingRow link s row [.mismatch] s
  | badLevel : s.IsRecord row.index row.labels → s.levelOk row.level = false →
      UpdateMappingRow link s row [.badLevel] s
  | updated {m : Mapping} {level : List Byte} : s.IsRecord row.index row.labels → s.levelOk row.level = true →
      row.level = some level → m ∈ s.maps → m.link = link → m.other = row.other → m.index = row.index →
      UpdateMappingRow link s row [.updated]
        { s with maps := s.maps.map fun x => if x.id = m.id then { m with value := row.value, level := level } else x }
  | inserted {n : Nat} {level : List Byte} : s.IsRecord row.index row.labels → s.levelOk row.level = true →
      row.level = some level →
      (∀ m ∈ s.maps, ¬ (m.link = link ∧ m.other = row.other ∧ m.index = row.index)) →
      UpdateMappingRow link s row [.inserted]
        { s with maps := s.maps ++ [⟨n, link, row.other, row.index, level, row.value, none⟩] }

/-- A row of `delete_mappings`. -/
inductive DeleteMappingRow (link : Nat) (s : Store) (row : MapRow) : List Key → Store → Prop where
  | noIndex : ¬ s.HasId row.index → DeleteMappingRow link s row [.noIndex] s
  | mismatch : s.HasId row.index → ¬ s.IsRecord row.index row.labels → DeleteMappingRow link s row [.mismatch] s
  | noMapping : s.IsRecord row.index row.labels →
      (∀ m ∈ s.maps, ¬ (m.link = link ∧ m.other = row.other ∧ m.index = row.index)) →
      DeleteMappingRow link s row [.noMapping] s
  | valueMismatch {m : Mapping} : s.IsRecord row.index row.labels → m ∈ s.maps → m.link = link →
      m.other = row.other → m.index = row.index → m.value ≠ row.value → DeleteMappingRow link s row [.valueMismatch] s
  | approximate {m : Mapping} : s.IsRecord row.index row.labels → m ∈ s.maps → m.link = link →
      m.other = row.other → m.index = row.index → m.level ≠ fullLevel s.cols.length →
      DeleteMappingRow link s row [.approximate] s
  | deleted {m : Mapping} : s.IsRecord row.index row.labels → m ∈ s.maps → m.link = link →
      m.other = row.other → m.index = row.index → m.value = row.value →
      DeleteMappingRow link s row [.deleted] { s with maps := s.maps.filter fun x => x.id != m.id }

end Toron.Space
