/-
C65: loading index data does what its rows say.
-/
import Verif.Lemmas.Store.IndexLoadRun
import Verif.Demo

namespace Toron.Space

open Toron.Selectors (PyStr)

/-- After a load that succeeded, every record of before is still there, under its id. Under `replace` it has the last
labels that the rows give to it, under the other policies its old ones. The other records have labels from the rows
and ids above all earlier ones, and there are at most as many as rows without id. Every id in the rows is that of a record. -/
theorem C65_records {s : Store} (hr : Reachable s) {weights : Option (List PyStr)} {wcols : List PyStr} {pl pw : Policy}
    {rows : List IndexRow} (h : (step (.insertIndex weights wcols pl pw rows) s).2 = .ok ()) :
    (∃ new, (step (.insertIndex weights wcols pl pw rows) s).1.index =
        s.index.map (fun r => ⟨r.id, labelsAfter pl r.labels (labelsGiven rows r.id)⟩) ++ new ∧
      (∀ r ∈ new, (∀ r' ∈ s.index, r'.id < r.id) ∧ ∃ row ∈ rows, row.Counts ∧ row.labels.getD [] = r.labels) ∧
      new.length ≤ (rows.filter fun row => decide (row.Counts ∧ row.idv = none)).length) ∧
    (∀ row ∈ rows, row.Counts → ∀ i ∈ row.idv,
      ∃ r ∈ (step (.insertIndex weights wcols pl pw rows) s).1.index, r.id = i) := by
  obtain ⟨groups, c, t, h1, -, -, h2, -⟩ := insertIndex_result hr.indexInv hr.weightInv (step_ok rfl h)
  obtain ⟨new, a1, a2, -, a4, -, a6⟩ := insertIndexRows_index hr.indexInv hr.weightInv h1
  rw [h2]
  refine ⟨⟨new, a1, fun r hm => ⟨fun r' hr' => ?_, (a2 r hm).2⟩, a6⟩, a4⟩
  exact lt_of_le_of_lt (hr.indexInv.idsLe r' hr') (a2 r hm).1

/-- Unless the policy is `replace`, the records of before are unchanged, and the new ones have exactly the label
combinations of the rows without id that no record had, each once, in the order of the rows. -/
theorem C65_added {s : Store} (hr : Reachable s) {weights : Option (List PyStr)} {wcols : List PyStr} {pl pw : Policy}
    (hp : pl ≠ .replace) {rows : List IndexRow} (h : (step (.insertIndex weights wcols pl pw rows) s).2 = .ok ()) :
    ∃ new, (step (.insertIndex weights wcols pl pw rows) s).1.index = s.index ++ new ∧
      new.map (·.labels) = s.newLabels rows := by
  obtain ⟨groups, c, t, h1, -, -, h2, -⟩ := insertIndex_result hr.indexInv hr.weightInv (step_ok rfl h)
  obtain ⟨new, a1, -, -, -, a5, -⟩ := insertIndexRows_index hr.indexInv hr.weightInv h1
  rw [h2, a1, map_self fun r _ => relabel_not hp _ r]
  exact ⟨new, rfl, a5 hp⟩

/-- Under `abort`, a load succeeds only if the rows give every record of before its own labels. -/
theorem C65_abort {s : Store} (hr : Reachable s) {weights : Option (List PyStr)} {wcols : List PyStr} {pw : Policy}
    {rows : List IndexRow} (h : (step (.insertIndex weights wcols .abort pw rows) s).2 = .ok ()) :
    ∀ r ∈ s.index, ∀ l ∈ labelsGiven rows r.id, l = r.labels := by
  obtain ⟨groups, c, t, h1, -, -, h2, -⟩ := insertIndex_result hr.indexInv hr.weightInv (step_ok rfl h)
  obtain ⟨new, -, -, a3, -⟩ := insertIndexRows_index hr.indexInv hr.weightInv h1
  exact a3 (by decide) (by decide)

/-- The weights, for loads in which the labels of records do not change or all rows have ids: in every group and for every
record, the numbers of the rows about the record (by the labels after the load) are loaded one after the other under the
policy, and `abort` allows no second one; weight columns that are not loaded change nothing. The undefined record never
gets a number. `C65_weights` is about all loads. -/
theorem C65_weights_final {s : Store} (hr : Reachable s) {weights : Option (List PyStr)} {wcols : List PyStr}
    {pl pw : Policy} {rows : List IndexRow} 
    (hst : pl ≠ .replace ∨ (∀ row ∈ rows, row.idv ≠ none) ∨ ∀ row ∈ rows, row.idv = none)
    (h : (step (.insertIndex weights wcols pl pw rows) s).2 = .ok ())
    {name : PyStr} (hg : ∃ g ∈ s.wgroups, g.name = name) {i : Nat} {old : Option ℚ} (hold : s.WeightIs name i old) :
    pw.Allows old ((step (.insertIndex weights wcols pl pw rows) s).1.weightsGiven
      (weightColumns weights wcols) name rows i) ∧
    (step (.insertIndex weights wcols pl pw rows) s).1.WeightIs name i
      (pw.after old ((step (.insertIndex weights wcols pl pw rows) s).1.weightsGiven
        (weightColumns weights wcols) name rows i)) ∧
    (i = 0 → (step (.insertIndex weights wcols pl pw rows) s).1.weightsGiven
        (weightColumns weights wcols) name rows i = []) := by
  have hw' : WeightInv (step (.insertIndex weights wcols pl pw rows) s).1 := (hr.step _).weightInv
  have hok := step_ok (op := .insertIndex weights wcols pl pw rows) rfl h
  generalize (step (.insertIndex weights wcols pl pw rows) s).1 = s' at hok hw' ⊢
  obtain ⟨groups, c, t, h1, hn, hgs, e1, e2, e3⟩ := insertIndex_result hr.indexInv hr.weightInv hok
  obtain ⟨g, hg, rfl⟩ := hg
  obtain ⟨a1, a2, a3⟩ := insertIndexRows_weights hr.indexInv hr.weightInv hst h1
  have hab : ∀ row i, s'.About row i ↔ t.About row i := by
    intro row i; unfold Store.About; rw [e1]
  have hgiven : ∀ i, (rows.filter fun row => decide (row.Counts ∧ t.About row i)).flatMap
      (fun row => cellsFor g.id (groups.zip row.ws)) =
      s'.weightsGiven (weightColumns weights wcols) g.name rows i := by
    intro i
    unfold Store.weightsGiven
    simp only [hab]
    rw [← hn]
    exact List.flatMap_congr fun row _ => cellsFor_eq hr.weightInv hgs hg row
  obtain ⟨b1, b2⟩ := a3 g.id i
  rw [hgiven] at b1 b2
  have ho := (weightIs_iff hr.weightInv hg).1 hold
  rw [ho]
  refine ⟨b1, ?_, ?_⟩
  · have hm : (g.id, g.name) ∈ s'.wgroups.map fun g => (g.id, g.name) := by
      rw [e3, a1]; exact List.mem_map_of_mem (f := fun g : WGroup => (g.id, g.name)) hg
    obtain ⟨g', hg', he⟩ := List.mem_map.1 hm
    have h1 : g'.id = g.id := congrArg Prod.fst he
    have h2 : g'.name = g.name := congrArg Prod.snd he
    rw [← h2, weightIs_iff hw' hg', h2, ← b2, h1]
    unfold Store.weightOf Store.findWeight
    rw [e2]
  · rintro rfl
    rw [← hgiven, List.flatMap_eq_nil_iff]
    intro row hm
    obtain ⟨hm, hd⟩ := List.mem_filter.1 hm
    obtain ⟨hc, hab⟩ := of_decide_eq_true hd
    unfold cellsFor
    rw [List.filterMap_eq_nil_iff]
    intro x hx
    exact a2 row hm hc hab x (List.mem_filter.1 hx).1

/-- A load succeeds if the dataspace has columns, partitions and all the groups named, if every counting row has a label
for each column and no id or the id of the record with these labels, if no number is negative or for the
undefined record, and if the policy allows the numbers for each combination of labels. -/
theorem C65_accepts {s : Store} (hr : ReachableFk s) (hcols : s.cols ≠ []) (hd : s.partDefs.getD [] ≠ [])
    {wcols : List PyStr} (hn : ∀ n ∈ wcols, ∃ g ∈ s.wgroups, g.name = n) {pl pw : Policy}
    (hp : pw = .ignore ∨ pw = .replace ∨ pw = .abort) {rows : List IndexRow}
    (hfit : ∀ row ∈ rows, row.Counts → (row.labels.getD []).length = s.cols.length ∧
      ∀ i ∈ row.idv, (⟨i, row.labels.getD []⟩ : IndexRec) ∈ s.index)
    (hv : ∀ row ∈ rows, row.Counts → ∀ cell ∈ wcols.zip row.ws, ∀ v ∈ cell.2,
      row.labels.getD [] ≠ List.replicate s.cols.length ['-'] ∧ 0 ≤ v)
    (ha : ∀ name labels, ∀ old, (∀ x, old = some x ↔ ∃ i, (⟨i, labels⟩ : IndexRec) ∈ s.index ∧ s.HasWeight name i x) →
      pw.Allows old ((rows.filter fun row => decide (row.Counts ∧ row.labels.getD [] = labels)).flatMap
        (IndexRow.numbers wcols name))) :
    (step (.insertIndex none wcols pl pw rows) s).2 = .ok () := by
  have hi := hr.reachable.indexInv
  have hw := hr.reachable.weightInv
  refine insertIndex_run hp hi hw hr.reachable.linkInv hcols hd
    (fun w hw => List.mem_map.1 (hr.indexRefs.1 w hw)) (fun m hm => List.mem_map.1 (hr.indexRefs.2 m hm)) hn hfit hv ?_
  · intro g hg labels
    refine ha g.name labels _ fun x => ?_
    have key : ∀ i, s.HasWeight g.name i x ↔ s.weightOf g.id i = some x := fun i => by
      have := (weightIs_iff hw hg (i := i) (v := s.weightOf g.id i)).2 rfl x
      exact this.symm
    simp only [key]
    unfold Store.weightAt
    constructor
    · intro h
      obtain ⟨r, hf, h⟩ := Option.bind_eq_some_iff.1 h
      obtain ⟨h1, h2⟩ := (find_nodup_iff hi.labels).1 hf
      exact ⟨r.id, by rw [← h2]; exact h1, h⟩
    · rintro ⟨i, h1, h2⟩
      have hf : s.findByLabels labels = some ⟨i, labels⟩ := (find_nodup_iff hi.labels).2 ⟨h1, rfl⟩
      rw [hf]; exact h2

/-! ### The hypotheses can be met -/

/-- One row by id, one by labels, one new, one that does not count. -/
def Demo.loaded : List IndexRow :=
  [⟨some 1, some [['x'], ['1']], [some 8]⟩, ⟨none, some [['x'], ['2']], [some 9]⟩, ⟨none, some [['z'], ['1']], [some 4]⟩,
   ⟨none, some [['z'], ['1']], [some 6]⟩, ⟨none, some [['z'], []], [some 1]⟩]

example : (step (.insertIndex none [Demo.wname] .abort .replace Demo.loaded) Demo.store).2.toBool = true ∧
    (step (.insertIndex none [Demo.wname] .abort .replace Demo.loaded) Demo.store).1.index =
      Demo.store.index ++ [⟨4, [['z'], ['1']]⟩] ∧
    Demo.store.newLabels Demo.loaded = [[['z'], ['1']]] ∧
    (step (.insertIndex none [Demo.wname] .abort .replace Demo.loaded) Demo.store).1.weights =
      [⟨1, 1, 1, 8⟩, ⟨2, 1, 2, 9⟩, ⟨3, 1, 3, 5⟩, ⟨4, 1, 4, 6⟩] ∧
    (step (.insertIndex none [Demo.wname] .abort .abort Demo.loaded) Demo.store).2.toBool = false := by
  decide +kernel

/-- New labels for a record. -/
example : (step (.insertIndex none [] .replace .abort [⟨some 1, some [['z'], ['1']], []⟩]) Demo.store).2.toBool = true ∧
    (step (.insertIndex none [] .replace .abort [⟨some 1, some [['z'], ['1']], []⟩]) Demo.store).1.index =
      [⟨0, [['-'], ['-']]⟩, ⟨1, [['z'], ['1']]⟩, ⟨2, [['x'], ['2']]⟩, ⟨3, [['y'], ['1']]⟩] ∧
    (step (.insertIndex none [] .abort .abort [⟨some 1, some [['z'], ['1']], []⟩]) Demo.store).2.toBool = false := by
  decide +kernel

/-- The rows fit in the sense of `C65_accepts`. -/
example : Demo.store.cols ≠ [] ∧ Demo.store.partDefs.getD [] ≠ [] ∧
    (∀ n ∈ [Demo.wname], ∃ g ∈ Demo.store.wgroups, g.name = n) ∧
    (∀ row ∈ Demo.loaded, row.Counts → (row.labels.getD []).length = Demo.store.cols.length ∧
      ∀ i ∈ row.idv, (⟨i, row.labels.getD []⟩ : IndexRec) ∈ Demo.store.index) ∧
    (∀ row ∈ Demo.loaded, row.Counts → ∀ cell ∈ [Demo.wname].zip row.ws, ∀ v ∈ cell.2,
      row.labels.getD [] ≠ List.replicate Demo.store.cols.length ['-'] ∧ 0 ≤ v) := by
  decide +kernel

end Toron.Space
