/-
C65: loading index data does what its rows say, row by row.
-/
import Verif.Lemmas.Store.IndexTurn
import Verif.Demo

namespace Toron.Space

open Toron.Selectors (PyStr)

/-- After a load that succeeded, the records are those that the rows make, one after the other. -/
theorem C65_in_turn {s : Store} (hr : Reachable s) {weights : Option (List PyStr)} {wcols : List PyStr} {pl pw : Policy}
    {rows : List IndexRow} (h : (step (.insertIndex weights wcols pl pw rows) s).2 = .ok ()) :
    (step (.insertIndex weights wcols pl pw rows) s).1.index = (rows.foldl (recordsNext pl) (s.index, s.seq)).1 := by
  obtain ⟨groups, c, t, h1, -, -, h2, -⟩ := insertIndex_result hr.indexInv hr.weightInv (step_ok rfl h)
  rw [h2, recordsAll_eq hr.indexInv hr.weightInv h1]

/-- The weights: in every group and for every record, the numbers of the rows that are about the record at their turn are
loaded one after the other under the policy, and `abort` allows no second one; weight columns that are not loaded change
nothing. The undefined record never gets a number. -/
theorem C65_weights {s : Store} (hr : Reachable s) {weights : Option (List PyStr)} {wcols : List PyStr}
    {pl pw : Policy} {rows : List IndexRow} (h : (step (.insertIndex weights wcols pl pw rows) s).2 = .ok ())
    {name : PyStr} (hg : ∃ g ∈ s.wgroups, g.name = name) {i : Nat} {old : Option ℚ} (hold : s.WeightIs name i old) :
    pw.Allows old (numbersInTurn pl (weightColumns weights wcols) name i (s.index, s.seq) rows) ∧
    (step (.insertIndex weights wcols pl pw rows) s).1.WeightIs name i
      (pw.after old (numbersInTurn pl (weightColumns weights wcols) name i (s.index, s.seq) rows)) ∧
    (i = 0 → numbersInTurn pl (weightColumns weights wcols) name i (s.index, s.seq) rows = []) := by
  have hw' : WeightInv (step (.insertIndex weights wcols pl pw rows) s).1 := (hr.step _).weightInv
  have hok := step_ok (op := .insertIndex weights wcols pl pw rows) rfl h
  generalize (step (.insertIndex weights wcols pl pw rows) s).1 = s' at hok hw' ⊢
  obtain ⟨groups, c, t, h1, hn, hgs, e1, e2, e3⟩ := insertIndex_result hr.indexInv hr.weightInv hok
  obtain ⟨g, hg, rfl⟩ := hg
  obtain ⟨a1, a2, a3⟩ := insertIndexRows_turn hr.indexInv hr.weightInv h1
  have hcell := fun i => cellsInTurn_eq hr.weightInv hgs hg pl i (s.index, s.seq) rows
  rw [hn] at hcell
  obtain ⟨b1, b2⟩ := a3 g.id i
  rw [hcell] at b1 b2
  have ho := (weightIs_iff hr.weightInv hg).1 hold
  rw [ho]
  refine ⟨b1, ?_, ?_⟩
  · have hm : (g.id, g.name) ∈ s'.wgroups.map fun g => (g.id, g.name) := by
      rw [e3, a1]; exact List.mem_map_of_mem (f := fun g : WGroup => (g.id, g.name)) hg
    obtain ⟨g', hg', he⟩ := List.mem_map.1 hm
    have h1 : g'.id = g.id := congrArg Prod.fst he
    have h2 : g'.name = g.name := congrArg Prod.snd he
    rw [← h2, weightIs_iff hw' hg', h2, ← b2, h1]
    unfold Store.weightOf Store.findWeight
    rw [e2]
  · rintro rfl
    rw [← hcell]
    exact a2 g.id

/-- A load that gives new labels to a record by its id and then names records by labels: the old labels now make a new
record, and the new labels are those of the old one. -/
def Demo.mixed : List IndexRow :=
  [⟨none, some [Demo.lx, Demo.l1], [some 7]⟩, ⟨some 1, some [['z'], ['1']], []⟩, ⟨none, some [Demo.lx, Demo.l1], [some 8]⟩,
   ⟨none, some [['z'], ['1']], [some 9]⟩]

example : (step (.insertIndex none [Demo.wname] .replace .replace Demo.mixed) Demo.store).2.toBool = true ∧
    (∃ g ∈ Demo.store.wgroups, g.name = Demo.wname) ∧
    numbersInTurn .replace [Demo.wname] Demo.wname 1 (Demo.store.index, Demo.store.seq) Demo.mixed = [7, 9] ∧
    numbersInTurn .replace [Demo.wname] Demo.wname 4 (Demo.store.index, Demo.store.seq) Demo.mixed = [8] ∧
    (step (.insertIndex none [Demo.wname] .replace .replace Demo.mixed) Demo.store).1.index =
      [⟨0, [['-'], ['-']]⟩, ⟨1, [['z'], ['1']]⟩, ⟨2, [['x'], ['2']]⟩, ⟨3, [['y'], ['1']]⟩, ⟨4, [['x'], ['1']]⟩] := by
  decide +kernel

end Toron.Space
