/-
C49: stored granularities are current.
-/
import Verif.Lemmas.Store.Gran
import Verif.Demo

namespace Toron.Space

open Toron.Selectors (PyStr)
open Toron.Partitions Toron.Spec

/-- In histories without dropped columns and without replacing labels while inserting, the granularity
stored for each valid combination is the one of the current records. -/
theorem C49_current_partial {s : Store} (h : ReachableFresh s) : ∀ r ∈ s.structs, ∃ d ⊆ s.whole,
    r.bits = s.cols.map (fun c => decide (c ∈ d)) ∧ r.gran.map Gran.value = s.trueGranularity d := by
  intro r hr
  have hg := h.gran r hr
  obtain ⟨hs, hd⟩ := h.keeping.parts
  have hne : s.cols ≠ [] := by
    intro hc
    rw [(hs.empty hc).1] at hr
    cases hr
  obtain ⟨d, hu, hb⟩ := (hs.rows hne r.bits).1 (List.mem_map.2 ⟨r, hr, rfl⟩)
  have hsub : d ⊆ s.whole := isUnionOf_subset hd.sub hu
  refine ⟨d, hsub, hb, ?_⟩
  rw [hg, hb, defOf_bitsOf hsub]
  unfold Store.granPy
  rw [C48_value]
  unfold Store.trueGranularity
  simp only [decide_eq_true_eq]
  rfl

example : ReachableFresh Demo.store ∧ Demo.store.structs.map (·.gran) = [none, some ⟨3, 4⟩, some ⟨3, 1⟩] := by
  refine ⟨⟨['u'], Demo.ops, by decide, rfl⟩, by decide +kernel⟩

/-- A structure row whose granularity differs from that of its columns. -/
theorem stale_of {s : Store} {r : StructRec} {d : Finset PyStr} {a b : Gran} (ha : r.gran = some a)
    (hb : s.granPy d = some b) (hle : a.le b = false) (h0 : 0 < a.n ∧ 0 < b.n ∧ 0 < a.k ∧ 0 < b.k) :
    r.gran.map Gran.value ≠ s.trueGranularity d := by
  have h1 : s.trueGranularity d = (s.granPy d).map Gran.value := by
    unfold Store.granPy
    rw [C48_value]
    unfold Store.trueGranularity
    simp only [decide_eq_true_eq]
    rfl
  rw [h1, ha, hb]
  intro he
  have he : a.value = b.value := by simpa using he
  have := (C48_compare a b h0.1 h0.2.1 h0.2.2.1 h0.2.2.2).2 he.le
  rw [hle] at this
  cases this

def replaceOps : List Op :=
  Demo.ops ++ [.insertIndex none [] .replace .abort [⟨some 3, some [Demo.lx, ['3']], []⟩]]

def dropOps : List Op :=
  [.addIndexColumns [['A'], ['B'], ['C']], .addPartitionDef {['B'], ['C']},
   .insertIndex none [] .abort .abort
     [⟨none, some [['x'], ['1'], ['c']], []⟩, ⟨none, some [['y'], ['2'], ['c']], []⟩],
   .dropIndexColumns [['B']]]

/-- `insert_index` with `on_label_conflict='replace'` changes labels of a record and leaves the granularities
as they were: here all records have the same label in column A, and the granularity stored for A is not zero. -/
theorem C49_violated_replace : ∃ s, Reachable s ∧ ∃ r ∈ s.structs, ∃ d ⊆ s.whole,
    r.bits = s.cols.map (fun c => decide (c ∈ d)) ∧ r.gran.map Gran.value ≠ s.trueGranularity d := by
  have hc : (run replaceOps (Store.new ['u'])).cols = [['A'], ['B']] := by decide +kernel
  refine ⟨run replaceOps (Store.new ['u']), ⟨['u'], replaceOps, rfl⟩, ⟨2, some ⟨3, 4⟩, [true, false]⟩, ?_,
    {['A']}, ?_, ?_, ?_⟩
  · decide +kernel
  · unfold Store.whole; rw [hc]; decide
  · rw [hc]; decide
  · refine stale_of (a := ⟨3, 4⟩) (b := ⟨3, 27⟩) rfl ?_ (by decide) (by decide)
    decide +kernel

/-- `drop_index_columns` leaves the granularities as they were: here all records have the same label in
column C, and the granularity stored for C, which was that of B and C together, is not zero. -/
theorem C49_violated_drop : ∃ s, Reachable s ∧ ∃ r ∈ s.structs, ∃ d ⊆ s.whole,
    r.bits = s.cols.map (fun c => decide (c ∈ d)) ∧ r.gran.map Gran.value ≠ s.trueGranularity d := by
  have hc : (run dropOps (Store.new ['u'])).cols = [['A'], ['C']] := by decide +kernel
  refine ⟨run dropOps (Store.new ['u']), ⟨['u'], dropOps, rfl⟩, ⟨2, some ⟨2, 1⟩, [false, true]⟩, ?_,
    {['C']}, ?_, ?_, ?_⟩
  · decide +kernel
  · unfold Store.whole; rw [hc]; decide
  · rw [hc]; decide
  · refine stale_of (a := ⟨2, 1⟩) (b := ⟨2, 4⟩) rfl ?_ (by decide) (by decide)
    decide +kernel

end Toron.Space
