/-
C15: the proportions of the mappings of a source record.
-/
import Verif.Lemmas.Store.Proportion
import Verif.Demo

namespace Toron.Space

open Toron.Selectors (PyStr Sel)

/-- After every history that drops no link (and no weight group) after the dataspace was reopened: the
proportions are between 0 and 1; for every link and every source record with a positive id that has
mappings, the proportions add up to 1 (in particular none is missing); mappings from the undefined source
record have proportion 0. Missing for the full property: histories that drop a link after reopening
(`C15_proportions_violated`) and source records with negative ids (`C15_negative_violated`). -/
theorem C15_proportions_partial {s : Store} (h : ReachableTidy s) :
    (∀ m ∈ s.maps, ∀ p, m.prop = some p → 0 ≤ p ∧ p ≤ 1) ∧
    (∀ link other, 0 < other → s.mapsFrom link other ≠ [] →
      propSum ((s.mapsFrom link other).map (·.prop)) = some 1) ∧
    (∀ m ∈ s.maps, m.other = 0 → m.prop = some 0) := by
  have he : ∀ link other, s.mapsFrom link other = mapsAt s.maps link other := by
    intro link other
    unfold Store.mapsFrom mapsAt
    apply List.filter_congr
    intro m _
    rw [Bool.eq_iff_iff]
    simp
  refine ⟨?_, ?_, ?_⟩
  · intro m hm p hp
    have := h.reachable.mapInv.checks m hm
    simp only [mappingCheck, hp, Bool.and_eq_true, decide_eq_true_eq] at this
    exact this.1.2
  · intro link other ho hne
    rw [he] at hne ⊢
    exact (h.propInv.ok link other).1 ho fun hn => hne (List.map_eq_nil_iff.1 hn)
  · intro m hm ho
    exact (h.propInv.ok m.link m.other).2 ho _
      (List.mem_map_of_mem (List.mem_filter.2 ⟨hm, by simp⟩))

example : ReachableTidy Demo.store ∧ (Demo.store.mapsFrom 1 1).map (·.prop) = [some (1/4), some (3/4)] :=
  ⟨Demo.reachableFk.tidy, by decide +kernel⟩

/-- A tidy history with reopening, deletion, a merge and an update. -/
example : let ops := Demo.ops ++ [.reopen, .updateMappings Demo.other none true [⟨1, 50, 3, [Demo.ly, Demo.l1], some [0xC0#8]⟩],
      .deleteIndex (.rows [(1, [Demo.lx, Demo.l1])]), .updateIndex true [(2, [Demo.ly, Demo.l1])]]
    ops.Pairwise (fun a b => a = Op.reopen → b.dropsOwner = false) ∧
    (run ops (Store.new ['u'])).maps.map (fun m => (m.other, m.index, m.value, m.prop)) =
      [(1, 2, 80, some 1), (2, 2, 30, some 1)] := by
  refine ⟨?_, by decide +kernel⟩
  simp [Demo.ops, Op.dropsOwner]

/-- After reopening, a link is dropped (its mappings stay), a record is deleted (the proportions of the
dropped link are not refreshed), and a new link takes over mappings whose proportions add up to 3/4. -/
theorem C15_proportions_violated :
    ∃ s, Reachable s ∧ ∃ l ∈ s.links, s.mapsFrom l.id 1 ≠ [] ∧
      propSum ((s.mapsFrom l.id 1).map (·.prop)) = some (3/4) := by
  refine ⟨run (Demo.ops ++ [.reopen, .dropLink Demo.other none,
      .deleteIndex (.rows [(1, [Demo.lx, Demo.l1])]),
      .addLink Demo.other ['l'] none [] none none false]) (Store.new ['u']), ⟨_, _, rfl⟩, ?_⟩
  decide +kernel

/-- A mapping from a source record with a negative id never gets a proportion. -/
theorem C15_negative_violated :
    ∃ s, ReachableFk s ∧ ∃ m ∈ s.maps, m.other = -1 ∧ m.value = 10 ∧ m.prop = none := by
  refine ⟨run (Demo.ops ++ [.insertMappings2 Demo.other none [⟨-1, 10, 1, [], some [0xC0#8]⟩]])
    (Store.new ['u']), ⟨_, _, by simp [Demo.ops], rfl⟩, ?_⟩
  decide +kernel

end Toron.Space
