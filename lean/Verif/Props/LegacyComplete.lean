/-
C80: what removing index columns from a legacy node does to its weightings.
-/
import Verif.Lemmas.Legacy.Complete
import Verif.Props.LegacyHistory

namespace Toron.Legacy

open Toron.Selectors (PyStr)
open Toron.Space (IndexRec keepCols)

/-- **C80 (weightings).** A successful removal keeps ids, names and selectors of the weightings. A weighting that is flagged
complete stays so. One that is not becomes so if and only if records are merged, it has weights, and then every record has a
weight in it. -/
theorem C80_weightings {n n' : Node} {drop : List PyStr} {ps pg : Bool} (hr : Reachable n)
    (h : n.removeIndexColumns drop ps pg = .ok n') :
    (n'.weightings.map fun g => (g.id, g.name, g.selectors)) = (n.weightings.map fun g => (g.id, g.name, g.selectors)) ∧
    ∀ g ∈ n.weightings, ∃ g' ∈ n'.weightings, g'.id = g.id ∧
      (g'.complete = true ↔ g.complete = true ∨
        ¬ (n.indexRecords.map fun r => n.remaining drop r.labels).Nodup ∧
          (∃ w ∈ n'.weights, w.group = g.id) ∧ n'.covers g.id) := by
  have hi := hr.inv
  obtain ⟨hp, ha, hb⟩ := removed_flags hi hr.wpos h
  have hi' : Inv n' := exec_inv (op := .removeIndexColumns drop ps pg) hi h
  by_cases hn : (n.index.map fun r => keepCols n.cols drop r.labels).Nodup
  · rw [ha hn]
    refine ⟨rfl, fun g hg => ⟨g, hg, rfl, ?_⟩⟩
    constructor
    · exact Or.inl
    · rintro (h | ⟨h, _⟩)
      · exact h
      · exact absurd hn h
  · rw [hb hn]
    constructor
    · rw [List.map_map]
      apply List.map_congr_left
      intro g _
      simp only [Function.comp_apply]
      split <;> rfl
    · intro g hg
      have hw : 0 < n'.weightCount g.id ↔ ∃ w ∈ n'.weights, w.group = g.id := by
        unfold Node.weightCount
        rw [List.length_pos_iff_exists_mem]
        simp
      refine ⟨_, List.mem_map.2 ⟨g, hg, rfl⟩, ?_, ?_⟩
      · split <;> rfl
      · by_cases hc : g.complete = true
        · rw [if_neg (by simp [hc])]
          simp [hc]
        · rw [Bool.not_eq_true] at hc
          by_cases hpos : 0 < n'.weightCount g.id
          · rw [if_pos (by simp [hc, hpos])]
            show (n'.weightCount g.id == n'.indexCount) = true ↔ _
            rw [complete_iff hi' fun w hw _ => hp w hw]
            simp only [hc, Bool.false_eq_true, false_or]
            exact ⟨fun hcov => ⟨hn, hw.1 hpos, hcov⟩, fun hcov => hcov.2.2⟩
          · rw [if_neg (by simp [hpos])]
            simp only [hc, Bool.false_eq_true, false_or, false_iff]
            rintro ⟨_, hex, _⟩
            exact hpos (hw.2 hex)

/-- **C80 (covering).** If every record has a weight in a weighting then this is so after a successful removal. -/
theorem C80_covers {n n' : Node} {drop : List PyStr} {ps pg : Bool} (hr : Reachable n)
    (h : n.removeIndexColumns drop ps pg = .ok n') {g : Nat} (hc : n.covers g) : n'.covers g := by
  have hi := hr.inv
  have hR := removed hi h
  intro r hr' hne
  change r ∈ n'.index at hr'
  rw [hR.index] at hr'
  obtain ⟨x, hx, rfl⟩ := List.mem_map.1 hr'
  obtain ⟨hx, hg⟩ := List.mem_filter.1 hx
  obtain ⟨w, hw, e1, e2⟩ := hc x hx hne
  obtain ⟨a, ha, k1, k2⟩ := mergeAmounts_stays (m := n.recordMap drop) (rows := n.weights.map ofWeight)
    (x := ofWeight w) (List.mem_map.2 ⟨w, hw, rfl⟩) (by
      show goes _ w.index = false
      rw [e2]
      simpa using hg)
  refine ⟨toWeight a, ?_, k1.trans e1, k2.trans e2⟩
  rw [hR.weights]
  exact List.mem_map.2 ⟨a, ha, rfl⟩

/-- Two weightings of three places, one of them with a weight for one place of each county only. -/
def Demo.halfWeighed : Node :=
  Node.new.run (Demo.places ++
    [.addWeights [['A'], ['B']] false [⟨[['x'], ['1']], none, some 2⟩, ⟨[['y'], ['1']], none, some 6⟩] ['v'] [],
     .addWeights [['A'], ['B']] false [⟨[['x'], ['1']], none, some 2⟩] ['u'] []])

/-- The conditions are met: when the places of each county are merged the second weighting becomes complete, the third does
not. -/
example : Reachable Demo.halfWeighed ∧
    (Demo.halfWeighed.weightings.map fun g => (g.name, g.complete)) = [(['w'], true), (['v'], false), (['u'], false)] ∧
    ((Demo.halfWeighed.removeIndexColumns [['B']] false false).toOption.map fun n' =>
      n'.weightings.map fun g => (g.name, g.complete)) = some [(['w'], true), (['v'], true), (['u'], false)] ∧
    Demo.halfWeighed.covers 1 := by
  refine ⟨⟨_, rfl⟩, by decide +kernel, by decide +kernel, ?_⟩
  intro r hr
  have : ∀ r ∈ Demo.halfWeighed.indexRecords, r.id ≠ 0 → ∃ w ∈ Demo.halfWeighed.weights, w.group = 1 ∧ w.index = r.id := by
    decide +kernel
  exact this r hr

end Toron.Legacy
