/-
C16, C25: merging index records and updating their labels.
-/
import Verif.Lemmas.Store.Merge
import Verif.Demo

namespace Toron.Space

open Toron.Selectors (PyStr Sel)

/-! ### C16 -/

/-- Merging the weights of records (`ids`, among them possibly the target itself) into a target record: the
weights in every group add up to the same sum, no weight is left on a merged-away record, the weights of other
records and all other tables are untouched. -/
theorem C16_merge_weights {s s' : Store} (h : Reachable s) (ids : List Nat) (target : Nat)
    (hok : mergeWeights ids target s = .ok ((), s')) :
    (∀ g, s'.groupSum g = s.groupSum g) ∧
    (∀ w ∈ s'.weights, w.index ∈ ids → w.index = target) ∧
    (s'.weights.filter fun w => decide (w.index ∉ target :: ids)) =
      (s.weights.filter fun w => decide (w.index ∉ target :: ids)) ∧
    s' = { s with weights := s'.weights } := by
  have hnd := h.weightInv.ids
  refine ⟨mergeWeights_sum hnd hok, (mergeWeights_other hnd hok).2, (mergeWeights_other hnd hok).1, ?_⟩
  obtain ⟨_, _, _, rfl, _⟩ := mergeWeights_ok hnd hok
  rfl

/-- The same for mappings: values and proportions of every link, source record and level add up to the same
sums (a missing proportion makes the sum missing). -/
theorem C16_merge_mappings {s s' : Store} (h : Reachable s) (ids : List Nat) (target : Nat)
    (hok : mergeMappings ids target s = .ok ((), s')) :
    (∀ link other level, s'.valueSum link other level = s.valueSum link other level ∧
      s'.propSum link other level = s.propSum link other level) ∧
    (∀ m ∈ s'.maps, m.index ∈ ids → m.index = target) ∧
    (s'.maps.filter fun m => decide (m.index ∉ target :: ids)) =
      (s.maps.filter fun m => decide (m.index ∉ target :: ids)) ∧
    s' = { s with maps := s'.maps } := by
  have hnd := h.mapInv.ids
  obtain ⟨_, _, _, he, _⟩ := mergeMappings_ok hnd hok
  have hsame := SameSums.of_maps hnd hok (by rw [he])
  refine ⟨fun l o v => ⟨hsame.2.1 l o v, hsame.2.2 l o v⟩, (mergeMappings_other hnd hok).2,
    (mergeMappings_other hnd hok).1, ?_⟩
  rw [he]

/-- Updating the index, with or without merging, successful or not: the weights in every group and the
values and proportions of every link, source record and level add up to the same sums. -/
theorem C16_update_index {s : Store} (h : Reachable s) (merge : Bool) (rows : List (Nat × List PyStr)) :
    let s' := (step (.updateIndex merge rows) s).1
    (∀ g, s'.groupSum g = s.groupSum g) ∧
    (∀ link other level, s'.valueSum link other level = s.valueSum link other level ∧
      s'.propSum link other level = s.propSum link other level) := by
  have hs : SameSums s (step (.updateIndex merge rows) s).1 := by
    rw [step_of_body rfl]
    exact runTx_inv (SameSums.of_eq rfl rfl) fun _ s' hok => updateIndex_sums h.weightInv h.mapInv hok
  exact ⟨hs.1, fun l o v => ⟨hs.2.1 l o v, hs.2.2 l o v⟩⟩

/-- Record 2 of the demonstration dataspace is merged into record 1. -/
example : (mergeWeights [2, 1] 1 Demo.store).map (·.2.weights) =
    .ok [⟨3, 1, 3, 5⟩, ⟨4, 1, 1, 4⟩] := by decide +kernel

example : (mergeMappings [2, 1] 1 Demo.store).map (·.2.maps) =
    .ok [⟨3, 1, 2, 3, [0xC0#8], 30, some 1⟩, ⟨4, 1, 1, 1, [0xC0#8], 40, some 1⟩] := by decide +kernel

example : (step (.updateIndex true [(1, [Demo.lx, Demo.l2])]) Demo.store).2 = .ok () ∧
    (step (.updateIndex true [(1, [Demo.lx, Demo.l2])]) Demo.store).1.index =
      [⟨0, [['-'], ['-']]⟩, ⟨1, [Demo.lx, Demo.l2]⟩, ⟨3, [Demo.ly, Demo.l1]⟩] := by decide +kernel

/-! ### C25 -/

/-- With or without merging, if no record is given the labels it already has (and no record is named
twice), each record that disappears was merged into a different record. Missing for the full claim: rows that
repeat the current labels, see `C25_noop_rejected_violated` and `C25_noop_merge_violated`. -/
theorem C25_disappear_partial {s : Store} (merge : Bool) (rows : List (Nat × List PyStr))
    (hok : (step (.updateIndex merge rows) s).2 = .ok ()) (hnd : (rows.map (·.1)).Nodup)
    (hown : ∀ row ∈ rows, ∀ r ∈ s.index, r.id = row.1 → r.labels ≠ row.2) :
    ∀ d ∈ s.ids, d ∉ (step (.updateIndex merge rows) s).1.ids →
      ∃ row ∈ rows, row.1 ∈ s.ids ∧ row.1 ≠ d :=
  updateIndex_gone (step_ok rfl hok) hnd hown

example : ∃ rows, (step (.updateIndex true rows) Demo.store).2 = .ok () ∧ (rows.map (·.1)).Nodup ∧
    (∀ row ∈ rows, ∀ r ∈ Demo.store.index, r.id = row.1 → r.labels ≠ row.2) ∧
    2 ∈ Demo.store.ids ∧ 2 ∉ (step (.updateIndex true rows) Demo.store).1.ids :=
  ⟨[(1, [Demo.lx, Demo.l2])], by decide +kernel, by simp, by decide +kernel, by decide +kernel,
    by decide +kernel⟩

/-- Updating a record to the labels it already has is refused. -/
theorem C25_noop_rejected_violated :
    ∃ s, Reachable s ∧ ∃ r ∈ s.index, r.id ≠ 0 ∧
      (step (.updateIndex false [(r.id, r.labels)]) s).2 ≠ .ok () := by
  refine ⟨Demo.store, Demo.reachable, ?_⟩
  decide +kernel

/-- With merging enabled, updating a record to the labels it already has succeeds and removes the record. -/
theorem C25_noop_merge_violated :
    ∃ s, Reachable s ∧ ∃ r ∈ s.index, r.id ≠ 0 ∧
      (step (.updateIndex true [(r.id, r.labels)]) s).2 = .ok () ∧
      r.id ∉ (step (.updateIndex true [(r.id, r.labels)]) s).1.ids := by
  refine ⟨run (Demo.ops ++ [.insertIndex none [] .abort .abort [⟨none, some [Demo.ly, Demo.l2], []⟩]])
    (Store.new ['u']), ⟨_, _, rfl⟩, ?_⟩
  decide +kernel

end Toron.Space
