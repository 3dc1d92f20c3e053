/-
C24: when deleting index records succeeds.
-/
import Verif.Lemmas.Store.DeleteRun
import Verif.Props.StoreDelete

namespace Toron.Space

open Toron.Selectors (PyStr)

/-- Deleting succeeds exactly if something is to be deleted, the undefined record is not chosen, and every mapping of
the chosen records names every column. -/
theorem C24_succeeds {s : Store} (h : Reachable s) (t : Target (Nat × List PyStr)) :
    (step (.deleteIndex t) s).2 = .ok () ↔ t.isEmpty = false ∧ ∀ r ∈ s.index, s.chosen t r = true →
      r.id ≠ 0 ∧ ∀ m ∈ s.maps, m.index = r.id → m.level = fullLevel s.cols.length := by
  constructor
  · intro hok
    refine ⟨?_, fun r hr hc => ⟨(C24_chosen_records h t hok).2 r hr hc, fun m hm hi => ?_⟩⟩
    · by_contra hne
      have ht : t.isEmpty = true := by simpa using hne
      have := step_ok (m := deleteIndex t) rfl hok
      unfold deleteIndex at this
      rw [if_pos ht] at this
      cases this
    · by_contra hl
      obtain ⟨⟨e, he⟩, -⟩ := C24_ambiguous h t r hr hc m hm hi hl
      rw [hok] at he
      cases he
  · rintro ⟨ht, hd⟩
    obtain ⟨s', h1, h2⟩ := deleteIndex_run h.delInv h.linkInv h.fkOk ht hd
    rw [step_of_body rfl]
    unfold runTx
    rw [h1]
    exact congrArg Prod.snd (if_pos h2)

/-- The mappings after a successful deletion, exactly: those of the other records, with the proportions from before or,
if the source record of the mapping lost a mapping, the share of what is left. -/
theorem C24_mappings {s : Store} (h : Reachable s) (t : Target (Nat × List PyStr))
    (hok : (step (.deleteIndex t) s).2 = .ok ()) :
    (step (.deleteIndex t) s).1.maps = s.mapsLeft fun i => i ∈ s.ids ∧ i ∉ (step (.deleteIndex t) s).1.ids := by
  obtain ⟨D, h1, h2⟩ := deleteIndex_gone h.delInv (step_ok rfl hok)
  rw [h2]
  exact mapsGone_left h1

/-- The hypothesis holds for the demonstration dataspace and a record with a mapping, and the proportion changes. -/
example : (step (.deleteIndex (.rows [(1, [Demo.lx, Demo.l1])])) Demo.store).2 = .ok () ∧
    (Target.rows [(1, [Demo.lx, Demo.l1])]).isEmpty = false ∧
    ((step (.deleteIndex (.rows [(1, [Demo.lx, Demo.l1])])) Demo.store).1.maps.map fun m => (m.id, m.prop)) =
      [(2, some 1), (3, some 1)] ∧ (Demo.store.maps.map fun m => (m.id, m.prop)) =
      [(1, some (1/4)), (2, some (3/4)), (3, some 1)] := by
  decide +kernel

end Toron.Space
