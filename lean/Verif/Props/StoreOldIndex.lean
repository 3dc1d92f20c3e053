/-
C93: the older method for loading index records.
-/
import Verif.Lemmas.Store.OldIndex
import Verif.Props.StoreIndexLoad

namespace Toron.Space

open Toron.Selectors (PyStr)

/-- In a dataspace with label columns the older method leaves the same dataspace behind, and succeeds or fails in the same
way, as the newer method that is given the same labels, no ids and no weights, whatever its policies are. -/
theorem C93_same_as_newer {s : Store} (h : ReachableFk s) (hc : s.cols ≠ []) {rows : List (List PyStr)}
    (hlen : ∀ l ∈ rows, l.length = s.cols.length) (pl pw : Policy) :
    runTx (insertIndexOld rows) s =
      step (.insertIndex none [] pl pw (rows.map fun l => ⟨none, some l, []⟩)) s := by
  rw [step_of_body rfl]
  unfold runTx
  rw [← insertIndexOld_eq (pl := pl) (pw := pw) h.reachable.indexInv h.reachable.weightInv h.reachable.linkInv
    h.indexRefs.1 hlen hc]
  rfl

/-- So it succeeds if there are partitions, and then it adds the combinations without empty label that no record had, each
once and in the order of the rows, under ids above all earlier ones; it changes no other record and no weight. -/
theorem C93_adds {s : Store} (h : ReachableFk s) (hc : s.cols ≠ []) (hd : s.partDefs.getD [] ≠ [])
    {rows : List (List PyStr)} (hlen : ∀ l ∈ rows, l.length = s.cols.length) :
    (runTx (insertIndexOld rows) s).2 = .ok () ∧
    (∃ new, (runTx (insertIndexOld rows) s).1.index = s.index ++ new ∧
      new.map (·.labels) = distinct (rows.filter fun l => decide ([] ∉ l ∧ ∀ r ∈ s.index, r.labels ≠ l)) ∧
      ∀ r ∈ new, ∀ r' ∈ s.index, r'.id < r.id) ∧
    (runTx (insertIndexOld rows) s).1.weights = s.weights := by
  have hok := C65_accepts h hc hd (wcols := []) (by simp) (pl := .abort) (pw := .abort) (.inr (.inr rfl))
    (rows := rows.map fun l => ⟨none, some l, []⟩)
    (by
      intro row hrow _
      obtain ⟨l, hl, rfl⟩ := List.mem_map.1 hrow
      exact ⟨hlen l hl, by simp⟩)
    (by intro row _ _ cell hcell; simp at hcell)
    (by
      intro name labels old _
      have : ((rows.map fun l => (⟨none, some l, []⟩ : IndexRow)).filter fun row =>
          decide (row.Counts ∧ row.labels.getD [] = labels)).flatMap (IndexRow.numbers [] name) = [] := by
        rw [List.flatMap_eq_nil_iff]
        intro row _
        simp [IndexRow.numbers]
      rw [this]
      simp [Policy.Allows])
  rw [C93_same_as_newer h hc hlen .abort .abort]
  refine ⟨hok, ?_, ?_⟩
  · obtain ⟨new, h1, h2⟩ := C65_added h.reachable (by decide) hok
    refine ⟨new, h1, ?_, ?_⟩
    · rw [h2]
      unfold Store.newLabels
      rw [List.filter_map, List.map_map]
      congr 1
      refine (List.map_id _).trans ?_ 
      apply List.filter_congr
      intro l _
      simp [IndexRow.Counts]
    · obtain ⟨⟨new', h3, h4, -⟩, -⟩ := C65_records h.reachable hok
      have : new' = new := by
        rw [h1] at h3
        have hl : s.index.length = (s.index.map fun r => (⟨r.id, labelsAfter .abort r.labels
          (labelsGiven (rows.map fun l => ⟨none, some l, []⟩) r.id)⟩ : IndexRec)).length := by simp
        exact ((List.append_inj h3 hl).2).symm
      subst this
      exact fun r hr => (h4 r hr).1
  · obtain ⟨groups, c, t, h1, h2, -, -, h4, -⟩ := insertIndex_result h.reachable.indexInv h.reachable.weightInv
      (step_ok rfl hok)
    have hg : groups = [] := List.map_eq_nil_iff.1 h2
    subst hg
    have hp := plainRows_eq (pl := .abort) (pw := .abort) (b := false) h.reachable.indexInv hlen hc
    rw [h4]
    have h1' : (rows.map plainRow).foldlM (insertIndexRow [] .abort .abort) ⟨false, false⟩ s = .ok (c, t) := h1
    rw [h1'] at hp
    rcases hf : rows.foldlM insertIndexOldRow false s with e | ⟨b, u⟩
    · rw [hf] at hp; cases hp
    · rw [hf] at hp; cases hp
      obtain ⟨-, ⟨idx, sq, rfl, -⟩, -⟩ := oldRows_result hf h.reachable.indexInv
      rfl

/-- Without label columns it fails, unless there is nothing to load, and changes nothing; the newer method fails even then. -/
theorem C93_no_columns {s : Store} (h : Reachable s) (hc : s.cols = []) (rows : List (List PyStr)) :
    ((runTx (insertIndexOld rows) s).2 = .ok () ↔ rows = []) ∧ (runTx (insertIndexOld rows) s).1 = s ∧
    ∀ pl pw rows', (step (.insertIndex none [] pl pw rows') s).2 ≠ .ok () := by
  have hnew : ∀ pl pw rows', (step (.insertIndex none [] pl pw rows') s).2 ≠ .ok () := by
    intro pl pw rows' hok
    have := step_ok (op := .insertIndex none [] pl pw rows') rfl hok
    unfold insertIndex at this
    rw [get_bind, if_neg (by simp), if_pos hc] at this
    cases this
  cases rows with
  | nil =>
    have e : insertIndexOld [] s = .ok ((), s) := by
      unfold insertIndexOld
      rw [get_bind, if_neg (by simp)]; rfl
    unfold runTx
    rw [e]
    simp only [h.fkOk, if_true]
    exact ⟨by simp, trivial, hnew⟩
  | cons l ls =>
    have e : insertIndexOld (l :: ls) s = .error (.exception "add() missing 1 required positional argument") := by
      unfold insertIndexOld
      rw [get_bind, if_pos ⟨hc, by simp⟩]; rfl
    unfold runTx
    rw [e]
    exact ⟨by simp, rfl, hnew⟩

/-- The hypotheses hold for the demonstration dataspace; one new combination, one existing, one with an empty label, one twice. -/
example : Demo.store.cols ≠ [] ∧ Demo.store.partDefs.getD [] ≠ [] ∧
    ((runTx (insertIndexOld [[Demo.ly, Demo.l2], [Demo.lx, Demo.l1], [[], Demo.l1], [Demo.ly, Demo.l2]]) Demo.store).1.index.map
      fun r => (r.id, r.labels)).drop 4 = [(4, [Demo.ly, Demo.l2])] ∧
    ((runTx (insertIndexOld [[Demo.ly, Demo.l2]]) Demo.store).1.links.map (·.complete)) ++
      ((runTx (insertIndexOld [[Demo.ly, Demo.l2]]) Demo.store).1.wgroups.map (·.complete)) = [false, false] ∧
    (Store.new ['u']).cols = [] := by
  decide +kernel

end Toron.Space
