/-
Weights are never on the undefined record, and what removing columns does to the flags of weightings.
-/
import Verif.Lemmas.Legacy.Weights

namespace Toron.Legacy

open Toron.Selectors (PyStr)
open Toron.Space (IndexRec Weight keepCols)

/-- No weight is on the undefined record. -/
def WPos (n : Node) : Prop := ∀ w ∈ n.weights, 0 < w.index

theorem WPos.congr {n n' : Node} (h : WPos n) (e : n'.weights = n.weights) : WPos n' := by
  unfold WPos; rw [e]; exact h

theorem SameData.wpos {n n' : Node} (h : SameData n n') (hp : WPos n) : WPos n' := by
  unfold SameData at h
  apply hp.congr; rw [h]

theorem addColumns_wpos {n n' : Node} {names : List PyStr} (hp : WPos n) (h1 : n.addColumns names = .ok n') : WPos n' := by
  unfold Node.addColumns at h1
  obtain ⟨names', _, h1⟩ := bind_ok h1
  obtain ⟨_, h1⟩ := ite_ok h1
  obtain ⟨cur, _, h1⟩ := bind_ok h1
  dsimp only at h1
  split at h1
  · injection h1 with h1
    exact h1 ▸ hp
  · obtain ⟨_, h1⟩ := ite_ok h1
    obtain ⟨n0, h0, h1⟩ := bind_ok h1
    obtain ⟨_, _, h1⟩ := bind_ok h1
    injection h1 with h1
    subst h1
    refine foldlM_inv (P := WPos) (fun a c b ha hb => ?_) hp h0
    unfold Node.addColumn at hb
    obtain ⟨_, hb⟩ := ite_ok hb
    injection hb with hb
    subst hb
    exact ha.congr rfl

theorem addQuantity_weights {n n' : Node} {row : QuantRow} (h : n.addQuantity row = .ok n') : n'.weights = n.weights := by
  unfold Node.addQuantity at h
  obtain ⟨⟨loc, n1⟩, h1, h⟩ := bind_ok h
  have k1 : n1.weights = n.weights := by
    unfold Node.getLocation at h1
    obtain ⟨_, h1⟩ := ite_ok h1
    split at h1
    · injection h1 with h1
      injection h1 with _ h1
      rw [← h1]
    · injection h1 with h1
      injection h1 with _ h1
      rw [← h1]
    · cases h1
  dsimp only at h
  split at h
  · injection h with h; rw [← h]; exact k1
  · split at h
    · injection h with h; rw [← h]; exact k1
    · split at h
      · injection h with h; rw [← h]; exact k1
      · injection h with h
        rw [← h, ← k1]
        show (n1.getAttribute row.attrs).2.weights = _
        unfold Node.getAttribute
        split <;> rfl

/-- In the merge, no weight gets to the undefined record: the statement would fail. -/
theorem merge_wpos {m : List (Nat × Nat)} (hm : RepOk m) {ws : List Amount} (hp : ∀ w ∈ ws, 0 < w.at_)
    (h : ¬ ((missing m ws).any fun p => p.2 == 0) = true) : ∀ w ∈ mergeAmounts m ws, 0 < w.at_ := by
  intro w hw
  obtain ⟨_, x, hx, hk, hr⟩ := mem_mergeAmounts hm hw
  by_contra hc
  have h0 : w.at_ = 0 := by omega
  apply h
  rw [List.any_eq_true]
  refine ⟨(w.key, 0), mem_missing.2 ⟨⟨x, hx, hk, ?_⟩, ?_⟩, rfl⟩
  · rw [h0] at hr
    unfold rep at hr
    cases hl : m.lookup x.at_ with
    | none =>
      rw [hl] at hr
      exact absurd hr (hp x hx).ne'
    | some t =>
      rw [hl] at hr
      exact congrArg some hr
  · rintro ⟨r, hr', _, e⟩
    exact absurd e (hp r hr').ne'

/-- The tables after a removal and the flags of the weightings. -/
theorem removed_flags {n n' : Node} {drop : List PyStr} {ps pg : Bool} (hi : Inv n) (hp : WPos n)
    (h : n.removeIndexColumns drop ps pg = .ok n') :
    WPos n' ∧
    ((n.index.map fun r => keepCols n.cols drop r.labels).Nodup → n'.weightings = n.weightings) ∧
    (¬ (n.index.map fun r => keepCols n.cols drop r.labels).Nodup → n'.weightings = n.weightings.map fun w =>
      if !w.complete && decide (0 < n'.weightCount w.id) then
        { w with complete := n'.weightCount w.id == n'.indexCount }
      else w) := by
  have hR := removed hi h
  unfold Node.removeIndexColumns at h
  split at h
  · rename_i hc
    injection h with h
    subst h
    have hc' : ∀ c ∈ n.cols, c ∉ drop := by simpa using hc
    have h1 : (n.index.map fun r => keepCols n.cols drop r.labels) = n.index.map (·.labels) :=
      List.map_congr_left fun r hr => keepCols_none hc' (hi.len r hr)
    exact ⟨hp, fun _ => rfl, fun hn => absurd (h1 ▸ hi.labels) hn⟩
  · obtain ⟨cats, _, h⟩ := bind_ok h
    obtain ⟨_, h⟩ := ite_ok h
    obtain ⟨n1, h1, h⟩ := bind_ok h
    obtain ⟨_, h⟩ := ite_ok h
    obtain ⟨n2, h2, h3⟩ := bind_ok h
    obtain ⟨e2, hu⟩ := dropColumns_ok h2
    have e3 := updateCategories_same h3
    unfold SameData at e3
    unfold Node.mergeRecords at h1
    by_cases hl : n.losesGranularity drop = true
    · rw [if_pos hl] at h1
      obtain ⟨_, h1⟩ := ite_ok h1
      cases hcs : n.coarsen drop with
      | error e => rw [hcs] at h1; cases h1
      | ok n0 =>
        rw [hcs] at h1
        injection h1 with h1
        unfold Node.coarsen at hcs
        dsimp only at hcs
        obtain ⟨hmiss, hcs⟩ := ite_ok hcs
        injection hcs with hcs
        have hl' : ¬ (n.index.map fun r => keepCols n.cols drop r.labels).Nodup := by
          unfold Node.losesGranularity at hl
          simpa using hl
        have hm : RepOk (n.recordMap drop) := repOk (by rw [List.map_map]; exact hi.ids)
        have hpos : WPos n' := by
          intro w hw
          rw [hR.weights] at hw
          obtain ⟨a, ha, rfl⟩ := List.mem_map.1 hw
          refine merge_wpos hm ?_ hmiss a ha
          intro x hx
          obtain ⟨y, hy, rfl⟩ := List.mem_map.1 hx
          exact hp y hy
        refine ⟨hpos, fun hn => absurd hn hl', fun _ => ?_⟩
        have hcount : ∀ g, n'.weightCount g = n0.weightCount g := by
          intro g; unfold Node.weightCount; rw [e3, e2, ← h1]; rfl
        have hic : n'.indexCount = n0.indexCount := by
          unfold Node.indexCount
          rw [e3, e2, ← h1]
          show ((n0.index.map _).filter _).length = _
          rw [List.filter_map, List.length_map]
          rfl
        have hw : n'.weightings = n0.weightings := by rw [e3, e2, ← h1]; rfl
        rw [hw]
        simp only [hcount, hic]
        rw [← hcs]
        rfl
    · rw [if_neg hl] at h1
      injection h1 with h1
      subst h1
      have hl' : (n.index.map fun r => keepCols n.cols drop r.labels).Nodup := by
        unfold Node.losesGranularity at hl
        simpa using hl
      refine ⟨hp.congr (by rw [e3, e2]), fun _ => by rw [e3, e2], fun hn => absurd hl' hn⟩

theorem exec_wpos {op : Op} {n n' : Node} (hi : Inv n) (h2 : Inv2 n) (hp : WPos n) (h : op.exec n = .ok n') : WPos n' := by
  cases op with
  | addIndexColumns names =>
    unfold Op.exec Node.addIndexColumns at h
    obtain ⟨n1, h1, h⟩ := bind_ok h
    obtain ⟨n2, h3, h⟩ := bind_ok h
    exact (setStructure_same h).wpos ((updateCategories_same h3).wpos (addColumns_wpos hp h1))
  | removeIndexColumns names ps pg => exact (removed_flags hi hp h).1
  | renameIndexColumns f =>
    unfold Op.exec Node.renameIndexColumns at h
    obtain ⟨_, _, h⟩ := bind_ok h
    obtain ⟨_, _, h⟩ := bind_ok h
    obtain ⟨_, h⟩ := ite_ok h
    refine foldlM_inv (P := WPos) (fun a c b ha hb => ?_) hp h
    unfold Node.renameColumn at hb
    obtain ⟨_, hb⟩ := ite_ok hb
    obtain ⟨_, hb⟩ := ite_ok hb
    injection hb with hb
    subst hb
    exact ha.congr rfl
  | addIndexRecords hd rows =>
    unfold Op.exec Node.addIndexRecords at h
    dsimp only at h
    obtain ⟨_, h⟩ := ite_ok h
    obtain ⟨_, h⟩ := ite_ok h
    obtain ⟨n1, h1, h⟩ := bind_ok h
    injection h with h
    subst h
    refine WPos.congr (n := n1) ?_ rfl
    refine foldlM_inv (P := WPos) (fun a c b ha hb => ?_) hp h1
    unfold Node.insertIndex at hb
    dsimp only at hb
    obtain ⟨_, hb⟩ := ite_ok hb
    obtain ⟨_, hb⟩ := ite_ok hb
    obtain ⟨_, hb⟩ := ite_ok hb
    injection hb with hb
    subst hb
    exact ha.congr rfl
  | addWeights hd i rows name sel =>
    obtain ⟨_, hw, _, _⟩ := addWeights_ok h2 h
    intro w hm
    have hm : (w.group, w.index, w.value) ∈ n'.weights.map fun x => (x.group, x.index, x.value) :=
      List.mem_map.2 ⟨w, hm, rfl⟩
    rw [hw] at hm
    rcases List.mem_append.1 hm with hm | hm
    · obtain ⟨x, hx, e⟩ := List.mem_map.1 hm
      injection e with _ e
      injection e with e _
      rw [← e]
      exact hp x hx
    · obtain ⟨p, hp, e⟩ := List.mem_map.1 hm
      injection e with _ e
      injection e with e _
      unfold Node.weightsOf at hp
      obtain ⟨row, _, hrow⟩ := List.mem_filterMap.1 hp
      split at hrow
      · rename_i v r hv hl
        injection hrow with hrow
        have hrm : r ∈ n.recordsLike (n.cells hd row.labels) row.id := by rw [hl]; simp
        unfold Node.recordsLike at hrm
        have := (List.mem_filter.1 hrm).2
        simp only [decide_eq_true_eq] at this
        rw [← e, ← hrow]
        exact Nat.pos_of_ne_zero this.1
      · cases hrow
  | addPartitionDefinitions defs => exact (updateCategories_same h).wpos hp
  | removePartitionDefinitions defs => exact (updateCategories_same h).wpos hp
  | addQuantities rows =>
    exact foldlM_inv (P := WPos) (fun _ _ _ ha hb => ha.congr (addQuantity_weights hb)) hp h

theorem Reachable.wpos {n : Node} (h : Reachable n) : WPos n := by
  have := run_induct (P := fun n => Inv2 n ∧ WPos n) ⟨Inv2.new, by simp [WPos, Node.new]⟩
    (fun _ _ _ hi hp h => ⟨exec_inv2 hi hp.1 h, exec_wpos hi hp.1 hp.2 h⟩) h
  exact this.2

/-- A row on a record that is kept stays. -/
theorem mergeAmounts_stays {m : List (Nat × Nat)} {rows : List Amount} {x : Amount} (hx : x ∈ rows)
    (hg : goes m x.at_ = false) : ∃ a ∈ mergeAmounts m rows, a.key = x.key ∧ a.at_ = x.at_ := by
  have h1 : ∀ (ps : List (Nat × Nat)) (rows : List Amount), x ∈ rows → x ∈ addMissing rows ps := by
    intro ps
    unfold addMissing
    induction ps with
    | nil => exact fun _ h => h
    | cons p ps ih => exact fun rows h => ih _ (List.mem_append_left _ h)
  unfold mergeAmounts
  have h2 := h1 (missing m rows) rows hx
  generalize addMissing rows (missing m rows) = rows' at h2
  unfold writeSums
  refine ⟨_, List.mem_filter.2 ⟨List.mem_map.2 ⟨x, h2, rfl⟩, ?_⟩, ?_, ?_⟩
  · have : (if rows'.any fun y => y.key == x.key && m.lookup y.at_ == some x.at_ then
        { x with value := summed m rows' x.key x.at_ } else x).at_ = x.at_ := by split <;> rfl
    rw [this, hg]
    rfl
  · split <;> rfl
  · split <;> rfl

end Toron.Legacy
