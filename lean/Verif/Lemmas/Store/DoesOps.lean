/-
Which primitive changes the service functions and the operations make.
-/
import Verif.Lemmas.Store.Does

set_option linter.unusedSimpArgs false

namespace Toron.Space

open Toron.Selectors (PyStr Sel)
open Toron.Partitions

theorem weightAddOrResolve_does (group index : Nat) (value : ℚ) (p : Policy) :
    Does [.wAdd, .wSet] (weightAddOrResolve group index value p) := by
  refine ⟨fun s a s' h => ?_⟩
  unfold weightAddOrResolve at h
  split at h
  · rename_i heq
    cases h
    exact ((weightAdd_does ..).steps _ _ _ heq).mono (by decide)
  · split at h
    · cases h
    · split at h
      · cases h; exact Steps.refl _
      · split at h
        · cases h
        · split at h
          · exact Does.steps (K := [.wAdd, .wSet]) (by does) _ _ _ h
          · exact Does.steps (K := [.wAdd, .wSet]) (by does) _ _ _ h
          · cases h
          · cases h
  · cases h

theorem mergeWeights_does (ids : List Nat) (target : Nat) :
    Does [.wAdd, .wDel] (mergeWeights ids target) := by
  unfold mergeWeights; does

theorem mergeMappings_does (ids : List Nat) (target : Nat) :
    Does [.mAdd, .mDel] (mergeMappings ids target) := by
  unfold mergeMappings; does

theorem refreshProportions_does (link : Nat) (other : Int) :
    Does [.mUpd] (refreshProportions link other) := by
  unfold refreshProportions; does

theorem refreshIndexHash_does : Does [.hash] refreshIndexHash :=
  Does.modify fun s => Steps.single (.hash s) (by simp)

theorem deleteIndexRecord_does (id : Nat) :
    Does [.wDel, .mDel, .mUpd, .idxDel] (deleteIndexRecord id) := by
  unfold deleteIndexRecord; does

theorem prod_pow_pos (l : List Nat) (n : Nat) (hn : 0 < n) : 0 < (l.map fun c => c ^ c).foldl (· * ·) n := by
  induction l generalizing n with
  | nil => exact hn
  | cons c l ih =>
    refine ih _ (Nat.mul_pos hn ?_)
    rcases Nat.eq_zero_or_pos c with rfl | h
    · exact Nat.one_pos
    · exact Nat.pow_pos h

theorem granSql_pos (s : Store) (d : Finset PyStr) : PosGran (s.granSql d) := by
  intro x h
  unfold Store.granSql calculateGranularitySql at h
  split at h
  · cases h
  split at h
  · cases h
  cases h
  exact ⟨Nat.pos_of_ne_zero (by assumption), prod_pow_pos _ _ Nat.one_pos⟩

theorem granPy_pos (s : Store) (d : Finset PyStr) : PosGran (s.granPy d) := by
  intro x h
  unfold Store.granPy calculateGranularity at h
  split at h
  · cases h
  split at h
  · cases h
  cases h
  exact ⟨Nat.pos_of_ne_zero (by assumption), prod_pow_pos _ _ Nat.one_pos⟩

theorem structAdd_does {g : Option Gran} (hg : PosGran g) (bits : List Bool) :
    Does [.structs] (structAdd g bits) := by
  refine ⟨fun s a s' h => ?_⟩
  simp only [structAdd, bind_ok, get_ok, ite_ok, throw_ok, put_ok] at h
  obtain ⟨_, _, he, h⟩ := h
  cases he
  obtain ⟨_, h⟩ | ⟨h1, h⟩ := h
  · exact h.elim
  obtain ⟨_, h⟩ | ⟨hlen, h⟩ := h
  · exact h.elim
  obtain ⟨_, h⟩ | ⟨h2, h⟩ := h
  · exact h.elim
  cases h
  exact Steps.single (.structAdd s g bits h1 (not_not.1 hlen) h2 hg) (by simp)

theorem rebuildStructure_does : Does [.structs] rebuildStructure := by
  unfold rebuildStructure
  apply Does.bind (Does.modify fun s => Steps.single (.structClear s) (by simp))
  does
  exact structAdd_does (granSql_pos _ _) _

theorem refreshGranularity_does : Does [.structs] refreshGranularity :=
  Does.modify fun s => Steps.single (.structGran s _ fun r => granPy_pos s _) (by simp)

theorem addPartitionDefs_does (defs : List (Finset PyStr)) :
    Does [.pdefs] (addPartitionDefs defs) := by
  refine ⟨fun s a s' h => ?_⟩
  simp only [addPartitionDefs, bind_ok, get_ok, ite_ok, throw_ok, put_ok] at h
  obtain ⟨_, _, he, h⟩ := h
  cases he
  obtain ⟨_, h⟩ | ⟨_, h⟩ := h
  · exact h.elim
  obtain ⟨_, h⟩ | ⟨_, h⟩ := h
  · exact h.elim
  cases h
  exact Steps.single (.pdefs s _) (by simp)

theorem addPartitionDef_does (d : Finset PyStr) :
    Does [.pdefs] (addPartitionDef d) := by
  refine ⟨fun s a s' h => ?_⟩
  simp only [addPartitionDef, bind_ok, get_ok, ite_ok, throw_ok, put_ok] at h
  obtain ⟨_, _, he, h⟩ := h
  cases he
  obtain ⟨_, h⟩ | ⟨_, h⟩ := h
  · exact h.elim
  obtain ⟨_, h⟩ | ⟨_, h⟩ := h
  · exact h.elim
  obtain ⟨_, h⟩ | ⟨_, h⟩ := h
  · exact h.elim
  obtain ⟨_, h⟩ | ⟨_, h⟩ := h
  · exact h.elim
  cases h
  exact Steps.single (.pdefs s _) (by simp)

theorem removePartitionDef_does (d : Finset PyStr) :
    Does [.pdefs] (removePartitionDef d) := by
  refine ⟨fun s a s' h => ?_⟩
  simp only [removePartitionDef, bind_ok, get_ok, ite_ok, throw_ok, put_ok] at h
  obtain ⟨_, _, he, h⟩ := h
  cases he
  obtain ⟨_, h⟩ | ⟨_, h⟩ := h
  · exact h.elim
  cases h
  exact Steps.single (.pdefs s _) (by simp)

theorem refreshOrRebuild_does : Does [.structs, .pdefs] refreshOrRebuild := by
  unfold refreshOrRebuild; does

theorem refreshLink_does (link : Link) :
    Does [.mUpd, .lUpd] (refreshLink link) := by
  unfold refreshLink; does

theorem validateNewColumns_does (names : List PyStr) :
    Does [] (validateNewColumns names) := by
  unfold validateNewColumns; does

theorem checkUnique_does : Does [] checkUnique := by
  unfold checkUnique; does

theorem opAddPartitionDefs_does (defs : List (Finset PyStr)) :
    Does [.pdefs, .structs] (opAddPartitionDefs defs) := by
  unfold opAddPartitionDefs; does

theorem opAddPartitionDef_does (d : Finset PyStr) :
    Does [.pdefs, .structs] (opAddPartitionDef d) := by
  unfold opAddPartitionDef; does

theorem opDropPartitionDefs_does (defs : List (Finset PyStr)) :
    Does [.pdefs, .structs] (opDropPartitionDefs defs) := by
  refine ⟨fun s a s' h => ?_⟩
  simp only [opDropPartitionDefs, bind_ok, get_ok, ite_ok, throw_ok, put_ok] at h
  obtain ⟨_, _, he, h⟩ := h
  cases he
  obtain ⟨_, h⟩ | ⟨_, h⟩ := h
  · exact h.elim
  obtain ⟨_, _, he, h⟩ := h
  cases he
  exact (Steps.single (.pdefs s _) (by simp)).trans (((rebuildStructure_does).steps _ _ _ h).mono (by decide))

theorem setRegisteredAttributes_does (attrs : List PyStr) :
    Does [.attrs] (setRegisteredAttributes attrs) := by
  refine ⟨fun s a s' h => ?_⟩
  simp only [setRegisteredAttributes, bind_ok, get_ok, ite_ok, throw_ok, put_ok] at h
  obtain ⟨_, _, he, h⟩ := h
  cases he
  obtain ⟨_, h⟩ | ⟨h1, h⟩ := h
  · exact h.elim
  obtain ⟨_, h⟩ | ⟨h2, h⟩ := h
  · exact h.elim
  obtain ⟨_, h⟩ | ⟨h3, h⟩ := h
  · exact h.elim
  cases h
  push Not at h1 h2 h3
  exact Steps.single (.attrs s attrs h1 h2 h3) (by simp)

theorem changeAttributeOrder_does (a : PyStr) (offset : Int) :
    Does [.attrs] (changeAttributeOrder a offset) := by
  unfold changeAttributeOrder; does

theorem changeLabelOrder_does (label : PyStr) (offset : Int) :
    Does [.display] (changeLabelOrder label offset) := by
  refine ⟨fun s a s' h => ?_⟩
  simp only [changeLabelOrder, bind_ok, get_ok, ite_ok, throw_ok, put_ok, liftE_ok] at h
  obtain ⟨_, _, he, _, _, ⟨_, _, he'⟩, h⟩ := h
  cases he
  cases he'
  obtain ⟨_, h⟩ | ⟨h1, h⟩ := h
  · exact h.elim
  cases h
  push Not at h1
  exact Steps.single (.display s _ h1) (by simp)

theorem setDomain_does (d : PyStr) :
    Does [.domain] (setDomain d) := by
  exact Does.modify fun s => Steps.single (.domain s d) (by simp)

theorem insertIndexWeight_does (index : Nat) (p : Policy) (c : Counts) (gw : WGroup × Option ℚ) :
    Does [.wAdd, .wSet] (insertIndexWeight index p c gw) := by
  unfold insertIndexWeight; does

theorem insertIndexRecord_does (p : Policy) (c : Counts) (row : IndexRow) :
    Does [.idxAdd, .idxUpd] (insertIndexRecord p c row) := by
  unfold insertIndexRecord
  split
  · does
  · refine ⟨fun s a s' h => ?_⟩
    split at h
    · rename_i heq
      cases h
      exact ((indexAdd_does ..).steps _ _ _ heq).mono (by decide)
    · split at h
      · cases h; exact Steps.refl _
      · cases h
    · cases h

theorem insertIndexRow_does (groups : List WGroup) (pl pw : Policy) (c : Counts) (row : IndexRow) :
    Does [.idxAdd, .idxUpd, .wAdd, .wSet] (insertIndexRow groups pl pw c row) := by
  unfold insertIndexRow; does

theorem recomputeComplete_does : Does [.wgUpd] recomputeComplete := by
  unfold recomputeComplete; does

theorem insertIndexGroups_does (weights : Option (List PyStr)) (wcols : List PyStr) :
    Does [] (insertIndexGroups weights wcols) := by
  unfold insertIndexGroups wgroupGetByName; does

theorem afterNewRecords_does : Does [.hash, .structs, .pdefs, .lUpd] afterNewRecords := by
  unfold afterNewRecords; does

theorem insertIndex_does (weights : Option (List PyStr)) (wcols : List PyStr) (pl pw : Policy) (rows : List IndexRow) :
    Does [.idxAdd, .idxUpd, .wAdd, .wSet, .hash, .structs, .pdefs, .lUpd, .wgUpd] (insertIndex weights wcols pl pw rows) := by
  unfold insertIndex; does

theorem promoteGroups_does : Does [.wgUpd] promoteGroups := by
  unfold promoteGroups; does

theorem promoteLinks_does : Does [.lUpd] promoteLinks := by
  unfold promoteLinks; does

theorem mergeConflict_does (merge : Bool) (acc : UpdateAcc) (r : IndexRec) (o : Option IndexRec) :
    Does [.wAdd, .wDel, .mAdd, .mDel, .idxDel] (mergeConflict merge acc r o) := by
  unfold mergeConflict; does

theorem updateIndexRow_does (merge : Bool) (acc : UpdateAcc) (row : Nat × List PyStr) :
    Does [.wAdd, .wDel, .mAdd, .mDel, .idxDel, .idxUpd] (updateIndexRow merge acc row) := by
  unfold updateIndexRow; does

theorem afterMerge_does : Does [.hash, .wgUpd, .lUpd] afterMerge := by
  unfold afterMerge; does

theorem updateIndex_does (merge : Bool) (rows : List (Nat × List PyStr)) :
    Does [.wAdd, .wDel, .mAdd, .mDel, .idxDel, .idxUpd, .structs, .hash, .wgUpd, .lUpd] (updateIndex merge rows) := by
  unfold updateIndex; does

theorem afterDeleteIndex_does : Does [.hash, .structs, .wgUpd, .lUpd] afterDeleteIndex := by
  unfold afterDeleteIndex; does

theorem deleteIndexRow_does (d : Bool) (row : Nat × List PyStr) :
    Does [.wDel, .mDel, .mUpd, .idxDel] (deleteIndexRow d row) := by
  unfold deleteIndexRow; does

theorem deleteIndexTarget_does (t : Target (Nat × List PyStr)) :
    Does [.wDel, .mDel, .mUpd, .idxDel] (deleteIndexTarget t) := by
  unfold deleteIndexTarget; does

theorem deleteIndex_does (t : Target (Nat × List PyStr)) :
    Does [.wDel, .mDel, .mUpd, .idxDel, .hash, .structs, .wgUpd, .lUpd] (deleteIndex t) := by
  unfold deleteIndex; does

theorem setDefaultWeightGroup_does (g : Option Nat) :
    Does [.defwg] (setDefaultWeightGroup g) := by
  exact Does.modify fun s => Steps.single (.defwg s _) (by simp)

theorem addWeightGroup_does (name : PyStr) (selectors : List Sel) (complete : Bool) (makeDefault : Option Bool) :
    Does [.wgAdd, .defwg] (addWeightGroup name selectors complete makeDefault) := by
  unfold addWeightGroup; does

theorem editWeightGroup_does (name : PyStr) (newName : Option PyStr) (selectors : Option (List Sel)) (complete : Option Bool) :
    Does [.wgUpd] (editWeightGroup name newName selectors complete) := by
  unfold editWeightGroup; does

theorem dropWeightGroup_does (name : PyStr) :
    Does [.wgDel, .defwg] (dropWeightGroup name) := by
  unfold dropWeightGroup
  apply Does.bind Does.get
  intro s
  split
  · does
  · apply Does.bind
    · does
    · intro _
      refine ⟨fun s a s' h => ?_⟩
      simp only [bind_ok, get_ok] at h
      obtain ⟨_, _, he, h⟩ := h
      cases he
      rcases hd : s.defaultWG with _ | d <;> simp only [hd] at h
      · cases h
      · simp only [ite_ok, put_ok, pure_ok] at h
        obtain ⟨_, h⟩ | ⟨_, h⟩ := h
        · cases h; exact Steps.single (.defwg s _) (by simp)
        · cases h; exact Steps.refl _

theorem insertWeightRow_does (group : Nat) (p : Policy) (inserted : Bool) (row : WeightRow) :
    Does [.wAdd, .wSet] (insertWeightRow group p inserted row) := by
  unfold insertWeightRow
  split
  · does
  · apply Does.bind Does.get
    intro s
    split
    · does
    · split
      · does
      · refine ⟨fun s a s' h => ?_⟩
        split at h
        · rename_i heq; cases h; exact (weightAddOrResolve_does ..).steps _ _ _ heq
        · rename_i heq; cases h; exact (weightAddOrResolve_does ..).steps _ _ _ heq
        · cases h

theorem wgroupGetOrAdd_does (name : PyStr) :
    Does [.wgAdd] (wgroupGetOrAdd name) := by
  unfold wgroupGetOrAdd; does

theorem afterWeights_does (g : WGroup) (inserted : Bool) :
    Does [.wgUpd] (afterWeights g inserted) := by
  unfold afterWeights; does

theorem insertWeights_does (name : PyStr) (p : Policy) (rows : List WeightRow) :
    Does [.wAdd, .wSet, .wgAdd, .wgUpd] (insertWeights name p rows) := by
  unfold insertWeights; does

theorem updateWeightRow_does (group : Nat) (inserted : Bool) (row : Nat × List PyStr × ℚ) :
    Does [.wAdd, .wSet] (updateWeightRow group inserted row) := by
  unfold updateWeightRow; does

theorem updateWeights_does (name : PyStr) (rows : List (Nat × List PyStr × ℚ)) :
    Does [.wAdd, .wSet, .wgUpd] (updateWeights name rows) := by
  unfold updateWeights; does

theorem deleteWeightOf_does (group : Nat) (d : Bool) (index : Nat) :
    Does [.wDel] (deleteWeightOf group d index) := by
  unfold deleteWeightOf; does

theorem deleteWeightRow_does (group : Nat) (d : Bool) (row : Nat × List PyStr) :
    Does [.wDel] (deleteWeightRow group d row) := by
  unfold deleteWeightRow; does

theorem deleteWeightTarget_does (group : Nat) (t : Target (Nat × List PyStr)) :
    Does [.wDel] (deleteWeightTarget group t) := by
  unfold deleteWeightTarget; does

theorem deleteWeights_does (name : PyStr) (t : Target (Nat × List PyStr)) :
    Does [.wDel, .wgUpd] (deleteWeights name t) := by
  unfold deleteWeights; does

theorem addLink_does (other : PyStr) (name : PyStr) (hint : Option PyStr) (selectors : List Sel) (isDefault : Option Bool) (otherHash : Option (List Int)) (complete : Bool) :
    Does [.lAdd, .lUpd] (addLink other name hint selectors isDefault otherHash complete) := by
  unfold addLink; does

theorem editLink_does (ref : PyStr) (name : Option PyStr) (c : LinkChanges) :
    Does [.lUpd] (editLink ref name c) := by
  unfold editLink; does

theorem dropLink_does (ref : PyStr) (name : Option PyStr) :
    Does [.lDel] (dropLink ref name) := by
  unfold dropLink; does

theorem insertMapping2Row_does (levels : List (Option (List Byte))) (link : Nat) (inserted : Bool) (row : MapRow) :
    Does [.mAdd] (insertMapping2Row levels link inserted row) := by
  unfold insertMapping2Row; does

theorem insertMappings2_does (ref : PyStr) (name : Option PyStr) (rows : List MapRow) :
    Does [.mAdd, .mUpd, .lUpd] (insertMappings2 ref name rows) := by
  unfold insertMappings2; does

theorem insertMappingRow_does (link : Nat) (inserted : Bool) (row : MapRow) :
    Does [.mAdd] (insertMappingRow link inserted row) := by
  unfold insertMappingRow
  apply Does.bind Does.get
  intro s
  split
  · does
  · refine ⟨fun s a s' h => ?_⟩
    split at h
    · rename_i heq; cases h; exact (mappingAdd_does ..).steps _ _ _ heq
    · cases h

theorem insertMappings_does (ref : PyStr) (name : Option PyStr) (colsOk : Bool) (rows : List MapRow) :
    Does [.mAdd, .mUpd, .lUpd] (insertMappings ref name colsOk rows) := by
  unfold insertMappings; does

theorem updateMappingRow_does (link : Nat) (c : Bool × Bool) (row : MapRow) :
    Does [.mAdd, .mUpd] (updateMappingRow link c row) := by
  unfold updateMappingRow; does

theorem updateMappings_does (ref : PyStr) (name : Option PyStr) (colsOk : Bool) (rows : List MapRow) :
    Does [.mAdd, .mUpd, .lUpd] (updateMappings ref name colsOk rows) := by
  unfold updateMappings; does

theorem deleteMappingRow_does (link : Nat) (d : Bool) (row : MapRow) :
    Does [.mDel] (deleteMappingRow link d row) := by
  unfold deleteMappingRow; does

theorem deleteMappingTarget_does (link : Nat) (colsOk : Bool) (t : Target MapRow) :
    Does [.mDel] (deleteMappingTarget link colsOk t) := by
  unfold deleteMappingTarget; does

theorem deleteMappings_does (ref : PyStr) (name : Option PyStr) (colsOk : Bool) (t : Target MapRow) :
    Does [.mDel, .mUpd, .lUpd] (deleteMappings ref name colsOk t) := by
  unfold deleteMappings; does

theorem insertQuantity2Row_does (allowLabel allowPartition : Bool) (p : Policy) (row : QuantRow) :
    Does [.locAdd, .agAdd, .qAdd, .qSet] (insertQuantity2Row allowLabel allowPartition p row) := by
  unfold insertQuantity2Row
  apply Does.bind Does.get
  intro s
  dsimp only
  split
  · does
  split
  · does
  rename_i hn
  split
  · does
  split
  · does
  apply Does.bind
  · does
  intro loc
  apply Does.bind
  · exact Does.mono (by decide) (agGetOrAdd_pick_does row _ hn)
  intro ag
  refine ⟨fun s a s' h => ?_⟩
  split at h
  · rename_i heq; cases h; exact ((quantAdd_does ..).steps _ _ _ heq).mono (by decide)
  · split at h
    · cases h
    · split at h
      · cases h
      · cases h; exact Steps.refl _
      · exact ((quantSetValue_does ..).steps _ _ _ h).mono (by decide)
      · exact ((quantSetValue_does ..).steps _ _ _ h).mono (by decide)
      · cases h

theorem insertQuantities2_does (allowLabel allowPartition : Bool) (p : Policy) (rows : List QuantRow) :
    Does [.locAdd, .agAdd, .qAdd, .qSet] (insertQuantities2 allowLabel allowPartition p rows) := by
  unfold insertQuantities2; does

theorem insertQuantityRow_does (names : List PyStr) (row : QuantRow) :
    Does [.locAdd, .agAdd, .qAdd] (insertQuantityRow names row) := by
  unfold insertQuantityRow
  apply Does.bind Does.get
  intro s
  dsimp only
  split
  · does
  split
  · does
  rename_i hn
  apply Does.bind
  · does
  intro loc
  apply Does.bind
  · exact Does.mono (by decide) (agGetOrAdd_pick_does row _ hn)
  does

theorem insertQuantities_does (attributes : List PyStr) (rows : List QuantRow) :
    Does [.locAdd, .agAdd, .qAdd] (insertQuantities attributes rows) := by
  unfold insertQuantities; does

theorem deleteQuantitiesWithoutIndex_does : Does [.qDel, .locDel, .agDel] deleteQuantitiesWithoutIndex := by
  unfold deleteQuantitiesWithoutIndex; does

end Toron.Space
