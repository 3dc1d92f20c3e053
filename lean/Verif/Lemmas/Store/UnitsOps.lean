/-
Calls commute with the change of units: the service functions and the methods.
-/
import Verif.Lemmas.Store.Units

namespace Toron.Space

open Toron.Selectors (PyStr Sel CaseMap)
open Toron.Partitions

section
variable {u : Units} {s : Store}

theorem weightAddOrResolve_sim (g i : Nat) (v : ℚ) (p : Policy) :
    SimAt u s id (weightAddOrResolve g i v p) (weightAddOrResolve g i (u.weight * v) p) := by
  have h := weightAdd_sim (u := u) (s := s) g i v
  unfold SimAt at h ⊢
  unfold weightAddOrResolve
  rw [h]
  cases hw : weightAdd g i v s with
  | ok r => rfl
  | error e =>
    cases e with
    | valueError tag =>
      dsimp only [Except.map]
      by_cases h1 : i = 0 ∨ v < 0
      · rw [if_pos h1, if_pos (by rwa [neg_units])]
      rw [if_neg h1, if_neg (by rwa [neg_units])]
      by_cases h2 : p = .ignore
      · rw [if_pos h2, if_pos h2]; rfl
      rw [if_neg h2, if_neg h2, findWeight_units]
      cases s.findWeight g i with
      | none => rfl
      | some w =>
        dsimp only [Option.map]
        have hb : ∀ (x : ℚ) (r : Resolved), SimAt u s id (do weightSetValue w.id x; return r)
            (do weightSetValue (w.inUnits u).id (u.weight * x); return r) :=
          fun x r => .bind' (weightSetValue_sim _ _) fun _ _ _ => .pure rfl
        cases p with
        | abort => rfl
        | ignore => rfl
        | other => rfl
        | replace => exact hb v .overwritten
        | sum =>
          have := hb (w.value + v) .summed
          rw [mul_add] at this
          exact this
    | _ => rfl

theorem sum_units (c : ℚ) {ε : Type} (l : List ε) (f g : ε → ℚ) (h : ∀ e, g e = c * f e) :
    (l.map g).sum = c * (l.map f).sum := by
  induction l with
  | nil => simp
  | cons a l ih => simp only [List.map_cons, List.sum_cons, ih, h, mul_add]

theorem sum_weights (l : List Weight) :
    ((l.map fun w => w.inUnits u).map fun w => w.value).sum = u.weight * (l.map fun w => w.value).sum := by
  rw [List.map_map]
  exact sum_units _ _ _ _ fun _ => rfl

theorem sum_maps (l : List Mapping) :
    ((l.map fun w => w.inUnits u).map fun w => w.value).sum = u.mapping * (l.map fun w => w.value).sum := by
  rw [List.map_map]
  exact sum_units _ _ _ _ fun _ => rfl

theorem mergeWeights_sim (ids : List Nat) (t : Nat) : SimAt u s id (mergeWeights ids t) (mergeWeights ids t) := by
  unfold mergeWeights
  refine .get ?_
  dsimp only
  set ids' := distinct (t :: ids)
  have hold : (ids'.flatMap fun i => (s.inUnits u).weights.filter fun w => w.index == i) =
      (ids'.flatMap fun i => s.weights.filter fun w => w.index == i).map (·.inUnits u) := by
    rw [List.map_flatMap]
    congr 1
    funext i
    exact filter_units _ _ fun _ => rfl
  rw [hold]
  set old := ids'.flatMap fun i => s.weights.filter fun w => w.index == i
  refine .bind' (.forM (h := fun w : Weight => w.inUnits u) _ _ fun w _ s1 => weightDelete_sim w.id) fun _ s1 _ => ?_
  rw [map_units _ _ (by intro w; rfl)]
  refine .forM' _ _ fun g _ s2 => ?_
  rw [filter_units _ _ (by intro w; rfl), sum_weights]
  exact weightAdd_sim _ _ _

theorem mergeMappings_sim (ids : List Nat) (t : Nat) : SimAt u s id (mergeMappings ids t) (mergeMappings ids t) := by
  unfold mergeMappings
  refine .get ?_
  dsimp only
  set ids' := distinct (t :: ids)
  have hold : (ids'.flatMap fun i => (s.inUnits u).maps.filter fun w => w.index == i) =
      (ids'.flatMap fun i => s.maps.filter fun w => w.index == i).map (·.inUnits u) := by
    rw [List.map_flatMap]
    congr 1
    funext i
    exact filter_units _ _ fun _ => rfl
  rw [hold]
  set old := ids'.flatMap fun i => s.maps.filter fun w => w.index == i
  refine .bind' (.forM (h := fun w : Mapping => w.inUnits u) _ _ fun w _ s1 => mappingDelete_sim w.id) fun _ s1 _ => ?_
  rw [map_units _ _ (by intro w; rfl)]
  refine .forM' _ _ fun k _ s2 => ?_
  rw [filter_units _ _ (by intro w; rfl), sum_maps,
    map_units _ _ (by intro w; rfl)]
  exact mappingAdd_sim _ _ _ _ _ _

theorem refreshProportions_sim (l : Nat) (o : Int) : SimAt u s id (refreshProportions l o) (refreshProportions l o) := by
  unfold refreshProportions
  refine .get ?_
  dsimp only
  rw [findMaps_units]
  refine .ite Iff.rfl (fun _ => ?_) fun _ => ?_
  · refine .forM _ _ fun m _ s1 => .ite Iff.rfl (fun _ => .throw _) fun _ => ?_
    exact mappingUpdate_sim { m with prop := some 0 }
  · rw [sum_maps, List.length_map]
    refine .forM _ _ fun m _ s1 => ?_
    set total := ((s.findMaps l o).map (·.value)).sum
    have h0 : (u.mapping * total = 0) ↔ total = 0 := by
      rw [mul_eq_zero]
      exact or_iff_right u.mapping_pos.ne'
    have hp : (if u.mapping * total = 0 then 1 / ((s.findMaps l o).length : ℚ) else
        (m.inUnits u).value / (u.mapping * total)) =
        if total = 0 then 1 / ((s.findMaps l o).length : ℚ) else m.value / total := by
      by_cases h : total = 0
      · rw [if_pos h, if_pos (h0.2 h)]
      · rw [if_neg h, if_neg (fun h' => h (h0.1 h'))]
        exact mul_div_mul_left _ _ u.mapping_pos.ne'
    rw [hp]
    exact mappingUpdate_sim { m with prop := some _ }

theorem refreshIndexHash_sim : SimAt u s id refreshIndexHash refreshIndexHash := .modify rfl

theorem deleteIndexRecord_sim (i : Nat) : SimAt u s id (deleteIndexRecord i) (deleteIndexRecord i) := by
  unfold deleteIndexRecord
  refine .get ?_
  dsimp only
  rw [show ((s.inUnits u).weights.filter fun w => w.index == i) =
      (s.weights.filter fun w => w.index == i).map (·.inUnits u) from filter_units _ _ fun _ => rfl,
    show ((s.inUnits u).maps.filter fun w => w.index == i) =
      (s.maps.filter fun w => w.index == i).map (·.inUnits u) from filter_units _ _ fun _ => rfl]
  refine .bind' (.forM _ _ fun w _ s1 => weightDelete_sim w.id) fun _ s1 _ => ?_
  refine .bind' (.forM _ _ fun m _ s1 => .ite Iff.rfl (fun _ => .throw _) fun _ => mappingDelete_sim m.id) fun _ s2 _ => ?_
  rw [map_units _ _ (by intro w; rfl)]
  refine .bind' (.forM' _ _ fun o _ s3 => .get (.forM' _ _ fun l _ s4 => refreshProportions_sim _ _)) fun _ s3 _ => ?_
  exact indexDelete_sim i

theorem structAdd_sim (g : Option Gran) (b : List Bool) : SimAt u s id (structAdd g b) (structAdd g b) := by
  unfold structAdd
  exact .get (.ite Iff.rfl (fun _ => .throw _) fun _ => .ite Iff.rfl (fun _ => .throw _) fun _ =>
    .ite Iff.rfl (fun _ => .throw _) fun _ => .put rfl)

theorem rebuildStructure_sim : SimAt u s id rebuildStructure rebuildStructure := by
  unfold rebuildStructure
  refine .bind' (.modify rfl) fun _ s1 _ => .get (.ite Iff.rfl (fun _ => .throw _) fun _ => ?_)
  exact .forM' _ _ fun d _ s2 => structAdd_sim _ _

theorem refreshGranularity_sim : SimAt u s id refreshGranularity refreshGranularity := .modify rfl

theorem addPartitionDefs_sim (ds : List (Finset PyStr)) : SimAt u s id (addPartitionDefs ds) (addPartitionDefs ds) := by
  unfold addPartitionDefs
  exact .get (.ite Iff.rfl (fun _ => .throw _) fun _ => .ite Iff.rfl (fun _ => .throw _) fun _ => .put rfl)

theorem addPartitionDef_sim (d : Finset PyStr) : SimAt u s id (addPartitionDef d) (addPartitionDef d) := by
  unfold addPartitionDef
  exact .get (.ite Iff.rfl (fun _ => .throw _) fun _ => .ite Iff.rfl (fun _ => .throw _) fun _ =>
    .ite Iff.rfl (fun _ => .throw _) fun _ => .ite Iff.rfl (fun _ => .throw _) fun _ => .put rfl)

theorem removePartitionDef_sim (d : Finset PyStr) : SimAt u s id (removePartitionDef d) (removePartitionDef d) := by
  unfold removePartitionDef
  exact .get (.ite Iff.rfl (fun _ => .throw _) fun _ => .put rfl)

theorem refreshOrRebuild_sim : SimAt u s id refreshOrRebuild refreshOrRebuild := by
  unfold refreshOrRebuild
  exact .get (.ite Iff.rfl (fun _ => refreshGranularity_sim) fun _ =>
    .bind' (addPartitionDefs_sim _) fun _ _ _ => rebuildStructure_sim)

theorem refreshLink_sim (l : Link) : SimAt u s id (refreshLink l) (refreshLink l) := by
  unfold refreshLink
  refine .get ?_
  dsimp only
  rw [distinctOthers_units]
  refine .bind' (.forM' _ _ fun o _ s1 => refreshProportions_sim _ _) fun _ s1 _ => .get ?_
  rw [mappingIsComplete_units]
  exact linkUpdate_sim _

/-! ### Columns and properties -/

theorem validateNewColumns_sim (n : List PyStr) : SimAt u s id (validateNewColumns n) (validateNewColumns n) := by
  unfold validateNewColumns
  exact .get (.forM' _ _ fun c _ s1 => .ite Iff.rfl (fun _ => .throw _) fun _ => .ite Iff.rfl (fun _ => .throw _) fun _ =>
    .ite Iff.rfl (fun _ => .throw _) fun _ => .pure rfl)

theorem addColumn_sim (c : PyStr) : SimAt u s id (addColumn c) (addColumn c) := by
  unfold addColumn
  exact .get (.ite Iff.rfl (fun _ => .throw _) fun _ => .put rfl)

theorem checkUnique_sim : SimAt u s id checkUnique checkUnique := by
  unfold checkUnique
  exact .get (.ite Iff.rfl (fun _ => .throw _) fun _ => .pure rfl)

theorem quantsByBits_units (b : List Bool) :
    (s.inUnits u).quantsByBits b = (s.quantsByBits b).map fun lq => (lq.1, lq.2.inUnits u) := by
  unfold Store.quantsByBits
  rw [List.map_flatMap]
  congr 1
  funext l
  rw [show ((s.inUnits u).quants.filter fun q => q.loc == l.id) =
    (s.quants.filter fun q => q.loc == l.id).map (·.inUnits u) from filter_units _ _ fun _ => rfl, List.map_map, List.map_map]
  rfl

theorem addIndexColumns_sim (n : List PyStr) : SimAt u s id (addIndexColumns n) (addIndexColumns n) := by
  unfold addIndexColumns
  refine .bind' (validateNewColumns_sim n) fun _ s1 _ => .get (.bind' (.forM' _ _ fun c _ s2 => addColumn_sim c) fun _ s2 _ =>
    .bind' checkUnique_sim fun _ s3 _ => .get (.bind' (addPartitionDef_sim _) fun _ s4 _ =>
    .bind' rebuildStructure_sim fun _ s5 _ => .get ?_))
  rw [show (s5.inUnits u).structByLabels (s1.inUnits u).cols.toFinset = s5.structByLabels s1.cols.toFinset from rfl]
  cases s5.structByLabels s1.cols.toFinset with
  | none => exact .throw _
  | some st =>
    dsimp only
    refine .ite ?_ (fun _ => .bind' (removePartitionDef_sim _) fun _ _ _ => rebuildStructure_sim) fun _ => .pure rfl
    rw [quantsByBits_units, List.map_eq_nil_iff]
    rw [show ((s5.inUnits u).maps.filter fun m => (s5.inUnits u).links.any fun l => l.id == m.link) =
      (s5.maps.filter fun m => s5.links.any fun l => l.id == m.link).map (·.inUnits u) from filter_units _ _ fun _ => rfl,
      map_units _ _ (by intro w; rfl)]
    rfl

theorem renameColumn_sim (a b : PyStr) : SimAt u s id (renameColumn a b) (renameColumn a b) := by
  unfold renameColumn
  exact .get (.ite Iff.rfl (fun _ => .throw _) fun _ => .ite Iff.rfl (fun _ => .throw _) fun _ => .put rfl)

theorem renameIndexColumns_sim (m : List (PyStr × PyStr)) : SimAt u s id (renameIndexColumns m) (renameIndexColumns m) := by
  unfold renameIndexColumns
  exact .get (.ite Iff.rfl (fun _ => .throw _) fun _ => .bind' (validateNewColumns_sim _) fun _ s1 _ =>
    .bind' (.forM' _ _ fun p _ s2 => renameColumn_sim _ _) fun _ s2 _ => .modify rfl)

theorem dropIndexColumns_sim (n : List PyStr) : SimAt u s id (dropIndexColumns n) (dropIndexColumns n) := by
  unfold dropIndexColumns
  exact .get (.ite Iff.rfl (fun _ => .throw _) fun _ => .ite Iff.rfl (fun _ => .throw _) fun _ =>
    .bind' (.put rfl) fun _ _ _ => checkUnique_sim)

theorem opDropPartitionDefs_sim (d : List (Finset PyStr)) : SimAt u s id (opDropPartitionDefs d) (opDropPartitionDefs d) := by
  unfold opDropPartitionDefs
  exact .get (.ite Iff.rfl (fun _ => .throw _) fun _ => .bind' (.put rfl) fun _ _ _ => rebuildStructure_sim)

theorem setRegisteredAttributes_sim (a : List PyStr) :
    SimAt u s id (setRegisteredAttributes a) (setRegisteredAttributes a) := by
  unfold setRegisteredAttributes
  exact .get (.ite Iff.rfl (fun _ => .throw _) fun _ => .ite Iff.rfl (fun _ => .throw _) fun _ =>
    .ite Iff.rfl (fun _ => .throw _) fun _ => .put rfl)

theorem changeAttributeOrder_sim (a : PyStr) (o : Int) :
    SimAt u s id (changeAttributeOrder a o) (changeAttributeOrder a o) := by
  unfold changeAttributeOrder
  exact .get (.bind' .liftE fun _ _ _ => setRegisteredAttributes_sim _)

theorem changeLabelOrder_sim (a : PyStr) (o : Int) : SimAt u s id (changeLabelOrder a o) (changeLabelOrder a o) := by
  unfold changeLabelOrder
  exact .get (.bind' .liftE fun _ _ _ => .ite Iff.rfl (fun _ => .throw _) fun _ => .put rfl)

/-! ### Index records -/

theorem insertIndexWeight_sim (i : Nat) (p : Policy) (c : Counts) (gw : WGroup × Option ℚ) :
    SimAt u s id (insertIndexWeight i p c gw) (insertIndexWeight i p c (gw.1, gw.2.map (u.weight * ·))) := by
  unfold insertIndexWeight
  obtain ⟨g, v⟩ := gw
  cases v with
  | none => exact .pure rfl
  | some v =>
    dsimp only [Option.map]
    refine .get ?_
    rw [findWeight_units]
    cases s.findWeight g.id i with
    | some w =>
      cases p with
      | ignore => exact .pure rfl
      | replace => exact .bind' (weightSetValue_sim _ _) fun _ _ _ => .pure rfl
      | _ => exact .throw _
    | none => exact .bind' (weightAdd_sim _ _ _) fun _ _ _ => .pure rfl

theorem insertIndexRecord_sim (p : Policy) (c : Counts) (row : IndexRow) :
    SimAt u s id (insertIndexRecord p c row) (insertIndexRecord p c (row.inUnits u)) := by
  obtain ⟨idv, labels, ws⟩ := row
  cases idv with
  | some i =>
    refine .bind' (indexGet_sim i) fun r s1 _ => ?_
    cases labels with
    | none => exact .pure rfl
    | some labels =>
      refine .ite Iff.rfl (fun _ => .pure rfl) fun _ => ?_
      cases p with
      | ignore => exact .pure rfl
      | replace => exact .bind' (indexUpdate_sim _) fun _ _ _ => .pure rfl
      | _ => exact .throw _
  | none =>
    have h := indexAdd_sim (u := u) (s := s) (labels.getD [])
    unfold SimAt at h ⊢
    unfold insertIndexRecord IndexRow.inUnits
    dsimp only
    rw [h]
    cases hw : indexAdd (labels.getD []) s with
    | ok r => rfl
    | error e =>
      cases e with
      | valueError tag =>
        dsimp only [Except.map]
        rw [show (s.inUnits u).findByLabels (labels.getD []) = s.findByLabels (labels.getD []) from rfl]
        cases s.findByLabels (labels.getD []) <;> rfl
      | _ => rfl

theorem insertIndexRow_sim (gs : List WGroup) (pl pw : Policy) (c : Counts) (row : IndexRow) :
    SimAt u s id (insertIndexRow gs pl pw c row) (insertIndexRow gs pl pw c (row.inUnits u)) := by
  unfold insertIndexRow
  refine .ite Iff.rfl (fun _ => .pure rfl) fun _ => .bind' (insertIndexRecord_sim _ _ _) fun r s1 _ => ?_
  have : gs.zip (row.inUnits u).ws = (gs.zip row.ws).map fun gw => (gw.1, gw.2.map (u.weight * ·)) := by
    show gs.zip (row.ws.map _) = _
    rw [List.zip_map_right]
    rfl
  rw [this]
  exact .foldlM _ _ _ fun gw _ c s2 => insertIndexWeight_sim _ _ _ _

theorem recomputeComplete_sim : SimAt u s id recomputeComplete recomputeComplete := by
  unfold recomputeComplete
  refine .get (.forM' _ _ fun g _ s1 => .get ?_)
  rw [wgroupIsComplete_units]
  exact wgroupUpdate_sim _

theorem insertIndexGroups_sim (w : Option (List PyStr)) (wc : List PyStr) :
    SimAt u s id (insertIndexGroups w wc) (insertIndexGroups w wc) := by
  unfold insertIndexGroups
  cases w with
  | some names =>
    exact .bind' (.forM' _ _ fun n _ s1 => .bind' (wgroupGetByName_sim n) fun _ _ _ => .pure rfl) fun _ s1 _ =>
      .mapM' _ _ fun n _ s2 => wgroupGetByName_sim n
  | none => exact .mapM' _ _ fun n _ s2 => wgroupGetByName_sim n

theorem afterNewRecords_sim : SimAt u s id afterNewRecords afterNewRecords := by
  unfold afterNewRecords
  exact .bind' refreshIndexHash_sim fun _ s1 _ => .bind' refreshOrRebuild_sim fun _ s2 _ =>
    .get (.forM' _ _ fun l _ s3 => .whenM rfl fun _ => linkUpdate_sim _)

theorem insertIndex_sim (w : Option (List PyStr)) (wc : List PyStr) (pl pw : Policy) (rows : List IndexRow) :
    SimAt u s id (insertIndex w wc pl pw rows) (insertIndex w wc pl pw (rows.map (·.inUnits u))) := by
  unfold insertIndex
  exact .get (.ite Iff.rfl (fun _ => .throw _) fun _ => .ite Iff.rfl (fun _ => .throw _) fun _ =>
    .bind' (insertIndexGroups_sim _ _) fun gs s1 _ =>
    .bind' (.foldlM _ _ _ fun row _ c s2 => insertIndexRow_sim _ _ _ _ _) fun c s2 _ =>
    .bind' (.whenM rfl fun _ => afterNewRecords_sim) fun _ s3 _ => .whenM rfl fun _ => recomputeComplete_sim)

theorem promoteGroups_sim : SimAt u s id promoteGroups promoteGroups := by
  unfold promoteGroups
  refine .get (.forM' _ _ fun g _ s1 => .get ?_)
  exact .whenM (by rw [wgroupIsComplete_units]) fun _ => wgroupUpdate_sim _

theorem promoteLinks_sim : SimAt u s id promoteLinks promoteLinks := by
  unfold promoteLinks
  refine .get (.forM' _ _ fun g _ s1 => .get ?_)
  exact .whenM (by rw [mappingIsComplete_units]) fun _ => linkUpdate_sim _

theorem mergeConflict_sim (m : Bool) (acc : UpdateAcc) (r : IndexRec) (o : Option IndexRec) :
    SimAt u s id (mergeConflict m acc r o) (mergeConflict m acc r o) := by
  cases o with
  | none => exact .pure rfl
  | some other =>
    exact .ite Iff.rfl (fun _ => .throw _) fun _ => .bind' (mergeWeights_sim _ _) fun _ _ _ =>
      .bind' (mergeMappings_sim _ _) fun _ _ _ => .bind' (indexDelete_sim _) fun _ _ _ => .pure rfl

theorem updateIndexRow_sim (m : Bool) (acc : UpdateAcc) (row : Nat × List PyStr) :
    SimAt u s id (updateIndexRow m acc row) (updateIndexRow m acc row) := by
  unfold updateIndexRow
  refine .ite Iff.rfl (fun _ => .pure rfl) fun _ => .get ?_
  rw [show (s.inUnits u).index.find? (fun r => r.id == row.1) = s.index.find? (fun r => r.id == row.1) from rfl]
  cases s.index.find? (fun r => r.id == row.1) with
  | none => exact .ite Iff.rfl (fun _ => .throw _) fun _ => .pure rfl
  | some r => exact .bind' (mergeConflict_sim _ _ _ _) fun _ _ _ => .bind' (indexUpdate_sim _) fun _ _ _ => .pure rfl

theorem updateIndex_sim (m : Bool) (rows : List (Nat × List PyStr)) :
    SimAt u s id (updateIndex m rows) (updateIndex m rows) := by
  unfold updateIndex
  exact .bind' (.foldlM' _ _ _ fun row _ a s1 => updateIndexRow_sim _ _ _) fun acc s1 _ =>
    .bind' (.whenM rfl fun _ => refreshGranularity_sim) fun _ _ _ => .whenM rfl fun _ => by
      unfold afterMerge
      exact .bind' refreshIndexHash_sim fun _ _ _ => .bind' promoteGroups_sim fun _ _ _ => promoteLinks_sim

theorem afterDeleteIndex_sim : SimAt u s id afterDeleteIndex afterDeleteIndex := by
  unfold afterDeleteIndex
  refine .bind' refreshIndexHash_sim fun _ _ _ => .bind' refreshGranularity_sim fun _ _ _ =>
    .bind' promoteGroups_sim fun _ _ _ => .get (.forM' _ _ fun l _ s1 => .get ?_)
  rw [distinctOthers_units, mappingIsComplete_units]
  exact linkUpdate_sim _

theorem deleteIndexRow_sim (d : Bool) (row : Nat × List PyStr) :
    SimAt u s id (deleteIndexRow d row) (deleteIndexRow d row) := by
  unfold deleteIndexRow
  refine .get ?_
  rw [show (s.inUnits u).index.find? (fun r => r.id == row.1) = s.index.find? (fun r => r.id == row.1) from rfl]
  cases s.index.find? (fun r => r.id == row.1) with
  | none => exact .pure rfl
  | some r => exact .ite Iff.rfl (fun _ => .pure rfl) fun _ => .bind' (deleteIndexRecord_sim _) fun _ _ _ => .pure rfl

theorem deleteIndex_sim (t : Target (Nat × List PyStr)) : SimAt u s id (deleteIndex t) (deleteIndex t) := by
  unfold deleteIndex
  refine .ite Iff.rfl (fun _ => .throw _) fun _ => .bind' ?_ fun _ _ _ => .whenM rfl fun _ => afterDeleteIndex_sim
  unfold deleteIndexTarget
  cases t with
  | rows rs => exact .foldlM' _ _ _ fun row _ a s1 => deleteIndexRow_sim _ _
  | criteria cs => exact .get (.bind' (.forM' _ _ fun r _ s1 => deleteIndexRecord_sim _) fun _ _ _ => .pure rfl)

/-! ### Weights -/

theorem addWeightGroup_sim (n : PyStr) (sel : List Sel) (c : Bool) (d : Option Bool) :
    SimAt u s id (addWeightGroup n sel c d) (addWeightGroup n sel c d) := by
  unfold addWeightGroup
  refine .get ?_
  rw [show (s.inUnits u).findWGroup n = s.findWGroup n from rfl]
  cases s.findWGroup n with
  | some _ => exact .throw _
  | none => exact .bind' (wgroupAdd_sim _ _ _) fun _ _ _ => .ite Iff.rfl (fun _ =>
      .bind' (wgroupGetByName_sim _) fun _ _ _ => .modify rfl) fun _ => .pure rfl

theorem editWeightGroup_sim (n : PyStr) (m : Option PyStr) (sel : Option (List Sel)) (c : Option Bool) :
    SimAt u s id (editWeightGroup n m sel c) (editWeightGroup n m sel c) := by
  unfold editWeightGroup
  refine .get ?_
  rw [show (s.inUnits u).findWGroup n = s.findWGroup n from rfl]
  cases s.findWGroup n with
  | none => exact .pure rfl
  | some g => exact wgroupUpdate_sim _

theorem dropWeightGroup_sim (n : PyStr) : SimAt u s id (dropWeightGroup n) (dropWeightGroup n) := by
  unfold dropWeightGroup
  refine .get ?_
  rw [show (s.inUnits u).findWGroup n = s.findWGroup n from rfl]
  cases s.findWGroup n with
  | none => exact .pure rfl
  | some g =>
    refine .bind' (wgroupDelete_sim _) fun _ s1 _ => .get ?_
    rw [show (s1.inUnits u).defaultWG = s1.defaultWG from rfl]
    cases s1.defaultWG with
    | none => exact .throw _
    | some d => exact .ite Iff.rfl (fun _ => .put rfl) fun _ => .pure rfl

theorem insertWeightRow_sim (g : Nat) (p : Policy) (b : Bool) (row : WeightRow) :
    SimAt u s id (insertWeightRow g p b row) (insertWeightRow g p b (row.inUnits u)) := by
  obtain ⟨idv, labels, value⟩ := row
  cases value with
  | none => exact .pure rfl
  | some v =>
    refine .get ?_
    rw [show (s.inUnits u).weightRowRecord (WeightRow.inUnits u ⟨idv, labels, some v⟩) =
      s.weightRowRecord ⟨idv, labels, some v⟩ from rfl]
    cases s.weightRowRecord ⟨idv, labels, some v⟩ with
    | none => exact .pure rfl
    | some r =>
      refine .ite Iff.rfl (fun _ => .pure rfl) fun _ => ?_
      have h := weightAddOrResolve_sim (u := u) (s := s) g r.id v p
      unfold SimAt at h ⊢
      dsimp only [Option.map]
      rw [h]
      cases hw : weightAddOrResolve g r.id v p s with
      | error e => rfl
      | ok x =>
        obtain ⟨x, s1⟩ := x
        cases x <;> rfl

theorem wgroupGetOrAdd_sim (n : PyStr) : SimAt u s id (wgroupGetOrAdd n) (wgroupGetOrAdd n) := by
  unfold wgroupGetOrAdd
  exact .get (.bind' (.whenM rfl fun _ => wgroupAdd_sim _ _ _) fun _ _ _ => wgroupGetByName_sim _)

theorem afterWeights_sim (g : WGroup) (b : Bool) : SimAt u s id (afterWeights g b) (afterWeights g b) := by
  unfold afterWeights
  exact .get (.whenM (by rw [wgroupIsComplete_units]) fun _ => wgroupUpdate_sim _)

theorem insertWeights_sim (n : PyStr) (p : Policy) (rows : List WeightRow) :
    SimAt u s id (insertWeights n p rows) (insertWeights n p (rows.map (·.inUnits u))) := by
  unfold insertWeights
  exact .ite Iff.rfl (fun _ => .throw _) fun _ => .bind' (wgroupGetOrAdd_sim _) fun g s1 _ =>
    .bind' (.foldlM _ _ _ fun row _ b s2 => insertWeightRow_sim _ _ _ _) fun _ _ _ => afterWeights_sim _ _

theorem updateWeightRow_sim (g : Nat) (b : Bool) (row : Nat × List PyStr × ℚ) :
    SimAt u s id (updateWeightRow g b row) (updateWeightRow g b (row.1, row.2.1, u.weight * row.2.2)) := by
  unfold updateWeightRow
  refine .get ?_
  rw [show (s.inUnits u).index.find? (fun r => r.id == row.1) = s.index.find? (fun r => r.id == row.1) from rfl]
  cases s.index.find? (fun r => r.id == row.1) with
  | none => exact .pure rfl
  | some r =>
    refine .ite Iff.rfl (fun _ => .pure rfl) fun _ => ?_
    rw [findWeight_units]
    cases s.findWeight g r.id with
    | some w => exact .bind' (weightSetValue_sim _ _) fun _ _ _ => .pure rfl
    | none => exact .bind' (weightAdd_sim _ _ _) fun _ _ _ => .pure rfl

theorem updateWeights_sim (n : PyStr) (rows : List (Nat × List PyStr × ℚ)) :
    SimAt u s id (updateWeights n rows) (updateWeights n (rows.map fun r => (r.1, r.2.1, u.weight * r.2.2))) := by
  unfold updateWeights
  exact .bind' (wgroupGetByName_sim _) fun g s1 _ =>
    .bind' (.foldlM _ _ _ fun row _ b s2 => updateWeightRow_sim _ _ _) fun _ _ _ => afterWeights_sim _ _

theorem deleteWeightOf_sim (g : Nat) (d : Bool) (i : Nat) : SimAt u s id (deleteWeightOf g d i) (deleteWeightOf g d i) := by
  unfold deleteWeightOf
  refine .get ?_
  rw [findWeight_units]
  cases s.findWeight g i with
  | some w => exact .bind' (weightDelete_sim _) fun _ _ _ => .pure rfl
  | none => exact .pure rfl

theorem deleteWeights_sim (n : PyStr) (t : Target (Nat × List PyStr)) :
    SimAt u s id (deleteWeights n t) (deleteWeights n t) := by
  unfold deleteWeights
  refine .bind' (wgroupGetByName_sim _) fun g s1 _ => .ite Iff.rfl (fun _ => .throw _) fun _ => .bind' ?_ fun _ _ _ =>
    .whenM rfl fun _ => wgroupUpdate_sim _
  unfold deleteWeightTarget
  cases t with
  | rows rs =>
    refine .foldlM' _ _ _ fun row _ b s2 => ?_
    unfold deleteWeightRow
    refine .get ?_
    rw [show (s2.inUnits u).index.find? (fun r => r.id == row.1) = s2.index.find? (fun r => r.id == row.1) from rfl]
    cases s2.index.find? (fun r => r.id == row.1) with
    | none => exact .pure rfl
    | some r => exact .ite Iff.rfl (fun _ => .pure rfl) fun _ => deleteWeightOf_sim _ _ _
  | criteria cs => exact .get (.foldlM' _ _ _ fun i _ b s2 => deleteWeightOf_sim _ _ _)

/-! ### Links and mappings -/

theorem addLink_sim (o n : PyStr) (h : Option PyStr) (sel : List Sel) (d : Option Bool) (oh : Option (List Int)) (c : Bool) :
    SimAt u s id (addLink o n h sel d oh c) (addLink o n h sel d oh c) := by
  unfold addLink
  refine .get (.ite Iff.rfl (fun _ => .throw _) fun _ => ?_)
  dsimp only
  refine .ite Iff.rfl (fun _ => ?_) fun _ => ?_
  · exact .bind' (.forM' _ _ fun l _ s1 => .ite Iff.rfl (fun _ => linkUpdate_sim _) fun _ => .pure rfl) fun _ _ _ =>
      linkAdd_sim _
  · exact linkAdd_sim _

theorem editLink_sim (r : PyStr) (n : Option PyStr) (c : LinkChanges) : SimAt u s id (editLink r n c) (editLink r n c) := by
  unfold editLink
  refine .get (.bind' .liftE fun l s1 _ => .ite Iff.rfl (fun _ => .get ?_) fun _ => ?_)
  · exact .bind' (.forM' _ _ fun l _ s1 => linkUpdate_sim _) fun _ _ _ => linkUpdate_sim _
  · exact linkUpdate_sim _

theorem dropLink_sim (r : PyStr) (n : Option PyStr) : SimAt u s id (dropLink r n) (dropLink r n) := by
  unfold dropLink
  exact .get (.bind' .liftE fun _ _ _ => linkDelete_sim _)

theorem insertMapping2Row_sim (lv : List (Option (List Byte))) (l : Nat) (b : Bool) (row : MapRow) :
    SimAt u s id (insertMapping2Row lv l b row) (insertMapping2Row lv l b (row.inUnits u)) := by
  unfold insertMapping2Row
  exact .ite Iff.rfl (fun _ => .pure rfl) fun _ => .ite Iff.rfl (fun _ => .pure rfl) fun _ =>
    .bind' (mappingAdd_sim _ _ _ _ _ _) fun _ _ _ => .pure rfl

theorem insertMappings2_sim (r : PyStr) (n : Option PyStr) (rows : List MapRow) :
    SimAt u s id (insertMappings2 r n rows) (insertMappings2 r n (rows.map (·.inUnits u))) := by
  unfold insertMappings2
  exact .get (.bind' .liftE fun l s1 _ => .bind' (.foldlM _ _ _ fun row _ b s2 => insertMapping2Row_sim _ _ _ _) fun _ _ _ =>
    .whenM rfl fun _ => refreshLink_sim _)

theorem insertMappingRow_sim (l : Nat) (b : Bool) (row : MapRow) :
    SimAt u s id (insertMappingRow l b row) (insertMappingRow l b (row.inUnits u)) := by
  unfold insertMappingRow
  refine .get (.ite Iff.rfl (fun _ => .pure rfl) fun _ => ?_)
  have h := mappingAdd_sim (u := u) (s := s) l row.other row.index row.level row.value none
  unfold SimAt at h ⊢
  rw [show (row.inUnits u).other = row.other from rfl, show (row.inUnits u).index = row.index from rfl,
    show (row.inUnits u).level = row.level from rfl, show (row.inUnits u).value = u.mapping * row.value from rfl]
  dsimp only
  rw [h]
  cases mappingAdd l row.other row.index row.level row.value none s <;> rfl

theorem insertMappings_sim (r : PyStr) (n : Option PyStr) (c : Bool) (rows : List MapRow) :
    SimAt u s id (insertMappings r n c rows) (insertMappings r n c (rows.map (·.inUnits u))) := by
  unfold insertMappings
  exact .ite Iff.rfl (fun _ => .throw _) fun _ => .get (.bind' .liftE fun l s1 _ =>
    .bind' (.foldlM _ _ _ fun row _ b s2 => insertMappingRow_sim _ _ _) fun _ _ _ => .whenM rfl fun _ => refreshLink_sim _)

theorem updateMappingRow_sim (l : Nat) (c : Bool × Bool) (row : MapRow) :
    SimAt u s id (updateMappingRow l c row) (updateMappingRow l c (row.inUnits u)) := by
  unfold updateMappingRow
  refine .get (.ite Iff.rfl (fun _ => .pure rfl) fun _ => ?_)
  rw [show (s.inUnits u).findMap l (row.inUnits u).other (row.inUnits u).index =
    (s.findMap l row.other row.index).map (·.inUnits u) from findMap_units _ _ _ _,
    show (row.inUnits u).level = row.level from rfl]
  cases s.findMap l row.other row.index with
  | some m =>
    cases row.level with
    | none => exact .throw _
    | some lv => exact .bind' (mappingUpdate_sim { m with value := row.value, level := lv }) fun _ _ _ => .pure rfl
  | none => exact .bind' (mappingAdd_sim _ _ _ _ _ _) fun _ _ _ => .pure rfl

theorem updateMappings_sim (r : PyStr) (n : Option PyStr) (c : Bool) (rows : List MapRow) :
    SimAt u s id (updateMappings r n c rows) (updateMappings r n c (rows.map (·.inUnits u))) := by
  unfold updateMappings
  refine .ite Iff.rfl (fun _ => .throw _) fun _ => .get (.bind' .liftE fun l s1 _ =>
    .bind' (.foldlM _ _ _ fun row _ b s2 => updateMappingRow_sim _ _ _) fun _ s2 _ => .ite Iff.rfl (fun _ => refreshLink_sim _)
      fun _ => .ite Iff.rfl (fun _ => .get ?_) fun _ => .pure rfl)
  rw [distinctOthers_units]
  exact .forM' _ _ fun o _ s3 => refreshProportions_sim _ _

theorem deleteMappingRow_sim (l : Nat) (d : Bool) (row : MapRow) :
    SimAt u s id (deleteMappingRow l d row) (deleteMappingRow l d (row.inUnits u)) := by
  unfold deleteMappingRow
  refine .get ?_
  rw [show (s.inUnits u).index.find? (fun r => r.id == (row.inUnits u).index) =
    s.index.find? (fun r => r.id == row.index) from rfl]
  cases s.index.find? (fun r => r.id == row.index) with
  | none => exact .pure rfl
  | some r =>
    refine .ite Iff.rfl (fun _ => .pure rfl) fun _ => ?_
    rw [show (s.inUnits u).findMap l (row.inUnits u).other (row.inUnits u).index =
      (s.findMap l row.other row.index).map (·.inUnits u) from findMap_units _ _ _ _]
    cases s.findMap l row.other row.index with
    | none => exact .pure rfl
    | some m =>
      refine .ite ?_ (fun _ => .pure rfl) fun _ => .ite Iff.rfl (fun _ => .pure rfl) fun _ =>
        .bind' (mappingDelete_sim _) fun _ _ _ => .pure rfl
      exact not_congr (mul_right_inj' u.mapping_pos.ne')

/-- What is to be deleted, in other units. -/
def Target.inUnits (u : Units) : Target MapRow → Target MapRow
  | .rows rs => .rows (rs.map (·.inUnits u))
  | .criteria cs => .criteria cs

theorem deleteMappings_sim (r : PyStr) (n : Option PyStr) (c : Bool) (t : Target MapRow) :
    SimAt u s id (deleteMappings r n c t) (deleteMappings r n c (t.inUnits u)) := by
  unfold deleteMappings
  refine .get (.bind' .liftE fun l s1 _ => .ite ?_ (fun _ => .throw _) fun _ => .bind' ?_ fun _ _ _ =>
    .whenM rfl fun _ => refreshLink_sim _)
  · cases t with
    | rows rs => simp [Target.inUnits, Target.isEmpty]
    | criteria cs => rfl
  · unfold deleteMappingTarget
    cases t with
    | rows rs => exact .ite Iff.rfl (fun _ => .throw _) fun _ => .foldlM _ _ _ fun row _ b s2 => deleteMappingRow_sim _ _ _
    | criteria cs =>
      refine .get ?_
      dsimp only [Target.inUnits]
      have hm : (((s1.inUnits u).filterByLabel cs).flatMap fun r => (s1.inUnits u).maps.filter fun m =>
          m.link == l.id && m.index == r.id && coveredBy (s1.inUnits u).cols cs m.level) =
          ((s1.filterByLabel cs).flatMap fun r => s1.maps.filter fun m =>
          m.link == l.id && m.index == r.id && coveredBy s1.cols cs m.level).map (·.inUnits u) := by
        rw [List.map_flatMap]
        congr 1
        funext r
        exact filter_units _ _ fun _ => rfl
      rw [hm]
      exact .bind' (.forM _ _ fun m _ s2 => mappingDelete_sim m.id) fun _ _ _ => .pure (by rw [List.isEmpty_map]; rfl)

/-! ### Quantities -/

theorem insertQuantity2Row_sim (al ap : Bool) (p : Policy) (row : QuantRow) :
    SimAt u s id (insertQuantity2Row al ap p row) (insertQuantity2Row al ap p (row.inUnits u)) := by
  unfold insertQuantity2Row
  refine .get (.ite Iff.rfl (fun _ => .throw _) fun _ => .ite Iff.rfl (fun _ => .pure rfl) fun _ =>
    .ite Iff.rfl (fun _ => .throw _) fun _ => .ite Iff.rfl (fun _ => .throw _) fun _ =>
    .bind' (locGetOrAdd_sim _) fun loc s1 _ => .bind' (agGetOrAdd_sim _) fun ag s2 _ => ?_)
  have h := quantAdd_sim (u := u) (s := s2) loc.id ag.id row.value
  unfold SimAt at h ⊢
  rw [show (row.inUnits u).value = u.amount * row.value from rfl]
  dsimp only
  rw [h]
  cases quantAdd loc.id ag.id row.value s2 with
  | ok r => rfl
  | error e =>
    dsimp only [Except.map]
    rw [findQuant_units]
    cases s2.findQuant loc.id ag.id with
    | none => rfl
    | some q =>
      cases p with
      | replace => exact quantSetValue_sim _ _
      | sum =>
        have := quantSetValue_sim (u := u) (s := s2) q.id (q.value + row.value)
        rw [mul_add] at this
        exact this
      | _ => rfl

theorem insertQuantities2_sim (al ap : Bool) (p : Policy) (rows : List QuantRow) :
    SimAt u s id (insertQuantities2 al ap p rows) (insertQuantities2 al ap p (rows.map (·.inUnits u))) := by
  unfold insertQuantities2
  exact .get (.ite Iff.rfl (fun _ => .throw _) fun _ => .forM _ _ fun row _ s1 => insertQuantity2Row_sim _ _ _ _)

theorem insertQuantityRow_sim (n : List PyStr) (row : QuantRow) :
    SimAt u s id (insertQuantityRow n row) (insertQuantityRow n (row.inUnits u)) := by
  unfold insertQuantityRow
  exact .get (.ite Iff.rfl (fun _ => .pure rfl) fun _ => .ite Iff.rfl (fun _ => .pure rfl) fun _ =>
    .bind' (locGetOrAdd_sim _) fun loc s1 _ => .bind' (agGetOrAdd_sim _) fun ag s2 _ => quantAdd_sim _ _ _)

theorem insertQuantities_sim (a : List PyStr) (rows : List QuantRow) :
    SimAt u s id (insertQuantities a rows) (insertQuantities a (rows.map (·.inUnits u))) := by
  unfold insertQuantities
  exact .get (.forM _ _ fun row _ s1 => insertQuantityRow_sim _ _)

theorem unusedLocs_units : ((s.inUnits u).locs.filter fun l => !(s.inUnits u).quants.any fun q => q.loc == l.id) =
    s.locs.filter fun l => !s.quants.any fun q => q.loc == l.id := by
  show s.locs.filter _ = _
  congr 1
  funext l
  rw [any_quants s _ (by intro w; rfl)]

theorem unusedAgs_units : ((s.inUnits u).agroups.filter fun g => !(s.inUnits u).quants.any fun q => q.ag == g.id) =
    s.agroups.filter fun g => !s.quants.any fun q => q.ag == g.id := by
  show s.agroups.filter _ = _
  congr 1
  funext l
  rw [any_quants s _ (by intro w; rfl)]

theorem deleteQuantitiesWithoutIndex_sim :
    SimAt u s id deleteQuantitiesWithoutIndex deleteQuantitiesWithoutIndex := by
  unfold deleteQuantitiesWithoutIndex
  refine .get ?_
  refine .bind' (.forM' _ _ fun l _ s1 => ?_) fun _ s1 _ => .get ?_
  · rw [show ((s.inUnits u).quants.filter fun q => q.loc == l.id) =
      (s.quants.filter fun q => q.loc == l.id).map (·.inUnits u) from filter_units _ _ fun _ => rfl]
    exact .forM _ _ fun q _ s2 => quantDelete_sim q.id
  · rw [unusedLocs_units]
    refine .bind' (.forM' _ _ fun l _ s2 => locDelete_sim _) fun _ s2 _ => .get ?_
    rw [unusedAgs_units]
    exact .forM' _ _ fun g _ s3 => agDelete_sim _

end

end Toron.Space
