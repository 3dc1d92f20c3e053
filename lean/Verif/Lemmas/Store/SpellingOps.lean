/-
Calls commute with the change of spelling: repositories, service functions, methods.
-/
import Verif.Lemmas.Store.Spelling
import Verif.Lemmas.Store.DoesOps
import Verif.Lemmas.Store.Frames

namespace Toron.Space.Spell

open Toron.Selectors (PyStr Sel CaseMap)
open Toron.Partitions

section
variable {w : Spelling} {s : Store}

theorem indexAdd_sim (labels : List PyStr) : SimAt w s id (indexAdd labels) (indexAdd (labels.map w.of)) := by
  unfold indexAdd
  refine .get (.ite (wrongNumber s labels) (fun _ => .throw _) fun _ => .ite (nil_mem_map labels) (fun _ => .throw _) fun _ =>
    .ite (mem_index_labels s labels) (fun _ => .throw _) fun _ => .bind' (.put ?_) fun _ _ _ => .pure rfl)
  unfold Store.respell
  dsimp only
  rw [List.map_append]
  rfl

theorem indexGet_sim (i : Nat) : SimAt w s (IndexRec.respell w) (indexGet i) (indexGet i) := by
  unfold indexGet
  refine .get ?_
  rw [index_find]
  cases s.index.find? (fun r => r.id == i)
  · exact .throw _
  · exact .pure rfl

theorem indexUpdate_sim (r : IndexRec) : SimAt w s id (indexUpdate r) (indexUpdate (r.respell w)) := by
  unfold indexUpdate
  refine .get (.ite Iff.rfl (fun _ => .throw _) fun _ => .ite (wrongNumber s r.labels) (fun _ => .throw _) fun _ =>
    .ite ?_ (fun _ => .pure rfl) fun _ => .ite Iff.rfl (fun _ => .throw _) fun _ =>
    .ite (nil_mem_map _) (fun _ => .throw _) fun _ => .ite ?_ (fun _ => .throw _) fun _ => .put ?_)
  · rw [any_index s (fun x => x.id == r.id) _ fun _ => rfl]
  · rw [any_index s (fun x => x.id != r.id && x.labels == r.labels) _ fun x => ?_]
    show (x.id != r.id && (x.labels.map w.of == r.labels.map w.of)) = _
    rw [beq_labels]
  · unfold Store.respell
    dsimp only
    congr 1
    rw [List.map_map, List.map_map]
    refine List.map_congr_left fun x _ => ?_
    simp only [Function.comp_apply]
    by_cases h : x.id = r.id
    · rw [if_pos h, if_pos (show (x.respell w).id = (r.respell w).id from h)]
    · rw [if_neg h, if_neg (show ¬ (x.respell w).id = (r.respell w).id from h)]

theorem indexDelete_sim (i : Nat) : SimAt w s id (indexDelete i) (indexDelete i) := by
  unfold indexDelete
  refine .get (.ite ?_ (fun _ => .throw _) fun _ => .put ?_)
  · rw [any_index s (fun x => x.id == 0) _ fun _ => rfl]
  · unfold Store.respell
    dsimp only
    congr 1
    exact filter_respell _ _ _ fun _ _ => rfl

theorem locAdd_sim (labels : List PyStr) : SimAt w s id (locAdd labels) (locAdd (labels.map w.of)) := by
  unfold locAdd
  refine .get (.ite (wrongNumber s labels) (fun _ => .throw _) fun _ => .ite (mem_locs_labels s labels) (fun _ => .throw _)
    fun _ => .put ?_)
  rw [locsIds_eq]
  unfold Store.respell
  dsimp only
  rw [List.map_append]
  rfl

theorem locDelete_sim (i : Nat) : SimAt w s id (locDelete i) (locDelete i) := by
  unfold locDelete
  refine .modify ?_
  unfold Store.respell
  dsimp only
  congr 1
  exact filter_respell _ _ _ fun _ _ => rfl

theorem locGetOrAdd_sim (labels : List PyStr) :
    SimAt w s (LocRec.respell w) (locGetOrAdd labels) (locGetOrAdd (labels.map w.of)) := by
  unfold locGetOrAdd
  refine .get (.ite (by rw [List.length_map]; exact Iff.rfl) (fun _ => .throw _) fun _ => .ite Iff.rfl (fun _ => .throw _)
    fun _ => ?_)
  rw [findLoc_respell]
  cases s.findLoc labels
  · refine .bind' (locAdd_sim _) fun _ s1 _ => .get ?_
    rw [findLoc_respell]
    cases s1.findLoc labels
    · exact .throw _
    · exact .pure rfl
  · exact .pure rfl

theorem agAdd_sim (a : Attrs) : SimAt w s id (agAdd a) (agAdd a) := by
  unfold agAdd
  exact .get (.ite Iff.rfl (fun _ => .throw _) fun _ => .ite Iff.rfl (fun _ => .throw _) fun _ => .put rfl)

theorem agGetOrAdd_sim (a : Attrs) : SimAt w s id (agGetOrAdd a) (agGetOrAdd a) := by
  unfold agGetOrAdd
  refine .get ?_
  rw [show (s.respell w).findAg a = s.findAg a from rfl]
  cases s.findAg a
  · refine .bind' (agAdd_sim _) fun _ s1 _ => .get ?_
    rw [show (s1.respell w).findAg a = s1.findAg a from rfl]
    cases s1.findAg a
    · exact .throw _
    · exact .pure rfl
  · exact .pure rfl

theorem agDelete_sim (i : Nat) : SimAt w s id (agDelete i) (agDelete i) := .modify rfl

theorem quantAdd_sim (l a : Nat) (v : ℚ) : SimAt w s id (quantAdd l a v) (quantAdd l a v) := by
  unfold quantAdd
  refine .get (.ite ?_ (fun _ => .throw _) fun _ => .ite Iff.rfl (fun _ => .throw _) fun _ => .put rfl)
  have : ((s.respell w).locs.any fun x => x.id == l) = s.locs.any fun x => x.id == l := by
    show (s.locs.map (·.respell w)).any _ = _
    rw [List.any_map]
    rfl
  rw [this]
  exact Iff.rfl

theorem quantSetValue_sim (i : Nat) (v : ℚ) : SimAt w s id (quantSetValue i v) (quantSetValue i v) := .modify rfl

theorem quantDelete_sim (i : Nat) : SimAt w s id (quantDelete i) (quantDelete i) := .modify rfl

theorem wgroupGetByName_sim (n : PyStr) : SimAt w s id (wgroupGetByName n) (wgroupGetByName n) := by
  unfold wgroupGetByName
  refine .get ?_
  rw [show (s.respell w).findWGroup n = s.findWGroup n from rfl]
  cases s.findWGroup n
  · exact .throw _
  · exact .pure rfl

theorem wgroupAdd_sim (n : PyStr) (sel : List Sel) (c : Bool) : SimAt w s id (wgroupAdd n sel c) (wgroupAdd n sel c) := by
  unfold wgroupAdd
  exact .get (.ite Iff.rfl (fun _ => .throw _) fun _ => .put rfl)

theorem wgroupUpdate_sim (g : WGroup) : SimAt w s id (wgroupUpdate g) (wgroupUpdate g) := by
  unfold wgroupUpdate
  exact .get (.ite Iff.rfl (fun _ => .pure rfl) fun _ => .ite Iff.rfl (fun _ => .throw _) fun _ => .put rfl)

theorem wgroupDelete_sim (i : Nat) : SimAt w s id (wgroupDelete i) (wgroupDelete i) := .modify rfl

theorem weightAdd_sim (g i : Nat) (v : ℚ) : SimAt w s id (weightAdd g i v) (weightAdd g i v) := by
  unfold weightAdd
  exact .get (.ite Iff.rfl (fun _ => .throw _) fun _ => .ite Iff.rfl (fun _ => .throw _) fun _ =>
    .ite Iff.rfl (fun _ => .throw _) fun _ => .ite Iff.rfl (fun _ => .throw _) fun _ => .put rfl)

theorem weightSetValue_sim (i : Nat) (v : ℚ) : SimAt w s id (weightSetValue i v) (weightSetValue i v) := by
  unfold weightSetValue
  exact .get (.ite Iff.rfl (fun _ => .throw _) fun _ => .put rfl)

theorem weightDelete_sim (i : Nat) : SimAt w s id (weightDelete i) (weightDelete i) := .modify rfl

theorem linkAdd_sim (l : Link) : SimAt w s id (linkAdd l) (linkAdd l) := by
  unfold linkAdd
  exact .get (.ite Iff.rfl (fun _ => .throw _) fun _ => .put rfl)

theorem linkUpdate_sim (l : Link) : SimAt w s id (linkUpdate l) (linkUpdate l) := by
  unfold linkUpdate
  exact .get (.ite Iff.rfl (fun _ => .pure rfl) fun _ => .ite Iff.rfl (fun _ => .throw _) fun _ => .put rfl)

theorem linkDelete_sim (i : Nat) : SimAt w s id (linkDelete i) (linkDelete i) := .modify rfl

theorem mappingAdd_sim (l : Nat) (o : Int) (i : Nat) (lv : Option (List Byte)) (v : ℚ) (p : Option ℚ) :
    SimAt w s id (mappingAdd l o i lv v p) (mappingAdd l o i lv v p) := by
  unfold mappingAdd
  refine .get (.ite Iff.rfl (fun _ => .throw _) fun _ => ?_)
  cases lv with
  | none => exact .throw _
  | some lv =>
    exact .ite Iff.rfl (fun _ => .throw _) fun _ => .ite Iff.rfl (fun _ => .throw _) fun _ =>
      .ite Iff.rfl (fun _ => .throw _) fun _ => .put rfl

theorem mappingUpdate_sim (m : Mapping) : SimAt w s id (mappingUpdate m) (mappingUpdate m) := by
  unfold mappingUpdate
  exact .get (.ite Iff.rfl (fun _ => .pure rfl) fun _ => .ite Iff.rfl (fun _ => .throw _) fun _ =>
    .ite Iff.rfl (fun _ => .throw _) fun _ => .ite Iff.rfl (fun _ => .throw _) fun _ => .put rfl)

theorem mappingDelete_sim (i : Nat) : SimAt w s id (mappingDelete i) (mappingDelete i) := .modify rfl

theorem weightAddOrResolve_sim (g i : Nat) (v : ℚ) (p : Policy) :
    SimAt w s id (weightAddOrResolve g i v p) (weightAddOrResolve g i v p) := by
  have h := weightAdd_sim (w := w) (s := s) g i v
  unfold SimAt at h ⊢
  unfold weightAddOrResolve
  rw [h]
  cases hw : weightAdd g i v s with
  | ok r => rfl
  | error e =>
    cases e with
    | valueError tag =>
      dsimp only [Except.map]
      by_cases h1 : i = 0 ∨ v < 0
      · rw [if_pos h1, if_pos h1]
      rw [if_neg h1, if_neg h1]
      by_cases h2 : p = .ignore
      · rw [if_pos h2, if_pos h2]
        rfl
      rw [if_neg h2, if_neg h2, show (s.respell w).findWeight g i = s.findWeight g i from rfl]
      cases s.findWeight g i with
      | none => rfl
      | some x =>
        have hb : ∀ (y : ℚ) (r : Resolved), SimAt w s id (do weightSetValue x.id y; return r)
            (do weightSetValue x.id y; return r) :=
          fun y r => .bind' (weightSetValue_sim _ _) fun _ _ _ => .pure rfl
        cases p with
        | abort => rfl
        | ignore => rfl
        | other => rfl
        | replace => exact hb v .overwritten
        | sum => exact hb (x.value + v) .summed
    | _ => rfl

theorem mergeWeights_sim (ids : List Nat) (t : Nat) : SimAt w s id (mergeWeights ids t) (mergeWeights ids t) := by
  unfold mergeWeights
  exact .get (.bind' (.forM' _ _ fun x _ s1 => weightDelete_sim x.id) fun _ s1 _ => .forM' _ _ fun g _ s2 =>
    weightAdd_sim _ _ _)

theorem mergeMappings_sim (ids : List Nat) (t : Nat) : SimAt w s id (mergeMappings ids t) (mergeMappings ids t) := by
  unfold mergeMappings
  exact .get (.bind' (.forM' _ _ fun x _ s1 => mappingDelete_sim x.id) fun _ s1 _ => .forM' _ _ fun g _ s2 =>
    mappingAdd_sim _ _ _ _ _ _)

theorem refreshProportions_sim (l : Nat) (o : Int) : SimAt w s id (refreshProportions l o) (refreshProportions l o) := by
  unfold refreshProportions
  exact .get (.ite Iff.rfl (fun _ => .forM' _ _ fun m _ s1 => .ite Iff.rfl (fun _ => .throw _) fun _ => mappingUpdate_sim _)
    fun _ => .forM' _ _ fun m _ s1 => mappingUpdate_sim _)

theorem refreshIndexHash_sim : SimAt w s id refreshIndexHash refreshIndexHash := by
  refine .modify ?_
  rw [show (s.respell w).indexIds = s.indexIds by unfold Store.indexIds; rw [indexIds_eq]]
  rfl

theorem deleteIndexRecord_sim (i : Nat) : SimAt w s id (deleteIndexRecord i) (deleteIndexRecord i) := by
  unfold deleteIndexRecord
  exact .get (.bind' (.forM' _ _ fun x _ s1 => weightDelete_sim x.id) fun _ s1 _ =>
    .bind' (.forM' _ _ fun m _ s1 => .ite Iff.rfl (fun _ => .throw _) fun _ => mappingDelete_sim m.id) fun _ s2 _ =>
    .bind' (.forM' _ _ fun o _ s3 => .get (.forM' _ _ fun l _ s4 => refreshProportions_sim _ _)) fun _ s3 _ =>
    indexDelete_sim i)

theorem structAdd_sim (g : Option Gran) (b : List Bool) : SimAt w s id (structAdd g b) (structAdd g b) := by
  unfold structAdd
  exact .get (.ite Iff.rfl (fun _ => .throw _) fun _ => .ite Iff.rfl (fun _ => .throw _) fun _ =>
    .ite Iff.rfl (fun _ => .throw _) fun _ => .put rfl)

theorem rebuildStructure_sim : SimAt w s id rebuildStructure rebuildStructure := by
  unfold rebuildStructure
  refine .bind' (.modify rfl) fun _ s1 _ => .get (.ite Iff.rfl (fun _ => .throw _) fun _ => ?_)
  refine .forM' _ _ fun d _ s2 => ?_
  rw [granSql_respell]
  exact structAdd_sim _ _

theorem refreshGranularity_sim : SimAt w s id refreshGranularity refreshGranularity := by
  refine .modify ?_
  simp only [granPy_respell]
  rfl

theorem addPartitionDefs_sim (ds : List (Finset PyStr)) : SimAt w s id (addPartitionDefs ds) (addPartitionDefs ds) := by
  unfold addPartitionDefs
  exact .get (.ite Iff.rfl (fun _ => .throw _) fun _ => .ite Iff.rfl (fun _ => .throw _) fun _ => .put rfl)

theorem addPartitionDef_sim (d : Finset PyStr) : SimAt w s id (addPartitionDef d) (addPartitionDef d) := by
  unfold addPartitionDef
  exact .get (.ite Iff.rfl (fun _ => .throw _) fun _ => .ite Iff.rfl (fun _ => .throw _) fun _ =>
    .ite Iff.rfl (fun _ => .throw _) fun _ => .ite Iff.rfl (fun _ => .throw _) fun _ => .put rfl)

theorem removePartitionDef_sim (d : Finset PyStr) : SimAt w s id (removePartitionDef d) (removePartitionDef d) := by
  unfold removePartitionDef
  exact .get (.ite Iff.rfl (fun _ => .throw _) fun _ => .put rfl)

theorem refreshOrRebuild_sim : SimAt w s id refreshOrRebuild refreshOrRebuild := by
  unfold refreshOrRebuild
  exact .get (.ite Iff.rfl (fun _ => refreshGranularity_sim) fun _ =>
    .bind' (addPartitionDefs_sim _) fun _ _ _ => rebuildStructure_sim)

theorem refreshLink_sim (l : Link) : SimAt w s id (refreshLink l) (refreshLink l) := by
  unfold refreshLink
  refine .get (.bind' (.forM' _ _ fun o _ s1 => refreshProportions_sim _ _) fun _ s1 _ => .get ?_)
  rw [mappingIsComplete_respell]
  exact linkUpdate_sim _

theorem validateNewColumns_sim (n : List PyStr) : SimAt w s id (validateNewColumns n) (validateNewColumns n) := by
  unfold validateNewColumns
  exact .get (.forM' _ _ fun c _ s1 => .ite Iff.rfl (fun _ => .throw _) fun _ => .ite Iff.rfl (fun _ => .throw _) fun _ =>
    .ite Iff.rfl (fun _ => .throw _) fun _ => .pure rfl)

theorem addColumn_sim (c : PyStr) : SimAt w s id (addColumn c) (addColumn c) := by
  unfold addColumn
  refine .get (.ite Iff.rfl (fun _ => .throw _) fun _ => .put ?_)
  unfold Store.respell
  dsimp only
  congr 1
  · rw [List.map_map, List.map_map]
    refine List.map_congr_left fun r _ => ?_
    simp [IndexRec.respell, w.dash]
  · rw [List.map_map, List.map_map]
    refine List.map_congr_left fun r _ => ?_
    simp [LocRec.respell, w.empty]

theorem checkUnique_sim : SimAt w s id checkUnique checkUnique := by
  unfold checkUnique
  refine .get (.ite ?_ (fun _ => .throw _) fun _ => .pure rfl)
  have h1 : ((s.respell w).index.map (·.labels)).Nodup ↔ (s.index.map (·.labels)).Nodup := by
    rw [show (s.respell w).index.map (·.labels) = (s.index.map (·.labels)).map (List.map w.of) by
      show (s.index.map (·.respell w)).map _ = _
      rw [List.map_map, List.map_map]
      rfl]
    exact List.nodup_map_iff map_of_inj
  have h2 : ((s.respell w).locs.map (·.labels)).Nodup ↔ (s.locs.map (·.labels)).Nodup := by
    rw [show (s.respell w).locs.map (·.labels) = (s.locs.map (·.labels)).map (List.map w.of) by
      show (s.locs.map (·.respell w)).map _ = _
      rw [List.map_map, List.map_map]
      rfl]
    exact List.nodup_map_iff map_of_inj
  rw [h1, h2]
  exact Iff.rfl

theorem sortedBy_map {α β : Type} (h : α → β) (le : α → α → Bool) (le' : β → β → Bool) (hle : ∀ a b, le' (h a) (h b) = le a b)
    (l : List α) : sortedBy le' (l.map h) = (sortedBy le l).map h := by
  have hi : ∀ (x : α) (l : List α), insertBy le' (h x) (l.map h) = (insertBy le x l).map h := by
    intro x l
    induction l with
    | nil => rfl
    | cons y l ih =>
      simp only [List.map_cons, insertBy, hle, ih]
      split <;> rfl
  induction l with
  | nil => rfl
  | cons x l ih => simp only [List.map_cons, sortedBy, ih, hi]

theorem quantsByBits_respell (b : List Bool) :
    (s.respell w).quantsByBits b = (s.quantsByBits b).map fun lq => (lq.1.respell w, lq.2) := by
  unfold Store.quantsByBits
  rw [show ((s.respell w).locs.filter fun l => nonemptyBits l.labels == b) =
    (s.locs.filter fun l => nonemptyBits l.labels == b).map (·.respell w) from
    filter_respell _ _ _ fun l _ => by
      show (nonemptyBits (l.labels.map w.of) == b) = _
      rw [nonemptyBits_respell],
    sortedBy_map (LocRec.respell w) (fun a b : LocRec => decide (a.id ≤ b.id)) _ fun _ _ => rfl, List.flatMap_map, List.map_flatMap]
  congr 1
  funext l
  rw [List.map_map]
  rfl

theorem addIndexColumns_sim (n : List PyStr) : SimAt w s id (addIndexColumns n) (addIndexColumns n) := by
  unfold addIndexColumns
  refine .bind' (validateNewColumns_sim n) fun _ s1 _ => .get (.bind' (.forM' _ _ fun c _ s2 => addColumn_sim c) fun _ s2 _ =>
    .bind' checkUnique_sim fun _ s3 _ => .get (.bind' (addPartitionDef_sim _) fun _ s4 _ =>
    .bind' rebuildStructure_sim fun _ s5 _ => .get ?_))
  rw [show (s5.respell w).structByLabels (s1.respell w).cols.toFinset = s5.structByLabels s1.cols.toFinset from rfl]
  cases s5.structByLabels s1.cols.toFinset with
  | none => exact .throw _
  | some st =>
    dsimp only
    refine .ite ?_ (fun _ => .bind' (removePartitionDef_sim _) fun _ _ _ => rebuildStructure_sim) fun _ => .pure rfl
    rw [quantsByBits_respell, List.map_eq_nil_iff]
    rfl

theorem renameColumn_sim (a b : PyStr) : SimAt w s id (renameColumn a b) (renameColumn a b) := by
  unfold renameColumn
  exact .get (.ite Iff.rfl (fun _ => .throw _) fun _ => .ite Iff.rfl (fun _ => .throw _) fun _ => .put rfl)

theorem renameIndexColumns_sim (m : List (PyStr × PyStr)) : SimAt w s id (renameIndexColumns m) (renameIndexColumns m) := by
  unfold renameIndexColumns
  exact .get (.ite Iff.rfl (fun _ => .throw _) fun _ => .bind' (validateNewColumns_sim _) fun _ s1 _ =>
    .bind' (.forM' _ _ fun p _ s2 => renameColumn_sim _ _) fun _ s2 _ => .modify rfl)

theorem keepCols_map (cols drop : List PyStr) (l : List PyStr) :
    keepCols cols drop (l.map w.of) = (keepCols cols drop l).map w.of := by
  unfold keepCols
  rw [List.zip_map_right, filter_respell _ (fun cx => decide (cx.1 ∉ drop)) _ fun _ _ => rfl, List.map_map, List.map_map]
  rfl

theorem dropIndexColumns_sim (n : List PyStr) : SimAt w s id (dropIndexColumns n) (dropIndexColumns n) := by
  unfold dropIndexColumns
  refine .get (.ite Iff.rfl (fun _ => .throw _) fun _ => .ite Iff.rfl (fun _ => .throw _) fun _ =>
    .bind' (.put ?_) fun _ _ _ => checkUnique_sim)
  unfold Store.respell
  dsimp only
  congr 1
  · rw [List.map_map, List.map_map]
    exact List.map_congr_left fun r _ => congrArg (IndexRec.mk r.id) (keepCols_map _ _ _)
  · rw [List.map_map, List.map_map]
    exact List.map_congr_left fun r _ => congrArg (LocRec.mk r.id) (keepCols_map _ _ _)

theorem opDropPartitionDefs_sim (d : List (Finset PyStr)) : SimAt w s id (opDropPartitionDefs d) (opDropPartitionDefs d) := by
  unfold opDropPartitionDefs
  exact .get (.ite Iff.rfl (fun _ => .throw _) fun _ => .bind' (.put rfl) fun _ _ _ => rebuildStructure_sim)

theorem setRegisteredAttributes_sim (a : List PyStr) :
    SimAt w s id (setRegisteredAttributes a) (setRegisteredAttributes a) := by
  unfold setRegisteredAttributes
  exact .get (.ite Iff.rfl (fun _ => .throw _) fun _ => .ite Iff.rfl (fun _ => .throw _) fun _ =>
    .ite Iff.rfl (fun _ => .throw _) fun _ => .put rfl)

theorem changeAttributeOrder_sim (a : PyStr) (o : Int) :
    SimAt w s id (changeAttributeOrder a o) (changeAttributeOrder a o) := by
  unfold changeAttributeOrder
  exact .get (.bind' .liftE fun _ _ _ => setRegisteredAttributes_sim _)

theorem changeLabelOrder_sim (a : PyStr) (o : Int) : SimAt w s id (changeLabelOrder a o) (changeLabelOrder a o) := by
  unfold changeLabelOrder
  exact .get (.bind' .liftE fun _ _ _ => .ite Iff.rfl (fun _ => .throw _) fun _ => .put rfl)

theorem insertIndexWeight_sim (i : Nat) (p : Policy) (c : Counts) (gw : WGroup × Option ℚ) :
    SimAt w s id (insertIndexWeight i p c gw) (insertIndexWeight i p c gw) := by
  unfold insertIndexWeight
  obtain ⟨g, v⟩ := gw
  cases v with
  | none => exact .pure rfl
  | some v =>
    refine .get ?_
    rw [show (s.respell w).findWeight g.id i = s.findWeight g.id i from rfl]
    dsimp only
    cases s.findWeight g.id i with
    | some x =>
      cases p with
      | ignore => exact .pure rfl
      | replace => exact .bind' (weightSetValue_sim _ _) fun _ _ _ => .pure rfl
      | _ => exact .throw _
    | none => exact .bind' (weightAdd_sim _ _ _) fun _ _ _ => .pure rfl

theorem insertIndexRecord_sim (p : Policy) (c : Counts) (row : IndexRow) :
    SimAt w s id (insertIndexRecord p c row) (insertIndexRecord p c (row.respell w)) := by
  obtain ⟨idv, labels, ws⟩ := row
  cases idv with
  | some i =>
    refine .bind (indexGet_sim i) fun r s1 _ => ?_
    cases labels with
    | none => exact .pure rfl
    | some labels =>
      refine .ite map_of_eq (fun _ => .pure rfl) fun _ => ?_
      cases p with
      | ignore => exact .pure rfl
      | replace => exact .bind' (indexUpdate_sim { r with labels := labels }) fun _ _ _ => .pure rfl
      | _ => exact .throw _
  | none =>
    have h := indexAdd_sim (w := w) (s := s) (labels.getD [])
    have hl : (labels.map (List.map w.of)).getD [] = (labels.getD []).map w.of := by cases labels <;> rfl
    unfold SimAt at h ⊢
    unfold insertIndexRecord IndexRow.respell
    dsimp only
    rw [hl, h]
    cases hw : indexAdd (labels.getD []) s with
    | ok r => rfl
    | error e =>
      cases e with
      | valueError tag =>
        dsimp only [Except.map]
        rw [findByLabels_respell]
        cases s.findByLabels (labels.getD []) <;> rfl
      | _ => rfl

theorem insertIndexRow_sim (gs : List WGroup) (pl pw : Policy) (c : Counts) (row : IndexRow) :
    SimAt w s id (insertIndexRow gs pl pw c row) (insertIndexRow gs pl pw c (row.respell w)) := by
  unfold insertIndexRow
  have hl : (row.respell w).labels.getD [] = (row.labels.getD []).map w.of := by
    show (row.labels.map (List.map w.of)).getD [] = _
    cases row.labels <;> rfl
  rw [hl]
  exact .ite (nil_mem_map _) (fun _ => .pure rfl) fun _ => .bind' (insertIndexRecord_sim _ _ _) fun r s1 _ =>
    .foldlM' _ _ _ fun gw _ c s2 => insertIndexWeight_sim _ _ _ _

theorem recomputeComplete_sim : SimAt w s id recomputeComplete recomputeComplete := by
  unfold recomputeComplete
  refine .get (.forM' _ _ fun g _ s1 => .get ?_)
  rw [wgroupIsComplete_respell]
  exact wgroupUpdate_sim _

theorem insertIndexGroups_sim (ns : Option (List PyStr)) (wc : List PyStr) :
    SimAt w s id (insertIndexGroups ns wc) (insertIndexGroups ns wc) := by
  unfold insertIndexGroups
  cases ns with
  | some names =>
    exact .bind' (.forM' _ _ fun n _ s1 => .bind' (wgroupGetByName_sim n) fun _ _ _ => .pure rfl) fun _ s1 _ =>
      .mapM' _ _ fun n _ s2 => wgroupGetByName_sim n
  | none => exact .mapM' _ _ fun n _ s2 => wgroupGetByName_sim n

theorem afterNewRecords_sim : SimAt w s id afterNewRecords afterNewRecords := by
  unfold afterNewRecords
  exact .bind' refreshIndexHash_sim fun _ s1 _ => .bind' refreshOrRebuild_sim fun _ s2 _ =>
    .get (.forM' _ _ fun l _ s3 => .whenM rfl fun _ => linkUpdate_sim _)

theorem insertIndex_sim (ns : Option (List PyStr)) (wc : List PyStr) (pl pw : Policy) (rows : List IndexRow) :
    SimAt w s id (insertIndex ns wc pl pw rows) (insertIndex ns wc pl pw (rows.map (·.respell w))) := by
  unfold insertIndex
  exact .get (.ite Iff.rfl (fun _ => .throw _) fun _ => .ite Iff.rfl (fun _ => .throw _) fun _ =>
    .bind' (insertIndexGroups_sim _ _) fun gs s1 _ =>
    .bind' (.foldlM _ _ _ fun row _ c s2 => insertIndexRow_sim _ _ _ _ _) fun c s2 _ =>
    .bind' (.whenM rfl fun _ => afterNewRecords_sim) fun _ s3 _ => .whenM rfl fun _ => recomputeComplete_sim)

theorem promoteGroups_sim : SimAt w s id promoteGroups promoteGroups := by
  unfold promoteGroups
  refine .get (.forM' _ _ fun g _ s1 => .get ?_)
  exact .whenM (by rw [wgroupIsComplete_respell]) fun _ => wgroupUpdate_sim _

theorem promoteLinks_sim : SimAt w s id promoteLinks promoteLinks := by
  unfold promoteLinks
  refine .get (.forM' _ _ fun g _ s1 => .get ?_)
  exact .whenM (by rw [mappingIsComplete_respell]) fun _ => linkUpdate_sim _

theorem mergeConflict_sim (m : Bool) (acc : UpdateAcc) (r : IndexRec) (o : Option IndexRec) :
    SimAt w s id (mergeConflict m acc r o) (mergeConflict m acc (r.respell w) (o.map (·.respell w))) := by
  cases o with
  | none => exact .pure rfl
  | some other =>
    exact .ite Iff.rfl (fun _ => .throw _) fun _ => .bind' (mergeWeights_sim _ _) fun _ _ _ =>
      .bind' (mergeMappings_sim _ _) fun _ _ _ => .bind' (indexDelete_sim _) fun _ _ _ => .pure rfl

theorem updateIndexRow_sim (m : Bool) (acc : UpdateAcc) (row : Nat × List PyStr) :
    SimAt w s id (updateIndexRow m acc row) (updateIndexRow m acc (row.1, row.2.map w.of)) := by
  unfold updateIndexRow
  refine .ite (nil_mem_map _) (fun _ => .pure rfl) fun _ => .get ?_
  dsimp only
  rw [index_find, findByLabels_respell]
  cases s.index.find? (fun r => r.id == row.1) with
  | none => exact .ite Iff.rfl (fun _ => .throw _) fun _ => .pure rfl
  | some r =>
    exact .bind' (mergeConflict_sim _ _ _ _) fun _ _ _ =>
      .bind' (indexUpdate_sim { r with labels := row.2 }) fun _ _ _ => .pure rfl

theorem updateIndex_sim (m : Bool) (rows : List (Nat × List PyStr)) :
    SimAt w s id (updateIndex m rows) (updateIndex m (rows.map fun r => (r.1, r.2.map w.of))) := by
  unfold updateIndex
  exact .bind' (.foldlM _ _ _ fun row _ a s1 => updateIndexRow_sim _ _ _) fun acc s1 _ =>
    .bind' (.whenM rfl fun _ => refreshGranularity_sim) fun _ _ _ => .whenM rfl fun _ => by
      unfold afterMerge
      exact .bind' refreshIndexHash_sim fun _ _ _ => .bind' promoteGroups_sim fun _ _ _ => promoteLinks_sim

theorem afterDeleteIndex_sim : SimAt w s id afterDeleteIndex afterDeleteIndex := by
  unfold afterDeleteIndex
  refine .bind' refreshIndexHash_sim fun _ _ _ => .bind' refreshGranularity_sim fun _ _ _ =>
    .bind' promoteGroups_sim fun _ _ _ => .get (.forM' _ _ fun l _ s1 => .get ?_)
  rw [mappingIsComplete_respell]
  exact linkUpdate_sim _

theorem deleteIndexRow_sim (d : Bool) (row : Nat × List PyStr) :
    SimAt w s id (deleteIndexRow d row) (deleteIndexRow d (row.1, row.2.map w.of)) := by
  unfold deleteIndexRow
  refine .get ?_
  dsimp only
  rw [index_find]
  cases s.index.find? (fun r => r.id == row.1) with
  | none => exact .pure rfl
  | some r =>
    exact .ite (not_congr map_of_eq) (fun _ => .pure rfl) fun _ =>
      .bind' (deleteIndexRecord_sim _) fun _ _ _ => .pure rfl

theorem isEmpty_respell {ρ : Type} (f : ρ → ρ) (t : Target ρ) : (t.respell w f).isEmpty = t.isEmpty := by
  cases t with
  | rows rs => exact List.isEmpty_map
  | criteria cs => exact List.isEmpty_map

theorem filterCriteria_respell (hs : ∀ r ∈ s.index, r.labels.length = s.cols.length) (cs : List (PyStr × PyStr))
    (h : ∀ kv ∈ cs, kv.1 ∈ s.cols ∨ (kv.1 = w.of kv.2 ↔ kv.1 = kv.2)) :
    (s.respell w).filterByLabel (respellCriteria w cs) = (s.filterByLabel cs).map (·.respell w) :=
  filterByLabel_respell s cs true fun r hr kv hkv => (h kv hkv).elim (fun hc => .inr ⟨hc, hs r hr⟩) .inl

theorem deleteIndex_sim (hs : ∀ r ∈ s.index, r.labels.length = s.cols.length) (t : Target (Nat × List PyStr))
    (h : (Op.deleteIndex t).NamesApart w s) :
    SimAt w s id (deleteIndex t) (deleteIndex (t.respell w fun r => (r.1, r.2.map w.of))) := by
  unfold deleteIndex
  refine .ite (by rw [isEmpty_respell]) (fun _ => .throw _) fun _ => .bind' ?_ fun _ _ _ => .whenM rfl fun _ => afterDeleteIndex_sim
  unfold deleteIndexTarget
  cases t with
  | rows rs => exact .foldlM _ _ _ fun row _ a s1 => deleteIndexRow_sim _ _
  | criteria cs =>
    refine .get ?_
    dsimp only [Target.respell]
    rw [filterCriteria_respell hs cs h]
    exact .bind' (.forM _ _ fun r _ s1 => deleteIndexRecord_sim _) fun _ _ _ => .pure (by rw [List.isEmpty_map]; rfl)

theorem addWeightGroup_sim (n : PyStr) (sel : List Sel) (c : Bool) (d : Option Bool) :
    SimAt w s id (addWeightGroup n sel c d) (addWeightGroup n sel c d) := by
  unfold addWeightGroup
  refine .get ?_
  rw [show (s.respell w).findWGroup n = s.findWGroup n from rfl]
  cases s.findWGroup n with
  | some _ => exact .throw _
  | none => exact .bind' (wgroupAdd_sim _ _ _) fun _ _ _ => .ite Iff.rfl (fun _ =>
      .bind' (wgroupGetByName_sim _) fun _ _ _ => .modify rfl) fun _ => .pure rfl

theorem editWeightGroup_sim (n : PyStr) (m : Option PyStr) (sel : Option (List Sel)) (c : Option Bool) :
    SimAt w s id (editWeightGroup n m sel c) (editWeightGroup n m sel c) := by
  unfold editWeightGroup
  refine .get ?_
  rw [show (s.respell w).findWGroup n = s.findWGroup n from rfl]
  cases s.findWGroup n with
  | none => exact .pure rfl
  | some g => exact wgroupUpdate_sim _

theorem dropWeightGroup_sim (n : PyStr) : SimAt w s id (dropWeightGroup n) (dropWeightGroup n) := by
  unfold dropWeightGroup
  refine .get ?_
  rw [show (s.respell w).findWGroup n = s.findWGroup n from rfl]
  cases s.findWGroup n with
  | none => exact .pure rfl
  | some g =>
    refine .bind' (wgroupDelete_sim _) fun _ s1 _ => .get ?_
    rw [show (s1.respell w).defaultWG = s1.defaultWG from rfl]
    cases s1.defaultWG with
    | none => exact .throw _
    | some d => exact .ite Iff.rfl (fun _ => .put rfl) fun _ => .pure rfl

theorem weightRowRecord_respell (row : WeightRow) : (s.respell w).weightRowRecord (row.respell w) =
    (s.weightRowRecord row).map (·.respell w) := by
  obtain ⟨idv, labels, value⟩ := row
  cases idv with
  | none => exact findByLabels_respell _ _
  | some i =>
    show ((s.respell w).index.find? (fun r => r.id == i)).filter _ = ((s.index.find? (fun r => r.id == i)).filter _).map _
    rw [index_find]
    cases s.index.find? (fun r => r.id == i) with
    | none => rfl
    | some r =>
      show Option.filter _ (some (r.respell w)) = _
      rw [Option.filter_some, Option.filter_some]
      have : ((r.respell w).labels == labels.map w.of) = (r.labels == labels) := beq_labels _ _
      show (if ((r.respell w).labels == labels.map w.of) = true then some (r.respell w) else none) = _
      simp only [this]
      split <;> rfl

theorem insertWeightRow_sim (g : Nat) (p : Policy) (b : Bool) (row : WeightRow) :
    SimAt w s id (insertWeightRow g p b row) (insertWeightRow g p b (row.respell w)) := by
  unfold insertWeightRow
  rw [show (row.respell w).value = row.value from rfl]
  cases row.value with
  | none => exact .pure rfl
  | some v =>
    refine .get ?_
    rw [weightRowRecord_respell]
    cases s.weightRowRecord row with
    | none => exact .pure rfl
    | some r =>
      refine .ite Iff.rfl (fun _ => .pure rfl) fun _ => ?_
      have h := weightAddOrResolve_sim (w := w) (s := s) g r.id v p
      unfold SimAt at h ⊢
      rw [show (r.respell w).id = r.id from rfl]
      dsimp only
      rw [h]
      cases hw : weightAddOrResolve g r.id v p s with
      | error e => rfl
      | ok x =>
        obtain ⟨x, s1⟩ := x
        cases x <;> rfl

theorem wgroupGetOrAdd_sim (n : PyStr) : SimAt w s id (wgroupGetOrAdd n) (wgroupGetOrAdd n) := by
  unfold wgroupGetOrAdd
  exact .get (.bind' (.whenM rfl fun _ => wgroupAdd_sim _ _ _) fun _ _ _ => wgroupGetByName_sim _)

theorem afterWeights_sim (g : WGroup) (b : Bool) : SimAt w s id (afterWeights g b) (afterWeights g b) := by
  unfold afterWeights
  exact .get (.whenM (by rw [wgroupIsComplete_respell]) fun _ => wgroupUpdate_sim _)

theorem insertWeights_sim (n : PyStr) (p : Policy) (rows : List WeightRow) :
    SimAt w s id (insertWeights n p rows) (insertWeights n p (rows.map (·.respell w))) := by
  unfold insertWeights
  exact .ite Iff.rfl (fun _ => .throw _) fun _ => .bind' (wgroupGetOrAdd_sim _) fun g s1 _ =>
    .bind' (.foldlM _ _ _ fun row _ b s2 => insertWeightRow_sim _ _ _ _) fun _ _ _ => afterWeights_sim _ _

theorem updateWeightRow_sim (g : Nat) (b : Bool) (row : Nat × List PyStr × ℚ) :
    SimAt w s id (updateWeightRow g b row) (updateWeightRow g b (row.1, row.2.1.map w.of, row.2.2)) := by
  unfold updateWeightRow
  refine .get ?_
  dsimp only
  rw [index_find]
  cases s.index.find? (fun r => r.id == row.1) with
  | none => exact .pure rfl
  | some r =>
    refine .ite (not_congr map_of_eq) (fun _ => .pure rfl) fun _ => ?_
    rw [show (s.respell w).findWeight g (r.respell w).id = s.findWeight g r.id from rfl]
    cases s.findWeight g r.id with
    | some x => exact .bind' (weightSetValue_sim _ _) fun _ _ _ => .pure rfl
    | none => exact .bind' (weightAdd_sim _ _ _) fun _ _ _ => .pure rfl

theorem updateWeights_sim (n : PyStr) (rows : List (Nat × List PyStr × ℚ)) :
    SimAt w s id (updateWeights n rows) (updateWeights n (rows.map fun r => (r.1, r.2.1.map w.of, r.2.2))) := by
  unfold updateWeights
  exact .bind' (wgroupGetByName_sim _) fun g s1 _ =>
    .bind' (.foldlM _ _ _ fun row _ b s2 => updateWeightRow_sim _ _ _) fun _ _ _ => afterWeights_sim _ _

theorem deleteWeightOf_sim (g : Nat) (d : Bool) (i : Nat) : SimAt w s id (deleteWeightOf g d i) (deleteWeightOf g d i) := by
  unfold deleteWeightOf
  refine .get ?_
  rw [show (s.respell w).findWeight g i = s.findWeight g i from rfl]
  cases s.findWeight g i with
  | some x => exact .bind' (weightDelete_sim _) fun _ _ _ => .pure rfl
  | none => exact .pure rfl

theorem map_ids_respell (l : List IndexRec) : (l.map (·.respell w)).map (·.id) = l.map (·.id) := by
  rw [List.map_map]
  rfl

theorem deleteWeights_sim (hs : ∀ r ∈ s.index, r.labels.length = s.cols.length) (n : PyStr)
    (t : Target (Nat × List PyStr)) (h : (Op.deleteWeights n t).NamesApart w s) :
    SimAt w s id (deleteWeights n t) (deleteWeights n (t.respell w fun r => (r.1, r.2.map w.of))) := by
  unfold deleteWeights
  refine .bind' (wgroupGetByName_sim _) fun g s1 hg => ?_
  obtain rfl : s1 = s := by
    have hst := (wgroupGetByName_does n).steps _ _ _ hg
    clear hg
    induction hst with
    | refl => rfl
    | tail _ h _ => obtain ⟨k, hk, _⟩ := h; cases hk
  refine .ite (by rw [isEmpty_respell]) (fun _ => .throw _) fun _ =>
    .bind' ?_ fun _ _ _ => .whenM rfl fun _ => wgroupUpdate_sim _
  unfold deleteWeightTarget
  cases t with
  | rows rs =>
    refine .foldlM _ _ _ fun row _ b s2 => ?_
    unfold deleteWeightRow
    refine .get ?_
    dsimp only
    rw [index_find]
    cases s2.index.find? (fun r => r.id == row.1) with
    | none => exact .pure rfl
    | some r => exact .ite (not_congr map_of_eq) (fun _ => .pure rfl) fun _ => deleteWeightOf_sim _ _ _
  | criteria cs =>
    refine .get ?_
    dsimp only [Target.respell]
    rw [filterCriteria_respell hs cs h, map_ids_respell]
    exact .foldlM' _ _ _ fun i _ b s2 => deleteWeightOf_sim _ _ _

theorem addLink_sim (o n : PyStr) (h : Option PyStr) (sel : List Sel) (d : Option Bool) (oh : Option (List Int)) (c : Bool) :
    SimAt w s id (addLink o n h sel d oh c) (addLink o n h sel d oh c) := by
  unfold addLink
  refine .get (.ite Iff.rfl (fun _ => .throw _) fun _ => ?_)
  dsimp only
  refine .ite Iff.rfl (fun _ => ?_) fun _ => ?_
  · exact .bind' (.forM' _ _ fun l _ s1 => .ite Iff.rfl (fun _ => linkUpdate_sim _) fun _ => .pure rfl) fun _ _ _ =>
      linkAdd_sim _
  · exact linkAdd_sim _

theorem editLink_sim (r : PyStr) (n : Option PyStr) (c : LinkChanges) : SimAt w s id (editLink r n c) (editLink r n c) := by
  unfold editLink
  refine .get (.bind' .liftE fun l s1 _ => .ite Iff.rfl (fun _ => .get ?_) fun _ => ?_)
  · exact .bind' (.forM' _ _ fun l _ s1 => linkUpdate_sim _) fun _ _ _ => linkUpdate_sim _
  · exact linkUpdate_sim _

theorem dropLink_sim (r : PyStr) (n : Option PyStr) : SimAt w s id (dropLink r n) (dropLink r n) := by
  unfold dropLink
  exact .get (.bind' .liftE fun _ _ _ => linkDelete_sim _)

theorem insertMapping2Row_sim (lv : List (Option (List Byte))) (l : Nat) (b : Bool) (row : MapRow) :
    SimAt w s id (insertMapping2Row lv l b row) (insertMapping2Row lv l b (row.respell w)) := by
  unfold insertMapping2Row
  exact .ite Iff.rfl (fun _ => .pure rfl) fun _ => .ite Iff.rfl (fun _ => .pure rfl) fun _ =>
    .bind' (mappingAdd_sim _ _ _ _ _ _) fun _ _ _ => .pure rfl

theorem insertMappings2_sim (r : PyStr) (n : Option PyStr) (rows : List MapRow) :
    SimAt w s id (insertMappings2 r n rows) (insertMappings2 r n (rows.map (·.respell w))) := by
  unfold insertMappings2
  exact .get (.bind' .liftE fun l s1 _ => .bind' (.foldlM _ _ _ fun row _ b s2 => insertMapping2Row_sim _ _ _ _) fun _ _ _ =>
    .whenM rfl fun _ => refreshLink_sim _)

theorem mapRowOk_respell (row : MapRow) : (s.respell w).mapRowOk (row.respell w) = s.mapRowOk row := by
  unfold Store.mapRowOk
  rw [show (row.respell w).index = row.index from rfl, index_find]
  cases s.index.find? (fun r => r.id == row.index) with
  | none => rfl
  | some r =>
    show (decide (r.labels.map w.of = row.labels.map w.of) && _) = _
    rw [decide_eq_decide.2 map_of_eq]
    rfl

theorem insertMappingRow_sim (l : Nat) (b : Bool) (row : MapRow) :
    SimAt w s id (insertMappingRow l b row) (insertMappingRow l b (row.respell w)) := by
  unfold insertMappingRow
  refine .get (.ite (by rw [mapRowOk_respell]) (fun _ => .pure rfl) fun _ => ?_)
  have h := mappingAdd_sim (w := w) (s := s) l row.other row.index row.level row.value none
  unfold SimAt at h ⊢
  rw [show (row.respell w).other = row.other from rfl, show (row.respell w).index = row.index from rfl,
    show (row.respell w).level = row.level from rfl, show (row.respell w).value = row.value from rfl]
  dsimp only
  rw [h]
  cases mappingAdd l row.other row.index row.level row.value none s <;> rfl

theorem insertMappings_sim (r : PyStr) (n : Option PyStr) (c : Bool) (rows : List MapRow) :
    SimAt w s id (insertMappings r n c rows) (insertMappings r n c (rows.map (·.respell w))) := by
  unfold insertMappings
  exact .ite Iff.rfl (fun _ => .throw _) fun _ => .get (.bind' .liftE fun l s1 _ =>
    .bind' (.foldlM _ _ _ fun row _ b s2 => insertMappingRow_sim _ _ _) fun _ _ _ => .whenM rfl fun _ => refreshLink_sim _)

theorem updateMappingRow_sim (l : Nat) (c : Bool × Bool) (row : MapRow) :
    SimAt w s id (updateMappingRow l c row) (updateMappingRow l c (row.respell w)) := by
  unfold updateMappingRow
  refine .get (.ite (by rw [mapRowOk_respell]) (fun _ => .pure rfl) fun _ => ?_)
  rw [show (s.respell w).findMap l (row.respell w).other (row.respell w).index = s.findMap l row.other row.index from rfl,
    show (row.respell w).level = row.level from rfl]
  cases s.findMap l row.other row.index with
  | some m =>
    cases row.level with
    | none => exact .throw _
    | some lv => exact .bind' (mappingUpdate_sim _) fun _ _ _ => .pure rfl
  | none => exact .bind' (mappingAdd_sim _ _ _ _ _ _) fun _ _ _ => .pure rfl

theorem updateMappings_sim (r : PyStr) (n : Option PyStr) (c : Bool) (rows : List MapRow) :
    SimAt w s id (updateMappings r n c rows) (updateMappings r n c (rows.map (·.respell w))) := by
  unfold updateMappings
  refine .ite Iff.rfl (fun _ => .throw _) fun _ => .get (.bind' .liftE fun l s1 _ =>
    .bind' (.foldlM _ _ _ fun row _ b s2 => updateMappingRow_sim _ _ _) fun _ s2 _ => .ite Iff.rfl (fun _ => refreshLink_sim _)
      fun _ => .ite Iff.rfl (fun _ => .get ?_) fun _ => .pure rfl)
  exact .forM' _ _ fun o _ s3 => refreshProportions_sim _ _

theorem deleteMappingRow_sim (l : Nat) (d : Bool) (row : MapRow) :
    SimAt w s id (deleteMappingRow l d row) (deleteMappingRow l d (row.respell w)) := by
  unfold deleteMappingRow
  refine .get ?_
  rw [show (row.respell w).index = row.index from rfl, index_find]
  cases s.index.find? (fun r => r.id == row.index) with
  | none => exact .pure rfl
  | some r =>
    refine .ite (not_congr map_of_eq) (fun _ => .pure rfl) fun _ => ?_
    rw [show (s.respell w).findMap l (row.respell w).other row.index = s.findMap l row.other row.index from rfl]
    cases s.findMap l row.other row.index with
    | none => exact .pure rfl
    | some m =>
      exact .ite Iff.rfl (fun _ => .pure rfl) fun _ => .ite Iff.rfl (fun _ => .pure rfl) fun _ =>
        .bind' (mappingDelete_sim _) fun _ _ _ => .pure rfl

theorem coveredBy_respell (cols : List PyStr) (cs : List (PyStr × PyStr)) (lv : List Byte) :
    coveredBy cols (respellCriteria w cs) lv = coveredBy cols cs lv := by
  unfold coveredBy respellCriteria
  rw [List.map_map]
  rfl

theorem chosen_respell (hs : ∀ r ∈ s.index, r.labels.length = s.cols.length) (l : Nat) (cs : List (PyStr × PyStr))
    (h : ∀ kv ∈ cs, kv.1 ∈ s.cols ∨ (kv.1 = w.of kv.2 ↔ kv.1 = kv.2)) :
    (((s.respell w).filterByLabel (respellCriteria w cs)).flatMap fun r => (s.respell w).maps.filter fun m =>
      m.link == l && m.index == r.id && coveredBy (s.respell w).cols (respellCriteria w cs) m.level) =
    ((s.filterByLabel cs).flatMap fun r => s.maps.filter fun m =>
      m.link == l && m.index == r.id && coveredBy s.cols cs m.level) := by
  rw [filterCriteria_respell hs cs h, List.flatMap_map]
  simp only [coveredBy_respell]
  rfl

theorem deleteMappings_sim (hs : ∀ r ∈ s.index, r.labels.length = s.cols.length) (r : PyStr) (n : Option PyStr) (c : Bool) (t : Target MapRow)
    (h : (Op.deleteMappings r n c t).NamesApart w s) :
    SimAt w s id (deleteMappings r n c t) (deleteMappings r n c (t.respell w (·.respell w))) := by
  unfold deleteMappings
  refine .get (.bind' .liftE fun l s1 hl => ?_)
  obtain rfl : s1 = s := by
    unfold Space.liftE at hl
    revert hl
    cases getLink s.links r n with
    | error e => intro hl; cases hl
    | ok x => intro hl; cases hl; rfl
  refine .ite (by rw [isEmpty_respell]) (fun _ => .throw _) fun _ => .bind' ?_ fun _ _ _ => .whenM rfl fun _ => refreshLink_sim _
  unfold deleteMappingTarget
  cases t with
  | rows rs => exact .ite Iff.rfl (fun _ => .throw _) fun _ => .foldlM _ _ _ fun row _ b s2 => deleteMappingRow_sim _ _ _
  | criteria cs =>
    refine .get ?_
    dsimp only [Target.respell]
    rw [chosen_respell hs l.id cs h]
    exact .bind' (.forM' _ _ fun m _ s2 => mappingDelete_sim m.id) fun _ _ _ => .pure rfl

theorem insertQuantity2Row_sim (hs : ∀ r ∈ s.index, r.labels.length = s.cols.length) (al ap : Bool) (p : Policy) (row : QuantRow) :
    SimAt w s id (insertQuantity2Row al ap p row) (insertQuantity2Row al ap p (row.respell w)) := by
  unfold insertQuantity2Row
  refine .get (.ite Iff.rfl (fun _ => .throw _) fun _ => .ite Iff.rfl (fun _ => .pure rfl) fun _ =>
    .ite ?_ (fun _ => .throw _) fun _ => .ite ?_ (fun _ => .throw _) fun _ =>
    .bind (locGetOrAdd_sim _) fun loc s1 _ => .bind' (agGetOrAdd_sim _) fun ag s2 _ => ?_)
  · rw [show (row.respell w).labels = row.labels.map w.of from rfl, structOk_respell]
  · rw [show (row.respell w).labels = row.labels.map w.of from rfl, filterLabels_respell s hs, List.isEmpty_map]
  have h := quantAdd_sim (w := w) (s := s2) loc.id ag.id row.value
  unfold SimAt at h ⊢
  rw [show (row.respell w).value = row.value from rfl, show (loc.respell w).id = loc.id from rfl]
  dsimp only
  rw [h]
  cases quantAdd loc.id ag.id row.value s2 with
  | ok r => rfl
  | error e =>
    dsimp only [Except.map]
    rw [show (s2.respell w).findQuant loc.id ag.id = s2.findQuant loc.id ag.id from rfl]
    cases s2.findQuant loc.id ag.id with
    | none => rfl
    | some q =>
      cases p with
      | replace => exact quantSetValue_sim _ _
      | sum => exact quantSetValue_sim _ _
      | _ => rfl

theorem insertQuantities2_sim (hs : ∀ r ∈ s.index, r.labels.length = s.cols.length) (al ap : Bool) (p : Policy)
    (rows : List QuantRow) :
    SimAt w s id (insertQuantities2 al ap p rows) (insertQuantities2 al ap p (rows.map (·.respell w))) := by
  unfold insertQuantities2
  refine .get (.ite Iff.rfl (fun _ => .throw _) fun _ => ?_)
  clear * - hs
  induction rows generalizing s with
  | nil => exact .pure rfl
  | cons row rows ih =>
    refine .bind (insertQuantity2Row_sim hs al ap p row) fun _ s1 h1 => ih ?_
    have hst := (insertQuantity2Row_does al ap p row).steps _ _ _ h1
    rw [hst.index_eq (by decide), hst.cols_eq (by decide)]
    exact hs

theorem insertQuantityRow_sim (n : List PyStr) (row : QuantRow) :
    SimAt w s id (insertQuantityRow n row) (insertQuantityRow n (row.respell w)) := by
  unfold insertQuantityRow
  exact .get (.ite Iff.rfl (fun _ => .pure rfl) fun _ => .ite Iff.rfl (fun _ => .pure rfl) fun _ =>
    .bind (locGetOrAdd_sim _) fun loc s1 _ => .bind' (agGetOrAdd_sim _) fun ag s2 _ => quantAdd_sim _ _ _)

theorem insertQuantities_sim (a : List PyStr) (rows : List QuantRow) :
    SimAt w s id (insertQuantities a rows) (insertQuantities a (rows.map (·.respell w))) := by
  unfold insertQuantities
  exact .get (.forM _ _ fun row _ s1 => insertQuantityRow_sim _ _)

theorem deleteQuantitiesWithoutIndex_sim (hs : ∀ r ∈ s.index, r.labels.length = s.cols.length) :
    SimAt w s id deleteQuantitiesWithoutIndex deleteQuantitiesWithoutIndex := by
  unfold deleteQuantitiesWithoutIndex
  refine .get ?_
  rw [show (s.respell w).locsWithoutIndex = s.locsWithoutIndex.map (·.respell w) from
    filter_respell _ _ _ fun l _ => by
      show (!(s.respell w).anyIndex (l.labels.map w.of)) = _
      rw [anyIndex_respell s hs]]
  refine .bind' (.forM _ _ fun l _ s1 => .forM' _ _ fun q _ s2 => quantDelete_sim q.id) fun _ s1 _ => .get ?_
  rw [show ((s1.respell w).locs.filter fun l => !(s1.respell w).quants.any fun q => q.loc == l.id) =
    (s1.locs.filter fun l => !s1.quants.any fun q => q.loc == l.id).map (·.respell w) from
    filter_respell _ _ _ fun _ _ => rfl]
  exact .bind' (.forM _ _ fun l _ s2 => locDelete_sim _) fun _ s2 _ => .get (.forM' _ _ fun g _ s3 => agDelete_sim _)

end

end Toron.Space.Spell
