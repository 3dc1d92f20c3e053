/-
Calls, histories, reading and translation in another spelling.
-/
import Verif.Lemmas.Store.SpellingOps
import Verif.Lemmas.Store.UnitsRead
import Verif.Lemmas.Store.Step

namespace Toron.Space.Spell

open Toron.Selectors (PyStr Sel CaseMap getGreatestUniqueSpecificity)

section
variable {w : Spelling} {s : Store}

theorem runTx_respell {m m' : M Unit} (h : SimAt w s id m m') :
    runTx m' (s.respell w) = ((runTx m s).1.respell w, (runTx m s).2) := by
  unfold SimAt at h
  unfold runTx
  rw [h]
  cases m s with
  | error e => rfl
  | ok r =>
    obtain ⟨_, s1⟩ := r
    dsimp only [Except.map]
    rw [fkOk_respell]
    by_cases hf : fkOk s1
    · rw [if_pos hf, if_pos hf]
    · rw [if_neg hf, if_neg hf]

theorem runAuto_respell : ∀ {ms : List (M Unit)}, (∀ m ∈ ms, ∀ s, SimAt w s id m m) → ∀ (s : Store),
    runAuto ms (s.respell w) = ((runAuto ms s).1.respell w, (runAuto ms s).2)
  | [], _, s => rfl
  | m :: ms, h, s => by
    rw [runAuto, runAuto, runTx_respell (h m (by simp) s)]
    cases hr : runTx m s with
    | mk s1 r =>
      cases r with
      | error e => rfl
      | ok x => exact runAuto_respell (fun m hm => h m (by simp [hm])) s1

theorem reifyMappings_respell (hs : ∀ r ∈ s.index, r.labels.length = s.cols.length) (r : PyStr) (n : Option PyStr) (cs : List (PyStr × PyStr))
    (h : ∀ kv ∈ cs, kv.1 ∈ s.cols ∨ (kv.1 = w.of kv.2 ↔ kv.1 = kv.2)) :
    reifyMappings r n (respellCriteria w cs) (s.respell w) =
      ((reifyMappings r n cs s).1.respell w, (reifyMappings r n cs s).2) := by
  unfold reifyMappings
  rw [show (s.respell w).links = s.links from rfl]
  cases getLink s.links r n with
  | error e => rfl
  | ok l =>
    have he : reifySteps (s.respell w) l (respellCriteria w cs) = reifySteps s l cs := by
      unfold reifySteps
      dsimp only
      rw [show (s.respell w).cols.length = s.cols.length from rfl]
      by_cases hc : cs = []
      · rw [if_pos hc, if_pos (by rw [hc]; rfl)]
        rfl
      · rw [if_neg hc, if_neg (by unfold respellCriteria; rw [List.map_eq_nil_iff]; exact hc), chosen_respell hs l.id cs h]
    dsimp only
    rw [he]
    refine runAuto_respell ?_ s
    intro m hm s1
    unfold reifySteps at hm
    obtain ⟨x, _, rfl⟩ := List.mem_map.1 hm
    exact mappingUpdate_sim _

theorem deleteUnmatchedQuantities_respell (hs : ∀ r ∈ s.index, r.labels.length = s.cols.length) :
    deleteUnmatchedQuantities (s.respell w) = ((deleteUnmatchedQuantities s).1.respell w, (deleteUnmatchedQuantities s).2) := by
  unfold deleteUnmatchedQuantities
  rw [show (s.respell w).nonmatchingLocs = s.nonmatchingLocs.map (·.respell w) from
    filter_respell _ _ _ fun l _ => by
      show (!(s.respell w).structOk (l.labels.map w.of) || !(s.respell w).anyIndex (l.labels.map w.of)) = _
      rw [structOk_respell, anyIndex_respell s hs],
    show (s.nonmatchingLocs.map (·.respell w)).map (fun l => locDelete l.id) = s.nonmatchingLocs.map fun l => locDelete l.id by
      rw [List.map_map]
      rfl,
    runAuto_respell (by
      intro m hm s1
      obtain ⟨x, _, rfl⟩ := List.mem_map.1 hm
      exact locDelete_sim _) s]
  cases hr : runAuto (s.nonmatchingLocs.map fun l => locDelete l.id) s with
  | mk s1 r =>
    cases r with
    | error e => rfl
    | ok x =>
      dsimp only
      exact runAuto_respell (by
        intro m hm s1
        obtain ⟨x, _, rfl⟩ := List.mem_map.1 hm
        exact agDelete_sim _) s1

/-- One call in another spelling. -/
theorem step_respell (hs : ∀ r ∈ s.index, r.labels.length = s.cols.length) (op : Op) (h : op.NamesApart w s) :
    step (op.respell w) (s.respell w) = ((step op s).1.respell w, (step op s).2) := by
  cases op with
  | addIndexColumns n => exact runTx_respell (addIndexColumns_sim n)
  | renameIndexColumns m => exact runTx_respell (renameIndexColumns_sim m)
  | dropIndexColumns n => exact runTx_respell (dropIndexColumns_sim n)
  | addPartitionDefs d => exact runTx_respell (.bind' (addPartitionDefs_sim d) fun _ _ _ => rebuildStructure_sim)
  | addPartitionDef d => exact runTx_respell (.bind' (addPartitionDef_sim d) fun _ _ _ => rebuildStructure_sim)
  | dropPartitionDefs d => exact runTx_respell (opDropPartitionDefs_sim d)
  | setRegisteredAttributes a => exact runTx_respell (setRegisteredAttributes_sim a)
  | changeAttributeOrder a o => exact runTx_respell (changeAttributeOrder_sim a o)
  | changeLabelOrder l o => exact runTx_respell (changeLabelOrder_sim l o)
  | setDomain d => exact runTx_respell (m := setDomain d) (m' := setDomain d) (SimAt.modify (w := w) (s := s) rfl)
  | insertIndex ws wc pl pw r => exact runTx_respell (insertIndex_sim ws wc pl pw r)
  | updateIndex m r => exact runTx_respell (updateIndex_sim m r)
  | deleteIndex t => exact runTx_respell (deleteIndex_sim hs t h)
  | setDefaultWeightGroup g =>
    exact runTx_respell (m := setDefaultWeightGroup g) (m' := setDefaultWeightGroup g) (SimAt.modify (w := w) (s := s) rfl)
  | addWeightGroup n s c d => exact runTx_respell (addWeightGroup_sim n s c d)
  | editWeightGroup n m s c => exact runTx_respell (editWeightGroup_sim n m s c)
  | dropWeightGroup n => exact runTx_respell (dropWeightGroup_sim n)
  | insertWeights n p r => exact runTx_respell (insertWeights_sim n p r)
  | updateWeights n r => exact runTx_respell (updateWeights_sim n r)
  | deleteWeights n t => exact runTx_respell (deleteWeights_sim hs n t h)
  | addLink o n hp s d oh c => exact runTx_respell (addLink_sim o n hp s d oh c)
  | editLink r n c => exact runTx_respell (editLink_sim r n c)
  | dropLink r n => exact runTx_respell (dropLink_sim r n)
  | insertMappings2 r n rows => exact runTx_respell (insertMappings2_sim r n rows)
  | insertMappings r n c rows => exact runTx_respell (insertMappings_sim r n c rows)
  | updateMappings r n c rows => exact runTx_respell (updateMappings_sim r n c rows)
  | deleteMappings r n c t => exact runTx_respell (deleteMappings_sim hs r n c t h)
  | reifyMappings r n cs => exact reifyMappings_respell hs r n cs h
  | insertQuantities2 al ap p rows => exact runTx_respell (insertQuantities2_sim hs al ap p rows)
  | insertQuantities a rows => exact runTx_respell (insertQuantities_sim a rows)
  | deleteQuantitiesWithoutIndex => exact runTx_respell (deleteQuantitiesWithoutIndex_sim hs)
  | deleteUnmatchedQuantities => exact deleteUnmatchedQuantities_respell hs
  | reopen => rfl

theorem run_respell (ops : List Op) : ∀ (s : Store), Reachable s → NamesApart w ops s →
    run (ops.map (·.respell w)) (s.respell w) = (run ops s).respell w := by
  induction ops with
  | nil => intro s _ _; rfl
  | cons op ops ih =>
    intro s hr h
    show run _ (step (op.respell w) (s.respell w)).1 = (run ops (step op s).1).respell w
    rw [step_respell hr.indexInv.lens op h.1, ih _ (hr.step op) h.2]

theorem outcomes_respell (ops : List Op) : ∀ (s : Store), Reachable s → NamesApart w ops s →
    outcomes (ops.map (·.respell w)) (s.respell w) = outcomes ops s := by
  induction ops with
  | nil => intro s _ _; rfl
  | cons op ops ih =>
    intro s hr h
    show (step (op.respell w) (s.respell w)).2 :: outcomes _ (step (op.respell w) (s.respell w)).1 = _
    rw [step_respell hr.indexInv.lens op h.1, ih _ (hr.step op) h.2]
    rfl

/-! ### Reading -/

theorem disaggOne_respell (hs : ∀ r ∈ s.index, r.labels.length = s.cols.length) (cm : CaseMap) (d : Nat) (fin q : Bool)
    (l : LocRec) (x : Quant) : (s.respell w).disaggOne cm d fin q (l.respell w) x = s.disaggOne cm d fin q l x := by
  unfold Store.disaggOne
  rw [show (s.respell w).matchingIds (l.respell w).labels = s.matchingIds l.labels from matchingIds_respell s hs _]
  rfl

theorem call_respell (hs : ∀ r ∈ s.index, r.labels.length = s.cols.length) (cm : CaseMap) (sel : List Sel) (q : Bool) :
    (s.respell w).call cm sel q = s.call cm sel q := by
  unfold Store.call
  rw [show (s.respell w).attributeFilter cm sel = s.attributeFilter cm sel from rfl,
    show (s.respell w).getDefaultWG = s.getDefaultWG from rfl]
  congr 1
  funext flt
  congr 1
  funext _
  unfold Store.disaggregate
  rw [show (s.respell w).getDefaultWG = s.getDefaultWG from rfl]
  congr 1
  funext d
  congr 1
  rw [show (s.respell w).structsSorted = s.structsSorted from rfl]
  cases s.structsSorted with
  | nil => rfl
  | cons first rest =>
    dsimp only
    congr 1
    funext st
    rw [quantsByBits_respell, List.filter_map]
    have := flatMapE_units (fun lq => s.disaggOne cm d.id (granEq st.gran first.gran) q lq.1 lq.2)
      (fun lq => (s.respell w).disaggOne cm d.id (granEq st.gran first.gran) q lq.1 lq.2)
      (fun lq : LocRec × Quant => (lq.1.respell w, lq.2)) id
      ((s.quantsByBits st.bits).filter fun lq => match flt with
            | none => true
            | some ids => ids.contains lq.2.ag) ?_
    · refine this.trans ?_
      cases flatMapE (fun lq => s.disaggOne cm d.id (granEq st.gran first.gran) q lq.1 lq.2)
        ((s.quantsByBits st.bits).filter fun lq => match flt with
            | none => true
            | some ids => ids.contains lq.2.ag) with
      | error e => rfl
      | ok r => exact congrArg Except.ok (List.map_id r)
    · intro lq _
      dsimp only
      rw [disaggOne_respell hs]
      cases s.disaggOne cm d.id (granEq st.gran first.gran) q lq.1 lq.2 with
      | error e => rfl
      | ok r => exact congrArg Except.ok (List.map_id r).symm

theorem reader_respell (hs : ∀ r ∈ s.index, r.labels.length = s.cols.length) (cm : CaseMap) (sel : List Sel) (q : Bool)
    (sumBy : List PyStr) : (s.respell w).reader cm sel q sumBy = s.reader cm sel q sumBy := by
  unfold Store.reader
  rw [call_respell hs]
  rfl

theorem translate_respell (r : Reader) (w1 w2 : Spelling) (cm : CaseMap) (src trg : Store) (q : Bool) :
    r.translate cm (src.respell w1) (trg.respell w2) q = r.translate cm src trg q := rfl

theorem labelsOf_respell (i : Nat) : (s.respell w).labelsOf i = (s.labelsOf i).map (List.map w.of) := by
  unfold Store.labelsOf
  rw [index_find]
  cases s.index.find? (fun r => r.id == i) <;> rfl

theorem output_respell (r : Reader) : r.output (s.respell w) =
    (r.output s).map (List.map fun x => (x.1.map w.of, x.2)) := by
  unfold Reader.output
  refine Eq.trans (congrArg _ (List.map_id _).symm) (flatMapE_units _ _ id _ _ fun k _ => ?_)
  dsimp only [id]
  rw [labelsOf_respell]
  cases s.labelsOf k.1 <;> rfl

theorem pivotRows_respell (r : Reader) (agg : List (Option ℚ) → Option ℚ) (columns : List PyStr) :
    r.pivotRows (s.respell w) agg columns = (r.pivotRows s agg columns).map (List.map fun x => (x.1.map w.of, x.2)) := by
  unfold Reader.pivotRows
  refine Eq.trans (congrArg _ (List.map_id _).symm) (flatMapE_units _ _ id _ _ fun k _ => ?_)
  dsimp only [id]
  rw [labelsOf_respell]
  cases s.labelsOf k <;> rfl

end

end Toron.Space.Spell
