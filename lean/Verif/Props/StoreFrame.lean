/-
C76: every operation leaves alone the data it is not about. Which parts of a dataspace an operation is
about is the table `Op.may` in `Verif/Spec/Frame.lean`.
-/
import Verif.Spec.Frame
import Verif.Lemmas.Store.Texts
import Verif.Demo

namespace Toron.Space

open Toron.Selectors (PyStr Sel)

/-! ### The kinds of changes of each operation -/

private def Op.kinds : Op → List Kind
  | .addIndexColumns _ => [.colAdd, .pdefs, .structs]
  | .renameIndexColumns _ => [.colRen, .pdefs]
  | .dropIndexColumns _ => [.colDrop]
  | .addPartitionDefs _ | .addPartitionDef _ | .dropPartitionDefs _ => [.pdefs, .structs]
  | .setRegisteredAttributes _ | .changeAttributeOrder .. => [.attrs]
  | .changeLabelOrder .. => [.display]
  | .setDomain _ => [.domain]
  | .insertIndex .. => [.idxAdd, .idxUpd, .wAdd, .wSet, .hash, .structs, .pdefs, .lUpd, .wgUpd]
  | .updateIndex .. => [.wAdd, .wDel, .mAdd, .mDel, .idxDel, .idxUpd, .structs, .hash, .wgUpd, .lUpd]
  | .deleteIndex _ => [.wDel, .mDel, .mUpd, .idxDel, .hash, .structs, .wgUpd, .lUpd]
  | .setDefaultWeightGroup _ => [.defwg]
  | .addWeightGroup .. => [.wgAdd, .defwg]
  | .editWeightGroup .. => [.wgUpd]
  | .dropWeightGroup _ => [.wgDel, .defwg]
  | .insertWeights .. => [.wAdd, .wSet, .wgAdd, .wgUpd]
  | .updateWeights .. => [.wAdd, .wSet, .wgUpd]
  | .deleteWeights .. => [.wDel, .wgUpd]
  | .addLink .. => [.lAdd, .lUpd]
  | .editLink .. => [.lUpd]
  | .dropLink .. => [.lDel]
  | .insertMappings2 .. | .insertMappings .. | .updateMappings .. => [.mAdd, .mUpd, .lUpd]
  | .deleteMappings .. => [.mDel, .mUpd, .lUpd]
  | .reifyMappings .. => [.mUpd]
  | .insertQuantities2 .. => [.locAdd, .agAdd, .qAdd, .qSet]
  | .insertQuantities .. => [.locAdd, .agAdd, .qAdd]
  | .deleteQuantitiesWithoutIndex => [.qDel, .locDel, .agDel]
  | .deleteUnmatchedQuantities => [.locDel, .agDel]
  | .reopen => [.fkOff]

private theorem body_kinds (op : Op) (m : M Unit) (h : op.body = some m) : Does op.kinds m := by
  cases op <;> simp only [Op.body, Option.some.injEq, reduceCtorEq] at h <;> subst h <;>
    simp only [Op.kinds] <;> does

private theorem step_kinds (op : Op) (s : Store) : Steps op.kinds s (step op s).1 := by
  rcases hb : op.body with _ | m
  · cases op <;> simp only [Op.body, reduceCtorEq] at hb
    · exact reifyMappings_steps _ _ _ s
    · exact deleteUnmatchedQuantities_steps s
    · exact Steps.single (.fkOff s) (by decide)
  · rw [step_of_body hb]
    exact runTx_steps (body_kinds _ _ hb) s

private theorem Steps.defaultWG_eq {K : List Kind} {s s' : Store} (h : Steps K s s')
    (hK : ∀ k ∈ K, k ∉ [Kind.defwg]) : s'.defaultWG = s.defaultWG := by
  refine Steps.relation (R := fun a b => b.defaultWG = a.defaultWG) (fun _ => rfl)
    (fun _ _ _ h1 h2 => h2.trans h1) (fun k hk a b hp => ?_) h
  have := hK k hk
  cases hp <;> first | rfl | (exfalso; revert this; decide)

private theorem Steps.uid_eq {K : List Kind} {s s' : Store} (h : Steps K s s') : s'.uid = s.uid := by
  refine Steps.relation (R := fun a b => b.uid = a.uid) (fun _ => rfl)
    (fun _ _ _ h1 h2 => h2.trans h1) (fun k hk a b hp => ?_) h
  cases hp <;> rfl

private theorem runTx_keeps {γ : Type} {f : Store → List (Nat × γ)} {m : M Unit} (h : Keeps f m) {s : Store}
    (hn : ((f s).map (·.1)).Nodup) : f (runTx m s).1 = f s := by
  unfold runTx
  split
  · rename_i heq
    split
    · exact h _ _ _ hn heq
    · rfl
  · rfl

private theorem mappings_keepsL {s s' t : Store} {l : Link} {b : Bool} {K : List Kind}
    (hn : ((ltexts s).map (·.1)).Nodup) (hl : l ∈ s.links) (h1 : Steps K s t)
    (hK : ∀ k ∈ K, k ∉ [Kind.lAdd, .lUpd, .lDel]) (h2 : whenM b (refreshLink l) t = .ok ((), s')) :
    ltexts s' = ltexts s := by
  have e : ltexts t = ltexts s := by simp only [ltexts, h1.links_eq hK]
  rcases whenM_ok.1 h2 with ⟨-, h⟩ | ⟨-, rfl⟩
  · exact (refreshLink_keepsL (e ▸ hn) (mem_ltexts hl e) h).trans e
  · exact e

private theorem insertMappings2_keepsL (ref : PyStr) (name : Option PyStr) (rows : List MapRow) :
    Keeps ltexts (insertMappings2 ref name rows) := by
  intro s a s' hn h
  obtain ⟨_, _, hg, h⟩ := bind_ok.1 h
  cases get_ok.1 hg
  obtain ⟨l, _, hl0, h⟩ := bind_ok.1 h
  obtain ⟨l', hl, he⟩ := liftE_ok.1 hl0
  cases he
  obtain ⟨b, t, h1, h2⟩ := bind_ok.1 h
  exact mappings_keepsL hn (getLink_mem hl)
    ((show Does [.mAdd] (rows.foldlM (insertMapping2Row s.levels2 l.id) false) by does).steps _ _ _ h1) (by decide) h2

private theorem insertMappings_keepsL (ref : PyStr) (name : Option PyStr) (c : Bool) (rows : List MapRow) :
    Keeps ltexts (insertMappings ref name c rows) := by
  refine Keeps.ite Keeps.throw ?_
  intro s a s' hn h
  obtain ⟨_, _, hg, h⟩ := bind_ok.1 h
  cases get_ok.1 hg
  obtain ⟨l, _, hl0, h⟩ := bind_ok.1 h
  obtain ⟨l', hl, he⟩ := liftE_ok.1 hl0
  cases he
  obtain ⟨b, t, h1, h2⟩ := bind_ok.1 h
  exact mappings_keepsL hn (getLink_mem hl)
    ((show Does [.mAdd] (rows.foldlM (insertMappingRow l.id) false) by does).steps _ _ _ h1) (by decide) h2

private theorem updateMappings_keepsL (ref : PyStr) (name : Option PyStr) (c : Bool) (rows : List MapRow) :
    Keeps ltexts (updateMappings ref name c rows) := by
  refine Keeps.ite Keeps.throw ?_
  intro s a s' hn h
  obtain ⟨_, _, hg, h⟩ := bind_ok.1 h
  cases get_ok.1 hg
  obtain ⟨l, _, hl0, h⟩ := bind_ok.1 h
  obtain ⟨l', hl, he⟩ := liftE_ok.1 hl0
  cases he
  obtain ⟨b, t, h1, h2⟩ := bind_ok.1 h
  have hs := (show Does [.mAdd, .mUpd] (rows.foldlM (updateMappingRow l.id) (false, false)) by does).steps _ _ _ h1
  rcases ite_ok.1 h2 with ⟨-, h2⟩ | ⟨-, h2⟩
  · exact mappings_keepsL (b := true) hn (getLink_mem hl) hs (by decide) (whenM_ok.2 (.inl ⟨rfl, h2⟩))
  · have e : ltexts t = ltexts s := by simp only [ltexts, hs.links_eq (by decide)]
    exact (keepsL_of_does (K := [.mUpd]) (by does) (by decide) _ _ _ (e ▸ hn) h2).trans e

private theorem deleteMappings_keepsL (ref : PyStr) (name : Option PyStr) (c : Bool) (tg : Target MapRow) :
    Keeps ltexts (deleteMappings ref name c tg) := by
  intro s a s' hn h
  obtain ⟨_, _, hg, h⟩ := bind_ok.1 h
  cases get_ok.1 hg
  obtain ⟨l, _, hl0, h⟩ := bind_ok.1 h
  obtain ⟨l', hl, he⟩ := liftE_ok.1 hl0
  cases he
  rcases ite_ok.1 h with ⟨-, h⟩ | ⟨-, h⟩
  · exact (throw_ok.1 h).elim
  obtain ⟨b, t, h1, h2⟩ := bind_ok.1 h
  exact mappings_keepsL hn (getLink_mem hl) ((deleteMappingTarget_does _ _ _).steps _ _ _ h1) (by decide) h2

local macro "kinds_tac" op:ident hp:ident : tactic => `(tactic| (
  cases $op:ident <;> first
    | (simp only [Op.kinds]; decide)
    | (exact absurd (by simp [Op.may]) $hp)))

/-! ### The property -/

/-- C76. Whatever operation is carried out on whatever dataspace, successful or not, the parts of the
dataspace the operation is not about are the same afterwards: loading or correcting
index records does not rename weight groups or links, editing weights does not touch labels, mappings or
quantities, loading mappings does not touch weights, and so on. -/
theorem C76_unrelated (s : Store) (hs : Reachable s) (op : Op) (p : Part) (hp : p ∉ op.may) :
    SamePart p s (step op s).1 := by
  have hk := step_kinds op s
  have hw : ((wtexts s).map (·.1)).Nodup := by
    have := hs.weightInv.gids
    rw [wtexts, List.map_map]
    exact this
  have hl : ((ltexts s).map (·.1)).Nodup := by
    have := hs.linkInv.ids
    rw [ltexts, List.map_map]
    exact this
  cases p with
  | columns => exact hk.cols_eq (by kinds_tac op hp)
  | records => exact hk.ids_eq (by kinds_tac op hp)
  | labels => exact hk.index_eq (by kinds_tac op hp)
  | fingerprint => exact hk.hash_eq (by kinds_tac op hp)
  | partitions =>
    exact ⟨hk.structs_eq (by kinds_tac op hp),
      hk.partDefs_eq (by kinds_tac op hp)⟩
  | groups =>
    show wtexts (step op s).1 = wtexts s
    cases op with
    | insertIndex w wc pl pw r => exact runTx_keeps (insertIndex_keepsW w wc pl pw r) hw
    | updateIndex m r => exact runTx_keeps (updateIndex_keepsW m r) hw
    | deleteIndex t => exact runTx_keeps (deleteIndex_keepsW t) hw
    | updateWeights n r => exact runTx_keeps (updateWeights_keepsW n r) hw
    | deleteWeights n t => exact runTx_keeps (deleteWeights_keepsW n t) hw
    | addWeightGroup | editWeightGroup | dropWeightGroup | insertWeights => exact absurd (by simp [Op.may]) hp
    | _ => simp only [wtexts, hk.wgroups_eq (by simp only [Op.kinds]; decide)]
  | groupState =>
    have : (step op s).1.wgroups = s.wgroups :=
      hk.wgroups_eq (by kinds_tac op hp)
    simp only [SamePart, this]
  | weights => exact hk.weights_eq (by kinds_tac op hp)
  | defaultGroup => exact hk.defaultWG_eq (by kinds_tac op hp)
  | links =>
    show ltexts (step op s).1 = ltexts s
    cases op with
    | insertIndex w wc pl pw r => exact runTx_keeps (insertIndex_keepsL w wc pl pw r) hl
    | updateIndex m r => exact runTx_keeps (updateIndex_keepsL m r) hl
    | deleteIndex t => exact runTx_keeps (deleteIndex_keepsL t) hl
    | insertMappings2 r n rows => exact runTx_keeps (insertMappings2_keepsL r n rows) hl
    | insertMappings r n c rows => exact runTx_keeps (insertMappings_keepsL r n c rows) hl
    | updateMappings r n c rows => exact runTx_keeps (updateMappings_keepsL r n c rows) hl
    | deleteMappings r n c t => exact runTx_keeps (deleteMappings_keepsL r n c t) hl
    | addLink | editLink | dropLink => exact absurd (by simp [Op.may]) hp
    | _ => simp only [ltexts, hk.links_eq (by simp only [Op.kinds]; decide)]
  | linkState =>
    have : (step op s).1.links = s.links :=
      hk.links_eq (by kinds_tac op hp)
    simp only [SamePart, this]
  | mappings => exact hk.maps_eq (by kinds_tac op hp)
  | quantities =>
    exact ⟨hk.quants_eq (by kinds_tac op hp),
      hk.agroups_eq (by kinds_tac op hp)⟩
  | locations => exact hk.locs_eq (by kinds_tac op hp)
  | attributes => exact hk.regAttrs_eq (by kinds_tac op hp)
  | display => exact hk.display_eq (by kinds_tac op hp)
  | domain => exact hk.domain_eq (by kinds_tac op hp)
  | identity => exact hk.uid_eq

/-- Correcting labels so that two records of the demonstration are merged changes records, weights and mappings, and the rest
stays: the name of the group, the link, the quantities. -/
example : ¬ SamePart .records Demo.store (step (.updateIndex true [(1, [Demo.lx, Demo.l2])]) Demo.store).1 ∧
    ¬ SamePart .weights Demo.store (step (.updateIndex true [(1, [Demo.lx, Demo.l2])]) Demo.store).1 ∧
    SamePart .groups Demo.store (step (.updateIndex true [(1, [Demo.lx, Demo.l2])]) Demo.store).1 ∧
    SamePart .links Demo.store (step (.updateIndex true [(1, [Demo.lx, Demo.l2])]) Demo.store).1 ∧
    SamePart .quantities Demo.store (step (.updateIndex true [(1, [Demo.lx, Demo.l2])]) Demo.store).1 := by
  refine ⟨by unfold SamePart; decide +kernel, by unfold SamePart; decide +kernel,
    C76_unrelated _ Demo.reachable _ _ (by simp [Op.may]), C76_unrelated _ Demo.reachable _ _ (by simp [Op.may]),
    C76_unrelated _ Demo.reachable _ _ (by simp [Op.may])⟩

end Toron.Space
