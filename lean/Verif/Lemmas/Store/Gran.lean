/-
Stored granularities against the current index records.
-/
import Verif.Lemmas.Store.Columns
import Verif.Spec.Fresh
import Verif.Props.Granularity

namespace Toron.Space

open Toron.Selectors (PyStr)
open Toron.Partitions Toron.Spec

/-- Every stored granularity is the one of its columns for the current records. -/
def GranOk (s : Store) : Prop := ∀ r ∈ s.structs, r.gran = s.granPy (defOf s.cols r.bits)

theorem granSql_eq (s : Store) (d : Finset PyStr) : s.granSql d = s.granPy d := C48_same _ _

theorem defOf_bitsOf {cols : List PyStr} {d : Finset PyStr} (hd : d ⊆ cols.toFinset) :
    defOf cols (bitsOf cols d) = d := by
  have key : ∀ cols : List PyStr, (((cols.zip (bitsOf cols d)).filter (·.2)).map (·.1)) = cols.filter (· ∈ d) := by
    intro cols
    induction cols with
    | nil => rfl
    | cons c cs ih =>
      unfold bitsOf at ih ⊢
      by_cases hc : c ∈ d <;> simp [hc, List.zip_cons_cons] <;> simpa using ih
  unfold defOf
  rw [key]
  ext x
  simp only [List.mem_toFinset, List.mem_filter, decide_eq_true_eq]
  exact ⟨fun h => h.2, fun h => ⟨by simpa using hd h, h⟩⟩

theorem GranOk.new (uid : PyStr) : GranOk (Store.new uid) := fun _ h => by cases h

theorem granPy_congr {s s' : Store} (hi : s'.index = s.index) (hc : s'.cols = s.cols) (d : Finset PyStr) :
    s'.granPy d = s.granPy d := by
  unfold Store.granPy Store.projected
  rw [hi, hc]

theorem GranOk.congr {s s' : Store} (h : GranOk s) (hi : s'.index = s.index) (hc : s'.cols = s.cols)
    (hs : s'.structs = s.structs) : GranOk s' := by
  intro r hr
  rw [hs] at hr
  rw [granPy_congr hi hc, hc]
  exact h r hr

theorem GranOk.of_refresh {s s' : Store} (h : refreshGranularity s = .ok ((), s')) : GranOk s' := by
  have := refreshGranularity_ok h
  subst this
  intro r hr
  obtain ⟨r0, _, rfl⟩ := List.mem_map.1 hr
  rfl

theorem GranOk.of_rebuild {s s' : Store} (h : rebuildStructure s = .ok ((), s')) (hd : DefsOk s') : GranOk s' := by
  obtain ⟨X, rfl, hX⟩ := rebuildStructure_ok h
  intro r hr
  have hm : (r.gran, r.bits) ∈ X.map fun r => (r.gran, r.bits) := List.mem_map.2 ⟨r, hr, rfl⟩
  rw [hX, List.mem_map] at hm
  obtain ⟨d, hdm, he⟩ := hm
  have h1 : s.granSql d = r.gran := congrArg Prod.fst he
  have h2 : bitsOf s.cols d = r.bits := congrArg Prod.snd he
  have hsub : d ⊆ s.cols.toFinset := isUnionOf_subset hd.sub ((mem_makeStructure _ _).1 hdm)
  rw [← h1, ← h2, granSql_eq]
  show _ = Store.granPy { s with structs := X } (defOf s.cols _)
  rw [defOf_bitsOf hsub]
  exact (granPy_congr rfl rfl d).symm

/-- Kinds of changes that touch neither columns nor records nor the structure table. -/
def stillKinds : List Kind :=
  [.locAdd, .locDel, .agAdd, .agDel, .qAdd, .qSet, .qDel,
   .wgAdd, .wgUpd, .wgDel, .wAdd, .wSet, .wDel, .lAdd, .lUpd, .lDel, .mAdd, .mUpd, .mDel,
   .hash, .attrs, .display, .domain, .defwg, .fkOff]

theorem GranOk.steps {s s' : Store} (hs : GranOk s) (h : Steps stillKinds s s') : GranOk s' :=
  hs.congr (h.index_eq (by decide)) (h.cols_eq (by decide)) (h.structs_eq (by decide))

theorem GranOk.does {α : Type} {m : M α} {s s' : Store} {a : α} (hs : GranOk s) (hm : Does stillKinds m)
    (h : m s = .ok (a, s')) : GranOk s' := hs.steps (hm.steps _ _ _ h)

/-! ### Inserting -/

/-- Without replacement of labels a row that adds no record leaves the records as they are. -/
theorem insertIndexRecord_still {p : Policy} {c c' : Counts} {row : IndexRow} {i : Nat} {s s' : Store}
    (h : insertIndexRecord p c row s = .ok ((i, c'), s')) (hp : p ≠ .replace) (hc : c'.labels = false) :
    c.labels = false ∧ Steps [] s s' := by
  unfold insertIndexRecord at h
  rcases hi : row.idv with _ | j <;> simp only [hi] at h
  · split at h
    · cases h
      cases hc
    · split at h
      · cases h; exact ⟨hc, Steps.refl _⟩
      · cases h
    · cases h
  · rw [bind_ok] at h
    obtain ⟨r, t, h1, h⟩ := h
    have hr := (indexGet_does ..).steps _ _ _ h1
    rcases hl : row.labels with _ | labels <;> simp only [hl] at h
    · rw [pure_ok] at h
      cases h
      exact ⟨hc, hr⟩
    · rw [ite_ok] at h
      obtain ⟨_, h⟩ | ⟨_, h⟩ := h
      · rw [pure_ok] at h
        cases h
        exact ⟨hc, hr⟩
      · cases p with
        | ignore =>
          simp only [pure_ok] at h
          cases h
          exact ⟨hc, hr⟩
        | replace => exact absurd rfl hp
        | _ => exact absurd h (by simp [throw_ok])

theorem insertIndexRow_still {groups : List WGroup} {pl pw : Policy} {c c' : Counts} {row : IndexRow}
    {s s' : Store} (h : insertIndexRow groups pl pw c row s = .ok (c', s')) (hp : pl ≠ .replace)
    (hc : c'.labels = false) : c.labels = false ∧ Steps [.wAdd, .wSet] s s' := by
  unfold insertIndexRow at h
  rw [ite_ok] at h
  obtain ⟨_, h⟩ | ⟨_, h⟩ := h
  · rw [pure_ok] at h; cases h; exact ⟨hc, Steps.refl _⟩
  · rw [bind_ok] at h
    obtain ⟨⟨i, c1⟩, t, h1, h⟩ := h
    have hl : c'.labels = c1.labels :=
      foldlM_inv (P := fun (c : Counts) _ => c.labels = c1.labels)
        (fun gw _ b s0 c0 s0' hb hgw => (insertIndexWeight_labels hgw).trans hb) rfl h
    have hs : Steps [.wAdd, .wSet] t s' :=
      Does.steps (K := [.wAdd, .wSet]) (Does.foldlM fun c gw _ => insertIndexWeight_does _ _ _ _) _ _ _ h
    obtain ⟨hc', hst⟩ := insertIndexRecord_still h1 hp (hl.symm.trans hc)
    exact ⟨hc', (hst.mono (by decide)).trans hs⟩

theorem insertIndexRows_still {groups : List WGroup} {pl pw : Policy} {c c' : Counts} {rows : List IndexRow}
    {s s' : Store} (h : rows.foldlM (insertIndexRow groups pl pw) c s = .ok (c', s')) (hp : pl ≠ .replace)
    (hc : c'.labels = false) : c.labels = false ∧ Steps [.wAdd, .wSet] s s' := by
  induction rows generalizing c s with
  | nil => cases h; exact ⟨hc, Steps.refl _⟩
  | cons r rs ih =>
    obtain ⟨d, t, h1, h2⟩ := foldlM_cons_ok.1 h
    obtain ⟨hd, hs⟩ := ih h2
    obtain ⟨hc', hs'⟩ := insertIndexRow_still h1 hp hd
    exact ⟨hc', hs'.trans hs⟩

theorem refreshOrRebuild_gran {s s' : Store} (h : refreshOrRebuild s = .ok ((), s')) (hd : DefsOk s') : GranOk s' := by
  unfold refreshOrRebuild at h
  simp only [bind_ok, get_ok, ite_ok] at h
  obtain ⟨_, _, he, h⟩ := h
  cases he
  obtain ⟨_, h⟩ | ⟨_, h⟩ := h
  · exact GranOk.of_refresh h
  · obtain ⟨_, t, _, h2⟩ := h
    exact GranOk.of_rebuild h2 hd

theorem insertIndex_gran {weights : Option (List PyStr)} {wcols : List PyStr} {pl pw : Policy}
    {rows : List IndexRow} {s s' : Store} (h : insertIndex weights wcols pl pw rows s = .ok ((), s'))
    (hpl : pl ≠ .replace) (hd' : DefsOk s') (hg : GranOk s) : GranOk s' := by
  obtain ⟨groups, c, t, u, h1, h2, h3, _⟩ := insertIndex_parts h
  have a3 : SameParts u s' := Does.plain (by unfold plainKinds; does) h3
  have du : DefsOk u := hd'.congr a3.1.symm a3.2.1.symm
  refine GranOk.does ?_ (by unfold stillKinds; does) h3
  rw [whenM_ok] at h2
  obtain ⟨_, h2⟩ | ⟨hc, rfl⟩ := h2
  · unfold afterNewRecords at h2
    rw [bind_ok] at h2
    obtain ⟨_, v, _, h5⟩ := h2
    rw [bind_ok] at h5
    obtain ⟨_, w, h6, h7⟩ := h5
    have b4 : SameParts w u := Does.plain (by unfold plainKinds; does) h7
    exact GranOk.does (refreshOrRebuild_gran h6 (du.congr b4.1.symm b4.2.1.symm)) (by unfold stillKinds; does) h7
  · exact hg.steps ((insertIndexRows_still h1 hpl hc).2.mono (by decide))

/-! ### Updating and deleting -/

theorem updateIndexRow_still {merge : Bool} {acc acc' : UpdateAcc} {row : Nat × List PyStr} {s s' : Store}
    (h : updateIndexRow merge acc row s = .ok (acc', s')) (hu : acc'.updated = false) :
    acc.updated = false ∧ s' = s := by
  unfold updateIndexRow at h
  rw [ite_ok] at h
  obtain ⟨_, h⟩ | ⟨_, h⟩ := h
  · rw [pure_ok] at h; cases h; exact ⟨hu, rfl⟩
  rw [bind_ok] at h
  obtain ⟨_, _, he, h⟩ := h
  rw [get_ok] at he
  cases he
  rcases hr : s.index.find? (fun r => r.id == row.1) with _ | r <;> simp only [hr] at h
  · rw [ite_ok] at h
    obtain ⟨_, h⟩ | ⟨_, h⟩ := h
    · exact absurd h (by simp [throw_ok])
    · rw [pure_ok] at h; cases h; exact ⟨hu, rfl⟩
  · rw [bind_ok] at h
    obtain ⟨acc1, t, h1, h⟩ := h
    rw [bind_ok] at h
    obtain ⟨_, t', h2, h⟩ := h
    rw [pure_ok] at h
    cases h
    cases hu

theorem updateIndexRows_still {merge : Bool} {acc acc' : UpdateAcc} {rows : List (Nat × List PyStr)} {s s' : Store}
    (h : rows.foldlM (updateIndexRow merge) acc s = .ok (acc', s')) (hu : acc'.updated = false) :
    acc.updated = false ∧ s' = s := by
  induction rows generalizing acc s with
  | nil => cases h; exact ⟨hu, rfl⟩
  | cons r rs ih =>
    obtain ⟨d, t, h1, h2⟩ := foldlM_cons_ok.1 h
    obtain ⟨hd, rfl⟩ := ih h2
    exact updateIndexRow_still h1 hd

theorem updateIndex_gran {merge : Bool} {rows : List (Nat × List PyStr)} {s s' : Store}
    (h : updateIndex merge rows s = .ok ((), s')) (hg : GranOk s) : GranOk s' := by
  obtain ⟨acc, t, u, h1, h2, h3⟩ := updateIndex_parts h
  refine GranOk.does ?_ (by unfold stillKinds; does) h3
  rw [whenM_ok] at h2
  obtain ⟨_, h2⟩ | ⟨hn, rfl⟩ := h2
  · exact GranOk.of_refresh h2
  · have hu : acc.updated = false := by
      simp only [decide_eq_false_iff_not, not_or] at hn
      simpa using hn.2
    rw [(updateIndexRows_still h1 hu).2]
    exact hg

theorem deleteIndex_gran {t : Target (Nat × List PyStr)} {s s' : Store}
    (h : deleteIndex t s = .ok ((), s')) (hg : GranOk s) : GranOk s' := by
  obtain ⟨d, u, h1, h2⟩ := deleteIndex_parts h
  rw [whenM_ok] at h2
  obtain ⟨_, h2⟩ | ⟨rfl, rfl⟩ := h2
  · unfold afterDeleteIndex at h2
    rw [bind_ok] at h2
    obtain ⟨_, v, h3, h4⟩ := h2
    rw [bind_ok] at h4
    obtain ⟨_, w, h5, h6⟩ := h4
    exact GranOk.does (GranOk.of_refresh h5) (by unfold stillKinds; does) h6
  · exact deleteIndexTarget_false h1 ▸ hg

/-! ### Renaming -/

theorem projected_image {cols : List PyStr} {f : PyStr → PyStr} (hf : Set.InjOn f (cols.toFinset : Set PyStr))
    {d : Finset PyStr} (hd : d ⊆ cols.toFinset) (labels : List PyStr) :
    (((cols.map f).zip labels).filter fun cl => cl.1 ∈ d.image f).map (·.2) =
      ((cols.zip labels).filter fun cl => cl.1 ∈ d).map (·.2) := by
  rw [List.zip_map_left, List.filter_map, List.map_map]
  have : (cols.zip labels).filter ((fun cl : PyStr × PyStr => decide (cl.1 ∈ d.image f)) ∘ Prod.map f id) =
      (cols.zip labels).filter fun cl => decide (cl.1 ∈ d) := by
    apply List.filter_congr
    rintro ⟨c, l⟩ hcl
    simp only [Function.comp_apply, Prod.map_apply, decide_eq_decide]
    constructor
    · intro h
      obtain ⟨z, hz, hzc⟩ := Finset.mem_image.1 h
      have : z = c := hf (hd hz) (by simpa using (List.of_mem_zip hcl).1) hzc
      exact this ▸ hz
    · exact Finset.mem_image_of_mem f
  rw [this]
  rfl

theorem renameIndexColumns_gran {mapping : List (PyStr × PyStr)} {s s' : Store}
    (h : renameIndexColumns mapping s = .ok ((), s')) (hnd : s'.cols.Nodup) (hs : StructInv s) (hd : DefsOk s)
    (hg : GranOk s) : GranOk s' := by
  obtain ⟨_, _, rfl⟩ := renameIndexColumns_ok h
  have hinj := injOn_of_nodup hnd
  intro r hr
  have hne : s.cols ≠ [] := by
    intro hc
    have : r ∈ s.structs := hr
    rw [(hs.empty hc).1] at this
    cases this
  obtain ⟨d, hu, hb⟩ := (hs.rows hne r.bits).1 (List.mem_map.2 ⟨r, hr, rfl⟩)
  have hsub : d ⊆ s.cols.toFinset := isUnionOf_subset hd.sub hu
  have h1 := hg r hr
  rw [hb, defOf_bitsOf hsub] at h1
  rw [h1, hb]
  show _ = (s.renameCols mapping).granPy (defOf (s.cols.map (renamed mapping)) (bitsOf s.cols d))
  rw [← bitsOf_image hinj hsub, defOf_bitsOf]
  · unfold Store.granPy Store.projected
    have he : (d = ∅) = (d.image (renamed mapping) = ∅) := by rw [Finset.image_eq_empty]
    simp only [he]
    congr 1
    apply List.map_congr_left
    intro x _
    exact (projected_image hinj hsub x.labels).symm
  · intro x hx
    obtain ⟨y, hy, rfl⟩ := Finset.mem_image.1 hx
    have := hsub hy
    simp only [List.mem_toFinset, List.mem_map] at this ⊢
    exact ⟨y, this, rfl⟩

/-! ### All calls -/

theorem step_gran (op : Op) {s : Store} (hr : Reachable s) (hs : StructInv s) (hd : DefsOk s)
    (hg : GranOk s) (hdrop : op.dropsColumns = false) (hrep : op.replacesLabels = false) :
    GranOk (step op s).1 := by
  have hd' : DefsOk (step op s).1 := (step_parts op hr hs fun _ => hd).2 hdrop hd
  have key : ∀ m, op.body = some m →
      (∀ s', m s = .ok ((), s') → s' = (step op s).1 → GranOk s') → GranOk (step op s).1 := by
    intro m hm hk
    have hrun := step_of_body hm s
    unfold runTx at hrun
    split at hrun
    · rename_i a s' heq
      split at hrun
      · have := hk s' heq (by rw [hrun])
        rw [hrun]
        exact this
      · rw [hrun]
        exact hg
    · rw [hrun]
      exact hg
  have plain : ∀ m, op.body = some m → Does stillKinds m → GranOk (step op s).1 :=
    fun m hm hdo => key m hm fun s' h _ => hg.does hdo h
  cases op with
  | addIndexColumns n =>
    refine key _ rfl fun s' h he => ?_
    obtain ⟨_, _, _, _, ⟨t, ht, _⟩, _⟩ := addIndexColumns_ok h
    exact GranOk.of_rebuild ht (he ▸ hd')
  | renameIndexColumns m =>
    refine key _ rfl fun s' h he => ?_
    have hnd : s'.cols.Nodup := by
      have := hr.step (.renameIndexColumns m)
      rw [← he] at this
      exact this.colInv.cols.of_map _
    exact renameIndexColumns_gran h hnd hs hd hg
  | dropIndexColumns n => cases hdrop
  | addPartitionDefs d =>
    refine key _ rfl fun s' h he => ?_
    obtain ⟨t, _, h2⟩ := opAddPartitionDefs_parts h
    exact GranOk.of_rebuild h2 (he ▸ hd')
  | addPartitionDef d =>
    refine key _ rfl fun s' h he => ?_
    obtain ⟨t, _, h2⟩ := opAddPartitionDef_parts h
    exact GranOk.of_rebuild h2 (he ▸ hd')
  | dropPartitionDefs d =>
    refine key _ rfl fun s' h he => ?_
    obtain ⟨_, h2⟩ := opDropPartitionDefs_ok h
    exact GranOk.of_rebuild h2 (he ▸ hd')
  | insertIndex w wc pl pw r =>
    refine key _ rfl fun s' h he => insertIndex_gran h ?_ (he ▸ hd') hg
    rintro rfl
    cases hrep
  | updateIndex m r => exact key _ rfl fun s' h _ => updateIndex_gran h hg
  | deleteIndex t => exact key _ rfl fun s' h _ => deleteIndex_gran h hg
  | reifyMappings r n cs => exact hg.steps ((reifyMappings_steps r n cs s).mono (by decide))
  | deleteUnmatchedQuantities => exact hg.steps ((deleteUnmatchedQuantities_steps s).mono (by decide))
  | reopen => exact hg.congr rfl rfl rfl
  | _ => exact plain _ rfl (by unfold stillKinds; does)

theorem ReachableFresh.keeping {s : Store} (h : ReachableFresh s) : ReachableKeeping s := by
  obtain ⟨uid, ops, hops, rfl⟩ := h
  exact ⟨uid, ops, fun o ho => (hops o ho).1, rfl⟩

theorem ReachableFresh.gran {s : Store} (h : ReachableFresh s) : GranOk s := by
  obtain ⟨uid, ops, hops, rfl⟩ := h
  induction ops using List.reverseRecOn with
  | nil => exact GranOk.new uid
  | append_singleton ops op ih =>
    have hi := ih fun o ho => hops o (by simp [ho])
    obtain ⟨h1, h2⟩ := ReachableKeeping.parts ⟨uid, ops, fun o ho => (hops o (by simp [ho])).1, rfl⟩
    rw [run_snoc]
    exact step_gran op ⟨uid, ops, rfl⟩ h1 h2 hi (hops op (by simp)).1 (hops op (by simp)).2

end Toron.Space
