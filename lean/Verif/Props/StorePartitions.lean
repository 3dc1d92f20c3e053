/-
C03, C37, C38, C53: partitions, valid label combinations, column operations and the display order.
-/
import Verif.Lemmas.Store.Columns
import Verif.Props.Order
import Verif.Demo

namespace Toron.Space

open Toron.Selectors (PyStr Sel)
open Toron.Partitions Toron.Spec

theorem bitsOf_eq_iff {cols : List PyStr} {d e : Finset PyStr} :
    bitsOf cols d = bitsOf cols e ↔ d ∩ cols.toFinset = e ∩ cols.toFinset := by
  unfold bitsOf
  rw [List.map_inj_left, Finset.ext_iff]
  simp only [decide_eq_decide, Finset.mem_inter, List.mem_toFinset]
  constructor
  · intro h x
    constructor
    · exact fun ⟨a, b⟩ => ⟨(h x b).1 a, b⟩
    · exact fun ⟨a, b⟩ => ⟨(h x b).2 a, b⟩
  · intro h c hc
    have := h c
    simpa [hc] using this

theorem StructInv.valid_iff {s : Store} (h : StructInv s) (d : Finset PyStr) :
    s.Valid d ↔ s.cols ≠ [] ∧ ∃ e, IsUnionOf (· ∈ s.defs) e ∧ d = e ∩ s.whole := by
  unfold Store.Valid
  by_cases hc : s.cols = []
  · simp [(h.empty hc).1, hc]
  · have hrow := h.rows hc (bitsOf s.cols d)
    rw [List.mem_map] at hrow
    constructor
    · rintro ⟨hsub, r, hr, hb⟩
      obtain ⟨e, he, hbe⟩ := hrow.1 ⟨r, hr, hb⟩
      rw [bitsOf_eq_iff, Finset.inter_eq_left.2 hsub] at hbe
      exact ⟨hc, e, he, hbe⟩
    · rintro ⟨_, e, he, hde⟩
      have hsub : d ⊆ s.cols.toFinset := hde ▸ Finset.inter_subset_right
      refine ⟨hsub, ?_⟩
      obtain ⟨r, hr, hb⟩ := hrow.2 ⟨e, he, bitsOf_eq_iff.2 (by rw [Finset.inter_eq_left.2 hsub]; exact hde)⟩
      exact ⟨r, hr, hb⟩

/-! ### C53: what is valid -/

/-- In histories without dropped columns: a set of columns is a valid combination exactly if it is a union of
stored partition definitions. -/
theorem C53_valid_partial {s : Store} (h : ReachableKeeping s) (d : Finset PyStr) :
    s.Valid d ↔ s.cols ≠ [] ∧ IsUnionOf (· ∈ s.defs) d := by
  rw [h.parts.1.valid_iff]
  apply and_congr_right
  intro _
  constructor
  · rintro ⟨e, he, rfl⟩
    rwa [Finset.inter_eq_left.2 (isUnionOf_subset h.parts.2.sub he)]
  · intro hd
    exact ⟨d, hd, (Finset.inter_eq_left.2 (isUnionOf_subset h.parts.2.sub hd)).symm⟩

/-- With dropped columns, but without renaming after that: the valid combinations are the unions of stored
definitions restricted to the columns that are left. -/
theorem C53_valid_dropped_partial {s : Store} (h : ReachableOrderly s) (d : Finset PyStr) :
    s.Valid d ↔ s.cols ≠ [] ∧ ∃ e, IsUnionOf (· ∈ s.defs) e ∧ d = e ∩ s.whole :=
  h.parts.valid_iff d

/-- No combination is listed twice. -/
theorem C53_once {s : Store} (h : Reachable s) : (s.structs.map (·.bits)).Nodup := by
  refine h.of_prim (P := fun s => (s.structs.map (·.bits)).Nodup) (fun _ => List.nodup_nil) ?_
  intro k s s' hp hs
  cases hp with
  | structClear => exact List.nodup_nil
  | structAdd _ g bits hne _ huniq =>
    dsimp only
    rw [List.map_append, List.nodup_append]
    refine ⟨hs, by simp, ?_⟩
    intro a ha b hb
    simp only [List.map_cons, List.map_nil, List.mem_singleton] at hb
    subst hb
    rintro rfl
    exact huniq ha
  | structGran _ f =>
    dsimp only
    rw [List.map_map]
    exact hs
  | colAdd _ c =>
    have e : (s.addCol c).structs.map (·.bits) = (s.structs.map (·.bits)).map (· ++ [false]) := by
      simp only [Store.addCol, List.map_map, Function.comp_def]
    rw [e]
    exact hs.map fun a b hab => List.append_cancel_right hab
  | colDrop _ names _ _ _ hst => exact hst
  | _ => exact hs

/-- Column X is dropped although the partition {B, X} is defined, then column A is renamed to X. -/
def reusedOps : List Op :=
  [.addIndexColumns [['A'], ['B'], ['X']], .addPartitionDef {['B'], ['X']}, .dropIndexColumns [['X']],
   .renameIndexColumns [(['A'], ['X'])]]

def reused : Store := run reusedOps (Store.new ['u'])

theorem reused_cols : reused.cols = [['X'], ['B']] := by decide +kernel

theorem reused_defs : ∀ d ∈ reused.defs, ['X'] ∈ d := by decide +kernel

/-- There {B} is valid although it is neither a union of definitions nor the rest of one. -/
theorem C53_violated : ∃ s, Reachable s ∧ ∃ d, s.Valid d ∧
    ¬ ∃ e, IsUnionOf (· ∈ s.defs) e ∧ d = e ∩ s.whole := by
  refine ⟨reused, ⟨['u'], reusedOps, rfl⟩, {['B']}, ?_, ?_⟩
  · unfold Store.Valid
    decide +kernel
  · rintro ⟨e, he, hd⟩
    rw [isUnionOf_iff] at he
    have hB : (['B'] : PyStr) ∈ e := by
      have : (['B'] : PyStr) ∈ e ∩ reused.whole := by rw [← hd]; simp
      exact (Finset.mem_inter.1 this).1
    obtain ⟨f, hf, hfe, _⟩ := he _ hB
    have hX : (['X'] : PyStr) ∈ e ∩ reused.whole := by
      refine Finset.mem_inter.2 ⟨hfe (reused_defs f hf), ?_⟩
      unfold Store.whole
      rw [reused_cols]
      simp
    rw [← hd] at hX
    simp at hX

/-! ### C03: adding partitions -/

theorem isUnionOf_of_base {l : List (List (Finset PyStr))} {b : List (Finset PyStr)} (hb : b ∈ l)
    {d : Finset PyStr} (h : IsUnionOf (· ∈ b) d) : IsUnionOf (· ∈ findMinimalGeneratingSet l) d :=
  (C02_minimal_generates_same l d).2 (isUnionOf_mono (fun _ hd => ⟨b, hb, hd⟩) h)

/-- What was valid before is still valid. -/
theorem C03_kept_partial {s s' : Store} (hr : ReachableOrderly s) {new : List (Finset PyStr)}
    (h : step (.addPartitionDefs new) s = (s', .ok ())) {d : Finset PyStr} (hd : s.Valid d) : s'.Valid d := by
  have h := call_ok h rfl
  have hi := (opAddPartitionDefs_inv h).1
  obtain ⟨t, h1, h2⟩ := opAddPartitionDefs_parts h
  obtain ⟨hne, hsub, rfl⟩ := addPartitionDefs_ok h1
  obtain ⟨X, rfl, _⟩ := rebuildStructure_ok h2
  rw [hi.valid_iff]
  obtain ⟨_, e, he, hde⟩ := (hr.parts.valid_iff d).1 hd
  exact ⟨hne, e, isUnionOf_of_base (b := s.defs) (by simp) he, hde⟩

/-- Every new set is valid afterwards. -/
theorem C03_added {s s' : Store} {new : List (Finset PyStr)}
    (h : step (.addPartitionDefs new) s = (s', .ok ())) : ∀ d ∈ new, s'.Valid d := by
  have h := call_ok h rfl
  have hi := (opAddPartitionDefs_inv h).1
  obtain ⟨t, h1, h2⟩ := opAddPartitionDefs_parts h
  obtain ⟨hne, hsub, rfl⟩ := addPartitionDefs_ok h1
  obtain ⟨X, rfl, _⟩ := rebuildStructure_ok h2
  intro d hd
  rw [hi.valid_iff]
  exact ⟨hne, d, isUnionOf_of_base (b := new) (by simp) (isUnionOf_self hd),
    (Finset.inter_eq_left.2 (hsub d hd)).symm⟩

/-- The whole space is valid afterwards. -/
theorem C03_whole {s s' : Store} {new : List (Finset PyStr)}
    (h : step (.addPartitionDefs new) s = (s', .ok ())) : s'.Valid s'.whole := by
  have h := call_ok h rfl
  have hi := (opAddPartitionDefs_inv h).1
  obtain ⟨t, h1, h2⟩ := opAddPartitionDefs_parts h
  obtain ⟨hne, hsub, rfl⟩ := addPartitionDefs_ok h1
  obtain ⟨X, rfl, _⟩ := rebuildStructure_ok h2
  rw [hi.valid_iff]
  exact ⟨hne, _, minimal_whole (w := s.whole) (by simp), (Finset.inter_self _).symm⟩

/-- Repeating the call changes nothing at all. -/
theorem C03_repeat {s s' : Store} {new : List (Finset PyStr)}
    (h : step (.addPartitionDefs new) s = (s', .ok ())) :
    step (.addPartitionDefs new) s' = (s', .ok ()) := by
  have hrun : step (.addPartitionDefs new) s = runTx (opAddPartitionDefs new) s := step_of_body rfl s
  rw [hrun] at h
  have hfk := (runTx_ok (by rw [h])).2
  rw [h] at hfk
  have h0 := (runTx_ok (by rw [h])).1
  rw [h] at h0
  obtain ⟨t, h1, h2⟩ := opAddPartitionDefs_parts h0
  obtain ⟨hne, hsub, rfl⟩ := addPartitionDefs_ok h1
  obtain ⟨X, rfl, _⟩ := rebuildStructure_ok h2
  have hb : (Op.addPartitionDefs new).body = some (opAddPartitionDefs new) := rfl
  rw [step_of_body hb]
  have : opAddPartitionDefs new { s with
      partDefs := some (findMinimalGeneratingSet [new, s.defs, [s.whole]]), structs := X } = .ok ((), { s with
      partDefs := some (findMinimalGeneratingSet [new, s.defs, [s.whole]]), structs := X }) := by
    unfold opAddPartitionDefs
    rw [bind_ok]
    refine ⟨(), { s with partDefs := some (findMinimalGeneratingSet [new, s.defs, [s.whole]]), structs := X }, ?_, ?_⟩
    · simp only [addPartitionDefs, bind_ok, get_ok, ite_ok, throw_ok, put_ok]
      refine ⟨_, _, rfl, .inr ⟨hne, .inr ⟨not_not.2 hsub, ?_⟩⟩⟩
      dsimp only [Option.getD_some]
      have := minimal_idem new s.defs s.whole
      unfold Store.whole at this ⊢
      rw [this]
    · rw [← h2]
      rfl
  unfold runTx
  rw [this]
  dsimp only at hfk ⊢
  rw [if_pos hfk]

/-- The same for the call that adds one partition. -/
theorem C03_single_partial {s s' : Store} (hr : ReachableOrderly s) {new : Finset PyStr}
    (h : step (.addPartitionDef new) s = (s', .ok ())) :
    (∀ d, s.Valid d → s'.Valid d) ∧ s'.Valid new ∧ s'.Valid s'.whole ∧
      ∃ e, step (.addPartitionDef new) s' = (s', .error e) := by
  have h := call_ok h rfl
  have hi := (opAddPartitionDef_inv h).1
  obtain ⟨t, h1, h2⟩ := opAddPartitionDef_parts h
  obtain ⟨hne, hsub, hnew, hmin, rfl⟩ := addPartitionDef_ok h1
  obtain ⟨X, rfl, _⟩ := rebuildStructure_ok h2
  refine ⟨fun d hd => ?_, ?_, ?_, ?_⟩
  · rw [hi.valid_iff]
    obtain ⟨_, e, he, hde⟩ := (hr.parts.valid_iff d).1 hd
    exact ⟨hne, e, isUnionOf_of_base (b := s.defs) (by simp) he, hde⟩
  · rw [hi.valid_iff]
    exact ⟨hne, new, isUnionOf_of_base (b := [new]) (by simp) (isUnionOf_self (by simp)),
      (Finset.inter_eq_left.2 hsub).symm⟩
  · rw [hi.valid_iff]
    exact ⟨hne, _, minimal_whole (w := s.whole) (by simp), (Finset.inter_self _).symm⟩
  · have hb : (Op.addPartitionDef new).body = some (opAddPartitionDef new) := rfl
    rw [step_of_body hb]
    rcases hrun : opAddPartitionDef new { s with
      partDefs := some (findMinimalGeneratingSet [[new], s.defs, [s.whole]]), structs := X } with e | ⟨u, s'⟩
    · refine ⟨e, ?_⟩
      unfold runTx
      rw [hrun]
    · exfalso
      obtain ⟨t, h3, _⟩ := opAddPartitionDef_parts hrun
      exact (addPartitionDef_ok h3).2.2.1 hmin

/-- After a column has been dropped and another one has been given its name, adding a partition can make a
valid combination invalid. -/
theorem C03_violated : ∃ s t new d, Reachable s ∧ step (.addPartitionDefs new) s = (t, .ok ()) ∧
    s.Valid d ∧ ¬ t.Valid d := by
  refine ⟨reused, (step (.addPartitionDefs [{['X']}]) reused).1, [{['X']}], {['B']},
    ⟨['u'], reusedOps, rfl⟩, step_fst ?_, ?_, ?_⟩
  · decide +kernel
  · unfold Store.Valid
    decide +kernel
  · rintro ⟨_, r, hr, hb⟩
    have h1 : ∀ r ∈ (step (.addPartitionDefs [{['X']}]) reused).1.structs, r.bits ≠ [false, true] := by
      decide +kernel
    have h2 : (step (.addPartitionDefs [{['X']}]) reused).1.cols = [['X'], ['B']] := by decide +kernel
    rw [h2] at hb
    exact h1 r hr hb

example : ∃ s', ReachableOrderly Demo.store ∧
    step (.addPartitionDefs [{Demo.colB}]) Demo.store = (s', .ok ()) ∧ Demo.store.Valid {Demo.colA} ∧
      ¬ Demo.store.Valid {Demo.colB} := by
  refine ⟨(step (.addPartitionDefs [{Demo.colB}]) Demo.store).1, ⟨['u'], Demo.ops, ?_, rfl⟩, step_fst ?_,
    ?_, ?_⟩
  · decide
  · decide +kernel
  · unfold Store.Valid; decide +kernel
  · unfold Store.Valid; decide +kernel

/-! ### C38: definitions and columns -/

/-- In histories without dropped columns the definitions use only existing columns. -/
theorem C38_defs_are_columns_partial {s : Store} (h : ReachableKeeping s) : ∀ d ∈ s.defs, d ⊆ s.whole :=
  h.parts.2.sub

/-- They generate the whole space. -/
theorem C38_defs_generate_whole_partial {s : Store} (h : ReachableKeeping s) (hc : s.cols ≠ []) :
    IsUnionOf (· ∈ s.defs) s.whole := h.parts.2.gen hc

/-- Renaming: each column gets its new name, each definition is mapped, and the valid combinations afterwards
are the images of those before. -/
theorem C38_rename_partial {s s' : Store} (hr : ReachableKeeping s) {mapping : List (PyStr × PyStr)}
    (h : step (.renameIndexColumns mapping) s = (s', .ok ())) :
    s'.cols = s.cols.map (fun c => (mapping.lookup c).getD c) ∧
      s'.defs = s.defs.map (fun d => d.image fun c => (mapping.lookup c).getD c) ∧
      ∀ d', s'.Valid d' ↔ ∃ d, s.Valid d ∧ d' = d.image fun c => (mapping.lookup c).getD c := by
  have hreach : Reachable s' := by
    have := hr.reachable.step (.renameIndexColumns mapping)
    rwa [h] at this
  have hnd : s'.cols.Nodup := hreach.colInv.cols.of_map _
  have h := call_ok h rfl
  have hi := renameIndexColumns_inv h hnd hr.parts.1 hr.parts.2
  obtain ⟨_, _, rfl⟩ := renameIndexColumns_ok h
  have hinj := injOn_of_nodup hnd
  have hdefs : (s.renameCols mapping).defs = s.defs.map fun d => d.image (renamed mapping) := by
    unfold Store.defs Store.renameCols
    rcases s.partDefs with _ | ds <;> rfl
  refine ⟨rfl, hdefs, fun d' => ?_⟩
  have hl : (s.renameCols mapping).Valid d' ↔
      (s.renameCols mapping).cols ≠ [] ∧ IsUnionOf (· ∈ (s.renameCols mapping).defs) d' := by
    rw [hi.1.valid_iff]
    apply and_congr_right
    intro _
    constructor
    · rintro ⟨e, he, rfl⟩
      rwa [Finset.inter_eq_left.2 (isUnionOf_subset hi.2.sub he)]
    · intro hd
      exact ⟨d', hd, (Finset.inter_eq_left.2 (isUnionOf_subset hi.2.sub hd)).symm⟩
  rw [hl, hdefs, isUnionOf_image hinj hr.parts.2.sub]
  have hc : (s.renameCols mapping).cols ≠ [] ↔ s.cols ≠ [] := by
    unfold Store.renameCols
    simp
  rw [hc]
  constructor
  · rintro ⟨hne, d, hd, hsub, rfl⟩
    exact ⟨d, (C53_valid_partial hr d).2 ⟨hne, hd⟩, rfl⟩
  · rintro ⟨d, hd, rfl⟩
    obtain ⟨hne, hu⟩ := (C53_valid_partial hr d).1 hd
    exact ⟨hne, d, hu, hd.1, rfl⟩

/-- Dropping a column leaves definitions that name it, and none that generates the columns left. -/
theorem C38_violated : ∃ s, Reachable s ∧ s.cols ≠ [] ∧ (∃ d ∈ s.defs, ¬ d ⊆ s.whole) ∧
    ¬ IsUnionOf (· ∈ s.defs) s.whole := by
  refine ⟨run [.addIndexColumns [['A'], ['B']], .dropIndexColumns [['B']]] (Store.new ['u']), ⟨_, _, rfl⟩,
    by decide +kernel, by decide +kernel, ?_⟩
  rw [← C01_structure_is_exactly_the_unions]
  decide +kernel

example : ∃ s', ReachableKeeping Demo.store ∧
    step (.renameIndexColumns [(Demo.colA, ['C'])]) Demo.store = (s', .ok ()) ∧ s'.Valid {['C']} := by
  refine ⟨(step (.renameIndexColumns [(Demo.colA, ['C'])]) Demo.store).1, ⟨['u'], Demo.ops, ?_, rfl⟩,
    step_fst ?_, ?_⟩
  · decide
  · decide +kernel
  · unfold Store.Valid; decide +kernel

/-! ### C37: the display order -/

theorem displayOrder_perm {s : Store} (hc : s.cols.Nodup) (hd : (s.display.getD []).Nodup)
    (hsub : ∀ c ∈ s.display.getD [], c ∈ s.cols) : s.displayOrder.Perm s.cols := by
  unfold Store.displayOrder
  rw [List.perm_ext_iff_of_nodup ?_ hc]
  · intro a
    simp only [List.mem_append, List.mem_filter, decide_eq_true_eq]
    constructor
    · rintro (h | h)
      · exact hsub a h
      · exact h.1
    · intro h
      by_cases ha : a ∈ s.display.getD []
      · exact .inl ha
      · exact .inr ⟨h, ha⟩
  · rw [List.nodup_append]
    refine ⟨hd, hc.filter _, ?_⟩
    intro a ha b hb
    rintro rfl
    exact absurd ha (by simpa using (List.mem_filter.1 hb).2)

/-- The stored order has no repetition and names only columns. -/
def DisplayOk (s : Store) : Prop := (s.display.getD []).Nodup ∧ ∀ c ∈ s.display.getD [], c ∈ s.cols

theorem step_display (op : Op) {s : Store} (hr : Reachable s) (hs : DisplayOk s)
    (hn : (op.renamesColumns = true ∨ op.dropsColumns = true) → s.display = none) :
    DisplayOk (step op s).1 ∧ (op.ordersLabels = false → s.display = none → (step op s).1.display = none) := by
  have key : ∀ m, op.body = some m →
      (∀ s', m s = .ok ((), s') → DisplayOk s' ∧ (op.ordersLabels = false → s.display = none → s'.display = none)) →
      DisplayOk (step op s).1 ∧ (op.ordersLabels = false → s.display = none → (step op s).1.display = none) := by
    intro m hm hk
    have hrun := step_of_body hm s
    unfold runTx at hrun
    split at hrun
    · rename_i a s' heq
      split at hrun
      · have := hk s' heq
        rw [hrun]
        exact this
      · rw [hrun]
        exact ⟨hs, fun _ h => h⟩
    · rw [hrun]
      exact ⟨hs, fun _ h => h⟩
  have same : ∀ {s' : Store}, s'.cols = s.cols → s'.display = s.display →
      DisplayOk s' ∧ (op.ordersLabels = false → s.display = none → s'.display = none) := by
    intro s' hc hd
    unfold DisplayOk
    rw [hc, hd]
    exact ⟨hs, fun _ h => h⟩
  have empty : ∀ {s' : Store}, s'.display = none →
      DisplayOk s' ∧ (op.ordersLabels = false → s.display = none → s'.display = none) := by
    intro s' hd
    unfold DisplayOk
    rw [hd]
    exact ⟨⟨List.nodup_nil, fun _ h => by cases h⟩, fun _ _ => rfl⟩
  have plain : ∀ (K : List Kind) m, op.body = some m → Does K m →
      (∀ k ∈ K, k ∉ [Kind.colAdd, .colRen, .colDrop]) → (∀ k ∈ K, k ∉ [Kind.display]) →
      DisplayOk (step op s).1 ∧ (op.ordersLabels = false → s.display = none → (step op s).1.display = none) := by
    intro K m hm hd h1 h2
    refine key m hm fun s' h => ?_
    have hst := hd.steps _ _ _ h
    exact same (hst.cols_eq h1) (hst.display_eq h2)
  cases op with
  | addIndexColumns n =>
    refine key _ rfl fun s' h => ?_
    obtain ⟨hc, _, _, hd, _⟩ := addIndexColumns_ok h
    unfold DisplayOk
    rw [hd, hc]
    exact ⟨⟨hs.1, fun c hc => List.mem_append_left _ (hs.2 c hc)⟩, fun _ h => h⟩
  | renameIndexColumns m =>
    refine key _ rfl fun s' h => empty ?_
    obtain ⟨_, _, rfl⟩ := renameIndexColumns_ok h
    exact hn (.inl rfl)
  | dropIndexColumns n =>
    refine key _ rfl fun s' h => empty ?_
    obtain ⟨_, rfl⟩ := dropIndexColumns_ok h
    exact hn (.inr rfl)
  | changeLabelOrder l o =>
    refine key _ rfl fun s' h => ?_
    have hperm := displayOrder_perm (hr.colInv.cols.of_map _) hs.1 hs.2
    unfold changeLabelOrder at h
    simp only [bind_ok, get_ok, liftE_ok, ite_ok, throw_ok, put_ok] at h
    obtain ⟨_, _, he, seq, _, ⟨_, hseq, he2⟩, h⟩ := h
    cases he
    cases he2
    obtain ⟨_, h⟩ | ⟨hk, h⟩ := h
    · exact h.elim
    cases h
    push Not at hk
    refine ⟨⟨?_, hk⟩, fun hf => by cases hf⟩
    exact (C36_perm hseq).nodup_iff.2 (hperm.nodup_iff.2 (hr.colInv.cols.of_map _))
  | reifyMappings r n cs =>
    have hst := reifyMappings_steps r n cs s
    exact same (hst.cols_eq (by decide)) (hst.display_eq (by decide))
  | deleteUnmatchedQuantities =>
    have hst := deleteUnmatchedQuantities_steps s
    exact same (hst.cols_eq (by decide)) (hst.display_eq (by decide))
  | reopen => exact same rfl rfl
  | _ =>
    exact plain
      [.idxAdd, .idxUpd, .idxDel, .locAdd, .locDel, .agAdd, .agDel, .qAdd, .qSet, .qDel,
       .wgAdd, .wgUpd, .wgDel, .wAdd, .wSet, .wDel, .lAdd, .lUpd, .lDel, .mAdd, .mUpd, .mDel,
       .hash, .structs, .pdefs, .attrs, .domain, .defwg] _ rfl (by does) (by decide) (by decide)

/-- In histories in which no column is renamed or dropped after the display order has been changed: the
display order lists exactly the label columns, each once. -/
theorem C37_display_order_partial {s : Store} (h : ReachableShown s) : s.displayOrder.Perm s.cols := by
  have hr : Reachable s := by
    obtain ⟨uid, ops, _, rfl⟩ := h
    exact ⟨uid, ops, rfl⟩
  suffices DisplayOk s from displayOrder_perm (hr.colInv.cols.of_map _) this.1 this.2
  obtain ⟨uid, ops, hops, rfl⟩ := h
  suffices DisplayOk (run ops (Store.new uid)) ∧
      ((∀ op ∈ ops, op.ordersLabels = false) → (run ops (Store.new uid)).display = none) from this.1
  clear hr
  induction ops using List.reverseRecOn with
  | nil => exact ⟨⟨List.nodup_nil, fun _ h => by cases h⟩, fun _ => rfl⟩
  | append_singleton ops op ih =>
    rw [List.pairwise_append] at hops
    obtain ⟨i1, i2⟩ := ih hops.1
    rw [run_snoc]
    have := step_display op ⟨uid, ops, rfl⟩ i1 fun hrd => i2 fun o ho => by
      by_contra hol
      have hx := hops.2.2 o ho op (by simp) (by simpa using hol)
      rcases hrd with h | h
      · rw [hx.1] at h; cases h
      · rw [hx.2] at h; cases h
    exact ⟨this.1, fun hall => this.2 (hall op (by simp)) (i2 fun o ho => hall o (by simp [ho]))⟩

theorem changeLabelOrder_fails {s : Store} {c : PyStr} (hc : c ∈ s.displayOrder) (hn : c ∉ s.cols) (l : PyStr)
    (o : Int) : ∃ e, step (.changeLabelOrder l o) s = (s, .error e) := by
  have hb : (Op.changeLabelOrder l o).body = some (changeLabelOrder l o) := rfl
  rw [step_of_body hb]
  rcases hrun : changeLabelOrder l o s with e | ⟨u, s'⟩
  · exact ⟨e, by unfold runTx; rw [hrun]⟩
  · exfalso
    unfold changeLabelOrder at hrun
    simp only [bind_ok, get_ok, liftE_ok, ite_ok, throw_ok, put_ok] at hrun
    obtain ⟨_, _, he, seq, _, ⟨_, hseq, he2⟩, h⟩ := hrun
    cases he
    cases he2
    obtain ⟨_, h⟩ | ⟨hk, h⟩ := h
    · exact h.elim
    · exact hk ⟨c, (C36_perm hseq).mem_iff.2 hc, hn⟩

/-- The labels are reordered, then a column is renamed. -/
def staleOps : List Op :=
  [.addIndexColumns [['A'], ['B']], .changeLabelOrder ['B'] (-1), .renameIndexColumns [(['A'], ['C'])]]

def stale : Store := run staleOps (Store.new ['u'])

theorem stale_display : stale.displayOrder = [['B'], ['A'], ['C']] := by decide +kernel

theorem stale_cols : stale.cols = [['C'], ['B']] := by decide +kernel

/-- Then the display order lists a name that is no column; and reordering always fails. -/
theorem C37_violated : ∃ s, Reachable s ∧ ¬ s.displayOrder.Perm s.cols ∧
    ∀ l o, ∃ e, step (.changeLabelOrder l o) s = (s, .error e) := by
  refine ⟨stale, ⟨['u'], staleOps, rfl⟩, ?_, ?_⟩
  · rw [stale_display, stale_cols]
    intro h
    have := h.length_eq
    simp at this
  · apply changeLabelOrder_fails (c := ['A'])
    · rw [stale_display]
      simp
    · rw [stale_cols]
      decide

example : ReachableShown (run (Demo.ops ++ [.changeLabelOrder Demo.colB (-1), .addIndexColumns [['C']]])
    (Store.new ['u'])) ∧ (run (Demo.ops ++ [.changeLabelOrder Demo.colB (-1), .addIndexColumns [['C']]])
    (Store.new ['u'])).displayOrder = [Demo.colB, Demo.colA, ['C']] := by
  refine ⟨⟨['u'], _, ?_, rfl⟩, by decide +kernel⟩
  decide

end Toron.Space
