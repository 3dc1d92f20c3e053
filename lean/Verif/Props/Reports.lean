/-
Every row of a table is accounted for: C103.
-/
import Verif.Lemmas.Store.Reports
import Verif.Lemmas.Store.MapLoad
import Verif.Spec.MapEdit
import Verif.Demo

namespace Toron.Space

open Toron.Selectors (PyStr)

/-! ### The warnings -/

theorem warnIfIssues_none {e : Key} {ks : List Key} (h : warnIfIssues e ks = none) : ∀ k ∈ ks, k = e := by
  unfold warnIfIssues at h
  split_ifs at h with hc
  obtain rfl | hc := hc
  · simp
  · intro k hk
    have : k ∈ distinct ks := mem_distinct.2 hk
    rw [hc] at this
    simpa using this

/-- No warning is given exactly if there is nothing to report: every row was counted under the expected heading. -/
theorem C103_silence (e : Key) (ks : List Key) : warnIfIssues e ks = none ↔ ∀ k ∈ ks, k = e := by
  refine ⟨warnIfIssues_none, fun h => ?_⟩
  unfold warnIfIssues
  rw [if_pos]
  cases hks : ks with
  | nil => exact .inl rfl
  | cons k ks' =>
    right
    rw [← hks]
    have hmem : e ∈ distinct ks := mem_distinct.2 (by
      have := h k (by rw [hks]; exact List.mem_cons_self)
      rw [hks, ← this]
      exact List.mem_cons_self)
    have hall : ∀ x ∈ distinct ks, x = e := fun x hx => h x (mem_distinct.1 hx)
    have hnd : (distinct ks).Nodup := nodup_distinct _
    have := (List.eq_replicate_iff (n := (distinct ks).length) (a := e)).2 ⟨rfl, hall⟩
    have hlen : (distinct ks).length ≤ 1 := by
      rw [this, List.nodup_replicate] at hnd
      exact hnd
    have hpos : 0 < (distinct ks).length := List.length_pos_of_mem hmem
    rw [this, show (distinct ks).length = 1 by omega]
    rfl

/-- A warning names every heading that occurs, with the exact number of times, and the numbers add up to the whole. -/
theorem C103_warning {e : Key} {ks : List Key} (hk : ∀ k ∈ ks, k ∈ warningOrder) {parts : List (Key × Nat)}
    (h : warnIfIssues e ks = some parts) :
    (∀ q ∈ parts, q.2 = ks.count q.1) ∧ (∀ k ∈ ks, (k, ks.count k) ∈ parts) ∧ (parts.map (·.1)).Nodup ∧
      (parts.map (·.2)).sum = ks.length := by
  unfold warnIfIssues at h
  split_ifs at h with hc
  cases h
  have hnd : ((warningOrder.filter fun k => decide (k ∈ ks ∧ k ≠ e)) ++ [e]).Nodup := by
    refine List.Nodup.append (List.Nodup.filter _ (by decide)) (List.nodup_singleton e) ?_
    intro x hx hx'
    rw [List.mem_singleton] at hx'
    simpa [hx'] using (List.mem_filter.1 hx).2
  have hall : ∀ k ∈ ks, k ∈ (warningOrder.filter fun k => decide (k ∈ ks ∧ k ≠ e)) ++ [e] := by
    intro k hk'
    rw [List.mem_append]
    by_cases hke : k = e
    · exact .inr (by simp [hke])
    · exact .inl (List.mem_filter.2 ⟨hk k hk', by simp [hk', hke]⟩)
  refine ⟨?_, ?_, ?_, ?_⟩
  · intro q hq
    obtain ⟨k, -, rfl⟩ := List.mem_map.1 hq
    rfl
  · intro k hk'
    exact List.mem_map_of_mem (f := fun k => (k, ks.count k)) (hall k hk')
  · rw [List.map_map]
    simpa [Function.comp_def] using hnd
  · rw [List.map_map]
    show (List.map (fun k => ks.count k) _).sum = _
    exact sum_count_of_nodup hnd hall

/-- The warnings in the log name every heading in their list that occurs, with the exact number of times. -/
theorem C103_log {order ks : List Key} (q : Key × Nat) :
    q ∈ logWarnings order ks ↔ q.1 ∈ order ∧ q.1 ∈ ks ∧ q.2 = ks.count q.1 := by
  unfold logWarnings
  rw [List.mem_map]
  constructor
  · rintro ⟨k, hk, rfl⟩
    obtain ⟨h1, h2⟩ := List.mem_filter.1 hk
    exact ⟨h1, by simpa using h2, rfl⟩
  · rintro ⟨h1, h2, h3⟩
    exact ⟨q.1, List.mem_filter.2 ⟨h1, by simpa using h2⟩, by rw [← h3]⟩

/-! ### Index records -/

/-- `update_index`: the rows take effect one after the other. Each is counted under one heading, or two if a record
was merged, and does what the heading says; a row that is left out changes nothing. -/
theorem C103_update_index {merge : Bool} {rows : List (Nat × List PyStr)} {s s' : Store}
    (hc : step (.updateIndex merge rows) s = (s', .ok ())) :
    (∃ t, Account UpdateIndexRow s rows (updateIndexCounter merge rows s) t ∧ s'.index = t.index ∧
      s'.weights = t.weights ∧ s'.maps = t.maps) ∧
    (updateIndexCounter merge rows s).countP (fun k => k != .merged) = rows.length ∧
    (∃ kept, kept.Sublist rows ∧ step (.updateIndex merge kept) s = (s', .ok ()) ∧
      updateIndexCounter merge kept s = (updateIndexCounter merge rows s).filter fun k => !k.skip) := by
  have hb := call_ok hc rfl
  unfold updateIndex at hb
  obtain ⟨acc, t, h1, h2⟩ := bind_ok.1 hb
  have ha : Account UpdateIndexRow s rows (updateIndexCounter merge rows s) t :=
    account_of (f := updateIndexRow merge) (keys := updateIndexKeys) (P := fun _ => True)
      (fun _ _ _ _ _ _ h => (updateIndexRow_report h).1) (fun _ _ _ _ _ _ _ => trivial)
      trivial h1
  refine ⟨⟨t, ha, ?_⟩, ha.length ?_, ?_⟩
  · obtain ⟨_, t1, h3, h4⟩ := bind_ok.1 h2
    have e1 : t1.index = t.index ∧ t1.weights = t.weights ∧ t1.maps = t.maps := by
      have := (Does.whenM (b := decide (acc.merged ≠ [] ∨ acc.updated = true)) refreshGranularity_does).steps _ _ _ h3
      exact ⟨this.index_eq (by decide), this.weights_eq (by decide), this.maps_eq (by decide)⟩
    have e2 : s'.index = t1.index ∧ s'.weights = t1.weights ∧ s'.maps = t1.maps := by
      have := (Does.whenM (b := decide (acc.merged ≠ [])) afterMerge_does).steps _ _ _ h4
      exact ⟨this.index_eq (by decide), this.weights_eq (by decide), this.maps_eq (by decide)⟩
    exact ⟨e2.1.trans e1.1, e2.2.1.trans e1.2.1, e2.2.2.trans e1.2.2⟩
  · intro s r ks s' h
    cases h <;> rfl
  · obtain ⟨kept, k1, k2, k3⟩ := keep_of (keys := updateIndexKeys) (fun _ _ _ _ _ h => (updateIndexRow_report h).2) h1
    refine ⟨kept, k1, ?_, k3⟩
    rw [← hc]
    exact step_congr rfl rfl (by unfold updateIndex; exact bind_congr_left (k2.trans h1.symm))

/-- If `update_index` gives no warning, every row was applied, and none was merged. -/
theorem C103_update_index_silent {merge : Bool} {rows : List (Nat × List PyStr)} {s s' : Store}
    (hc : step (.updateIndex merge rows) s = (s', .ok ())) (hw : updateIndexWarning merge rows s = none) :
    updateIndexCounter merge rows s = List.replicate rows.length .updated :=
  replicate_of (by decide) (C103_update_index hc).2.1 ((C103_silence _ _).1 hw)

/-- `delete_index` with a table. -/
theorem C103_delete_index {rows : List (Nat × List PyStr)} {s s' : Store} (h : Reachable s)
    (hc : step (.deleteIndex (.rows rows)) s = (s', .ok ())) :
    (∃ t, Account DeleteIndexRow s rows (deleteIndexCounter rows s) t ∧ s'.index = t.index ∧
      s'.weights = t.weights ∧ s'.maps = t.maps) ∧
    (deleteIndexCounter rows s).countP (fun k => k != .merged) = rows.length ∧
    (∃ kept, kept.Sublist rows ∧ ((kept = [] ∧ s' = s) ∨ step (.deleteIndex (.rows kept)) s = (s', .ok ())) ∧
      deleteIndexCounter kept s = (deleteIndexCounter rows s).filter fun k => !k.skip) := by
  have hb := call_ok hc rfl
  unfold deleteIndex at hb
  rw [ite_ok] at hb
  obtain ⟨_, hb⟩ | ⟨_, hb⟩ := hb
  · exact (throw_ok.1 hb).elim
  obtain ⟨d, t, h1, h2⟩ := bind_ok.1 hb
  replace h1 : rows.foldlM deleteIndexRow false s = .ok (d, t) := h1
  have ha : Account DeleteIndexRow s rows (deleteIndexCounter rows s) t :=
    account_of (P := fun s => IndexInv s ∧ WeightInv s ∧ MapInv s)
      (fun _ _ _ _ _ hp h => deleteIndexRow_report hp.1.idsNodup hp.2.1.ids hp.2.2.ids h)
      (fun _ _ _ _ _ hp h => by
        have := (deleteIndexRow_does ..).steps _ _ _ h
        exact ⟨this.invariant (fun _ _ _ _ hp h => h.prim hp) hp.1,
          this.invariant (fun _ _ _ _ hp h => h.prim hp) hp.2.1,
          this.invariant (fun _ _ _ _ hp h => h.prim hp) hp.2.2⟩)
      ⟨h.indexInv, h.weightInv, h.mapInv⟩ h1
  refine ⟨⟨t, ha, ?_⟩, ha.length ?_, ?_⟩
  · have := (Does.whenM (b := d) afterDeleteIndex_does).steps _ _ _ h2
    exact ⟨this.index_eq (by decide), this.weights_eq (by decide), this.maps_eq (by decide)⟩
  · intro s r ks s' h
    cases h <;> rfl
  · obtain ⟨kept, k1, k2, k3⟩ := keep_of (keys := deleteIndexKeys) (fun _ _ _ _ _ h => deleteIndexRow_skip h) h1
    refine ⟨kept, k1, ?_, k3⟩
    by_cases hk : kept = []
    · left
      obtain ⟨rfl, rfl⟩ := keep_or k2 hk
      exact ⟨hk, by simpa using whenM_ok.1 h2⟩
    · right
      rw [← hc]
      refine step_congr rfl rfl ?_
      unfold deleteIndex
      rw [if_neg (by simp [Target.isEmpty, hk]), if_neg (by assumption)]
      exact bind_congr_left (k2.trans h1.symm)

/-- If `delete_index` gives no warning, every row deleted a record. -/
theorem C103_delete_index_silent {rows : List (Nat × List PyStr)} {s s' : Store} (h : Reachable s)
    (hc : step (.deleteIndex (.rows rows)) s = (s', .ok ())) (hw : deleteIndexWarning rows s = none) :
    deleteIndexCounter rows s = List.replicate rows.length .deleted :=
  replicate_of (by decide) (C103_delete_index h hc).2.1 ((C103_silence _ _).1 hw)

/-! ### Weights -/

/-- `insert_weights`. -/
theorem C103_insert_weights {name : PyStr} {p : Policy} {rows : List WeightRow} {s s' : Store} (h : Reachable s)
    (hc : step (.insertWeights name p rows) s = (s', .ok ())) :
    (∃ g s1 t, g ∈ s1.wgroups ∧ g.name = name ∧ s1.index = s.index ∧ s1.weights = s.weights ∧
      Account (InsertWeightRow g.id p) s1 rows (insertWeightsCounter name p rows s) t ∧ s'.index = t.index ∧
      s'.weights = t.weights) ∧
    (insertWeightsCounter name p rows s).countP (fun k => k != .merged) = rows.length ∧
    (∃ kept, kept.Sublist rows ∧ step (.insertWeights name p kept) s = (s', .ok ()) ∧
      insertWeightsCounter name p kept s = (insertWeightsCounter name p rows s).filter fun k => !k.skip) := by
  have hb := call_ok hc rfl
  unfold insertWeights at hb
  rw [ite_ok] at hb
  obtain ⟨_, hb⟩ | ⟨hp, hb⟩ := hb
  · exact (throw_ok.1 hb).elim
  obtain ⟨g, s1, h0, hb⟩ := bind_ok.1 hb
  obtain ⟨b, t, h1, h2⟩ := bind_ok.1 hb
  have hst := (wgroupGetOrAdd_does name).steps _ _ _ h0
  obtain ⟨hg1, hg2⟩ := wgroupGetOrAdd_ok h0
  have hcnt : ∀ rows, insertWeightsCounter name p rows s =
      counted (insertWeightRow g.id p) (insertWeightKeys g.id p) false rows s1 := by
    intro rows
    unfold insertWeightsCounter
    rw [h0]
  have ha : Account (InsertWeightRow g.id p) s1 rows (insertWeightsCounter name p rows s) t := by
    rw [hcnt]
    exact account_of (P := fun s => IndexInv s ∧ g ∈ s.wgroups)
      (fun _ _ _ _ _ hp h => insertWeightRow_report hp.1.idsNodup ⟨g, hp.2, rfl⟩ h)
      (fun _ _ _ _ _ hp h => by
        have := (insertWeightRow_does ..).steps _ _ _ h
        exact ⟨this.invariant (fun _ _ _ _ hp h => h.prim hp) hp.1, by rw [this.wgroups_eq (by decide)]; exact hp.2⟩)
      ⟨hst.invariant (fun _ _ _ _ hp h => h.prim hp) h.indexInv, hg1⟩ h1
  refine ⟨⟨g, s1, t, hg1, hg2, hst.index_eq (by decide), hst.weights_eq (by decide), ha, ?_⟩, ha.length ?_, ?_⟩
  · have := (afterWeights_does g b).steps _ _ _ h2
    exact ⟨this.index_eq (by decide), this.weights_eq (by decide)⟩
  · intro s r ks s' h
    cases h <;> rfl
  · obtain ⟨kept, k1, k2, k3⟩ := keep_of (keys := insertWeightKeys g.id p) (fun _ _ _ _ _ h => insertWeightRow_skip h) h1
    refine ⟨kept, k1, ?_, by rw [hcnt, hcnt]; exact k3⟩
    rw [← hc]
    refine step_congr rfl rfl ?_
    unfold insertWeights
    rw [if_neg hp, if_neg hp]
    show (wgroupGetOrAdd name >>= _) s = (wgroupGetOrAdd name >>= _) s
    rw [bind_ok.2 ⟨g, s1, h0, bind_ok.2 ⟨b, t, k2, h2⟩⟩, bind_ok.2 ⟨g, s1, h0, bind_ok.2 ⟨b, t, h1, h2⟩⟩]

/-- If `insert_weights` logs no warning, every row added a weight that was not there before. -/
theorem C103_insert_weights_silent {name : PyStr} {p : Policy} {rows : List WeightRow} {s s' : Store} (h : Reachable s)
    (hc : step (.insertWeights name p rows) s = (s', .ok ())) (hw : insertWeightsWarning name p rows s = []) :
    insertWeightsCounter name p rows s = List.replicate rows.length .inserted := by
  obtain ⟨⟨g, s1, t, -, -, -, -, ha, -⟩, hn, -⟩ := C103_insert_weights h hc
  refine replicate_of (by decide) hn fun k hk => ?_
  by_contra hne
  have hk' := ha.keys (fun s r ks s' h k hk => show k ∈ [Key.inserted, .skipped, .overwritten, .summed, .notRealnum,
    .undefinedRecord, .noIndex, .mismatch, .noMatch] by cases h <;> simp_all) k hk
  have : (k, (insertWeightsCounter name p rows s).count k) ∈ insertWeightsWarning name p rows s :=
    (C103_log _).2 ⟨by simp only [List.mem_cons] at hk' ⊢; exact hk'.resolve_left hne, hk, rfl⟩
  rw [hw] at this
  cases this

/-- `update_weights`. -/
theorem C103_update_weights {name : PyStr} {rows : List (Nat × List PyStr × ℚ)} {s s' : Store} (h : Reachable s)
    (hc : step (.updateWeights name rows) s = (s', .ok ())) :
    (∃ g t, g ∈ s.wgroups ∧ g.name = name ∧
      Account (UpdateWeightRow g.id) s rows (updateWeightsCounter name rows s) t ∧ s'.index = t.index ∧
      s'.weights = t.weights) ∧
    (updateWeightsCounter name rows s).countP (fun k => k != .merged) = rows.length ∧
    (∃ kept, kept.Sublist rows ∧ step (.updateWeights name kept) s = (s', .ok ()) ∧
      updateWeightsCounter name kept s = (updateWeightsCounter name rows s).filter fun k => !k.skip) := by
  have hb := call_ok hc rfl
  unfold updateWeights at hb
  obtain ⟨g, s1, h0, hb⟩ := bind_ok.1 hb
  obtain ⟨b, t, h1, h2⟩ := bind_ok.1 hb
  obtain ⟨rfl, hg1, hg2⟩ := wgroupGetByName_ok h0
  have hcnt : ∀ rows, updateWeightsCounter name rows s1 =
      counted (updateWeightRow g.id) (updateWeightKeys g.id) false rows s1 := by
    intro rows
    unfold updateWeightsCounter
    rw [findWGroup_of h0]
  have ha : Account (UpdateWeightRow g.id) s1 rows (updateWeightsCounter name rows s1) t := by
    rw [hcnt]
    exact account_of (f := updateWeightRow g.id) (keys := updateWeightKeys g.id) (P := IndexInv)
      (fun _ _ _ _ _ hp h => (updateWeightRow_report hp.idsNodup h).1)
      (fun _ _ _ _ _ hp h => ((updateWeightRow_does ..).steps _ _ _ h).invariant (fun _ _ _ _ hp h => h.prim hp) hp)
      h.indexInv h1
  refine ⟨⟨g, t, hg1, hg2, ha, ?_⟩, ha.length ?_, ?_⟩
  · have := (afterWeights_does g b).steps _ _ _ h2
    exact ⟨this.index_eq (by decide), this.weights_eq (by decide)⟩
  · intro s r ks s' h
    cases h <;> rfl
  · obtain ⟨kept, k1, k2, k3⟩ := keep_ofP (P := IndexInv) (keys := updateWeightKeys g.id)
      (fun _ _ _ _ _ hp h => (updateWeightRow_report hp.idsNodup h).2)
      (fun _ _ _ _ _ hp h => ((updateWeightRow_does ..).steps _ _ _ h).invariant (fun _ _ _ _ hp h => h.prim hp) hp)
      h.indexInv h1
    refine ⟨kept, k1, ?_, by rw [hcnt, hcnt]; exact k3⟩
    rw [← hc]
    refine step_congr rfl rfl ?_
    unfold updateWeights
    rw [bind_ok.2 ⟨g, s1, h0, bind_ok.2 ⟨b, t, k2, h2⟩⟩, bind_ok.2 ⟨g, s1, h0, bind_ok.2 ⟨b, t, h1, h2⟩⟩]

/-- If `update_weights` logs no warning, every row changed an existing weight. -/
theorem C103_update_weights_silent {name : PyStr} {rows : List (Nat × List PyStr × ℚ)} {s s' : Store} (h : Reachable s)
    (hc : step (.updateWeights name rows) s = (s', .ok ())) (hw : updateWeightsWarning name rows s = []) :
    updateWeightsCounter name rows s = List.replicate rows.length .updated := by
  obtain ⟨⟨g, t, -, -, ha, -⟩, hn, -⟩ := C103_update_weights h hc
  refine replicate_of (by decide) hn fun k hk => ?_
  by_contra hne
  have hk' := ha.keys (fun s r ks s' h k hk => show k ∈ [Key.updated, .inserted, .noIndex, .mismatch] by
    cases h <;> simp_all) k hk
  have : (k, (updateWeightsCounter name rows s).count k) ∈ updateWeightsWarning name rows s :=
    (C103_log _).2 ⟨by simp only [List.mem_cons] at hk' ⊢; exact hk'.resolve_left hne, hk, rfl⟩
  rw [hw] at this
  cases this

/-- `delete_weights` with a table. -/
theorem C103_delete_weights {name : PyStr} {rows : List (Nat × List PyStr)} {s s' : Store} (h : Reachable s)
    (hc : step (.deleteWeights name (.rows rows)) s = (s', .ok ())) :
    (∃ g t, g ∈ s.wgroups ∧ g.name = name ∧
      Account (DeleteWeightRow g.id) s rows (deleteWeightsCounter name rows s) t ∧ s'.index = t.index ∧
      s'.weights = t.weights) ∧
    (deleteWeightsCounter name rows s).countP (fun k => k != .merged) = rows.length ∧
    (∃ kept, kept.Sublist rows ∧
      ((kept = [] ∧ s' = s) ∨ step (.deleteWeights name (.rows kept)) s = (s', .ok ())) ∧
      deleteWeightsCounter name kept s = (deleteWeightsCounter name rows s).filter fun k => !k.skip) := by
  have hb := call_ok hc rfl
  unfold deleteWeights at hb
  obtain ⟨g, s1, h0, hb⟩ := bind_ok.1 hb
  rw [ite_ok] at hb
  obtain ⟨_, hb⟩ | ⟨hne, hb⟩ := hb
  · exact (throw_ok.1 hb).elim
  obtain ⟨b, t, h1, h2⟩ := bind_ok.1 hb
  replace h1 : rows.foldlM (deleteWeightRow g.id) false s1 = .ok (b, t) := h1
  obtain ⟨rfl, hg1, hg2⟩ := wgroupGetByName_ok h0
  have hcnt : ∀ rows, deleteWeightsCounter name rows s1 =
      counted (deleteWeightRow g.id) (deleteWeightKeys g.id) false rows s1 := by
    intro rows
    unfold deleteWeightsCounter
    rw [findWGroup_of h0]
  have ha : Account (DeleteWeightRow g.id) s1 rows (deleteWeightsCounter name rows s1) t := by
    rw [hcnt]
    exact account_of (f := deleteWeightRow g.id) (keys := deleteWeightKeys g.id) (P := IndexInv)
      (fun _ _ _ _ _ hp h => (deleteWeightRow_report hp.idsNodup h).1)
      (fun _ _ _ _ _ hp h => ((deleteWeightRow_does ..).steps _ _ _ h).invariant (fun _ _ _ _ hp h => h.prim hp) hp)
      h.indexInv h1
  refine ⟨⟨g, t, hg1, hg2, ha, ?_⟩, ha.length ?_, ?_⟩
  · have := (Does.whenM (b := b && g.complete) (wgroupUpdate_does { g with complete := false })).steps _ _ _ h2
    exact ⟨this.index_eq (by decide), this.weights_eq (by decide)⟩
  · intro s r ks s' h
    cases h <;> rfl
  · obtain ⟨kept, k1, k2, k3⟩ := keep_ofP (P := IndexInv) (keys := deleteWeightKeys g.id)
      (fun _ _ _ _ _ hp h => (deleteWeightRow_report hp.idsNodup h).2)
      (fun _ _ _ _ _ hp h => ((deleteWeightRow_does ..).steps _ _ _ h).invariant (fun _ _ _ _ hp h => h.prim hp) hp)
      h.indexInv h1
    refine ⟨kept, k1, ?_, by rw [hcnt, hcnt]; exact k3⟩
    by_cases hk : kept = []
    · left
      obtain ⟨rfl, rfl⟩ := keep_or k2 hk
      exact ⟨hk, by simpa using whenM_ok.1 h2⟩
    · right
      rw [← hc]
      refine step_congr rfl rfl ?_
      unfold deleteWeights
      have hne' : ¬ (Target.rows kept).isEmpty = true := by simp [Target.isEmpty, hk]
      rw [bind_ok.2 ⟨g, _, h0, ite_ok.2 (.inr ⟨hne', bind_ok.2 ⟨b, _, k2, h2⟩⟩)⟩,
        bind_ok.2 ⟨g, _, h0, ite_ok.2 (.inr ⟨hne, bind_ok.2 ⟨b, _, h1, h2⟩⟩)⟩]

/-- If `delete_weights` logs no warning, every row deleted a weight. -/
theorem C103_delete_weights_silent {name : PyStr} {rows : List (Nat × List PyStr)} {s s' : Store} (h : Reachable s)
    (hc : step (.deleteWeights name (.rows rows)) s = (s', .ok ())) (hw : deleteWeightsWarning name rows s = []) :
    deleteWeightsCounter name rows s = List.replicate rows.length .deleted := by
  obtain ⟨⟨g, t, -, -, ha, -⟩, hn, -⟩ := C103_delete_weights h hc
  refine replicate_of (by decide) hn fun k hk => ?_
  by_contra hne
  have hk' := ha.keys (fun s r ks s' h k hk => show k ∈ [Key.deleted, .mismatch, .noIndex, .noWeight] by
    cases h <;> simp_all) k hk
  have : (k, (deleteWeightsCounter name rows s).count k) ∈ deleteWeightsWarning name rows s :=
    (C103_log _).2 ⟨by simp only [List.mem_cons] at hk' ⊢; exact hk'.resolve_left hne, hk, rfl⟩
  rw [hw] at this
  cases this

/-! ### Mappings -/

/-- `insert_mappings`. -/
theorem C103_insert_mappings {ref : PyStr} {name : Option PyStr} {colsOk : Bool} {rows : List MapRow} {s s' : Store} (h : Reachable s)
    (hc : step (.insertMappings ref name colsOk rows) s = (s', .ok ())) :
    (∃ l t, getLink s.links ref name = .ok l ∧
      Account (InsertMappingRow l.id) s rows (insertMappingsCounter ref name rows s) t ∧ s'.index = t.index ∧
      s'.maps.map Mapping.content = t.maps.map Mapping.content) ∧
    (insertMappingsCounter ref name rows s).countP (fun k => k != .merged) = rows.length ∧
    (∃ kept, kept.Sublist rows ∧ step (.insertMappings ref name colsOk kept) s = (s', .ok ()) ∧
      insertMappingsCounter ref name kept s = (insertMappingsCounter ref name rows s).filter fun k => !k.skip) := by
  have hb := call_ok hc rfl
  unfold insertMappings at hb
  rw [ite_ok] at hb
  obtain ⟨_, hb⟩ | ⟨hco, hb⟩ := hb
  · exact (throw_ok.1 hb).elim
  obtain ⟨_, _, hgt, hb⟩ := bind_ok.1 hb
  cases get_ok.1 hgt
  obtain ⟨l, s1, h0, hb⟩ := bind_ok.1 hb
  obtain ⟨l', hl, h0⟩ := liftE_ok.1 h0
  cases h0
  obtain ⟨b, t, h1, h2⟩ := bind_ok.1 hb
  have hcnt : ∀ rows, insertMappingsCounter ref name rows s = counted (insertMappingRow l.id) insertMappingKeys false rows s := by
    intro rows
    unfold insertMappingsCounter
    rw [hl]
  have hinv : ∀ a r s a' s', (IndexInv s ∧ MapInv s) → insertMappingRow l.id a r s = .ok (a', s') → IndexInv s' ∧ MapInv s' := by
    intro a r s a' s' hp h
    have := (insertMappingRow_does ..).steps _ _ _ h
    exact ⟨this.invariant (fun _ _ _ _ hp h => h.prim hp) hp.1, this.invariant (fun _ _ _ _ hp h => h.prim hp) hp.2⟩
  have ha : Account (InsertMappingRow l.id) s rows (insertMappingsCounter ref name rows s) t := by
    rw [hcnt]
    exact account_of (f := insertMappingRow l.id) (keys := insertMappingKeys) (P := fun s => IndexInv s ∧ MapInv s)
      (fun _ _ _ _ _ hp h => (insertMappingRow_report hp.1.idsNodup h).1) hinv ⟨h.indexInv, h.mapInv⟩ h1
  have hmt : MapInv t := (foldlM_inv (P := fun _ s => IndexInv s ∧ MapInv s)
    (fun r _ a s a' s' hp h => hinv a r s a' s' hp h) ⟨h.indexInv, h.mapInv⟩ h1).2
  refine ⟨⟨l, t, hl, ha, ?_⟩, ha.length ?_, ?_⟩
  · obtain ⟨_, h2⟩ | ⟨_, rfl⟩ := whenM_ok.1 h2
    · rw [refreshLink_ok hmt.ids h2]
      exact ⟨rfl, refreshMaps_map Mapping.content (fun _ _ => rfl) t.maps fun k o => k == l.id && decide (0 ≤ o)⟩
    · exact ⟨rfl, rfl⟩
  · intro s r ks s' h
    cases h <;> rfl
  · obtain ⟨kept, k1, k2, k3⟩ := keep_ofP (P := fun s => IndexInv s ∧ MapInv s) (f := insertMappingRow l.id) (keys := insertMappingKeys)
      (fun _ _ _ _ _ hp h => (insertMappingRow_report hp.1.idsNodup h).2) hinv ⟨h.indexInv, h.mapInv⟩ h1
    refine ⟨kept, k1, ?_, by rw [hcnt, hcnt]; exact k3⟩
    rw [← hc]
    refine step_congr rfl rfl ?_
    unfold insertMappings
    rw [if_neg hco, if_neg hco]
    rw [bind_ok.2 ⟨s, s, rfl, bind_ok.2 ⟨l, s, liftE_ok.2 ⟨l, hl, rfl⟩, bind_ok.2 ⟨b, t, k2, h2⟩⟩⟩,
      bind_ok.2 ⟨s, s, rfl, bind_ok.2 ⟨l, s, liftE_ok.2 ⟨l, hl, rfl⟩, bind_ok.2 ⟨b, t, h1, h2⟩⟩⟩]

/-- If `insert_mappings` gives no warning, every row added a mapping. -/
theorem C103_insert_mappings_silent {ref : PyStr} {name : Option PyStr} {colsOk : Bool} {rows : List MapRow} {s s' : Store}
    (h : Reachable s) (hc : step (.insertMappings ref name colsOk rows) s = (s', .ok ()))
    (hw : insertMappingsWarning ref name rows s = none) :
    insertMappingsCounter ref name rows s = List.replicate rows.length .inserted :=
  replicate_of (by decide) (C103_insert_mappings h hc).2.1 ((C103_silence _ _).1 hw)

/-- `update_mappings`. -/
theorem C103_update_mappings {ref : PyStr} {name : Option PyStr} {colsOk : Bool} {rows : List MapRow} {s s' : Store} (h : Reachable s)
    (hc : step (.updateMappings ref name colsOk rows) s = (s', .ok ())) :
    (∃ l t, getLink s.links ref name = .ok l ∧
      Account (UpdateMappingRow l.id) s rows (updateMappingsCounter ref name rows s) t ∧ s'.index = t.index ∧
      s'.maps.map Mapping.content = t.maps.map Mapping.content) ∧
    (updateMappingsCounter ref name rows s).countP (fun k => k != .merged) = rows.length ∧
    (∃ kept, kept.Sublist rows ∧ step (.updateMappings ref name colsOk kept) s = (s', .ok ()) ∧
      updateMappingsCounter ref name kept s = (updateMappingsCounter ref name rows s).filter fun k => !k.skip) := by
  have hb := call_ok hc rfl
  unfold updateMappings at hb
  rw [ite_ok] at hb
  obtain ⟨_, hb⟩ | ⟨hco, hb⟩ := hb
  · exact (throw_ok.1 hb).elim
  obtain ⟨_, _, hgt, hb⟩ := bind_ok.1 hb
  cases get_ok.1 hgt
  obtain ⟨l, s1, h0, hb⟩ := bind_ok.1 hb
  obtain ⟨l', hl, h0⟩ := liftE_ok.1 h0
  cases h0
  obtain ⟨b, t, h1, h2⟩ := bind_ok.1 hb
  have hcnt : ∀ rows, updateMappingsCounter ref name rows s = counted (updateMappingRow l.id) (updateMappingKeys l.id) (false, false) rows s := by
    intro rows
    unfold updateMappingsCounter
    rw [hl]
  have hinv : ∀ a r s a' s', (IndexInv s ∧ MapInv s) → updateMappingRow l.id a r s = .ok (a', s') → IndexInv s' ∧ MapInv s' := by
    intro a r s a' s' hp h
    have := (updateMappingRow_does ..).steps _ _ _ h
    exact ⟨this.invariant (fun _ _ _ _ hp h => h.prim hp) hp.1, this.invariant (fun _ _ _ _ hp h => h.prim hp) hp.2⟩
  have ha : Account (UpdateMappingRow l.id) s rows (updateMappingsCounter ref name rows s) t := by
    rw [hcnt]
    exact account_of (f := updateMappingRow l.id) (keys := (updateMappingKeys l.id)) (P := fun s => IndexInv s ∧ MapInv s)
      (fun _ _ _ _ _ hp h => (updateMappingRow_report hp.1.idsNodup h).1) hinv ⟨h.indexInv, h.mapInv⟩ h1
  have hmt : MapInv t := (foldlM_inv (P := fun _ s => IndexInv s ∧ MapInv s)
    (fun r _ a s a' s' hp h => hinv a r s a' s' hp h) ⟨h.indexInv, h.mapInv⟩ h1).2
  refine ⟨⟨l, t, hl, ha, ?_⟩, ha.length ?_, ?_⟩
  · rw [ite_ok] at h2
    obtain ⟨_, h2⟩ | ⟨_, h2⟩ := h2
    · rw [refreshLink_ok hmt.ids h2]
      exact ⟨rfl, refreshMaps_map Mapping.content (fun _ _ => rfl) t.maps fun k o => k == l.id && decide (0 ≤ o)⟩
    · rw [ite_ok] at h2
      obtain ⟨_, h2⟩ | ⟨_, h2⟩ := h2
      · obtain ⟨_, _, hgt, h2⟩ := bind_ok.1 h2
        cases get_ok.1 hgt
        rw [forM_refresh hmt.ids h2]
        exact ⟨rfl, refreshMaps_map Mapping.content (fun _ _ => rfl) t.maps fun k o =>
          k == l.id && decide (o ∈ t.distinctOthers l.id)⟩
      · cases pure_ok.1 h2
        exact ⟨rfl, rfl⟩
  · intro s r ks s' h
    cases h <;> rfl
  · obtain ⟨kept, k1, k2, k3⟩ := keep_ofP (P := fun s => IndexInv s ∧ MapInv s) (f := updateMappingRow l.id) (keys := (updateMappingKeys l.id))
      (fun _ _ _ _ _ hp h => (updateMappingRow_report hp.1.idsNodup h).2) hinv ⟨h.indexInv, h.mapInv⟩ h1
    refine ⟨kept, k1, ?_, by rw [hcnt, hcnt]; exact k3⟩
    rw [← hc]
    refine step_congr rfl rfl ?_
    unfold updateMappings
    rw [if_neg hco, if_neg hco]
    rw [bind_ok.2 ⟨s, s, rfl, bind_ok.2 ⟨l, s, liftE_ok.2 ⟨l, hl, rfl⟩, bind_ok.2 ⟨b, t, k2, h2⟩⟩⟩,
      bind_ok.2 ⟨s, s, rfl, bind_ok.2 ⟨l, s, liftE_ok.2 ⟨l, hl, rfl⟩, bind_ok.2 ⟨b, t, h1, h2⟩⟩⟩]

/-- If `update_mappings` gives no warning, every row changed a mapping that was there before. -/
theorem C103_update_mappings_silent {ref : PyStr} {name : Option PyStr} {colsOk : Bool} {rows : List MapRow} {s s' : Store}
    (h : Reachable s) (hc : step (.updateMappings ref name colsOk rows) s = (s', .ok ()))
    (hw : updateMappingsWarning ref name rows s = none) :
    updateMappingsCounter ref name rows s = List.replicate rows.length .updated :=
  replicate_of (by decide) (C103_update_mappings h hc).2.1 ((C103_silence _ _).1 hw)

/-- `delete_mappings`. -/
theorem C103_delete_mappings {ref : PyStr} {name : Option PyStr} {colsOk : Bool} {rows : List MapRow} {s s' : Store} (h : Reachable s)
    (hc : step (.deleteMappings ref name colsOk (.rows rows)) s = (s', .ok ())) :
    (∃ l t, getLink s.links ref name = .ok l ∧
      Account (DeleteMappingRow l.id) s rows (deleteMappingsCounter ref name rows s) t ∧ s'.index = t.index ∧
      s'.maps.map Mapping.content = t.maps.map Mapping.content) ∧
    (deleteMappingsCounter ref name rows s).countP (fun k => k != .merged) = rows.length ∧
    (∃ kept, kept.Sublist rows ∧ ((kept = [] ∧ s' = s) ∨ step (.deleteMappings ref name colsOk (.rows kept)) s = (s', .ok ())) ∧
      deleteMappingsCounter ref name kept s = (deleteMappingsCounter ref name rows s).filter fun k => !k.skip) := by
  have hb := call_ok hc rfl
  unfold deleteMappings at hb
  obtain ⟨_, _, hgt, hb⟩ := bind_ok.1 hb
  cases get_ok.1 hgt
  obtain ⟨l, s1, h0, hb⟩ := bind_ok.1 hb
  obtain ⟨l', hl, h0⟩ := liftE_ok.1 h0
  cases h0
  rw [ite_ok] at hb
  obtain ⟨_, hb⟩ | ⟨hne, hb⟩ := hb
  · exact (throw_ok.1 hb).elim
  obtain ⟨b, t, h0, h2⟩ := bind_ok.1 hb
  have h1 := h0
  unfold deleteMappingTarget at h1
  simp only at h1
  rw [ite_ok] at h1
  obtain ⟨_, h1⟩ | ⟨hco, h1⟩ := h1
  · exact (throw_ok.1 h1).elim
  have hcnt : ∀ rows, deleteMappingsCounter ref name rows s = counted (deleteMappingRow l.id) (deleteMappingKeys l.id) false rows s := by
    intro rows
    unfold deleteMappingsCounter
    rw [hl]
  have hinv : ∀ a r s a' s', (IndexInv s ∧ MapInv s) → deleteMappingRow l.id a r s = .ok (a', s') → IndexInv s' ∧ MapInv s' := by
    intro a r s a' s' hp h
    have := (deleteMappingRow_does ..).steps _ _ _ h
    exact ⟨this.invariant (fun _ _ _ _ hp h => h.prim hp) hp.1, this.invariant (fun _ _ _ _ hp h => h.prim hp) hp.2⟩
  have ha : Account (DeleteMappingRow l.id) s rows (deleteMappingsCounter ref name rows s) t := by
    rw [hcnt]
    exact account_of (f := deleteMappingRow l.id) (keys := (deleteMappingKeys l.id)) (P := fun s => IndexInv s ∧ MapInv s)
      (fun _ _ _ _ _ hp h => (deleteMappingRow_report hp.1.idsNodup h).1) hinv ⟨h.indexInv, h.mapInv⟩ h1
  have hmt : MapInv t := (foldlM_inv (P := fun _ s => IndexInv s ∧ MapInv s)
    (fun r _ a s a' s' hp h => hinv a r s a' s' hp h) ⟨h.indexInv, h.mapInv⟩ h1).2
  refine ⟨⟨l, t, hl, ha, ?_⟩, ha.length ?_, ?_⟩
  · obtain ⟨_, h2⟩ | ⟨_, rfl⟩ := whenM_ok.1 h2
    · rw [refreshLink_ok hmt.ids h2]
      exact ⟨rfl, refreshMaps_map Mapping.content (fun _ _ => rfl) t.maps fun k o => k == l.id && decide (0 ≤ o)⟩
    · exact ⟨rfl, rfl⟩
  · intro s r ks s' h
    cases h <;> rfl
  · obtain ⟨kept, k1, k2, k3⟩ := keep_ofP (P := fun s => IndexInv s ∧ MapInv s) (f := deleteMappingRow l.id) (keys := (deleteMappingKeys l.id))
      (fun _ _ _ _ _ hp h => (deleteMappingRow_report hp.1.idsNodup h).2) hinv ⟨h.indexInv, h.mapInv⟩ h1
    refine ⟨kept, k1, ?_, by rw [hcnt, hcnt]; exact k3⟩
    by_cases hk : kept = []
    · left
      obtain ⟨rfl, rfl⟩ := keep_or k2 hk
      exact ⟨hk, by simpa using whenM_ok.1 h2⟩
    · right
      rw [← hc]
      refine step_congr rfl rfl ?_
      unfold deleteMappings
      have hne' : ¬ (Target.rows kept).isEmpty = true := by simp [Target.isEmpty, hk]
      have k0 : deleteMappingTarget l.id colsOk (.rows kept) s = .ok (b, t) := by
        unfold deleteMappingTarget
        exact ite_ok.2 (.inr ⟨hco, k2⟩)
      rw [bind_ok.2 ⟨s, s, rfl, bind_ok.2 ⟨l, s, liftE_ok.2 ⟨l, hl, rfl⟩, ite_ok.2 (.inr ⟨hne',
          bind_ok.2 ⟨b, t, k0, h2⟩⟩)⟩⟩,
        bind_ok.2 ⟨s, s, rfl, bind_ok.2 ⟨l, s, liftE_ok.2 ⟨l, hl, rfl⟩, ite_ok.2 (.inr ⟨hne,
          bind_ok.2 ⟨b, t, h0, h2⟩⟩)⟩⟩]

/-- If `delete_mappings` gives no warning, every row deleted a mapping. -/
theorem C103_delete_mappings_silent {ref : PyStr} {name : Option PyStr} {colsOk : Bool} {rows : List MapRow} {s s' : Store}
    (h : Reachable s) (hc : step (.deleteMappings ref name colsOk (.rows rows)) s = (s', .ok ()))
    (hw : deleteMappingsWarning ref name rows s = none) :
    deleteMappingsCounter ref name rows s = List.replicate rows.length .deleted :=
  replicate_of (by decide) (C103_delete_mappings h hc).2.1 ((C103_silence _ _).1 hw)

/-! ### What the warnings say -/

/-- A warning of these methods names every heading under which a row was counted, with the exact number, and the
numbers add up. -/
theorem C103_warning_complete {e : Key} {ks : List Key} {parts : List (Key × Nat)} (h : warnIfIssues e ks = some parts)
    (hk : (∃ merge rows s, ks = updateIndexCounter merge rows s) ∨ (∃ rows s, ks = deleteIndexCounter rows s) ∨
      (∃ ref name rows s, ks = insertMappingsCounter ref name rows s) ∨
      (∃ ref name rows s, ks = updateMappingsCounter ref name rows s) ∨
      ∃ ref name rows s, ks = deleteMappingsCounter ref name rows s) :
    (∀ q ∈ parts, q.2 = ks.count q.1) ∧ (∀ k ∈ ks, (k, ks.count k) ∈ parts) ∧ (parts.map (·.1)).Nodup ∧
      (parts.map (·.2)).sum = ks.length := by
  refine C103_warning ?_ h
  obtain ⟨m, rows, s, rfl⟩ | ⟨rows, s, rfl⟩ | ⟨ref, name, rows, s, rfl⟩ | ⟨ref, name, rows, s, rfl⟩ |
    ⟨ref, name, rows, s, rfl⟩ := hk
  · exact counted_keys updateIndexKeys_order _ _ _
  · exact counted_keys deleteIndexKeys_order _ _ _
  · unfold insertMappingsCounter
    split
    · exact counted_keys (fun s r => mapRowKeys_order (by simp [warningOrder])) _ _ _
    · simp
  · unfold updateMappingsCounter
    split
    · exact counted_keys (fun s r => mapRowKeys_order (by split <;> simp [warningOrder])) _ _ _
    · simp
  · unfold deleteMappingsCounter
    split
    · exact counted_keys (deleteMappingKeys_order _) _ _ _
    · simp

/-! ### Examples -/

namespace Demo

/-- The dataspace of `Demo` with one more record, which has no weights and no mappings. -/
def four : Store := run [.insertIndex none [] .abort .abort [⟨none, some [ly, l2], []⟩]] store

theorem four_reachable : Reachable four :=
  ⟨['u'], ops ++ [.insertIndex none [] .abort .abort [⟨none, some [ly, l2], []⟩]], by
    unfold four store run
    rw [List.foldl_append]⟩

/-- Rows that are applied, merged and left out. -/
def fourRows : List (Nat × List PyStr) :=
  [(4, [['z'], l2]), (9, [['z'], l2]), (1, [[], []]), (3, [['z'], l2])]

end Demo

example : (step (.updateIndex true Demo.fourRows) Demo.four).2.toBool = true ∧
    updateIndexWarning true Demo.fourRows Demo.four =
      some [(.emptyStr, 1), (.noIndex, 1), (.merged, 1), (.updated, 2)] := by
  decide +kernel

example : (step (.updateIndex false [(3, [['z'], Demo.l2])]) Demo.four).2.toBool = true ∧
    updateIndexWarning false [(3, [['z'], Demo.l2])] Demo.four = none := by
  decide +kernel

example : (step (.deleteIndex (.rows [(4, [Demo.ly, Demo.l2]), (4, [Demo.ly, Demo.l2]), (3, [Demo.lx, Demo.l1])]))
      Demo.four).2.toBool = true ∧
    deleteIndexWarning [(4, [Demo.ly, Demo.l2]), (4, [Demo.ly, Demo.l2]), (3, [Demo.lx, Demo.l1])] Demo.four =
      some [(.noIndex, 1), (.mismatch, 1), (.deleted, 1)] := by
  decide +kernel

example : (step (.insertWeights Demo.wname .sum [⟨some 4, [Demo.ly, Demo.l2], some 2⟩, ⟨none, [Demo.lx, Demo.l1], some 2⟩,
      ⟨none, [Demo.lx, Demo.l1], none⟩, ⟨none, [Demo.ly, Demo.lx], some 1⟩]) Demo.four).2.toBool = true ∧
    insertWeightsWarning Demo.wname .sum [⟨some 4, [Demo.ly, Demo.l2], some 2⟩, ⟨none, [Demo.lx, Demo.l1], some 2⟩,
      ⟨none, [Demo.lx, Demo.l1], none⟩, ⟨none, [Demo.ly, Demo.lx], some 1⟩] Demo.four =
      [(.summed, 1), (.notRealnum, 1), (.noMatch, 1)] := by
  decide +kernel

example : (step (.updateWeights Demo.wname [(1, [Demo.lx, Demo.l1], 8), (4, [Demo.ly, Demo.l2], 2)]) Demo.four).2.toBool =
      true ∧
    updateWeightsWarning Demo.wname [(1, [Demo.lx, Demo.l1], 8), (4, [Demo.ly, Demo.l2], 2)] Demo.four =
      [(.inserted, 1)] := by
  decide +kernel

example : (step (.deleteWeights Demo.wname (.rows [(1, [Demo.lx, Demo.l1]), (4, [Demo.ly, Demo.l2])])) Demo.four).2.toBool =
      true ∧
    deleteWeightsWarning Demo.wname [(1, [Demo.lx, Demo.l1]), (4, [Demo.ly, Demo.l2])] Demo.four = [(.noWeight, 1)] := by
  decide +kernel

namespace Demo

/-- Mappings, the second onto a record that does not exist, the third with labels of another record. -/
def fourMaps : List MapRow :=
  [⟨5, 2, 4, [ly, l2], some [0xC0#8]⟩, ⟨5, 2, 9, [ly, l2], some [0xC0#8]⟩, ⟨5, 2, 3, [ly, l2], some [0xC0#8]⟩]

end Demo

example : (step (.insertMappings Demo.other none true Demo.fourMaps) Demo.four).2.toBool = true ∧
    insertMappingsWarning Demo.other none Demo.fourMaps Demo.four =
      some [(.noIndex, 1), (.mismatch, 1), (.inserted, 1)] := by
  decide +kernel

example : (step (.updateMappings Demo.other none true (⟨2, 7, 3, [Demo.ly, Demo.l1], some [0xC0#8]⟩ :: Demo.fourMaps))
      Demo.four).2.toBool = true ∧
    updateMappingsWarning Demo.other none (⟨2, 7, 3, [Demo.ly, Demo.l1], some [0xC0#8]⟩ :: Demo.fourMaps) Demo.four =
      some [(.noIndex, 1), (.mismatch, 1), (.inserted, 1), (.updated, 1)] := by
  decide +kernel

example : (step (.deleteMappings Demo.other none true (.rows (⟨2, 30, 3, [Demo.ly, Demo.l1], some [0xC0#8]⟩ :: Demo.fourMaps)))
      Demo.four).2.toBool = true ∧
    deleteMappingsWarning Demo.other none (⟨2, 30, 3, [Demo.ly, Demo.l1], some [0xC0#8]⟩ :: Demo.fourMaps) Demo.four =
      some [(.noIndex, 1), (.mismatch, 1), (.noMapping, 1), (.deleted, 1)] := by
  decide +kernel

/-- C103 is violated by `update_index` with merging if a row gives a record the labels that it already has: the record
is taken for a duplicate of itself and deleted, and the row is reported as updated. -/
theorem C103_violated : ∃ (s : Store) (row : Nat × List PyStr), Reachable s ∧ s.IsRecord row.1 row.2 ∧
    (step (.updateIndex true [row]) s).2.toBool = true ∧
    updateIndexWarning true [row] s = some [(.merged, 1), (.updated, 1)] ∧
    ¬ (step (.updateIndex true [row]) s).1.HasId row.1 := by
  refine ⟨Demo.four, (4, [Demo.ly, Demo.l2]), Demo.four_reachable, ?_, ?_, ?_, ?_⟩
  · unfold Store.IsRecord
    decide +kernel
  · decide +kernel
  · decide +kernel
  · unfold Store.HasId
    decide +kernel

end Toron.Space
