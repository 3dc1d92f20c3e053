/-
C77: correcting and deleting weights (`update_weights`, `delete_weights` in `src/toron/space.py`).
-/
import Verif.Lemmas.Store.WeightEdit
import Verif.Props.StoreSelect
import Verif.Demo

namespace Toron.Space

open Toron.Selectors (PyStr)

private theorem getByName_run {s : Store} (hw : WeightInv s) {g : WGroup} (hg : g ∈ s.wgroups) :
    wgroupGetByName g.name s = .ok (g, s) := by
  have hfind : s.findWGroup g.name = some g := (find_nodup_iff hw.names).2 ⟨hg, rfl⟩
  unfold wgroupGetByName
  refine bind_ok.2 ⟨s, s, rfl, ?_⟩
  rw [hfind]
  rfl

private theorem getByName_none {s : Store} {name : PyStr} (hn : ∀ g ∈ s.wgroups, g.name ≠ name) :
    ∃ e, wgroupGetByName name s = .error e := by
  have hfind : s.findWGroup name = none := by
    unfold Store.findWGroup
    rw [List.find?_eq_none]
    intro g hg
    simpa using hn g hg
  unfold wgroupGetByName
  rw [get_bind, hfind]
  exact ⟨_, rfl⟩

private theorem mapNames {f : WGroup → WGroup} (hf : ∀ g, (f g).id = g.id ∧ (f g).name = g.name) (gs : List WGroup) :
    (gs.map f).map (fun g => (g.id, g.name)) = gs.map fun g => (g.id, g.name) := by
  rw [List.map_map]
  apply List.map_congr_left
  intro g _
  show ((f g).id, (f g).name) = _
  rw [(hf g).1, (hf g).2]

/-- From the weights of a group by its number to the weights by its name. -/
private theorem named {s : Store} (hw : WeightInv s) {g : WGroup} (hg : g ∈ s.wgroups) {ws : List Weight}
    (hinv : WeightInv { s with weights := ws }) {f : WGroup → WGroup} (hf : ∀ g, (f g).id = g.id ∧ (f g).name = g.name)
    {new : Nat → Option ℚ} (hof : ∀ g' i, Store.weightOf { s with weights := ws } g' i =
      if g' = g.id then new i else s.weightOf g' i) :
    (∀ i, Store.WeightIs { s with weights := ws, wgroups := s.wgroups.map f } g.name i (new i)) ∧
    ∀ n ≠ g.name, ∀ i x, Store.HasWeight { s with weights := ws, wgroups := s.wgroups.map f } n i x ↔
      s.HasWeight n i x := by
  refine ⟨fun i x => ?_, fun n hn i x => ?_⟩
  · have h1 : Store.HasWeight { s with weights := ws, wgroups := s.wgroups.map f } g.name i x ↔
        Store.HasWeight { s with weights := ws } g.name i x :=
      hasWeight_congr (s := { s with weights := ws }) (t := { s with weights := ws, wgroups := s.wgroups.map f })
        hinv.pairs hinv.pairs (mapNames hf _) (fun _ _ _ => rfl)
    rw [h1, ← (weightIs_iff hinv hg).2 rfl, hof, if_pos rfl]
  · refine hasWeight_congr (s := s) (t := { s with weights := ws, wgroups := s.wgroups.map f }) hw.pairs hinv.pairs
      (mapNames hf _) fun g' hg' hn' => ?_
    have := hof g'.id i
    rw [if_neg] at this
    · exact this
    · intro he
      exact hn (hn' ▸ congrArg WGroup.name (List.inj_on_of_nodup_map hw.gids hg' hg he))

private theorem covers_iff {s : Store} (hw : WeightInv s) {g : WGroup} (hg : g ∈ s.wgroups) :
    s.wgroupIsComplete g.id = true ↔ s.Covers g.name := by
  unfold Store.wgroupIsComplete Store.Covers
  rw [List.all_eq_true]
  apply forall₂_congr
  intro r _
  rw [Bool.or_eq_true, beq_iff_eq, List.any_eq_true]
  constructor
  · rintro (h | ⟨w, hwm, h⟩) h0
    · exact absurd h h0
    · simp only [Bool.and_eq_true, beq_iff_eq] at h
      exact ⟨w.value, g, hg, rfl, w, hwm, h.1, h.2, rfl⟩
  · intro h
    by_cases h0 : r.id = 0
    · exact .inl h0
    · obtain ⟨x, g', hg', hn, w, hwm, h1, h2, -⟩ := h h0
      refine .inr ⟨w, hwm, ?_⟩
      rw [List.inj_on_of_nodup_map hw.names hg' hg hn] at h1
      simp [h1, h2]

open Classical in
/-- C77, correcting. The call succeeds exactly if every value for a record is at least zero and none is for the
undefined record. Then the weight of each record in the group is the last value given for it, or what it was before;
the weights of the other groups stay; the group is marked complete if it got a weight that was missing and now covers
every record, and no other mark changes. Otherwise nothing changes. -/
theorem C77_update {s : Store} (hr : Reachable s) {name : PyStr} (hg : ∃ g ∈ s.wgroups, g.name = name)
    (rows : List (Nat × List PyStr × ℚ)) {old : Nat → Option ℚ} (hold : ∀ i, s.WeightIs name i (old i)) :
    ((∀ i, ∀ v ∈ s.updatesFor rows i, i ≠ 0 ∧ 0 ≤ v) →
      (step (.updateWeights name rows) s).2 = .ok () ∧
      (∀ i, (step (.updateWeights name rows) s).1.WeightIs name i (lastOr (old i) (s.updatesFor rows i))) ∧
      (∀ n ≠ name, ∀ i x, (step (.updateWeights name rows) s).1.HasWeight n i x ↔ s.HasWeight n i x) ∧
      (step (.updateWeights name rows) s).1.wgroups = s.wgroups.map fun g =>
        if g.name = name ∧ (∃ i, old i = none ∧ s.updatesFor rows i ≠ []) ∧
          (step (.updateWeights name rows) s).1.Covers name then { g with complete := true } else g) ∧
    (¬ (∀ i, ∀ v ∈ s.updatesFor rows i, i ≠ 0 ∧ 0 ≤ v) →
      (step (.updateWeights name rows) s).2 ≠ .ok () ∧ (step (.updateWeights name rows) s).1 = s) := by
  obtain ⟨g, hg, rfl⟩ := hg
  have hw := hr.weightInv
  have hold' : ∀ i, old i = s.weightOf g.id i := fun i => (weightIs_iff hw hg).1 (hold i)
  simp only [hold']
  have hstep : step (.updateWeights g.name rows) s = runTx (updateWeights g.name rows) s := rfl
  rw [hstep]
  rcases updateWeightRows_spec rows hw hr.indexInv ⟨g, hg, rfl⟩ false with
    ⟨hc, c, ws, hok, hinv, hidx, hof, hcount⟩ | ⟨hc, e, herr⟩
  · refine ⟨fun _ => ?_, fun h => absurd hc h⟩
    let P : Prop := c = true ∧ Store.wgroupIsComplete { s with weights := ws } g.id = true
    let f : WGroup → WGroup := fun x => if x.name = g.name ∧ P then { x with complete := true } else x
    have hf : ∀ x, (f x).id = x.id ∧ (f x).name = x.name := by
      intro x
      simp only [f]
      split <;> exact ⟨rfl, rfl⟩
    have hafter : afterWeights g c { s with weights := ws } =
        .ok ((), { s with weights := ws, wgroups := s.wgroups.map f }) := by
      unfold afterWeights
      rw [get_bind]
      by_cases hP : P
      · refine whenM_ok.2 (.inl ⟨by rw [hP.1, hP.2]; rfl, ?_⟩)
        rw [wgroupUpdate_flag (s := { s with weights := ws }) hinv hg true]
        congr 3
        apply List.map_congr_left
        intro x _
        simp only [f, hP, and_true]
      · refine whenM_ok.2 (.inr ⟨?_, ?_⟩)
        · rw [Bool.eq_false_iff, Ne, Bool.and_eq_true]; exact hP
        · have : s.wgroups.map f = s.wgroups := by
            conv_rhs => rw [← List.map_id s.wgroups]
            apply List.map_congr_left
            intro x _
            simp only [f, hP, and_false, if_false, id]
          rw [this]
    have hrun : updateWeights g.name rows s = .ok ((), { s with weights := ws, wgroups := s.wgroups.map f }) :=
      bind_ok.2 ⟨g, s, getByName_run hw hg, bind_ok.2 ⟨c, _, hok, hafter⟩⟩
    have htx : runTx (updateWeights g.name rows) s =
        ({ s with weights := ws, wgroups := s.wgroups.map f }, .ok ()) := by
      unfold runTx
      rw [hrun]
      show (if fkOk { s with weights := ws, wgroups := s.wgroups.map f } = true then _ else _) = _
      rw [if_pos (fkOk_weights hr.fkOk hidx)]
    obtain ⟨h1, h2⟩ := named hw hg hinv hf hof
    rw [htx]
    refine ⟨rfl, h1, h2, ?_⟩
    show s.wgroups.map f = _
    have hcov : Store.wgroupIsComplete { s with weights := ws } g.id = true ↔
        Store.Covers { s with weights := ws, wgroups := s.wgroups.map f } g.name := by
      rw [covers_iff (s := { s with weights := ws }) hinv hg]
      unfold Store.Covers
      apply forall₂_congr
      intro r _
      apply imp_congr_right
      intro _
      apply exists_congr
      intro x
      exact (hasWeight_congr (s := { s with weights := ws }) (t := { s with weights := ws, wgroups := s.wgroups.map f })
        hinv.pairs hinv.pairs (mapNames hf _) (fun _ _ _ => rfl)).symm
    apply List.map_congr_left
    intro x _
    have hPiff : (x.name = g.name ∧ P) ↔ (x.name = g.name ∧ (∃ i, s.weightOf g.id i = none ∧ s.updatesFor rows i ≠ []) ∧
        Store.Covers { s with weights := ws, wgroups := s.wgroups.map f } g.name) := by
      rw [← hcov]
      simp only [P]
      rw [hcount]
      simp
    by_cases h : x.name = g.name ∧ P
    · simp only [f]; rw [if_pos h, if_pos (hPiff.1 h)]
    · simp only [f]; rw [if_neg h, if_neg (fun h' => h (hPiff.2 h'))]
  · refine ⟨fun h => absurd h hc, fun _ => ?_⟩
    have : updateWeights g.name rows s = .error e := by
      unfold updateWeights
      simp only [bind, StateT.bind, Except.bind]
      rw [getByName_run hw hg]
      dsimp only
      rw [herr]
    unfold runTx
    rw [this]
    exact ⟨(nomatch ·), rfl⟩

/-- Correcting the weights of a group that does not exist fails and changes nothing. -/
theorem C77_update_unknown (s : Store) {name : PyStr} (hn : ∀ g ∈ s.wgroups, g.name ≠ name)
    (rows : List (Nat × List PyStr × ℚ)) :
    (step (.updateWeights name rows) s).2 ≠ .ok () ∧ (step (.updateWeights name rows) s).1 = s := by
  obtain ⟨e, he⟩ := getByName_none hn
  have : updateWeights name rows s = .error e := by
    unfold updateWeights
    simp only [bind, StateT.bind, Except.bind]
    rw [he]
  show (runTx (updateWeights name rows) s).2 ≠ _ ∧ (runTx (updateWeights name rows) s).1 = s
  unfold runTx
  rw [this]
  exact ⟨(nomatch ·), rfl⟩

private theorem deleteTarget_run {s : Store} (hr : Reachable s) (g : Nat) {t : Target (Nat × List PyStr)}
    (hu : s.Usable t) :
    ∃ is : List Nat, (∀ i, i ∈ is ↔ s.Chosen t i) ∧
      deleteWeightTarget g t s = is.foldlM (deleteWeightOf g) false s := by
  cases t with
  | rows rs =>
    refine ⟨(rs.filter fun row : Nat × List PyStr => decide ((⟨row.1, row.2⟩ : IndexRec) ∈ s.index)).map (·.1), fun i => ?_,
      ?_⟩
    swap
    · exact deleteWeightRows_eq (g := g) rs hr.weightInv hr.indexInv false
    rw [List.mem_map]
    constructor
    · rintro ⟨row, hrow, rfl⟩
      rw [List.mem_filter, decide_eq_true_eq] at hrow
      exact ⟨row.2, hrow.1, hrow.2⟩
    · rintro ⟨labels, h1, h2⟩
      exact ⟨(i, labels), List.mem_filter.2 ⟨h1, by simpa using h2⟩, rfl⟩
  | criteria cs =>
    refine ⟨(s.filterByLabel cs).map (·.id), fun i => ?_, rfl⟩
    rw [List.mem_map]
    constructor
    · rintro ⟨r, h, rfl⟩
      have := (mem_filterByLabel hr hu.2 true r).1 h
      exact ⟨r, this.1, rfl, this.2.1⟩
    · rintro ⟨r, h1, rfl, h2⟩
      exact ⟨r, (mem_filterByLabel hr hu.2 true r).2 ⟨h1, h2, .inl rfl⟩, rfl⟩

open Classical in
/-- C77, deleting. The call succeeds. Exactly the records meant lose their weight in the group; all other weights
stay; the group is no longer marked complete if a weight was deleted, and no other mark changes. -/
theorem C77_delete {s : Store} (hr : Reachable s) {name : PyStr} (hg : ∃ g ∈ s.wgroups, g.name = name)
    {t : Target (Nat × List PyStr)} (hu : s.Usable t) :
    (step (.deleteWeights name t) s).2 = .ok () ∧
    (∀ n i x, (step (.deleteWeights name t) s).1.HasWeight n i x ↔
      s.HasWeight n i x ∧ ¬ (n = name ∧ s.Chosen t i)) ∧
    (step (.deleteWeights name t) s).1.wgroups = s.wgroups.map fun g =>
      if g.name = name ∧ ∃ i x, s.Chosen t i ∧ s.HasWeight name i x then { g with complete := false } else g := by
  obtain ⟨g, hg, rfl⟩ := hg
  have hw := hr.weightInv
  obtain ⟨is, his, htarget⟩ := deleteTarget_run hr g.id hu
  obtain ⟨c, ws, hok, hsub, hof, hcount⟩ := deleteWeightsOf_run is hw (g := g.id) false
  have hinv := hw.sublist hsub
  let P : Prop := c = true
  let f : WGroup → WGroup := fun x => if x.name = g.name ∧ P then { x with complete := false } else x
  have hf : ∀ x, (f x).id = x.id ∧ (f x).name = x.name := by
    intro x
    simp only [f]
    split <;> exact ⟨rfl, rfl⟩
  have hafter : whenM (c && g.complete) (wgroupUpdate { g with complete := false }) { s with weights := ws } =
      .ok ((), { s with weights := ws, wgroups := s.wgroups.map f }) := by
    by_cases hP : P
    · by_cases hgc : g.complete = true
      · refine whenM_ok.2 (.inl ⟨by rw [hP, hgc]; rfl, ?_⟩)
        rw [wgroupUpdate_flag (s := { s with weights := ws }) hinv hg false]
        congr 3
        apply List.map_congr_left
        intro x _
        simp only [f, hP, and_true]
      · refine whenM_ok.2 (.inr ⟨by rw [Bool.eq_false_iff.2 hgc, Bool.and_false], ?_⟩)
        have : s.wgroups.map f = s.wgroups := by
          conv_rhs => rw [← List.map_id s.wgroups]
          apply List.map_congr_left
          intro x hx
          simp only [f, hP, and_true, id]
          by_cases hn : x.name = g.name
          · rw [if_pos hn]
            have := List.inj_on_of_nodup_map hw.names hx hg hn
            subst this
            rw [← Bool.eq_false_iff.2 hgc]
          · rw [if_neg hn]
        rw [this]
    · refine whenM_ok.2 (.inr ⟨?_, ?_⟩)
      · rw [Bool.eq_false_iff.2 hP]; rfl
      · have : s.wgroups.map f = s.wgroups := by
          conv_rhs => rw [← List.map_id s.wgroups]
          apply List.map_congr_left
          intro x _
          simp only [f, hP, and_false, if_false, id]
        rw [this]
  have hne : t.isEmpty = false := by
    cases t with
    | rows rs => exact List.isEmpty_eq_false_iff.2 hu
    | criteria cs => exact List.isEmpty_eq_false_iff.2 hu.1
  have hrun : deleteWeights g.name t s = .ok ((), { s with weights := ws, wgroups := s.wgroups.map f }) := by
    refine bind_ok.2 ⟨g, s, getByName_run hw hg, ?_⟩
    rw [if_neg (by simp [hne])]
    exact bind_ok.2 ⟨c, _, htarget.trans hok, hafter⟩
  have hstep : step (.deleteWeights g.name t) s =
      ({ s with weights := ws, wgroups := s.wgroups.map f }, .ok ()) := by
    show runTx (deleteWeights g.name t) s = _
    unfold runTx
    rw [hrun]
    show (if fkOk { s with weights := ws, wgroups := s.wgroups.map f } = true then _ else _) = _
    rw [if_pos (fkOk_weights hr.fkOk fun w hwm => .inr ⟨w, hsub.subset hwm, rfl⟩)]
  have hof' : ∀ g' i, Store.weightOf { s with weights := ws } g' i =
      if g' = g.id then (if i ∈ is then none else s.weightOf g.id i) else s.weightOf g' i := by
    intro g' i
    rw [hof]
    by_cases h1 : g' = g.id
    · subst h1
      by_cases h2 : i ∈ is <;> simp [h2]
    · simp [h1]
  obtain ⟨h1, h2⟩ := named hw hg hinv hf hof'
  have hgw : ∀ i x, s.HasWeight g.name i x ↔ s.weightOf g.id i = some x := fun i x =>
    ((weightIs_iff hw hg).2 rfl x).symm
  rw [hstep]
  refine ⟨rfl, fun n i x => ?_, ?_⟩
  · by_cases hn : n = g.name
    · subst hn
      rw [← h1 i x, hgw, ← his i]
      by_cases hi : i ∈ is <;> simp [hi]
    · rw [h2 n hn i x]
      simp [hn]
  · show s.wgroups.map f = _
    apply List.map_congr_left
    intro x _
    have hPiff : P ↔ ∃ i x, s.Chosen t i ∧ s.HasWeight g.name i x := by
      simp only [P]
      rw [hcount]
      simp only [Bool.false_eq_true, false_or, his, hgw]
      constructor
      · rintro ⟨i, hi, h⟩
        obtain ⟨x, hx⟩ := Option.ne_none_iff_exists'.1 h
        exact ⟨i, x, hi, hx⟩
      · rintro ⟨i, x, hi, hx⟩
        exact ⟨i, hi, by rw [hx]; simp⟩
    by_cases h : x.name = g.name ∧ P
    · simp only [f]; rw [if_pos h, if_pos ⟨h.1, hPiff.1 h.2⟩]
    · simp only [f]; rw [if_neg h, if_neg (fun h' => h ⟨h'.1, hPiff.2 h'.2⟩)]

/-- Deleting without saying what, or from a group that does not exist, fails and changes nothing. -/
theorem C77_delete_unknown (s : Store) {name : PyStr} {t : Target (Nat × List PyStr)}
    (h : t = .rows [] ∨ t = .criteria [] ∨ ∀ g ∈ s.wgroups, g.name ≠ name) :
    (step (.deleteWeights name t) s).2 ≠ .ok () ∧ (step (.deleteWeights name t) s).1 = s := by
  have : ∃ e, deleteWeights name t s = .error e := by
    unfold deleteWeights
    simp only [bind, StateT.bind, Except.bind]
    rcases hg : wgroupGetByName name s with e | ⟨g, s1⟩
    · exact ⟨e, rfl⟩
    · rcases h with rfl | rfl | h
      · exact ⟨_, rfl⟩
      · exact ⟨_, rfl⟩
      · obtain ⟨e, he⟩ := getByName_none h
        rw [he] at hg
        cases hg
  obtain ⟨e, this⟩ := this
  show (runTx (deleteWeights name t) s).2 ≠ _ ∧ (runTx (deleteWeights name t) s).1 = s
  unfold runTx
  rw [this]
  exact ⟨(nomatch ·), rfl⟩

/-- In the demonstration: a correction of one weight with the right labels and one with wrong labels. -/
example : (step (.updateWeights Demo.wname [(1, [Demo.lx, Demo.l1], 8), (2, [Demo.ly, Demo.l2], 9)]) Demo.store).1.weights
    = [⟨1, 1, 1, 8⟩, ⟨2, 1, 2, 1⟩, ⟨3, 1, 3, 5⟩] := by decide +kernel

/-- In the demonstration: deleting the weights of the records with the label `x` in column `A`. -/
example : (step (.deleteWeights Demo.wname (.criteria [(Demo.colA, Demo.lx)])) Demo.store).1.weights =
    [⟨3, 1, 3, 5⟩] := by decide +kernel

example : ∃ g ∈ Demo.store.wgroups, g.name = Demo.wname := by decide +kernel

example : Demo.store.Usable (.criteria [(Demo.colA, Demo.lx)]) := by
  refine ⟨by simp, fun c v h => ?_⟩
  rw [List.mem_singleton, Prod.mk.injEq] at h
  rw [h.1]
  decide +kernel

end Toron.Space
