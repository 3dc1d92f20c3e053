/-
Editing the weights of a group (C77).
-/
import Verif.Spec.WeightEdit
import Verif.Lemmas.Store.Policies
import Verif.Lemmas.Store.Exact
import Verif.Lemmas.Store.Complete

namespace Toron.Space

open Toron.Selectors (PyStr)

theorem get_bind {α : Type} {f : Store → M α} {s : Store} : ((get : M Store) >>= f) s = f s s := rfl

theorem find_id_iff {s : Store} (hi : IndexInv s) {id : Nat} {labels : List PyStr} :
    (∃ r, s.index.find? (fun r => r.id == id) = some r ∧ r.labels = labels) ↔ (⟨id, labels⟩ : IndexRec) ∈ s.index := by
  constructor
  · rintro ⟨r, hr, hl⟩
    have h1 := List.mem_of_find?_eq_some hr
    have h2 : r.id = id := by simpa using List.find?_some hr
    rw [← h2, ← hl]
    exact h1
  · intro h
    exact ⟨⟨id, labels⟩, (find_nodup_iff hi.idsNodup).2 ⟨h, rfl⟩, rfl⟩

theorem updatesFor_cons (s : Store) (row : Nat × List PyStr × ℚ) (rows : List (Nat × List PyStr × ℚ)) (i : Nat) :
    s.updatesFor (row :: rows) i =
      if i = row.1 ∧ (⟨row.1, row.2.1⟩ : IndexRec) ∈ s.index then row.2.2 :: s.updatesFor rows i
      else s.updatesFor rows i := by
  unfold Store.updatesFor
  rw [List.filter_cons]
  by_cases h : i = row.1 ∧ (⟨row.1, row.2.1⟩ : IndexRec) ∈ s.index
  · obtain ⟨hi, h⟩ := h
    rw [if_pos (And.intro hi h), if_pos (by simpa [hi] using h), List.map_cons]
  · rw [if_neg h, if_neg]
    rw [decide_eq_true_eq]
    rintro ⟨rfl, h'⟩
    exact h ⟨rfl, h'⟩

theorem lastOr_nil (old : Option ℚ) : lastOr old [] = old := by simp [lastOr]

theorem lastOr_cons (old : Option ℚ) (v : ℚ) (vs : List ℚ) : lastOr old (v :: vs) = lastOr (some v) vs := by
  unfold lastOr
  rw [List.getLast?_cons]
  cases vs.getLast? <;> rfl

/-- Setting a weight that is allowed. -/
theorem setWeight_run {s : Store} (hw : WeightInv s) {g i : Nat} {v : ℚ} (hg : ∃ x ∈ s.wgroups, x.id = g)
    (b : Bool) (hi : i ≠ 0) (hv : 0 ≤ v) :
    ∃ ws, (match s.findWeight g i with
        | some w => do weightSetValue w.id v; return b
        | none => do weightAdd g i v; return true : M Bool) s =
          .ok (b || (s.weightOf g i).isNone, { s with weights := ws }) ∧
      WeightInv { s with weights := ws } ∧
      (∀ w ∈ ws, w.index = i ∨ ∃ w' ∈ s.weights, w'.index = w.index) ∧
      ∀ g' i', Store.weightOf { s with weights := ws } g' i' =
        if g' = g ∧ i' = i then some v else s.weightOf g' i' := by
  rcases hf : s.findWeight g i with _ | w
  · have hadd : weightAdd g i v s = .ok ((), { s with
        weights := s.weights ++ [⟨nextId (s.weights.map (·.id)), g, i, v⟩] }) := by
      unfold weightAdd
      refine bind_ok.2 ⟨s, s, rfl, ?_⟩
      rw [if_neg hi, if_neg (not_lt.2 hv), if_neg, if_neg]
      · rfl
      · rintro ⟨_, h⟩
        obtain ⟨x, hx, he⟩ := hg
        exact h (List.any_eq_true.2 ⟨x, hx, by simp [he]⟩)
      · intro h
        obtain ⟨w, hw, h⟩ := List.any_eq_true.1 h
        unfold Store.findWeight at hf
        exact absurd h (List.find?_eq_none.1 hf w hw)
    have hn : (s.weightOf g i).isNone = true := by unfold Store.weightOf; rw [hf]; rfl
    refine ⟨s.weights ++ [⟨nextId (s.weights.map (·.id)), g, i, v⟩], bind_ok.2 ⟨(), _, hadd, ?_⟩, ?_, ?_, fun g' i' => weightOf_add hf⟩
    · rw [hn, Bool.or_true]; rfl
    · exact ((weightAdd_does g i v).steps _ _ _ hadd).invariant (fun _ _ _ _ hp h => h.prim hp) hw
    · intro x hx
      rcases List.mem_append.1 hx with hx | hx
      · exact .inr ⟨x, hx, rfl⟩
      · rw [List.mem_singleton] at hx; subst hx; exact .inl rfl
  · have hset : weightSetValue w.id v s = .ok ((), { s with
        weights := s.weights.map fun x => if x.id = w.id then { x with value := v } else x }) := by
      unfold weightSetValue
      refine bind_ok.2 ⟨s, s, rfl, ?_⟩
      rw [if_neg (not_lt.2 hv)]; rfl
    have hn : (s.weightOf g i).isNone = false := by unfold Store.weightOf; rw [hf]; rfl
    refine ⟨s.weights.map fun x => if x.id = w.id then { x with value := v } else x, bind_ok.2 ⟨(), _, hset, ?_⟩, ?_, ?_, fun g' i' => weightOf_set hw hf⟩
    · rw [hn, Bool.or_false]; rfl
    · exact ((weightSetValue_does w.id v).steps _ _ _ hset).invariant (fun _ _ _ _ hp h => h.prim hp) hw
    · intro x hx
      obtain ⟨y, hy, rfl⟩ := List.mem_map.1 hx
      refine .inr ⟨y, hy, ?_⟩
      split <;> rfl

/-- Setting a weight that is not allowed. -/
theorem setWeight_fail {s : Store} (hw : WeightInv s) {g i : Nat} {v : ℚ} (b : Bool) (h : ¬ (i ≠ 0 ∧ 0 ≤ v)) :
    ∃ e, (match s.findWeight g i with
        | some w => do weightSetValue w.id v; return b
        | none => do weightAdd g i v; return true : M Bool) s = .error e := by
  by_cases h0 : i = 0
  · have hf : s.findWeight g i = none := by
      rcases hf : s.findWeight g i with _ | w
      · rfl
      · obtain ⟨hm, -, hwi⟩ := findWeight_some hf
        exact absurd (hwi.trans h0) (hw.defined w hm)
    rw [hf]
    refine ⟨.valueError "cannot assign weight to the undefined record", ?_⟩
    show (weightAdd g i v >>= _) s = _
    unfold weightAdd
    simp only [bind, StateT.bind, get, getThe, MonadStateOf.get, StateT.get, pure, Except.pure, Except.bind, h0, if_true]
    rfl
  · have hv : v < 0 := not_le.1 fun hv => h ⟨h0, hv⟩
    rcases hf : s.findWeight g i with _ | w
    · refine ⟨.valueError "value cannot be negative", ?_⟩
      show (weightAdd g i v >>= _) s = _
      unfold weightAdd
      simp only [bind, StateT.bind, get, getThe, MonadStateOf.get, StateT.get, pure, Except.pure, Except.bind, h0, hv,
        if_true, if_false]
      rfl
    · refine ⟨.valueError "value cannot be negative", ?_⟩
      show (weightSetValue w.id v >>= _) s = _
      unfold weightSetValue
      simp only [bind, StateT.bind, get, getThe, MonadStateOf.get, StateT.get, pure, Except.pure, Except.bind, hv,
        if_true]
      rfl

/-- All rows of corrections. -/
theorem updateWeightRows_spec {g : Nat} (rows : List (Nat × List PyStr × ℚ)) :
    ∀ {s : Store} (_ : WeightInv s) (_ : IndexInv s) (_ : ∃ x ∈ s.wgroups, x.id = g) (b : Bool),
    ((∀ i, ∀ v ∈ s.updatesFor rows i, i ≠ 0 ∧ 0 ≤ v) ∧
      ∃ c ws, rows.foldlM (updateWeightRow g) b s = .ok (c, { s with weights := ws }) ∧
        WeightInv { s with weights := ws } ∧
        (∀ w ∈ ws, (∃ r ∈ s.index, r.id = w.index) ∨ ∃ w' ∈ s.weights, w'.index = w.index) ∧
        (∀ g' i, Store.weightOf { s with weights := ws } g' i =
          if g' = g then lastOr (s.weightOf g i) (s.updatesFor rows i) else s.weightOf g' i) ∧
        (c = true ↔ b = true ∨ ∃ i, s.weightOf g i = none ∧ s.updatesFor rows i ≠ [])) ∨
    (¬ (∀ i, ∀ v ∈ s.updatesFor rows i, i ≠ 0 ∧ 0 ≤ v) ∧
      ∃ e, rows.foldlM (updateWeightRow g) b s = .error e) := by
  induction rows with
  | nil =>
    intro s hw hi hg b
    refine .inl ⟨by simp [Store.updatesFor], b, s.weights, rfl, hw, fun w h => .inr ⟨w, h, rfl⟩, fun g' i => ?_, ?_⟩
    · split
      · next h => rw [h]; exact (lastOr_nil _).symm
      · rfl
    · simp [Store.updatesFor]
  | cons row rows ih =>
    intro s hw hi hg b
    by_cases hm : (⟨row.1, row.2.1⟩ : IndexRec) ∈ s.index
    swap
    · have hstep : updateWeightRow g b row s = .ok (b, s) := by
        unfold updateWeightRow
        rw [get_bind]
        rcases hf : s.index.find? (fun r => r.id == row.1) with _ | r
        · simp only [hf]; rfl
        · simp only [hf]
          rw [if_pos]
          · rfl
          · intro hl
            exact hm ((find_id_iff hi).1 ⟨r, hf, hl⟩)
      have hfold : (row :: rows).foldlM (updateWeightRow g) b s = rows.foldlM (updateWeightRow g) b s := by
        rw [List.foldlM_cons]
        simp only [bind, StateT.bind, hstep, Except.bind]
      have hcons : ∀ i, s.updatesFor (row :: rows) i = s.updatesFor rows i := fun i => by
        rw [updatesFor_cons, if_neg (fun h => hm h.2)]
      rw [hfold]
      simp only [hcons]
      exact ih hw hi hg b
    · obtain ⟨r, hf, hl⟩ := (find_id_iff hi).2 hm
      have hrid : r.id = row.1 := by simpa using List.find?_some hf
      have hcons : ∀ i, s.updatesFor (row :: rows) i =
          if i = row.1 then row.2.2 :: s.updatesFor rows i else s.updatesFor rows i := fun i => by
        rw [updatesFor_cons]
        by_cases h : i = row.1
        · rw [if_pos ⟨h, hm⟩, if_pos h]
        · rw [if_neg (fun h' => h h'.1), if_neg h]
      have hrow : updateWeightRow g b row s = (match s.findWeight g row.1 with
          | some w => do weightSetValue w.id row.2.2; return b
          | none => do weightAdd g row.1 row.2.2; return true : M Bool) s := by
        unfold updateWeightRow
        rw [get_bind, hf]
        dsimp only
        rw [if_neg (by simp [hl]), hrid]
        cases s.findWeight g row.1 <;> rfl
      by_cases hok : row.1 ≠ 0 ∧ 0 ≤ row.2.2
      · obtain ⟨ws, hrun, hinv, hidx, hof⟩ := setWeight_run hw hg b hok.1 hok.2
        have hfold : (row :: rows).foldlM (updateWeightRow g) b s =
            rows.foldlM (updateWeightRow g) (b || (s.weightOf g row.1).isNone) { s with weights := ws } := by
          rw [List.foldlM_cons]
          simp only [bind, StateT.bind, Except.bind]
          rw [hrow, hrun]
        have hi' : IndexInv { s with weights := ws } := ⟨hi.1, hi.2, hi.3, hi.4, hi.5, hi.6⟩
        have hcond : (∀ i, ∀ v ∈ s.updatesFor (row :: rows) i, i ≠ 0 ∧ 0 ≤ v) ↔
            ∀ i, ∀ v ∈ Store.updatesFor { s with weights := ws } rows i, i ≠ 0 ∧ 0 ≤ v := by
          apply forall_congr'
          intro i
          show _ ↔ ∀ v ∈ s.updatesFor rows i, i ≠ 0 ∧ 0 ≤ v
          rw [hcons i]
          by_cases hir : i = row.1
          · rw [if_pos hir]
            subst hir
            simp [hok.1, hok.2]
          · rw [if_neg hir]
        rw [hfold, hcond]
        rcases ih hinv hi' hg (b || (s.weightOf g row.1).isNone) with ⟨h1, c2, ws2, h2, h3, h4, h5, h6⟩ | ⟨h1, e, h2⟩
        · refine .inl ⟨h1, c2, ws2, h2, h3, ?_, ?_, ?_⟩
          · intro w hw2
            rcases h4 w hw2 with h | ⟨w', hw', he⟩
            · exact .inl h
            · rcases hidx w' hw' with h | ⟨w2, hw2, he2⟩
              · exact .inl ⟨r, List.mem_of_find?_eq_some hf, hrid.trans (h.symm.trans he)⟩
              · exact .inr ⟨w2, hw2, he2.trans he⟩
          · intro g' i
            have h7 := h5 g' i
            rw [hof g' i, hof g i] at h7
            refine h7.trans ?_
            show (if g' = g then lastOr _ (s.updatesFor rows i) else _) = _
            by_cases hg' : g' = g
            · rw [if_pos hg', if_pos hg', hcons i]
              by_cases hir : i = row.1
              · rw [if_pos ⟨rfl, hir⟩, if_pos hir, lastOr_cons]
              · rw [if_neg (fun h => hir h.2), if_neg hir]
            · rw [if_neg hg', if_neg hg', if_neg (fun h => hg' h.1)]
          · rw [h6, Bool.or_eq_true, Option.isNone_iff_eq_none]
            have e : ∀ i, Store.updatesFor { s with weights := ws } rows i = s.updatesFor rows i := fun _ => rfl
            simp only [hof, e, hcons]
            constructor
            · rintro ((h | h) | ⟨i, h, hne⟩)
              · exact .inl h
              · exact .inr ⟨row.1, h, by rw [if_pos rfl]; simp⟩
              · by_cases hir : i = row.1
                · rw [if_pos ⟨trivial, hir⟩] at h; cases h
                · rw [if_neg (fun h => hir h.2)] at h
                  exact .inr ⟨i, h, by rw [if_neg hir]; exact hne⟩
            · rintro (h | ⟨i, h, hne⟩)
              · exact .inl (.inl h)
              · by_cases hir : i = row.1
                · exact .inl (.inr (hir ▸ h))
                · rw [if_neg hir] at hne
                  exact .inr ⟨i, by rw [if_neg (fun h => hir h.2)]; exact h, hne⟩
        · exact .inr ⟨h1, e, h2⟩
      · obtain ⟨e, he⟩ := setWeight_fail hw (g := g) b hok
        refine .inr ⟨fun h => hok ?_, e, ?_⟩
        · have := h row.1 row.2.2 (by rw [hcons, if_pos rfl]; simp)
          exact this
        · rw [List.foldlM_cons]
          simp only [bind, StateT.bind, Except.bind]
          rw [hrow, he]

/-- Setting the flag of a group. -/
theorem wgroupUpdate_flag {s : Store} (hw : WeightInv s) {g : WGroup} (hg : g ∈ s.wgroups) (b : Bool) :
    wgroupUpdate { g with complete := b } s = .ok ((), { s with
      wgroups := s.wgroups.map fun x => if x.name = g.name then { x with complete := b } else x }) := by
  unfold wgroupUpdate
  refine bind_ok.2 ⟨s, s, rfl, ?_⟩
  rw [if_neg, if_neg, put_ok]
  · congr 2
    apply List.map_congr_left
    intro x hx
    by_cases h : x = g
    · subst h; rw [if_pos rfl, if_pos rfl]
    · rw [if_neg (fun he => h (List.inj_on_of_nodup_map hw.names hx hg he)),
        if_neg (fun he => h (List.inj_on_of_nodup_map hw.gids hx hg he))]
  · intro h
    obtain ⟨x, hx, h⟩ := List.any_eq_true.1 h
    rw [Bool.and_eq_true, bne_iff_ne, beq_iff_eq] at h
    have e : x = g := List.inj_on_of_nodup_map hw.names hx hg h.2
    exact h.1 (by rw [e])
  · rw [not_not]
    exact List.any_eq_true.2 ⟨g, hg, by simp⟩

/-! ### Deleting -/

/-- Deleting the weight of a record. -/
theorem deleteWeightOf_run {s : Store} (hw : WeightInv s) (g i : Nat) (b : Bool) :
    ∃ ws, deleteWeightOf g b i s = .ok (b || (s.weightOf g i).isSome, { s with weights := ws }) ∧
      ws.Sublist s.weights ∧
      ∀ g' i', Store.weightOf { s with weights := ws } g' i' =
        if g' = g ∧ i' = i then none else s.weightOf g' i' := by
  unfold deleteWeightOf
  rcases hf : s.findWeight g i with _ | w
  · have hn : s.weightOf g i = none := by unfold Store.weightOf; rw [hf]; rfl
    refine ⟨s.weights, bind_ok.2 ⟨s, s, rfl, ?_⟩, List.Sublist.refl _, fun g' i' => ?_⟩
    · rw [hf, hn, Option.isSome_none, Bool.or_false]; rfl
    · by_cases h : g' = g ∧ i' = i
      · rw [if_pos h, h.1, h.2]; exact hn
      · rw [if_neg h]
  · have hn : (s.weightOf g i).isSome = true := by unfold Store.weightOf; rw [hf]; rfl
    obtain ⟨hm, h1, h2⟩ := findWeight_some hf
    refine ⟨s.weights.filter fun x => x.id != w.id, bind_ok.2 ⟨s, s, rfl, ?_⟩, List.filter_sublist, fun g' i' => ?_⟩
    · rw [hf, hn, Bool.or_true]; rfl
    · have hp : ((s.weights.filter fun x => x.id != w.id).map fun w => (w.group, w.index)).Nodup :=
        (List.filter_sublist.map _).nodup hw.pairs
      apply Option.ext
      intro x
      rw [weightOf_iff (s := { s with weights := s.weights.filter fun x => x.id != w.id }) hp]
      by_cases h : g' = g ∧ i' = i
      · rw [if_pos h]
        constructor
        · rintro ⟨y, hy, h3, h4, -⟩
          rw [List.mem_filter, bne_iff_ne] at hy
          refine absurd (congrArg Weight.id (List.inj_on_of_nodup_map hw.pairs hy.1 hm ?_)) hy.2
          rw [h3, h4, h1, h2, h.1, h.2]
        · intro h; cases h
      · rw [if_neg h]
        show _ ↔ s.weightOf g' i' = some x
        rw [weightOf_iff hw.pairs]
        constructor
        · rintro ⟨y, hy, h3⟩
          exact ⟨y, (List.mem_filter.1 hy).1, h3⟩
        · rintro ⟨y, hy, h3, h4, h5⟩
          refine ⟨y, List.mem_filter.2 ⟨hy, ?_⟩, h3, h4, h5⟩
          rw [bne_iff_ne]
          intro he
          have := List.inj_on_of_nodup_map hw.ids hy hm he
          subst this
          exact h ⟨h3.symm.trans h1, h4.symm.trans h2⟩

theorem WeightInv.sublist {s : Store} (hw : WeightInv s) {ws : List Weight} (h : ws.Sublist s.weights) :
    WeightInv { s with weights := ws } :=
  ⟨(h.map _).nodup hw.ids, (h.map _).nodup hw.pairs, fun w hm => hw.defined w (h.subset hm),
    fun w hm => hw.nonneg w (h.subset hm), hw.gids, hw.names, hw.gpos⟩

/-- Deleting the weights of several records. -/
theorem deleteWeightsOf_run {g : Nat} (is : List Nat) : ∀ {s : Store} (_ : WeightInv s) (b : Bool),
    ∃ c ws, is.foldlM (deleteWeightOf g) b s = .ok (c, { s with weights := ws }) ∧ ws.Sublist s.weights ∧
      (∀ g' i', Store.weightOf { s with weights := ws } g' i' =
        if g' = g ∧ i' ∈ is then none else s.weightOf g' i') ∧
      (c = true ↔ b = true ∨ ∃ i ∈ is, s.weightOf g i ≠ none) := by
  induction is with
  | nil =>
    intro s hw b
    exact ⟨b, s.weights, rfl, List.Sublist.refl _, by simp, by simp⟩
  | cons i is ih =>
    intro s hw b
    obtain ⟨ws, h1, h2, h3⟩ := deleteWeightOf_run hw g i b
    obtain ⟨c, ws2, h4, h5, h6, h7⟩ := ih (hw.sublist h2) (b || (s.weightOf g i).isSome)
    refine ⟨c, ws2, ?_, h5.trans h2, fun g' i' => ?_, ?_⟩
    · rw [List.foldlM_cons]
      simp only [bind, StateT.bind, Except.bind]
      rw [h1]
      exact h4
    · have h8 := h6 g' i'
      rw [h3] at h8
      refine h8.trans ?_
      by_cases ha : g' = g <;> by_cases hb : i' ∈ is <;> by_cases hc : i' = i <;> simp [ha, hb, hc]
    · rw [h7, Bool.or_eq_true, Option.isSome_iff_ne_none]
      simp only [h3, List.mem_cons]
      constructor
      · rintro ((h | h) | ⟨j, hj, h⟩)
        · exact .inl h
        · exact .inr ⟨i, .inl rfl, h⟩
        · by_cases hji : j = i
          · rw [if_pos ⟨trivial, hji⟩] at h; exact absurd rfl h
          · rw [if_neg (fun h => hji h.2)] at h
            exact .inr ⟨j, .inr hj, h⟩
      · rintro (h | ⟨j, hj, h⟩)
        · exact .inl (.inl h)
        · by_cases hji : j = i
          · exact .inl (.inr (hji ▸ h))
          · rcases hj with hj | hj
            · exact absurd hj hji
            · exact .inr ⟨j, hj, by rw [if_neg (fun h => hji h.2)]; exact h⟩

/-- Deleting by rows is deleting for the records of the rows that fit. -/
theorem deleteWeightRows_eq {g : Nat} (rs : List (Nat × List PyStr)) : ∀ {s : Store} (_ : WeightInv s) (_ : IndexInv s)
    (b : Bool), rs.foldlM (deleteWeightRow g) b s =
      ((rs.filter fun row => decide ((⟨row.1, row.2⟩ : IndexRec) ∈ s.index)).map (·.1)).foldlM (deleteWeightOf g) b s := by
  induction rs with
  | nil => intro s hw hi b; rfl
  | cons row rs ih =>
    intro s hw hi b
    by_cases hm : (⟨row.1, row.2⟩ : IndexRec) ∈ s.index
    · obtain ⟨r, hf, hl⟩ := (find_id_iff hi).2 hm
      have hrid : r.id = row.1 := by simpa using List.find?_some hf
      have hrow : deleteWeightRow g b row s = deleteWeightOf g b row.1 s := by
        unfold deleteWeightRow
        rw [get_bind, hf]
        dsimp only
        rw [if_neg (by simp [hl]), hrid]
      obtain ⟨ws, h1, h2, h3⟩ := deleteWeightOf_run hw g row.1 b
      rw [List.filter_cons, if_pos (by simpa using hm), List.map_cons, List.foldlM_cons, List.foldlM_cons]
      simp only [bind, StateT.bind, Except.bind]
      rw [hrow, h1]
      exact ih (hw.sublist h2) ⟨hi.1, hi.2, hi.3, hi.4, hi.5, hi.6⟩ _
    · have hrow : deleteWeightRow g b row s = .ok (b, s) := by
        unfold deleteWeightRow
        rw [get_bind]
        rcases hf : s.index.find? (fun r => r.id == row.1) with _ | r
        · simp only [hf]; rfl
        · simp only [hf]
          rw [if_pos]
          · rfl
          · intro hl
            exact hm ((find_id_iff hi).1 ⟨r, hf, hl⟩)
      rw [List.filter_cons, if_neg (by simpa using hm), List.foldlM_cons]
      simp only [bind, StateT.bind, Except.bind]
      rw [hrow]
      exact ih hw hi b

end Toron.Space
