/-
The effect of merging weights and mappings of index records.
-/
import Verif.Lemmas.Store.Maps
import Verif.Spec.Proportions
import Verif.Spec.Store

set_option linter.unusedSimpArgs false

namespace Toron.Space

open Toron.Selectors (PyStr Sel)

/-! ### Sums of proportions -/

theorem propSum_nil : propSum [] = some 0 := by simp [propSum]

theorem propSum_cons (p : Option ℚ) (ps : List (Option ℚ)) :
    propSum (p :: ps) = addProp p (propSum ps) := by
  unfold propSum
  cases p with
  | none => simp [addProp]
  | some x =>
    by_cases h : none ∈ ps
    · simp [addProp, h]
    · simp [addProp, h]

theorem addProp_assoc (a b c : Option ℚ) : addProp (addProp a b) c = addProp a (addProp b c) := by
  cases a <;> cases b <;> cases c <;> simp [addProp, add_assoc]

theorem addProp_comm (a b : Option ℚ) : addProp a b = addProp b a := by
  cases a <;> cases b <;> simp [addProp, add_comm]

theorem addProp_zero (a : Option ℚ) : addProp a (some 0) = a := by
  cases a <;> simp [addProp]

theorem zero_addProp (a : Option ℚ) : addProp (some 0) a = a := by
  rw [addProp_comm, addProp_zero]

theorem propSum_append (ps qs : List (Option ℚ)) :
    propSum (ps ++ qs) = addProp (propSum ps) (propSum qs) := by
  induction ps with
  | nil => rw [List.nil_append, propSum_nil, zero_addProp]
  | cons p ps ih => rw [List.cons_append, propSum_cons, ih, propSum_cons, addProp_assoc]

theorem propSum_perm {ps qs : List (Option ℚ)} (h : ps.Perm qs) : propSum ps = propSum qs := by
  unfold propSum
  rw [(h.filterMap id).sum_eq]
  exact if_congr h.mem_iff rfl rfl

theorem foldl_addProp (ps : List (Option ℚ)) (a : Option ℚ) :
    ps.foldl addProp a = addProp a (propSum ps) := by
  induction ps generalizing a with
  | nil => rw [propSum_nil, addProp_zero]; rfl
  | cons p ps ih => rw [List.foldl_cons, ih, propSum_cons, addProp_assoc]

/-! ### Merging weights -/

theorem forM_weightAdd {gs : List Nat} {target : Nat} {v : Nat → ℚ} {s s' : Store}
    (h : gs.forM (fun g => weightAdd g target (v g)) s = .ok ((), s')) :
    ∃ new : List Weight, s' = { s with weights := s.weights ++ new } ∧
      new.map (fun w => (w.group, w.index, w.value)) = gs.map fun g => (g, target, v g) := by
  induction gs generalizing s with
  | nil => cases h; exact ⟨[], by simp, rfl⟩
  | cons g gs ih =>
    obtain ⟨t, h1, h2⟩ := forM_cons_ok.1 h
    obtain ⟨_, _, _, ht⟩ := weightAdd_ok h1
    subst ht
    obtain ⟨new, h3, h4⟩ := ih h2
    refine ⟨⟨nextId (s.weights.map (·.id)), g, target, v g⟩ :: new, ?_, by simp [h4]⟩
    rw [h3]
    simp

/-- The records of which ids are chosen, in the order of the ids. -/
theorem chosen_perm {α : Type} {l : List α} {key : α → Nat} (ids : List Nat) :
    ((distinct ids).flatMap fun i => l.filter fun x => key x == i).Perm
      (l.filter fun x => decide (key x ∈ ids)) := by
  have := flatMap_filter_perm (l := l) (key := key) (nodup_distinct ids)
  simp only [mem_distinct] at this
  exact this

theorem filter_not_chosen {α : Type} {id key : α → Nat} {l : List α} (hnd : (l.map id).Nodup) (ids : List Nat) :
    (l.filter fun x => decide (id x ∉
      ((distinct ids).flatMap fun i => l.filter fun x => key x == i).map id)) =
    l.filter fun x => decide (key x ∉ ids) := by
  have hp := (chosen_perm (l := l) (key := key) ids).map id
  have : (l.filter fun x => decide (id x ∉
      ((distinct ids).flatMap fun i => l.filter fun x => key x == i).map id)) =
      l.filter fun x => decide (id x ∉ (l.filter fun x => decide (key x ∈ ids)).map id) := by
    apply List.filter_congr
    intro x _
    rw [decide_eq_decide, hp.mem_iff]
  rw [this]
  have h2 := filter_not_mem_sub hnd (p := fun x => decide (key x ∈ ids))
  rw [h2]
  apply List.filter_congr
  intro x _
  simp

theorem mergeWeights_ok {ids : List Nat} {target : Nat} {s s' : Store} (hnd : (s.weights.map (·.id)).Nodup)
    (h : mergeWeights ids target s = .ok ((), s')) :
    ∃ (old new : List Weight),
      old.Perm (s.weights.filter fun w => decide (w.index ∈ target :: ids)) ∧
      s' = { s with weights := (s.weights.filter fun w => decide (w.index ∉ target :: ids)) ++ new } ∧
      new.map (fun w => (w.group, w.index, w.value)) = (distinct (old.map (·.group))).map fun g =>
        (g, target, ((old.filter fun w => w.group == g).map (·.value)).sum) := by
  unfold mergeWeights at h
  rw [bind_ok] at h
  obtain ⟨_, _, he, h⟩ := h
  rw [get_ok] at he
  cases he
  rw [bind_ok] at h
  obtain ⟨_, t1, h1, h⟩ := h
  have ht1 := forM_weightDelete h1
  rw [filter_not_chosen hnd] at ht1
  subst ht1
  obtain ⟨new, h2, h3⟩ := forM_weightAdd h
  exact ⟨_, new, chosen_perm _, h2, h3⟩

theorem mergeWeights_sum {ids : List Nat} {target : Nat} {s s' : Store} (hnd : (s.weights.map (·.id)).Nodup)
    (h : mergeWeights ids target s = .ok ((), s')) (g : Nat) :
    ((s'.weights.filter fun w => w.group == g).map (·.value)).sum =
      ((s.weights.filter fun w => w.group == g).map (·.value)).sum := by
  obtain ⟨old, new, hp, rfl, hn⟩ := mergeWeights_ok hnd h
  have hnew : ((new.filter fun w => w.group == g).map (·.value)).sum =
      ((old.filter fun w => w.group == g).map (·.value)).sum := by
    have h1 : (new.filter fun w => w.group == g).map (·.value) =
        ((new.map fun w => (w.group, w.index, w.value)).filter fun x => decide (x.1 = g)).map (·.2.2) := by
      rw [List.filter_map, List.map_map]
      rfl
    rw [h1, hn, List.filter_map, List.map_map]
    have h2 : ((fun x : Nat × Nat × ℚ => decide (x.1 = g)) ∘ fun g =>
        (g, target, ((old.filter fun w => w.group == g).map (·.value)).sum)) = fun x => decide (x = g) := rfl
    rw [h2, filter_distinct]
    split
    · simp
    · rename_i hg
      rw [List.filter_eq_nil_iff.2]
      · simp
      · intro w hw he
        exact hg (List.mem_map.2 ⟨w, hw, by simpa using he⟩)
  simp only [List.filter_append, List.map_append, List.sum_append]
  rw [hnew, ((hp.filter _).map _).sum_eq, ← List.sum_append, ← List.map_append, ← List.filter_append]
  refine List.Perm.sum_eq (List.Perm.map _ (List.Perm.filter _ ?_))
  have := List.filter_append_perm (fun w : Weight => decide (w.index ∈ target :: ids)) s.weights
  refine List.Perm.trans ?_ this
  refine List.perm_append_comm.trans ?_
  apply List.Perm.append_left
  rw [List.filter_congr]
  intro w _
  simp

theorem mergeWeights_other {ids : List Nat} {target : Nat} {s s' : Store} (hnd : (s.weights.map (·.id)).Nodup)
    (h : mergeWeights ids target s = .ok ((), s')) :
    (s'.weights.filter fun w => decide (w.index ∉ target :: ids)) =
        (s.weights.filter fun w => decide (w.index ∉ target :: ids)) ∧
      ∀ w ∈ s'.weights, w.index ∈ ids → w.index = target := by
  obtain ⟨old, new, hp, rfl, hn⟩ := mergeWeights_ok hnd h
  have hnew : ∀ w ∈ new, w.index = target := by
    intro w hw
    have : (w.group, w.index, w.value) ∈ new.map (fun w => (w.group, w.index, w.value)) :=
      List.mem_map_of_mem hw
    rw [hn, List.mem_map] at this
    obtain ⟨g, _, he⟩ := this
    exact (Prod.mk.inj (Prod.mk.inj he).2).1.symm
  constructor
  · dsimp only
    rw [List.filter_append, List.filter_filter, (List.filter_eq_nil_iff (l := new)).2]
    · simp
    · intro w hw
      simp [hnew w hw]
  · intro w hw hi
    rcases List.mem_append.1 hw with hw | hw
    · have := (List.mem_filter.1 hw).2
      simp [hi] at this
    · exact hnew w hw

/-! ### Merging mappings -/

theorem forM_mappingAdd {ks : List (Nat × Int × List Byte)} {target : Nat} {v : Nat × Int × List Byte → ℚ}
    {p : Nat × Int × List Byte → Option ℚ} {s s' : Store}
    (h : ks.forM (fun k => mappingAdd k.1 k.2.1 target (some k.2.2) (v k) (p k)) s = .ok ((), s')) :
    ∃ new : List Mapping, s' = { s with maps := s.maps ++ new } ∧
      new.map (fun m => (m.key, m.index, m.value, m.prop)) = ks.map fun k => (k, target, v k, p k) := by
  induction ks generalizing s with
  | nil => cases h; exact ⟨[], by simp, rfl⟩
  | cons k ks ih =>
    obtain ⟨t, h1, h2⟩ := forM_cons_ok.1 h
    obtain ⟨lv, hlv, _, ht⟩ := mappingAdd_ok h1
    subst ht
    obtain ⟨new, h3, h4⟩ := ih h2
    refine ⟨⟨nextId (s.maps.map (·.id)), k.1, k.2.1, target, lv, v k, p k⟩ :: new, ?_, ?_⟩
    · rw [h3]
      simp
    · cases hlv
      rw [List.map_cons, List.map_cons, h4]
      rfl

theorem mergeMappings_ok {ids : List Nat} {target : Nat} {s s' : Store} (hnd : (s.maps.map (·.id)).Nodup)
    (h : mergeMappings ids target s = .ok ((), s')) :
    ∃ (old new : List Mapping),
      old.Perm (s.maps.filter fun m => decide (m.index ∈ target :: ids)) ∧
      s' = { s with maps := (s.maps.filter fun m => decide (m.index ∉ target :: ids)) ++ new } ∧
      new.map (fun m => (m.key, m.index, m.value, m.prop)) = (distinct (old.map Mapping.key)).map fun k =>
        (k, target, ((old.filter fun m => m.key == k).map (·.value)).sum,
          propSum ((old.filter fun m => m.key == k).map (·.prop))) := by
  unfold mergeMappings at h
  rw [bind_ok] at h
  obtain ⟨_, _, he, h⟩ := h
  rw [get_ok] at he
  cases he
  rw [bind_ok] at h
  obtain ⟨_, t1, h1, h⟩ := h
  have ht1 := forM_mappingDelete h1
  rw [filter_not_chosen hnd] at ht1
  subst ht1
  obtain ⟨new, h2, h3⟩ := forM_mappingAdd h
  refine ⟨_, new, chosen_perm _, h2, ?_⟩
  rw [h3]
  apply List.map_congr_left
  intro k _
  rw [foldl_addProp, zero_addProp]

theorem mergeMappings_sum {ids : List Nat} {target : Nat} {s s' : Store} (hnd : (s.maps.map (·.id)).Nodup)
    (h : mergeMappings ids target s = .ok ((), s')) (k : Nat × Int × List Byte) :
    ((s'.maps.filter fun m => m.key == k).map (·.value)).sum =
        ((s.maps.filter fun m => m.key == k).map (·.value)).sum ∧
      propSum ((s'.maps.filter fun m => m.key == k).map (·.prop)) =
        propSum ((s.maps.filter fun m => m.key == k).map (·.prop)) := by
  obtain ⟨old, new, hp, rfl, hn⟩ := mergeMappings_ok hnd h
  have hfil : new.filter (fun m => m.key == k) = [] ∧ old.filter (fun m => m.key == k) = [] ∨
      (new.filter fun m => m.key == k).map (fun m => (m.value, m.prop)) =
        [(((old.filter fun m => m.key == k).map (·.value)).sum,
          propSum ((old.filter fun m => m.key == k).map (·.prop)))] := by
    have h1 : (new.filter fun m => m.key == k).map (fun m => (m.value, m.prop)) =
        ((new.map fun m => (m.key, m.index, m.value, m.prop)).filter fun x => decide (x.1 = k)).map (·.2.2) := by
      rw [List.filter_map, List.map_map]
      congr 1
      apply List.filter_congr
      intro m _
      rw [Bool.eq_iff_iff, beq_iff_eq]
      simp
    rw [hn, List.filter_map, List.map_map] at h1
    have h2 : ((fun x : (Nat × Int × List Byte) × Nat × ℚ × Option ℚ => decide (x.1 = k)) ∘ fun k =>
        (k, target, ((old.filter fun m => m.key == k).map (·.value)).sum,
          propSum ((old.filter fun m => m.key == k).map (·.prop)))) = fun x => decide (x = k) := rfl
    rw [h2, filter_distinct] at h1
    by_cases hk : k ∈ old.map Mapping.key
    · rw [if_pos hk] at h1
      exact .inr h1
    · rw [if_neg hk] at h1
      refine .inl ⟨List.map_eq_nil_iff.1 h1, List.filter_eq_nil_iff.2 fun m hm he => ?_⟩
      exact hk (List.mem_map.2 ⟨m, hm, by simpa using he⟩)
  have hval : ((new.filter fun m => m.key == k).map (·.value)).sum =
      ((old.filter fun m => m.key == k).map (·.value)).sum := by
    rcases hfil with ⟨h1, h2⟩ | h1
    · rw [h1, h2]
    · have : (new.filter fun m => m.key == k).map (·.value) =
          ((new.filter fun m => m.key == k).map (fun m => (m.value, m.prop))).map (·.1) := by
        rw [List.map_map]; rfl
      rw [this, h1]
      simp
  have hprop : propSum ((new.filter fun m => m.key == k).map (·.prop)) =
      propSum ((old.filter fun m => m.key == k).map (·.prop)) := by
    rcases hfil with ⟨h1, h2⟩ | h1
    · rw [h1, h2]
    · have : (new.filter fun m => m.key == k).map (·.prop) =
          ((new.filter fun m => m.key == k).map (fun m => (m.value, m.prop))).map (·.2) := by
        rw [List.map_map]; rfl
      rw [this, h1, List.map_cons, List.map_nil, propSum_cons, propSum_nil, addProp_zero]
  have hall : ((s.maps.filter fun m => decide (m.index ∉ target :: ids)) ++
      (s.maps.filter fun m => decide (m.index ∈ target :: ids))).Perm s.maps := by
    have := List.filter_append_perm (fun m : Mapping => decide (m.index ∈ target :: ids)) s.maps
    refine List.Perm.trans ?_ this
    refine List.perm_append_comm.trans ?_
    apply List.Perm.append_left
    rw [List.filter_congr]
    intro w _
    simp
  constructor
  · simp only [List.filter_append, List.map_append, List.sum_append]
    rw [hval, ((hp.filter _).map _).sum_eq, ← List.sum_append, ← List.map_append, ← List.filter_append]
    exact List.Perm.sum_eq (List.Perm.map _ (List.Perm.filter _ hall))
  · simp only [List.filter_append, List.map_append, propSum_append]
    rw [hprop, propSum_perm ((hp.filter _).map _), ← propSum_append, ← List.map_append, ← List.filter_append]
    exact propSum_perm (List.Perm.map _ (List.Perm.filter _ hall))

theorem mergeMappings_other {ids : List Nat} {target : Nat} {s s' : Store} (hnd : (s.maps.map (·.id)).Nodup)
    (h : mergeMappings ids target s = .ok ((), s')) :
    (s'.maps.filter fun m => decide (m.index ∉ target :: ids)) =
        (s.maps.filter fun m => decide (m.index ∉ target :: ids)) ∧
      ∀ m ∈ s'.maps, m.index ∈ ids → m.index = target := by
  obtain ⟨old, new, hp, rfl, hn⟩ := mergeMappings_ok hnd h
  have hnew : ∀ m ∈ new, m.index = target := by
    intro m hm
    have : (m.key, m.index, m.value, m.prop) ∈ new.map (fun m => (m.key, m.index, m.value, m.prop)) :=
      List.mem_map_of_mem hm
    rw [hn, List.mem_map] at this
    obtain ⟨g, _, he⟩ := this
    exact (Prod.mk.inj (Prod.mk.inj he).2).1.symm
  constructor
  · dsimp only
    rw [List.filter_append, List.filter_filter, (List.filter_eq_nil_iff (l := new)).2]
    · simp
    · intro m hm
      simp [hnew m hm]
  · intro m hm hi
    rcases List.mem_append.1 hm with hm | hm
    · have := (List.mem_filter.1 hm).2
      simp [hi] at this
    · exact hnew m hm

/-! ### Rows of `update_index` -/

/-- The cases of one row: nothing happens; labels are changed; or another record (or the same one) is
merged into the record before its labels are changed. -/
theorem updateIndexRow_cases {merge : Bool} {acc acc' : UpdateAcc} {row : Nat × List PyStr} {s s' : Store}
    (h : updateIndexRow merge acc row s = .ok (acc', s')) :
    (acc' = acc ∧ s' = s) ∨
    ∃ r, r ∈ s.index ∧ r.id = row.1 ∧ [] ∉ row.2 ∧
      ((s.findByLabels row.2 = none ∧ acc' = { acc with updated := true } ∧
          s' = { s with index := upd IndexRec.id { r with labels := row.2 } s.index }) ∨
        ∃ o t1 t2, merge = true ∧ s.findByLabels row.2 = some o ∧ o ∈ s.index ∧ o.labels = row.2 ∧
          mergeWeights [o.id] r.id s = .ok ((), t1) ∧ mergeMappings [o.id] r.id t1 = .ok ((), t2) ∧
          acc' = { merged := acc.merged ++ [o.id], updated := true } ∧
          (o.id = 0 → ∀ x ∈ t2.index, x.id ≠ 0) ∧
          s' = { t2 with index := (upd IndexRec.id { r with labels := row.2 }
            (t2.index.filter fun x => x.id != o.id)) }) := by
  unfold updateIndexRow at h
  rw [ite_ok] at h
  obtain ⟨_, h⟩ | ⟨he, h⟩ := h
  · rw [pure_ok] at h; cases h; exact .inl ⟨rfl, rfl⟩
  rw [bind_ok] at h
  obtain ⟨_, _, he, h⟩ := h
  rw [get_ok] at he
  cases he
  rcases hr : s.index.find? (fun r => r.id == row.1) with _ | r <;> simp only [hr] at h
  · rw [ite_ok] at h
    obtain ⟨_, h⟩ | ⟨_, h⟩ := h
    · exact absurd h (by simp [throw_ok])
    · rw [pure_ok] at h; cases h; exact .inl ⟨rfl, rfl⟩
  · right
    refine ⟨r, List.mem_of_find?_eq_some hr, by simpa using List.find?_some hr, by assumption, ?_⟩
    rw [bind_ok] at h
    obtain ⟨acc1, t, h1, h⟩ := h
    rw [bind_ok] at h
    obtain ⟨_, t', h2, h⟩ := h
    rw [pure_ok] at h
    cases h
    have h2 := indexUpdate_ok h2
    cases hf : s.findByLabels row.2 with
    | none =>
      rw [hf] at h1
      cases h1
      exact .inl ⟨rfl, rfl, h2⟩
    | some o =>
      rw [hf] at h1
      unfold mergeConflict at h1
      rw [ite_ok] at h1
      obtain ⟨_, h1⟩ | ⟨hm, h1⟩ := h1
      · exact absurd h1 (by simp [throw_ok])
      simp only [bind_ok, pure_ok] at h1
      obtain ⟨_, t1, hw, _, t2, hmp, _, t3, hd, h1⟩ := h1
      cases h1
      obtain ⟨hd0, rfl⟩ := indexDelete_ok hd
      refine .inr ⟨o, t1, t2, by simpa using hm, rfl, List.mem_of_find?_eq_some hf,
        by simpa using List.find?_some hf, hw, hmp, rfl, hd0, h2⟩

theorem WeightInv.steps {K : List Kind} {s s' : Store} (h : Steps K s s') (hs : WeightInv s) : WeightInv s' :=
  h.invariant (fun _ _ _ _ hp => WeightInv.prim hp) hs

theorem MapInv.steps {K : List Kind} {s s' : Store} (h : Steps K s s') (hs : MapInv s) : MapInv s' :=
  h.invariant (fun _ _ _ _ hp => MapInv.prim hp) hs

theorem filter_key (ms : List Mapping) (k : Nat × Int × List Byte) :
    (ms.filter fun m => m.key == k) =
      ms.filter fun m => decide (m.link = k.1 ∧ m.other = k.2.1 ∧ m.level = k.2.2) := by
  apply List.filter_congr
  intro m _
  obtain ⟨a, b, c⟩ := k
  rw [Bool.eq_iff_iff, beq_iff_eq]
  simp [Mapping.key]

/-- The sums are the same. -/
def SameSums (s s' : Store) : Prop :=
  (∀ g, s'.groupSum g = s.groupSum g) ∧ (∀ l o v, s'.valueSum l o v = s.valueSum l o v) ∧
    ∀ l o v, s'.propSum l o v = s.propSum l o v

theorem SameSums.of_eq {s s' : Store} (hw : s'.weights = s.weights) (hm : s'.maps = s.maps) : SameSums s s' := by
  refine ⟨fun g => ?_, fun l o v => ?_, fun l o v => ?_⟩
  · unfold Store.groupSum; rw [hw]
  · unfold Store.valueSum Store.mapsOf; rw [hm]
  · unfold Store.propSum Store.mapsOf; rw [hm]

theorem SameSums.of_weights {s s' : Store} (hw : ∀ g, s'.groupSum g = s.groupSum g) (hm : s'.maps = s.maps) :
    SameSums s s' :=
  ⟨hw, (SameSums.of_eq (s := { s with weights := s'.weights }) (s' := s') rfl hm).2⟩

theorem SameSums.of_maps {ids : List Nat} {target : Nat} {s s' : Store} (hnd : (s.maps.map (·.id)).Nodup)
    (h : mergeMappings ids target s = .ok ((), s')) (hw : s'.weights = s.weights) : SameSums s s' := by
  refine ⟨(SameSums.of_eq (s := { s with maps := s'.maps }) (s' := s') hw rfl).1, fun l o v => ?_, fun l o v => ?_⟩
  · have := (mergeMappings_sum hnd h (l, o, v)).1
    rw [filter_key, filter_key] at this
    exact this
  · have := (mergeMappings_sum hnd h (l, o, v)).2
    rw [filter_key, filter_key] at this
    exact this

theorem SameSums.trans {a b c : Store} (h1 : SameSums a b) (h2 : SameSums b c) : SameSums a c :=
  ⟨fun g => (h2.1 g).trans (h1.1 g), fun l o v => (h2.2.1 l o v).trans (h1.2.1 l o v),
    fun l o v => (h2.2.2 l o v).trans (h1.2.2 l o v)⟩

theorem updateIndexRow_sums {merge : Bool} {acc acc' : UpdateAcc} {row : Nat × List PyStr} {s s' : Store}
    (hw : WeightInv s) (hm : MapInv s) (h : updateIndexRow merge acc row s = .ok (acc', s')) :
    SameSums s s' := by
  obtain ⟨_, rfl⟩ | ⟨r, _, _, _, h | ⟨o, t1, t2, _, _, _, _, h1, h2, _, _, h3⟩⟩ := updateIndexRow_cases h
  · exact SameSums.of_eq rfl rfl
  · obtain ⟨_, _, rfl⟩ := h
    exact SameSums.of_eq rfl rfl
  · have hs1 := (mergeWeights_does ..).steps _ _ _ h1
    have hs2 := (mergeMappings_does ..).steps _ _ _ h2
    have hm1 : t1.maps = s.maps := hs1.maps_eq (by decide)
    have hw2 : t2.weights = t1.weights := hs2.weights_eq (by decide)
    refine SameSums.trans (b := t1) (SameSums.of_weights (mergeWeights_sum hw.ids h1) hm1) ?_
    refine SameSums.trans (b := t2) (SameSums.of_maps (hm.steps hs1).ids h2 hw2) ?_
    rw [h3]
    exact SameSums.of_eq rfl rfl

theorem updateIndex_sums {merge : Bool} {rows : List (Nat × List PyStr)} {s s' : Store}
    (hw : WeightInv s) (hm : MapInv s) (h : updateIndex merge rows s = .ok ((), s')) : SameSums s s' := by
  obtain ⟨acc, t, u, h1, h2, h3⟩ := updateIndex_parts h
  have ht := foldlM_inv (P := fun (_ : UpdateAcc) t => WeightInv t ∧ MapInv t ∧ SameSums s t) ?_
    ⟨hw, hm, SameSums.of_eq rfl rfl⟩ h1
  · have h2' : Steps [.structs] t u := Does.steps (by does) _ _ _ h2
    have h3' : Steps [.hash, .wgUpd, .lUpd] u s' := Does.steps (by does) _ _ _ h3
    refine ht.2.2.trans (SameSums.of_eq ?_ ?_)
    · rw [h3'.weights_eq (by decide), h2'.weights_eq (by decide)]
    · rw [h3'.maps_eq (by decide), h2'.maps_eq (by decide)]
  · rintro row _ b t c t' ⟨h4, h5, h6⟩ h7
    have hs := (updateIndexRow_does ..).steps _ _ _ h7
    exact ⟨h4.steps hs, h5.steps hs, h6.trans (updateIndexRow_sums h4 h5 h7)⟩

/-- Records only disappear by being merged into a different record, if no row gives a record the labels it
already has. -/
theorem updateIndexRows_gone {merge : Bool} {acc acc' : UpdateAcc} {rows : List (Nat × List PyStr)} {s s' : Store}
    (h : rows.foldlM (updateIndexRow merge) acc s = .ok (acc', s')) (hnd : (rows.map (·.1)).Nodup)
    (hown : ∀ row ∈ rows, ∀ r ∈ s.index, r.id = row.1 → r.labels ≠ row.2) :
    (∀ i ∈ s'.ids, i ∈ s.ids) ∧
    ∀ d ∈ s.ids, d ∉ s'.ids → ∃ row ∈ rows, row.1 ∈ s.ids ∧ row.1 ≠ d := by
  induction rows generalizing acc s with
  | nil => cases h; exact ⟨fun _ h => h, fun d h h' => absurd h h'⟩
  | cons row rows ih =>
    obtain ⟨acc1, t, h1, h2⟩ := foldlM_cons_ok.1 h
    rw [List.map_cons, List.nodup_cons] at hnd
    have key : (∀ i ∈ t.ids, i ∈ s.ids) ∧ (∀ y ∈ t.index, y.id = row.1 ∨ y ∈ s.index) ∧
        ∀ d ∈ s.ids, d ∉ t.ids → row.1 ∈ s.ids ∧ row.1 ≠ d := by
      obtain ⟨_, rfl⟩ | ⟨r, hr, hri, _, h⟩ := updateIndexRow_cases h1
      · exact ⟨fun _ h => h, fun y hy => .inr hy, fun d h h' => absurd h h'⟩
      have hrm : row.1 ∈ s.ids := hri ▸ List.mem_map_of_mem hr
      obtain ⟨_, _, rfl⟩ | ⟨o, t1, t2, _, _, ho, hol, hw, hmp, _, _, rfl⟩ := h
      · have hids : ({ s with index := upd IndexRec.id { r with labels := row.2 } s.index } : Store).ids = s.ids :=
          map_update_id
        refine ⟨fun i hi => by rwa [hids] at hi, fun y hy => ?_, fun d hd hd' => absurd (by rwa [hids]) hd'⟩
        rcases mem_update hy with rfl | ⟨hy, _⟩
        · exact .inl hri
        · exact .inr hy
      · have hi2 : t2.index = s.index := by
          rw [((mergeMappings_does ..).steps _ _ _ hmp).index_eq (by decide),
            ((mergeWeights_does ..).steps _ _ _ hw).index_eq (by decide)]
        have hne : o.id ≠ row.1 := fun he => hown row (by simp) o ho he hol
        have hids : ({ t2 with index := (upd IndexRec.id { r with labels := row.2 }
            (t2.index.filter fun x => x.id != o.id)) } : Store).ids = s.ids.filter (fun i => i != o.id) := by
          unfold Store.ids
          rw [hi2, List.filter_map]
          exact map_update_id
        refine ⟨fun i hi => ?_, fun y hy => ?_, fun d hd hd' => ?_⟩
        · rw [hids] at hi
          exact List.mem_of_mem_filter hi
        · rcases mem_update hy with rfl | ⟨hy, _⟩
          · exact .inl hri
          · rw [hi2] at hy
            exact .inr (List.mem_of_mem_filter hy)
        · rw [hids, List.mem_filter] at hd'
          have : d = o.id := by
            by_contra hc
            exact hd' ⟨hd, by simpa using hc⟩
          exact ⟨hrm, fun he => hne (he.trans this).symm⟩
    obtain ⟨k1, k2, k3⟩ := key
    obtain ⟨i1, i2⟩ := ih h2 hnd.2 (by
      intro row' hr' y hy hyi
      rcases k2 y hy with hy' | hy'
      · exact absurd (hyi.symm.trans hy') (fun he => hnd.1 (he ▸ List.mem_map_of_mem hr'))
      · exact hown row' (List.mem_cons_of_mem _ hr') y hy' hyi)
    refine ⟨fun i hi => k1 i (i1 i hi), fun d hd hd' => ?_⟩
    by_cases hdt : d ∈ t.ids
    · obtain ⟨row', hr', hm', hne⟩ := i2 d hdt hd'
      exact ⟨row', List.mem_cons_of_mem _ hr', k1 _ hm', hne⟩
    · exact ⟨row, by simp, k3 d hd hdt⟩

theorem updateIndex_gone {merge : Bool} {rows : List (Nat × List PyStr)} {s s' : Store}
    (h : updateIndex merge rows s = .ok ((), s')) (hnd : (rows.map (·.1)).Nodup)
    (hown : ∀ row ∈ rows, ∀ r ∈ s.index, r.id = row.1 → r.labels ≠ row.2) :
    ∀ d ∈ s.ids, d ∉ s'.ids → ∃ row ∈ rows, row.1 ∈ s.ids ∧ row.1 ≠ d := by
  obtain ⟨acc, t, u, h1, h2, h3⟩ := updateIndex_parts h
  have h2' : Steps [.structs] t u := Does.steps (by does) _ _ _ h2
  have h3' : Steps [.hash, .wgUpd, .lUpd] u s' := Does.steps (by does) _ _ _ h3
  have : s'.ids = t.ids := by
    unfold Store.ids
    rw [h3'.index_eq (by decide), h2'.index_eq (by decide)]
  rw [this]
  exact (updateIndexRows_gone h1 hnd hown).2

end Toron.Space
