/-
Completeness flags of weight groups and links.
-/
import Verif.Lemmas.Store.Proportion
import Verif.Spec.Complete

set_option linter.unusedSimpArgs false

namespace Toron.Space

open Toron.Selectors (PyStr Sel)

theorem ReachableUnflagged.reachable {s : Store} (h : ReachableUnflagged s) : Reachable s := by
  obtain ⟨uid, ops, _, rfl⟩ := h
  exact ⟨uid, ops, rfl⟩

theorem ReachableUnflagged.induction {P : Store → Prop} (h0 : ∀ uid, P (Store.new uid))
    (hs : ∀ s op, Reachable s → op.setsFlag = false → P s → P (Space.step op s).1)
    {s : Store} (h : ReachableUnflagged s) : P s := by
  obtain ⟨uid, ops, hops, rfl⟩ := h
  induction ops using List.reverseRecOn with
  | nil => exact h0 uid
  | append_singleton ops op ih =>
    rw [run, List.foldl_append, List.foldl_cons, List.foldl_nil]
    simp only [List.mem_append, List.mem_singleton] at hops
    exact hs _ _ ⟨uid, ops, rfl⟩ (hops op (.inr rfl)) (ih fun o ho => hops o (.inl ho))

theorem wgroupIsComplete_iff {s : Store} {g : Nat} : s.wgroupIsComplete g = true ↔ s.groupCovers g := by
  unfold Store.wgroupIsComplete Store.groupCovers
  rw [List.all_eq_true]
  apply forall₂_congr
  intro r _
  rw [Bool.or_eq_true, beq_iff_eq, List.any_eq_true]
  simp only [Bool.and_eq_true, beq_iff_eq]
  by_cases h : r.id = 0 <;> simp [h]

theorem mappingIsComplete_iff {s : Store} {l : Nat} : s.mappingIsComplete l = true ↔ s.linkReaches l := by
  unfold Store.mappingIsComplete Store.linkReaches
  rw [List.all_eq_true]
  apply forall₂_congr
  intro r _
  rw [Bool.or_eq_true, beq_iff_eq, List.any_eq_true]
  simp only [Bool.and_eq_true, beq_iff_eq]
  by_cases h : r.id = 0 <;> simp [h]

/-! ### Weight groups -/

/-- Groups marked complete cover all records. -/
def GroupsOk (s : Store) : Prop := ∀ g ∈ s.wgroups, g.complete = true → s.groupCovers g.id

/-- No record has been added and no pair of group and record has lost its weight. -/
theorem groupCovers_of {s s' : Store} {g : Nat} (h : s.groupCovers g)
    (hi : ∀ r ∈ s'.index, ∃ x ∈ s.index, x.id = r.id)
    (hw : ∀ w ∈ s.weights, w.group = g → (∃ r ∈ s'.index, r.id = w.index) →
      ∃ x ∈ s'.weights, x.group = w.group ∧ x.index = w.index) : s'.groupCovers g := by
  intro r hr h0
  obtain ⟨x, hx, he⟩ := hi r hr
  obtain ⟨w, hw1, hw2, hw3⟩ := h x hx (by rw [he]; exact h0)
  obtain ⟨y, hy, hy1, hy2⟩ := hw w hw1 hw2 ⟨r, hr, by rw [hw3, he]⟩
  exact ⟨y, hy, hy1.trans hw2, by rw [hy2, hw3, he]⟩

theorem ids_sub {a b : List IndexRec} (h : b.map (·.id) = a.map (·.id)) : ∀ r ∈ b, ∃ x ∈ a, x.id = r.id := by
  intro r hr
  have : r.id ∈ a.map (·.id) := h ▸ List.mem_map_of_mem hr
  exact List.mem_map.1 this

theorem GroupsOk.steps {K : List Kind} {s s' : Store} (h : Steps K s s')
    (hK : ∀ k ∈ K, k ∉ [Kind.idxAdd, .wDel, .wgAdd, .wgUpd]) (hs : GroupsOk s) : GroupsOk s' := by
  refine h.invariant (P := GroupsOk) ?_ hs
  intro k hk s s' hp hs
  have hb := hK k hk
  cases hp with
  | idxAdd => exact absurd (by simp) hb
  | wDel => exact absurd (by simp) hb
  | wgAdd => exact absurd (by simp) hb
  | wgUpd => exact absurd (by simp) hb
  | idxUpd _ r =>
    intro g hg hc
    exact groupCovers_of (hs g hg hc) (ids_sub map_update_id) fun w hw _ _ => ⟨w, hw, rfl, rfl⟩
  | idxDel _ id =>
    intro g hg hc
    exact groupCovers_of (hs g hg hc) (fun r hr => ⟨r, List.mem_of_mem_filter hr, rfl⟩)
      fun w hw _ _ => ⟨w, hw, rfl, rfl⟩
  | colAdd _ c =>
    intro g hg hc
    exact groupCovers_of (hs g hg hc) (ids_sub (by simp [Store.addCol])) fun w hw _ _ => ⟨w, hw, rfl, rfl⟩
  | colDrop _ c =>
    intro g hg hc
    exact groupCovers_of (hs g hg hc) (ids_sub (by simp [Store.dropCols])) fun w hw _ _ => ⟨w, hw, rfl, rfl⟩
  | wAdd =>
    intro g hg hc
    exact groupCovers_of (hs g hg hc) (fun r hr => ⟨r, hr, rfl⟩)
      fun w hw _ _ => ⟨w, List.mem_append_left _ hw, rfl, rfl⟩
  | wSet _ id v =>
    intro g hg hc
    refine groupCovers_of (hs g hg hc) (fun r hr => ⟨r, hr, rfl⟩)
      fun w hw _ _ => ⟨_, List.mem_map.2 ⟨w, hw, rfl⟩, ?_⟩
    split <;> exact ⟨rfl, rfl⟩
  | wgDel _ id =>
    intro g hg hc
    obtain ⟨hg, hne⟩ := List.mem_filter.1 hg
    refine groupCovers_of (hs g hg hc) (fun r hr => ⟨r, hr, rfl⟩) fun w hw hwg _ => ⟨w, ?_, rfl, rfl⟩
    dsimp only
    split
    · exact List.mem_filter.2 ⟨hw, by rw [hwg]; exact hne⟩
    · exact hw
  | _ => exact hs

/-- A group may be updated if the flag is justified. -/
theorem GroupsOk.upd {g : WGroup} {s : Store} (h : GroupsOk s) (hg : g.complete = true → s.groupCovers g.id) :
    GroupsOk { s with wgroups := Space.upd WGroup.id g s.wgroups } := by
  intro x hx hc
  show s.groupCovers x.id
  unfold Space.upd at hx
  obtain ⟨y, hy, rfl⟩ := List.mem_map.1 hx
  split at hc
  · rename_i he
    rw [if_pos he]
    exact hg hc
  · rename_i he
    rw [if_neg he]
    exact h y hy hc

theorem recomputeComplete_ok {s s' : Store} (h : recomputeComplete s = .ok ((), s')) : GroupsOk s' := by
  unfold recomputeComplete at h
  simp only [bind_ok, get_ok] at h
  obtain ⟨_, _, he, h⟩ := h
  cases he
  have main : ∀ (gs : List WGroup) (t : Store), t.index = s.index → t.weights = s.weights →
      (∀ x ∈ t.wgroups, x.complete = true → s.groupCovers x.id ∨ x.id ∈ gs.map (·.id)) →
      gs.forM (fun g => (get : M Store) >>= fun u =>
        wgroupUpdate { g with complete := u.wgroupIsComplete g.id }) t = .ok ((), s') →
      GroupsOk s' := by
    intro gs
    induction gs with
    | nil =>
      intro t h1 h2 h3 h
      cases h
      intro x hx hc
      have := h3 x hx hc
      simp only [List.map_nil, List.not_mem_nil, or_false] at this
      unfold Store.groupCovers at *
      rw [h1, h2]
      exact this
    | cons g gs ih =>
      intro t h1 h2 h3 h
      obtain ⟨u, h4, h5⟩ := forM_cons_ok.1 h
      rw [bind_ok] at h4
      obtain ⟨_, _, he, h4⟩ := h4
      rw [get_ok] at he
      cases he
      have hu := wgroupUpdate_ok h4
      subst hu
      refine ih _ (by exact h1) (by exact h2) ?_ h5
      intro x hx hc
      unfold Space.upd at hx
      obtain ⟨y, hy, rfl⟩ := List.mem_map.1 hx
      split at hc
      · rename_i he
        rw [if_pos he]
        left
        have := wgroupIsComplete_iff.1 hc
        unfold Store.groupCovers at *
        rw [h1, h2] at this
        exact this
      · rename_i he
        rw [if_neg he]
        rcases h3 y hy hc with h | h
        · exact .inl h
        · rw [List.map_cons, List.mem_cons] at h
          exact .inr (h.resolve_left he)
  exact main s.wgroups s rfl rfl (fun x hx _ => .inr (List.mem_map_of_mem hx)) h

theorem promoteGroups_ok {s s' : Store} (hs : GroupsOk s) (h : promoteGroups s = .ok ((), s')) : GroupsOk s' := by
  unfold promoteGroups at h
  simp only [bind_ok, get_ok] at h
  obtain ⟨_, _, he, h⟩ := h
  cases he
  refine forM_keep (P := GroupsOk) ?_ hs h
  intro g _ t t' ht h
  rw [bind_ok] at h
  obtain ⟨_, _, he, h⟩ := h
  rw [get_ok] at he
  cases he
  rw [whenM_ok] at h
  obtain ⟨hc, h⟩ | ⟨_, rfl⟩ := h
  · rw [wgroupUpdate_ok h]
    refine ht.upd fun _ => wgroupIsComplete_iff.1 ?_
    rw [Bool.and_eq_true] at hc
    exact hc.2
  · exact ht

theorem insertIndex_groups {weights : Option (List PyStr)} {wcols : List PyStr} {pl pw : Policy}
    {rows : List IndexRow} {s s' : Store} (hs : GroupsOk s)
    (h : insertIndex weights wcols pl pw rows s = .ok ((), s')) : GroupsOk s' := by
  obtain ⟨groups, c, t, u, h1, h2, h3, _⟩ := insertIndex_parts h
  rw [whenM_ok] at h3
  obtain ⟨_, h3⟩ | ⟨hc, rfl⟩ := h3
  · exact recomputeComplete_ok h3
  · rw [Bool.or_eq_false_iff] at hc
    rw [whenM_ok] at h2
    obtain ⟨hl, _⟩ | ⟨_, rfl⟩ := h2
    · rw [hc.1] at hl; cases hl
    · exact hs.steps (insertIndexRows_ok h1 hc.1).2 (by decide)

theorem mergeWeights_groups {o target : Nat} {s s' : Store} (hnd : (s.weights.map (·.id)).Nodup)
    (h : mergeWeights [o] target s = .ok ((), s')) {g : Nat} {w : Weight} (hw : w ∈ s.weights) (hg : w.group = g)
    (hne : w.index = target ∨ w.index ≠ o) :
    ∃ x ∈ s'.weights, x.group = w.group ∧ x.index = w.index := by
  obtain ⟨old, new, hp, rfl, hn⟩ := mergeWeights_ok hnd h
  by_cases hi : w.index ∈ target :: [o]
  · have ht : w.index = target := by
      simp only [List.mem_cons, List.not_mem_nil, or_false] at hi
      tauto
    have hwo : w ∈ old := hp.mem_iff.2 (List.mem_filter.2 ⟨hw, by simpa using hi⟩)
    have : (w.group, target, ((old.filter fun x => x.group == w.group).map (·.value)).sum) ∈
        new.map (fun w => (w.group, w.index, w.value)) := by
      rw [hn, List.mem_map]
      exact ⟨w.group, mem_distinct.2 (List.mem_map_of_mem hwo), rfl⟩
    obtain ⟨x, hx, he⟩ := List.mem_map.1 this
    have h1 := (Prod.mk.inj he).1
    have h2 := (Prod.mk.inj (Prod.mk.inj he).2).1
    exact ⟨x, List.mem_append_right _ hx, h1, h2.trans ht.symm⟩
  · exact ⟨w, List.mem_append_left _ (List.mem_filter.2 ⟨hw, by simpa using hi⟩), rfl, rfl⟩

theorem updateIndexRow_groups {merge : Bool} {acc acc' : UpdateAcc} {row : Nat × List PyStr} {s s' : Store}
    (hi : WeightInv s) (hs : GroupsOk s) (h : updateIndexRow merge acc row s = .ok (acc', s')) : GroupsOk s' := by
  obtain ⟨_, rfl⟩ | ⟨r, hr, _, _, ⟨_, _, rfl⟩ | ⟨o, t1, t2, _, _, _, _, hw, hm, _, _, rfl⟩⟩ := updateIndexRow_cases h
  · exact hs
  · intro g hg hc
    refine groupCovers_of (hs g hg hc) (ids_sub ?_) fun w hw _ _ => ⟨w, hw, rfl, rfl⟩
    dsimp only
    unfold upd
    exact map_update_id
  · have hst := (mergeMappings_does ..).steps _ _ _ hm
    have e1 : t2.index = t1.index := hst.index_eq (by decide)
    have e2 : t2.weights = t1.weights := hst.weights_eq (by decide)
    have e3 : t2.wgroups = t1.wgroups := hst.wgroups_eq (by decide)
    have hsw := (mergeWeights_does ..).steps _ _ _ hw
    have f1 : t1.index = s.index := hsw.index_eq (by decide)
    have f3 : t1.wgroups = s.wgroups := hsw.wgroups_eq (by decide)
    have hids : ∀ x ∈ upd IndexRec.id { r with labels := row.2 } (t2.index.filter fun x => x.id != o.id),
        ∃ y ∈ s.index, y.id = x.id ∧ y.id ≠ o.id := by
      intro x hx
      have hmem : x.id ∈ (upd IndexRec.id { r with labels := row.2 }
          (t2.index.filter fun x => x.id != o.id)).map (·.id) := List.mem_map_of_mem hx
      unfold upd at hmem
      rw [map_update_id, List.mem_map] at hmem
      obtain ⟨y, hy, he⟩ := hmem
      rw [e1, f1, List.mem_filter] at hy
      exact ⟨y, hy.1, he, by simpa using hy.2⟩
    intro g hg hc
    have hg : g ∈ s.wgroups := by rw [← f3, ← e3]; exact hg
    refine groupCovers_of (hs g hg hc) ?_ ?_
    · intro x hx
      obtain ⟨y, hy, he, _⟩ := hids x hx
      exact ⟨y, hy, he⟩
    · intro w hw1 hwg hex
      obtain ⟨x, hx, hxe⟩ := hex
      obtain ⟨y, hy, he, hne⟩ := hids x hx
      show ∃ z ∈ t2.weights, _
      rw [e2]
      refine mergeWeights_groups hi.ids hw hw1 hwg (.inr ?_)
      rw [← hxe, ← he]
      exact hne

theorem updateIndex_groups {merge : Bool} {rows : List (Nat × List PyStr)} {s s' : Store} (hi : WeightInv s)
    (hs : GroupsOk s) (h : updateIndex merge rows s = .ok ((), s')) : GroupsOk s' := by
  obtain ⟨acc, t, u, h1, h2, h3⟩ := updateIndex_parts h
  have ht : GroupsOk t := by
    clear h h2 h3
    generalize (⟨[], false⟩ : UpdateAcc) = acc0 at h1
    induction rows generalizing s acc0 with
    | nil => cases h1; exact hs
    | cons r rs ih =>
      obtain ⟨d, t', h1, h2⟩ := foldlM_cons_ok.1 h1
      exact ih (hi.steps ((updateIndexRow_does merge _ r).steps _ _ _ h1)) (updateIndexRow_groups hi hs h1) _ h2
  have hu : GroupsOk u := ht.steps (K := [.structs]) (Does.steps (by does) _ _ _ h2) (by decide)
  rw [whenM_ok] at h3
  obtain ⟨_, h3⟩ | ⟨_, rfl⟩ := h3
  · unfold afterMerge at h3
    simp only [bind_ok] at h3
    obtain ⟨_, v, h4, _, v2, h5, h6⟩ := h3
    have hv : GroupsOk v := hu.steps (K := [.hash]) (Does.steps (by does) _ _ _ h4) (by decide)
    exact (promoteGroups_ok hv h5).steps (K := [.lUpd]) (Does.steps (by does) _ _ _ h6) (by decide)
  · exact hu

theorem deleteIndex_groups {t : Target (Nat × List PyStr)} {s s' : Store} (hi : DelInv s) (hs : GroupsOk s)
    (h : deleteIndex t s = .ok ((), s')) : GroupsOk s' := by
  obtain ⟨d, u, h1, h2⟩ := deleteIndex_parts h
  obtain ⟨D, hd, _, _⟩ := deleteIndexTarget_deleted hi h1
  have hg : u.wgroups = s.wgroups :=
    ((deleteIndexTarget_does t).steps _ _ _ h1).wgroups_eq (by decide)
  have hu : GroupsOk u := by
    intro g hgm hc
    rw [hg] at hgm
    refine groupCovers_of (hs g hgm hc) ?_ ?_
    · intro r hr
      rw [hd.index] at hr
      exact ⟨r, List.mem_of_mem_filter hr, rfl⟩
    · intro w hw _ hex
      obtain ⟨r, hr, he⟩ := hex
      rw [hd.index, List.mem_filter] at hr
      refine ⟨w, ?_, rfl, rfl⟩
      rw [hd.weights, List.mem_filter]
      refine ⟨hw, ?_⟩
      rw [← he]
      exact hr.2
  rw [whenM_ok] at h2
  obtain ⟨_, h2⟩ | ⟨_, rfl⟩ := h2
  · unfold afterDeleteIndex at h2
    simp only [bind_ok, get_ok] at h2
    obtain ⟨_, v, h3, _, v2, h4, _, v3, h5, _, _, he, h6⟩ := h2
    cases he
    have hv : GroupsOk v2 := (hu.steps (K := [.hash]) (Does.steps (by does) _ _ _ h3) (by decide)).steps
      (K := [.structs]) (Does.steps (by does) _ _ _ h4) (by decide)
    exact (promoteGroups_ok hv h5).steps (K := [.lUpd]) (Does.steps (by does) _ _ _ h6) (by decide)
  · exact hu

theorem wgroupAdd_ok {name : PyStr} {sel : List Sel} {c : Bool} {s s' : Store} {u : Unit}
    (h : wgroupAdd name sel c s = .ok (u, s')) :
    s' = { s with wgroups := s.wgroups ++ [⟨nextId (s.wgroups.map (·.id)), name, sel, c⟩] } := by
  simp only [wgroupAdd, bind_ok, get_ok, ite_ok, throw_ok, put_ok, pure_ok] at h
  obtain ⟨_, _, he, h⟩ := h
  cases he
  obtain ⟨_, h⟩ | ⟨h1, h⟩ := h
  · exact h.elim
  cases h
  rfl

theorem GroupsOk.add {name : PyStr} {sel : List Sel} {s s' : Store} {u : Unit}
    (h : wgroupAdd name sel false s = .ok (u, s')) (hs : GroupsOk s) : GroupsOk s' := by
  rw [wgroupAdd_ok h]
  intro g hg hc
  rcases List.mem_append.1 hg with hg | hg
  · exact hs g hg hc
  · rw [List.mem_singleton] at hg
    subst hg
    cases hc

theorem wgroupGetByName_ok {name : PyStr} {g : WGroup} {s s' : Store} (h : wgroupGetByName name s = .ok (g, s')) :
    s' = s ∧ g ∈ s.wgroups ∧ g.name = name := by
  simp only [wgroupGetByName, bind_ok, get_ok] at h
  obtain ⟨_, _, he, h⟩ := h
  cases he
  rcases hf : s.findWGroup name with _ | x <;> simp only [hf] at h
  · exact absurd h (by simp [throw_ok])
  · rw [pure_ok] at h
    cases h
    exact ⟨rfl, List.mem_of_find?_eq_some hf, by simpa using List.find?_some hf⟩

theorem afterWeights_groups {g : WGroup} {b : Bool} {s s' : Store} (hs : GroupsOk s)
    (h : afterWeights g b s = .ok ((), s')) : GroupsOk s' := by
  unfold afterWeights at h
  rw [bind_ok] at h
  obtain ⟨_, _, he, h⟩ := h
  rw [get_ok] at he
  cases he
  rw [whenM_ok] at h
  obtain ⟨hc, h⟩ | ⟨_, rfl⟩ := h
  · rw [wgroupUpdate_ok h]
    rw [Bool.and_eq_true] at hc
    exact hs.upd fun _ => wgroupIsComplete_iff.1 hc.2
  · exact hs

theorem addWeightGroup_groups {name : PyStr} {sel : List Sel} {mk : Option Bool} {s s' : Store} (hs : GroupsOk s)
    (h : addWeightGroup name sel false mk s = .ok ((), s')) : GroupsOk s' := by
  unfold addWeightGroup at h
  rw [bind_ok] at h
  obtain ⟨_, _, he, h⟩ := h
  rw [get_ok] at he
  cases he
  rcases hf : s.findWGroup name with _ | x <;> simp only [hf] at h
  · rw [bind_ok] at h
    obtain ⟨_, t, h1, h⟩ := h
    exact (GroupsOk.add h1 hs).steps (K := [.defwg]) (Does.steps (by does) _ _ _ h) (by decide)
  · exact absurd h (by simp [throw_ok])

theorem editWeightGroup_groups {name : PyStr} {nn : Option PyStr} {sel : Option (List Sel)} {c : Option Bool}
    {s s' : Store} (hc : c ≠ some true) (hs : GroupsOk s)
    (h : editWeightGroup name nn sel c s = .ok ((), s')) : GroupsOk s' := by
  unfold editWeightGroup at h
  rw [bind_ok] at h
  obtain ⟨_, _, he, h⟩ := h
  rw [get_ok] at he
  cases he
  rcases hf : s.findWGroup name with _ | g <;> simp only [hf] at h
  · rw [pure_ok] at h; cases h; exact hs
  · rw [wgroupUpdate_ok h]
    refine hs.upd fun h => ?_
    apply hs g (List.mem_of_find?_eq_some hf)
    rcases c with _ | _ | _
    · exact h
    · cases h
    · exact absurd rfl hc

theorem insertWeights_groups {name : PyStr} {p : Policy} {rows : List WeightRow} {s s' : Store} (hs : GroupsOk s)
    (h : insertWeights name p rows s = .ok ((), s')) : GroupsOk s' := by
  unfold insertWeights at h
  rw [ite_ok] at h
  obtain ⟨_, h⟩ | ⟨_, h⟩ := h
  · exact absurd h (by simp [throw_ok])
  simp only [bind_ok] at h
  obtain ⟨g, t, h1, b, u, h2, h3⟩ := h
  unfold wgroupGetOrAdd at h1
  simp only [bind_ok, get_ok] at h1
  obtain ⟨_, _, he, _, v, h4, h5⟩ := h1
  cases he
  have hv : GroupsOk v := by
    rw [whenM_ok] at h4
    obtain ⟨_, h4⟩ | ⟨_, rfl⟩ := h4
    · exact GroupsOk.add h4 hs
    · exact hs
  rw [(wgroupGetByName_ok h5).1] at h2
  have hu : GroupsOk u := hv.steps (K := [.wAdd, .wSet]) (Does.steps (by does) _ _ _ h2) (by decide)
  exact afterWeights_groups hu h3

theorem updateWeights_groups {name : PyStr} {rows : List (Nat × List PyStr × ℚ)} {s s' : Store} (hs : GroupsOk s)
    (h : updateWeights name rows s = .ok ((), s')) : GroupsOk s' := by
  unfold updateWeights at h
  simp only [bind_ok] at h
  obtain ⟨g, t, h1, b, u, h2, h3⟩ := h
  rw [(wgroupGetByName_ok h1).1] at h2
  have hu : GroupsOk u := hs.steps (K := [.wAdd, .wSet]) (Does.steps (by does) _ _ _ h2) (by decide)
  exact afterWeights_groups hu h3

/-- What `delete_weights` does to the weights. -/
def WDel (g : Nat) (s s' : Store) : Prop :=
  s' = { s with weights := s'.weights } ∧ ∀ w ∈ s.weights, w.group ≠ g → w ∈ s'.weights

theorem WDel.trans {g : Nat} {a b c : Store} (h1 : WDel g a b) (h2 : WDel g b c) : WDel g a c :=
  ⟨by rw [h2.1, h1.1], fun w hw hg => h2.2 w (h1.2 w hw hg) hg⟩

theorem deleteWeightOf_ok {g : Nat} {d d' : Bool} {i : Nat} {s s' : Store} (hi : (s.weights.map (·.id)).Nodup)
    (h : deleteWeightOf g d i s = .ok (d', s')) : (d' = d ∧ s' = s) ∨ (d' = true ∧ WDel g s s') := by
  unfold deleteWeightOf at h
  rw [bind_ok] at h
  obtain ⟨_, _, he, h⟩ := h
  rw [get_ok] at he
  cases he
  rcases hf : s.findWeight g i with _ | w <;> simp only [hf] at h
  · rw [pure_ok] at h; cases h; exact .inl ⟨rfl, rfl⟩
  · rw [bind_ok] at h
    obtain ⟨_, t, h1, h⟩ := h
    rw [pure_ok] at h
    cases h
    cases modify_ok.1 h1
    refine .inr ⟨rfl, rfl, ?_⟩
    intro x hx hg
    refine List.mem_filter.2 ⟨hx, ?_⟩
    rw [bne_iff_ne]
    intro he
    have hw := List.find?_some hf
    simp only [Bool.and_eq_true, beq_iff_eq] at hw
    rw [eq_of_id hi hx (List.mem_of_find?_eq_some hf) he] at hg
    exact hg hw.1

theorem foldl_wdel {ρ : Type} {g : Nat} {f : Bool → ρ → M Bool} {K : List Kind} (hd : ∀ b r, Does K (f b r))
    (hf : ∀ b r s b' s', WeightInv s → f b r s = .ok (b', s') → (b' = b ∧ s' = s) ∨ (b' = true ∧ WDel g s s'))
    {rows : List ρ} {b b' : Bool} {s s' : Store} (hi : WeightInv s) (h : rows.foldlM f b s = .ok (b', s')) :
    (b' = b ∧ s' = s) ∨ (b' = true ∧ WDel g s s') := by
  induction rows generalizing b s with
  | nil => cases h; exact .inl ⟨rfl, rfl⟩
  | cons r rs ih =>
    obtain ⟨d, t, h1, h2⟩ := foldlM_cons_ok.1 h
    have hi' := hi.steps ((hd b r).steps _ _ _ h1)
    obtain ⟨rfl, rfl⟩ | ⟨rfl, h3⟩ := hf _ _ _ _ _ hi h1
    · exact ih hi h2
    · obtain ⟨rfl, rfl⟩ | ⟨rfl, h4⟩ := ih hi' h2
      · exact .inr ⟨rfl, h3⟩
      · exact .inr ⟨rfl, h3.trans h4⟩

theorem deleteWeightTarget_ok {g : Nat} {t : Target (Nat × List PyStr)} {d : Bool} {s s' : Store}
    (hi : WeightInv s) (h : deleteWeightTarget g t s = .ok (d, s')) :
    (d = false ∧ s' = s) ∨ (d = true ∧ WDel g s s') := by
  unfold deleteWeightTarget at h
  cases t with
  | rows rs =>
    refine foldl_wdel (fun b r => deleteWeightRow_does g b r) ?_ hi h
    intro b r s b' s' hi h
    unfold deleteWeightRow at h
    rw [bind_ok] at h
    obtain ⟨_, _, he, h⟩ := h
    rw [get_ok] at he
    cases he
    rcases hr : s.index.find? (fun x => x.id == r.1) with _ | x <;> simp only [hr] at h
    · rw [pure_ok] at h; cases h; exact .inl ⟨rfl, rfl⟩
    · rw [ite_ok] at h
      obtain ⟨_, h⟩ | ⟨_, h⟩ := h
      · rw [pure_ok] at h; cases h; exact .inl ⟨rfl, rfl⟩
      · exact deleteWeightOf_ok hi.ids h
  | criteria cs =>
    simp only [bind_ok, get_ok] at h
    obtain ⟨_, _, he, h⟩ := h
    cases he
    exact foldl_wdel (fun b r => deleteWeightOf_does g b r) (fun _ _ _ _ _ hi h => deleteWeightOf_ok hi.ids h) hi h

theorem deleteWeights_groups {name : PyStr} {t : Target (Nat × List PyStr)} {s s' : Store} (hi : WeightInv s)
    (hs : GroupsOk s) (h : deleteWeights name t s = .ok ((), s')) : GroupsOk s' := by
  unfold deleteWeights at h
  rw [bind_ok] at h
  obtain ⟨g, t0, h1, h⟩ := h
  obtain ⟨rfl, hg, _⟩ := wgroupGetByName_ok h1
  rw [ite_ok] at h
  obtain ⟨_, h⟩ | ⟨_, h⟩ := h
  · exact absurd h (by simp [throw_ok])
  rw [bind_ok] at h
  obtain ⟨d, u, h2, h3⟩ := h
  rw [whenM_ok] at h3
  obtain ⟨rfl, rfl⟩ | ⟨rfl, hw⟩ := deleteWeightTarget_ok hi h2
  · obtain ⟨h, _⟩ | ⟨_, rfl⟩ := h3
    · simp at h
    · exact hs
  · have hother : ∀ x ∈ t0.wgroups, x.id ≠ g.id → x.complete = true → u.groupCovers x.id := by
      intro x hx hne hc
      refine groupCovers_of (hs x hx hc) ?_ ?_
      · intro r hr
        rw [hw.1] at hr
        exact ⟨r, hr, rfl⟩
      · intro w hwm hwg _
        exact ⟨w, hw.2 w hwm (by rw [hwg]; exact hne), rfl, rfl⟩
    have hug : u.wgroups = t0.wgroups := by rw [hw.1]
    obtain ⟨_, h3⟩ | ⟨hc, rfl⟩ := h3
    · rw [wgroupUpdate_ok h3]
      intro x hx hxc
      unfold upd at hx
      obtain ⟨y, hy, rfl⟩ := List.mem_map.1 hx
      split at hxc
      · cases hxc
      · rename_i hne
        rw [if_neg hne]
        exact hother y (hug ▸ hy) hne hxc
    · intro x hx hxc
      rw [hug] at hx
      apply hother x hx _ hxc
      intro he
      rw [eq_of_id hi.gids hx hg he] at hxc
      simp [hxc] at hc

/-- Kinds of changes that keep the flags of weight groups truthful. -/
def noGroupKinds : List Kind :=
  [.idxUpd, .idxDel, .locAdd, .locDel, .agAdd, .agDel, .qAdd, .qSet, .qDel,
   .wgDel, .wAdd, .wSet, .lAdd, .lUpd, .lDel, .mAdd, .mUpd, .mDel,
   .hash, .structs, .pdefs, .attrs, .display, .domain, .defwg, .colAdd, .colRen, .colDrop]

theorem GroupsOk.step {s : Store} (h : Reachable s) (op : Op) (hop : op.setsFlag = false) (hs : GroupsOk s) :
    GroupsOk (step op s).1 := by
  have rest : ∀ {m : M Unit}, op.body = some m → Does noGroupKinds m → GroupsOk (Space.step op s).1 := by
    intro m hb hm
    rw [step_of_body hb]
    exact hs.steps (runTx_steps hm s) (by decide)
  cases op with
  | insertIndex => exact runTx_inv hs fun _ _ h => insertIndex_groups hs h
  | updateIndex => exact runTx_inv hs fun _ _ h' => updateIndex_groups h.weightInv hs h'
  | deleteIndex => exact runTx_inv hs fun _ _ h' => deleteIndex_groups h.delInv hs h'
  | addWeightGroup n sel c mk =>
    have : c = false := hop
    subst this
    exact runTx_inv hs fun _ _ h => addWeightGroup_groups hs h
  | editWeightGroup n nn sel c =>
    have : c ≠ some true := by simpa [Op.setsFlag] using hop
    exact runTx_inv hs fun _ _ h => editWeightGroup_groups this hs h
  | insertWeights => exact runTx_inv hs fun _ _ h => insertWeights_groups hs h
  | updateWeights => exact runTx_inv hs fun _ _ h => updateWeights_groups hs h
  | deleteWeights => exact runTx_inv hs fun _ _ h' => deleteWeights_groups h.weightInv hs h'
  | reifyMappings => exact hs.steps (reifyMappings_steps _ _ _ s) (by decide)
  | deleteUnmatchedQuantities => exact hs.steps (deleteUnmatchedQuantities_steps s) (by decide)
  | reopen => exact hs
  | _ => exact rest rfl (by unfold noGroupKinds; does)

theorem ReachableUnflagged.groupsOk {s : Store} (h : ReachableUnflagged s) : GroupsOk s :=
  h.induction (P := GroupsOk) (fun _ g hg => by simp [Store.new] at hg) fun _ op h hop hs => GroupsOk.step h op hop hs

/-! ### Links -/

/-- Links marked complete reach all records. -/
def LinksTrue (s : Store) : Prop := ∀ l ∈ s.links, l.complete = true → s.linkReaches l.id

/-- No record has been added and no pair of link and record has lost its mapping. -/
theorem linkReaches_of {s s' : Store} {l : Nat} (h : s.linkReaches l)
    (hi : ∀ r ∈ s'.index, ∃ x ∈ s.index, x.id = r.id)
    (hm : ∀ m ∈ s.maps, m.link = l → (∃ r ∈ s'.index, r.id = m.index) →
      ∃ x ∈ s'.maps, x.link = m.link ∧ x.index = m.index) : s'.linkReaches l := by
  intro r hr h0
  obtain ⟨x, hx, he⟩ := hi r hr
  obtain ⟨m, hm1, hm2, hm3⟩ := h x hx (by rw [he]; exact h0)
  obtain ⟨y, hy, hy1, hy2⟩ := hm m hm1 hm2 ⟨r, hr, by rw [hm3, he]⟩
  exact ⟨y, hy, hy1.trans hm2, by rw [hy2, hm3, he]⟩

theorem LinksTrue.steps {K : List Kind} {s s' : Store} (h : Steps K s s')
    (hK : ∀ k ∈ K, k ∉ [Kind.idxAdd, .mDel, .mUpd, .lAdd, .lUpd]) (hs : LinksTrue s) : LinksTrue s' := by
  refine h.invariant (P := LinksTrue) ?_ hs
  intro k hk s s' hp hs
  have hb := hK k hk
  cases hp with
  | idxAdd => exact absurd (by simp) hb
  | mDel => exact absurd (by simp) hb
  | mUpd => exact absurd (by simp) hb
  | lAdd => exact absurd (by simp) hb
  | lUpd => exact absurd (by simp) hb
  | idxUpd _ r =>
    intro g hg hc
    exact linkReaches_of (hs g hg hc) (ids_sub map_update_id) fun w hw _ _ => ⟨w, hw, rfl, rfl⟩
  | idxDel _ id =>
    intro g hg hc
    exact linkReaches_of (hs g hg hc) (fun r hr => ⟨r, List.mem_of_mem_filter hr, rfl⟩)
      fun w hw _ _ => ⟨w, hw, rfl, rfl⟩
  | colAdd _ c =>
    intro g hg hc
    exact linkReaches_of (hs g hg hc) (ids_sub (by simp [Store.addCol])) fun w hw _ _ => ⟨w, hw, rfl, rfl⟩
  | colDrop _ c =>
    intro g hg hc
    exact linkReaches_of (hs g hg hc) (ids_sub (by simp [Store.dropCols])) fun w hw _ _ => ⟨w, hw, rfl, rfl⟩
  | mAdd =>
    intro g hg hc
    exact linkReaches_of (hs g hg hc) (fun r hr => ⟨r, hr, rfl⟩)
      fun w hw _ _ => ⟨w, List.mem_append_left _ hw, rfl, rfl⟩
  | lDel _ id =>
    intro g hg hc
    obtain ⟨hg, hne⟩ := List.mem_filter.1 hg
    refine linkReaches_of (hs g hg hc) (fun r hr => ⟨r, hr, rfl⟩) fun w hw hwg _ => ⟨w, ?_, rfl, rfl⟩
    dsimp only
    split
    · exact List.mem_filter.2 ⟨hw, by rw [hwg]; exact hne⟩
    · exact hw
  | _ => exact hs

/-- The state of a loop that only updates links. -/
def LinkLoop (s t : Store) : Prop := t.index = s.index ∧ t.maps = s.maps ∧ LinksTrue t

theorem LinkLoop.reaches {s t : Store} (h : LinkLoop s t) {l : Nat} : t.linkReaches l ↔ s.linkReaches l := by
  unfold Store.linkReaches
  rw [h.1, h.2.1]

theorem LinkLoop.upd {l : Link} {s t t' : Store} {u : Unit} (h : LinkLoop s t)
    (hl : l.complete = true → s.linkReaches l.id) (hu : linkUpdate l t = .ok (u, t')) : LinkLoop s t' := by
  rw [linkUpdate_ok hu]
  refine ⟨h.1, h.2.1, ?_⟩
  intro x hx hc
  show t.linkReaches x.id
  unfold Space.upd at hx
  obtain ⟨y, hy, rfl⟩ := List.mem_map.1 hx
  split at hc
  · rename_i he
    rw [if_pos he]
    exact h.reaches.2 (hl hc)
  · rename_i he
    rw [if_neg he]
    exact h.2.2 y hy hc

theorem promoteLinks_ok {s s' : Store} (hs : LinksTrue s) (h : promoteLinks s = .ok ((), s')) : LinksTrue s' := by
  unfold promoteLinks at h
  simp only [bind_ok, get_ok] at h
  obtain ⟨_, _, he, h⟩ := h
  cases he
  refine (forM_keep (P := LinkLoop s) ?_ ⟨rfl, rfl, hs⟩ h).2.2
  intro l _ t t' ht h
  rw [bind_ok] at h
  obtain ⟨_, _, he, h⟩ := h
  rw [get_ok] at he
  cases he
  rw [whenM_ok] at h
  obtain ⟨hc, h⟩ | ⟨_, rfl⟩ := h
  · refine ht.upd (fun _ => ht.reaches.1 (mappingIsComplete_iff.1 ?_)) h
    rw [Bool.and_eq_true] at hc
    exact hc.2
  · exact ht

theorem resetLinks_ok {s s' : Store}
    (h : s.links.forM (fun l => whenM l.complete (linkUpdate { l with complete := false })) s = .ok ((), s')) :
    ∀ l ∈ s'.links, l.complete = false := by
  have main : ∀ (ls : List Link) (t : Store),
      (∀ x ∈ t.links, x.complete = true → ∃ l ∈ ls, l.id = x.id ∧ l.complete = true) →
      ls.forM (fun l => whenM l.complete (linkUpdate { l with complete := false })) t = .ok ((), s') →
      ∀ l ∈ s'.links, l.complete = false := by
    intro ls
    induction ls with
    | nil =>
      intro t h1 h x hx
      cases h
      by_contra hc
      obtain ⟨_, hn, _⟩ := h1 x hx (by simpa using hc)
      cases hn
    | cons l ls ih =>
      intro t h1 h
      obtain ⟨u, h2, h3⟩ := forM_cons_ok.1 h
      refine ih u ?_ h3
      intro x hx hc
      rw [whenM_ok] at h2
      obtain ⟨hl, h2⟩ | ⟨hl, rfl⟩ := h2
      · rw [linkUpdate_ok h2] at hx
        unfold upd at hx
        obtain ⟨y, hy, rfl⟩ := List.mem_map.1 hx
        split at hc
        · cases hc
        · rename_i hne
          rw [if_neg hne]
          obtain ⟨z, hz, hz1, hz2⟩ := h1 y hy hc
          rcases List.mem_cons.1 hz with rfl | hz
          · exact absurd hz1.symm hne
          · exact ⟨z, hz, hz1, hz2⟩
      · obtain ⟨z, hz, hz1, hz2⟩ := h1 x hx hc
        rcases List.mem_cons.1 hz with rfl | hz
        · rw [hl] at hz2; cases hz2
        · exact ⟨z, hz, hz1, hz2⟩
  exact main s.links s (fun x hx hc => ⟨x, hx, rfl, hc⟩) h

theorem insertIndex_links {weights : Option (List PyStr)} {wcols : List PyStr} {pl pw : Policy}
    {rows : List IndexRow} {s s' : Store} (hs : LinksTrue s)
    (h : insertIndex weights wcols pl pw rows s = .ok ((), s')) : LinksTrue s' := by
  obtain ⟨groups, c, t, u, h1, h2, h3, _⟩ := insertIndex_parts h
  have hu : LinksTrue u := by
    rw [whenM_ok] at h2
    obtain ⟨_, h2⟩ | ⟨hc, rfl⟩ := h2
    · unfold afterNewRecords at h2
      simp only [bind_ok, get_ok] at h2
      obtain ⟨_, _, _, _, v, _, _, _, he, h4⟩ := h2
      cases he
      intro l hl hc
      rw [resetLinks_ok h4 l hl] at hc
      cases hc
    · exact hs.steps (insertIndexRows_ok h1 hc).2 (by decide)
  exact hu.steps (K := [.wgUpd]) (Does.steps (by does) _ _ _ h3) (by decide)

theorem mergeMappings_links {o target : Nat} {s s' : Store} (hnd : (s.maps.map (·.id)).Nodup)
    (h : mergeMappings [o] target s = .ok ((), s')) {m : Mapping} (hm : m ∈ s.maps)
    (hne : m.index = target ∨ m.index ≠ o) :
    ∃ x ∈ s'.maps, x.link = m.link ∧ x.index = m.index := by
  obtain ⟨old, new, hp, rfl, hn⟩ := mergeMappings_ok hnd h
  by_cases hi : m.index ∈ target :: [o]
  · have ht : m.index = target := by
      simp only [List.mem_cons, List.not_mem_nil, or_false] at hi
      tauto
    have hmo : m ∈ old := hp.mem_iff.2 (List.mem_filter.2 ⟨hm, by simpa using hi⟩)
    have : (m.key, target, ((old.filter fun x => x.key == m.key).map (·.value)).sum,
          propSum ((old.filter fun x => x.key == m.key).map (·.prop))) ∈
        new.map (fun m => (m.key, m.index, m.value, m.prop)) := by
      rw [hn, List.mem_map]
      exact ⟨m.key, mem_distinct.2 (List.mem_map_of_mem hmo), rfl⟩
    obtain ⟨x, hx, he⟩ := List.mem_map.1 this
    have h1 := (Prod.mk.inj he).1
    have h2 := (Prod.mk.inj (Prod.mk.inj he).2).1
    exact ⟨x, List.mem_append_right _ hx, (Prod.mk.inj h1).1, h2.trans ht.symm⟩
  · exact ⟨m, List.mem_append_left _ (List.mem_filter.2 ⟨hm, by simpa using hi⟩), rfl, rfl⟩

theorem updateIndexRow_links {merge : Bool} {acc acc' : UpdateAcc} {row : Nat × List PyStr} {s s' : Store}
    (hi : MapInv s) (hs : LinksTrue s) (h : updateIndexRow merge acc row s = .ok (acc', s')) : LinksTrue s' := by
  obtain ⟨_, rfl⟩ | ⟨r, hr, _, _, ⟨_, _, rfl⟩ | ⟨o, t1, t2, _, _, _, _, hw, hm, _, _, rfl⟩⟩ := updateIndexRow_cases h
  · exact hs
  · intro g hg hc
    refine linkReaches_of (hs g hg hc) (ids_sub ?_) fun w hw _ _ => ⟨w, hw, rfl, rfl⟩
    dsimp only
    unfold upd
    exact map_update_id
  · have hst := (mergeMappings_does ..).steps _ _ _ hm
    have e1 : t2.index = t1.index := hst.index_eq (by decide)
    have e3 : t2.links = t1.links := hst.links_eq (by decide)
    have hsw := (mergeWeights_does ..).steps _ _ _ hw
    have f1 : t1.index = s.index := hsw.index_eq (by decide)
    have f2 : t1.maps = s.maps := hsw.maps_eq (by decide)
    have f3 : t1.links = s.links := hsw.links_eq (by decide)
    have hids : ∀ x ∈ upd IndexRec.id { r with labels := row.2 } (t2.index.filter fun x => x.id != o.id),
        ∃ y ∈ s.index, y.id = x.id ∧ y.id ≠ o.id := by
      intro x hx
      have hmem : x.id ∈ (upd IndexRec.id { r with labels := row.2 }
          (t2.index.filter fun x => x.id != o.id)).map (·.id) := List.mem_map_of_mem hx
      unfold upd at hmem
      rw [map_update_id, List.mem_map] at hmem
      obtain ⟨y, hy, he⟩ := hmem
      rw [e1, f1, List.mem_filter] at hy
      exact ⟨y, hy.1, he, by simpa using hy.2⟩
    intro g hg hc
    have hg : g ∈ s.links := by rw [← f3, ← e3]; exact hg
    refine linkReaches_of (hs g hg hc) ?_ ?_
    · intro x hx
      obtain ⟨y, hy, he, _⟩ := hids x hx
      exact ⟨y, hy, he⟩
    · intro m hm1 _ hex
      obtain ⟨x, hx, hxe⟩ := hex
      obtain ⟨y, hy, he, hne⟩ := hids x hx
      refine mergeMappings_links (by rw [f2]; exact hi.ids) hm (by rw [f2]; exact hm1) (.inr ?_)
      rw [← hxe, ← he]
      exact hne

theorem updateIndex_links {merge : Bool} {rows : List (Nat × List PyStr)} {s s' : Store} (hi : MapInv s)
    (hs : LinksTrue s) (h : updateIndex merge rows s = .ok ((), s')) : LinksTrue s' := by
  obtain ⟨acc, t, u, h1, h2, h3⟩ := updateIndex_parts h
  have ht : LinksTrue t := by
    clear h h2 h3
    generalize (⟨[], false⟩ : UpdateAcc) = acc0 at h1
    induction rows generalizing s acc0 with
    | nil => cases h1; exact hs
    | cons r rs ih =>
      obtain ⟨d, t', h1, h2⟩ := foldlM_cons_ok.1 h1
      exact ih (hi.steps ((updateIndexRow_does merge _ r).steps _ _ _ h1)) (updateIndexRow_links hi hs h1) _ h2
  have hu : LinksTrue u := ht.steps (K := [.structs]) (Does.steps (by does) _ _ _ h2) (by decide)
  rw [whenM_ok] at h3
  obtain ⟨_, h3⟩ | ⟨_, rfl⟩ := h3
  · unfold afterMerge at h3
    simp only [bind_ok] at h3
    obtain ⟨_, v, h4, _, v2, h5, h6⟩ := h3
    have hv : LinksTrue v := hu.steps (K := [.hash]) (Does.steps (by does) _ _ _ h4) (by decide)
    exact promoteLinks_ok (hv.steps (K := [.wgUpd]) (Does.steps (by does) _ _ _ h5) (by decide)) h6
  · exact hu

theorem deleteIndex_links {t : Target (Nat × List PyStr)} {s s' : Store} (hi : DelInv s) (hs : LinksTrue s)
    (h : deleteIndex t s = .ok ((), s')) : LinksTrue s' := by
  obtain ⟨d, u, h1, h2⟩ := deleteIndex_parts h
  obtain ⟨D, hd, _, _⟩ := deleteIndexTarget_deleted hi h1
  have hg : u.links = s.links :=
    ((deleteIndexTarget_does t).steps _ _ _ h1).links_eq (by decide)
  have hu : LinksTrue u := by
    intro g hgm hc
    rw [hg] at hgm
    refine linkReaches_of (hs g hgm hc) ?_ ?_
    · intro r hr
      rw [hd.index] at hr
      exact ⟨r, List.mem_of_mem_filter hr, rfl⟩
    · intro m hm hl hex
      obtain ⟨r, hr, he⟩ := hex
      rw [hd.index, List.mem_filter] at hr
      obtain ⟨x, hx, hxe⟩ := hd.still hm (by rw [← he]; simpa using hr.2)
      exact ⟨x, hx, (congrArg Mapping.link hxe : x.bare.link = m.bare.link),
        (congrArg Mapping.index hxe : x.bare.index = m.bare.index)⟩
  rw [whenM_ok] at h2
  obtain ⟨_, h2⟩ | ⟨_, rfl⟩ := h2
  · unfold afterDeleteIndex at h2
    simp only [bind_ok, get_ok] at h2
    obtain ⟨_, v, h3, _, v2, h4, _, v3, h5, _, _, he, h6⟩ := h2
    cases he
    have hv : LinksTrue v3 := ((hu.steps (K := [.hash]) (Does.steps (by does) _ _ _ h3) (by decide)).steps
      (K := [.structs]) (Does.steps (by does) _ _ _ h4) (by decide)).steps
      (K := [.wgUpd]) (Does.steps (by does) _ _ _ h5) (by decide)
    refine (forM_keep (P := LinkLoop v3) ?_ ⟨rfl, rfl, hv⟩ h6).2.2
    intro l hl t t' ht h
    rw [bind_ok] at h
    obtain ⟨_, _, he, h⟩ := h
    rw [get_ok] at he
    cases he
    refine ht.upd (fun hc => ?_) h
    rw [Bool.or_eq_true] at hc
    rcases hc with hc | hc
    · exact hv l hl hc
    · exact ht.reaches.1 (mappingIsComplete_iff.1 hc)
  · exact hu

theorem addLink_links {other name : PyStr} {hint : Option PyStr} {selectors : List Sel}
    {isDefault : Option Bool} {otherHash : Option (List Int)} {s s' : Store} (hs : LinksTrue s)
    (h : addLink other name hint selectors isDefault otherHash false s = .ok ((), s')) : LinksTrue s' := by
  unfold addLink at h
  rw [bind_ok] at h
  obtain ⟨_, _, he, h⟩ := h
  rw [get_ok] at he
  cases he
  rw [ite_ok] at h
  obtain ⟨_, h⟩ | ⟨_, h⟩ := h
  · exact absurd h (by simp [throw_ok])
  have add : ∀ {d : Bool} {t : Store}, LinksTrue t →
      linkAdd ⟨0, other, hint, name, selectors, d, otherHash, false⟩ t = .ok ((), s') → LinksTrue s' := by
    intro d t ht h
    rw [linkAdd_ok h]
    intro l hl hc
    rcases List.mem_append.1 hl with hl | hl
    · exact ht l hl hc
    · rw [List.mem_singleton] at hl
      subst hl
      cases hc
  dsimp only at h
  rw [ite_ok] at h
  obtain ⟨_, h⟩ | ⟨_, h⟩ := h
  · rw [bind_ok] at h
    obtain ⟨_, t, h1, h⟩ := h
    refine add (forM_keep (P := LinkLoop s) ?_ ⟨rfl, rfl, hs⟩ h1).2.2 h
    intro l hl t t' ht h
    rw [ite_ok] at h
    obtain ⟨_, h⟩ | ⟨_, h⟩ := h
    · exact ht.upd (l := { l with isDefault := false }) (fun hc => hs l (List.mem_of_mem_filter hl) hc) h
    · rw [pure_ok] at h; cases h; exact ht
  · exact add hs h

theorem editLink_links {ref : PyStr} {name : Option PyStr} {c : LinkChanges} {s s' : Store} (hc : c.complete ≠ some true)
    (hs : LinksTrue s) (h : editLink ref name c s = .ok ((), s')) : LinksTrue s' := by
  unfold editLink at h
  simp only [bind_ok, get_ok, liftE_ok] at h
  obtain ⟨_, _, he, l, _, ⟨l, hl, he2⟩, h⟩ := h
  cases he
  cases he2
  have last : (c.apply l).complete = true → s.linkReaches (c.apply l).id := by
    intro h
    apply hs l (getLink_mem hl)
    unfold LinkChanges.apply at h
    rcases hcc : c.complete with _ | _ | _
    · simpa [hcc] using h
    · simp [hcc] at h
    · exact absurd hcc hc
  rw [ite_ok] at h
  obtain ⟨_, h⟩ | ⟨_, h⟩ := h
  · simp only [bind_ok, get_ok] at h
    obtain ⟨_, _, he, _, t, h1, h2⟩ := h
    cases he
    have ht : LinkLoop s t := by
      refine forM_keep (P := LinkLoop s) ?_ ⟨rfl, rfl, hs⟩ h1
      intro l hl t t' ht h
      exact ht.upd (l := { l with isDefault := false }) (fun hc => hs l (List.mem_of_mem_filter hl) hc) h
    exact (ht.upd last h2).2.2
  · exact (LinkLoop.upd ⟨rfl, rfl, hs⟩ last h).2.2

theorem refreshMaps_reach {ms : List Mapping} {p : Nat → Int → Bool} {m : Mapping} (h : m ∈ ms) :
    ∃ x ∈ refreshMaps ms p, x.link = m.link ∧ x.index = m.index := by
  unfold refreshMaps
  refine ⟨_, List.mem_map.2 ⟨m, h, rfl⟩, ?_⟩
  split <;> exact ⟨rfl, rfl⟩

theorem linkReaches_refresh {t : Store} {p : Nat → Int → Bool} {l : Nat} {ls : List Link} (h : t.linkReaches l) :
    ({ t with maps := refreshMaps t.maps p, links := ls } : Store).linkReaches l :=
  linkReaches_of h (fun r hr => ⟨r, hr, rfl⟩) fun _ hm _ _ => refreshMaps_reach hm

theorem MapEffect.linksTrue {s s' : Store} (h : MapEffect s s') (hs : LinksTrue s) : LinksTrue s' := by
  have keep : ∀ {lk l : Nat} {t : Store}, OnLink lk s t → l ≠ lk → s.linkReaches l → t.linkReaches l := by
    intro lk l t ht hne h
    refine linkReaches_of h ?_ ?_
    · rw [ht.rest]
      exact fun r hr => ⟨r, hr, rfl⟩
    · intro m hm hl _
      exact ⟨m, (ht.mem_iff (by rw [hl]; exact hne)).2 hm, rfl, rfl⟩
  cases h with
  | none => exact hs
  | link l t hl ht _ =>
    intro x hx hc
    refine linkReaches_refresh ?_
    have hlk : t.links = s.links := by rw [ht.rest]
    unfold upd at hx
    obtain ⟨y, hy, rfl⟩ := List.mem_map.1 hx
    split at hc
    · rename_i he
      rw [if_pos he]
      exact mappingIsComplete_iff.1 hc
    · rename_i he
      rw [if_neg he]
      exact keep ht he (hs y (hlk ▸ hy) hc)
  | same l t hl ht _ hr =>
    intro x hx hc
    refine linkReaches_refresh (ls := t.links) ?_
    have hlk : t.links = s.links := by rw [ht.rest]
    refine linkReaches_of (hs x (hlk ▸ hx) hc) ?_ ?_
    · rw [ht.rest]
      exact fun r hr => ⟨r, hr, rfl⟩
    · intro m hm _ _
      have : (m.id, m.link, m.index, m.other) ∈ t.reach := by
        rw [hr]
        exact List.mem_map.2 ⟨m, hm, rfl⟩
      obtain ⟨y, hy, he⟩ := List.mem_map.1 this
      exact ⟨y, hy, congrArg (fun z => z.2.1) he, congrArg (fun z => z.2.2.1) he⟩

/-- Kinds of changes that keep the flags of links truthful. -/
def noLinkKinds : List Kind :=
  [.idxUpd, .idxDel, .locAdd, .locDel, .agAdd, .agDel, .qAdd, .qSet, .qDel,
   .wgAdd, .wgUpd, .wgDel, .wAdd, .wSet, .wDel, .lDel, .mAdd,
   .hash, .structs, .pdefs, .attrs, .display, .domain, .defwg, .colAdd, .colRen, .colDrop]

theorem LinksTrue.step {s : Store} (h : Reachable s) (op : Op) (hop : op.setsFlag = false) (hs : LinksTrue s) :
    LinksTrue (step op s).1 := by
  have rest : ∀ {m : M Unit}, op.body = some m → Does noLinkKinds m → LinksTrue (Space.step op s).1 := by
    intro m hb hm
    rw [step_of_body hb]
    exact hs.steps (runTx_steps hm s) (by decide)
  cases op with
  | insertIndex => exact runTx_inv hs fun _ _ h => insertIndex_links hs h
  | updateIndex => exact runTx_inv hs fun _ _ h' => updateIndex_links h.mapInv hs h'
  | deleteIndex => exact runTx_inv hs fun _ _ h' => deleteIndex_links h.delInv hs h'
  | addLink o n hint sel d oh c =>
    have : c = false := hop
    subst this
    exact runTx_inv hs fun _ _ h => addLink_links hs h
  | editLink ref n c =>
    have : c.complete ≠ some true := by simpa [Op.setsFlag] using hop
    exact runTx_inv hs fun _ _ h => editLink_links this hs h
  | insertMappings2 => exact runTx_inv hs fun _ _ h' => (insertMappings2_effect h.mapInv h').linksTrue hs
  | insertMappings => exact runTx_inv hs fun _ _ h' => (insertMappings_effect h.mapInv h').linksTrue hs
  | updateMappings => exact runTx_inv hs fun _ _ h' => (updateMappings_effect h.mapInv h').linksTrue hs
  | deleteMappings => exact runTx_inv hs fun _ _ h' => (deleteMappings_effect h.mapInv h').linksTrue hs
  | reifyMappings ref name cs =>
    have hst := reifyMappings_steps ref name cs s
    intro l hl hc
    rw [show (Space.step (.reifyMappings ref name cs) s).1 = (Space.reifyMappings ref name cs s).1 from rfl] at hl ⊢
    rw [hst.links_eq (by decide)] at hl
    refine linkReaches_of (hs l hl hc) ?_ ?_
    · rw [hst.index_eq (by decide)]
      exact fun r hr => ⟨r, hr, rfl⟩
    · intro m hm _ _
      have hm' := List.mem_map_of_mem (f := fun m : Mapping => (m.id, m.link, m.other, m.index, m.value, m.prop)) hm
      rw [← reify_core ref name cs s h.mapInv.ids, List.mem_map] at hm'
      obtain ⟨x, hx, he⟩ := hm'
      exact ⟨x, hx, congrArg (fun y => y.2.1) he, congrArg (fun y => y.2.2.2.1) he⟩
  | deleteUnmatchedQuantities => exact hs.steps (deleteUnmatchedQuantities_steps s) (by decide)
  | reopen => exact hs
  | _ => exact rest rfl (by unfold noLinkKinds; does)

theorem ReachableUnflagged.linksTrue {s : Store} (h : ReachableUnflagged s) : LinksTrue s :=
  h.induction (P := LinksTrue) (fun _ g hg => by simp [Store.new] at hg) fun _ op h hop hs => LinksTrue.step h op hop hs

end Toron.Space
