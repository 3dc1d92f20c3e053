/-
Structural invariants of all histories: weights, links, mappings, quantities, columns.
-/
import Verif.Lemmas.Py
import Verif.Lemmas.Store.Inv

namespace Toron.Space

open Toron.Selectors (PyStr Sel)

/-! ### Weights and weight groups -/

/-- Weights and weight groups are in order. -/
structure WeightInv (s : Store) : Prop where
  ids : (s.weights.map (·.id)).Nodup
  pairs : (s.weights.map fun w => (w.group, w.index)).Nodup
  defined : ∀ w ∈ s.weights, w.index ≠ 0
  nonneg : ∀ w ∈ s.weights, 0 ≤ w.value
  gids : (s.wgroups.map (·.id)).Nodup
  names : (s.wgroups.map (·.name)).Nodup
  gpos : ∀ g ∈ s.wgroups, 0 < g.id

theorem WeightInv.prim {k : Kind} {s s' : Store} (hp : Prim k s s') (h : WeightInv s) : WeightInv s' := by
  obtain ⟨h1, h2, h3, h4, h5, h6, h7⟩ := h
  have hsub : ∀ (p : Weight → Bool), ((s.weights.filter p).map (·.id)).Nodup ∧
      ((s.weights.filter p).map fun w => (w.group, w.index)).Nodup ∧
      (∀ w ∈ s.weights.filter p, w.index ≠ 0) ∧ (∀ w ∈ s.weights.filter p, 0 ≤ w.value) := fun p =>
    ⟨nodup_filter_map _ h1, nodup_filter_map _ h2, fun w hw => h3 w (List.mem_of_mem_filter hw),
      fun w hw => h4 w (List.mem_of_mem_filter hw)⟩
  cases hp with
  | wgAdd _ name selectors complete huniq =>
    refine ⟨h1, h2, h3, h4, nodup_append_one h5 ?_, nodup_append_one h6 huniq, ?_⟩
    · intro y hy heq
      exact nextId_not_mem _ (heq ▸ List.mem_map_of_mem (f := WGroup.id) hy)
    · intro g hg
      rcases List.mem_append.1 hg with hg | hg
      · exact h7 g hg
      · rw [List.mem_singleton] at hg; subst hg; exact nextId_pos _
  | wgUpd _ g hex huniq =>
    refine ⟨h1, h2, h3, h4, by simpa only [map_update_id] using h5, nodup_update h5 h6 huniq, ?_⟩
    intro y hy
    rcases mem_update hy with rfl | ⟨hy, _⟩
    · obtain ⟨x, hx, hxe⟩ := hex
      rw [← hxe]
      exact h7 x hx
    · exact h7 y hy
  | wgDel _ id =>
    have hg := fun g (hg : g ∈ s.wgroups.filter (fun x => x.id != id)) => h7 g (List.mem_of_mem_filter hg)
    obtain ⟨a, b, c, d⟩ := hsub (fun w => w.group != id)
    rcases hfk : s.fk with _ | _
    · exact ⟨h1, h2, h3, h4, nodup_filter_map _ h5, nodup_filter_map _ h6, hg⟩
    · exact ⟨a, b, c, d, nodup_filter_map _ h5, nodup_filter_map _ h6, hg⟩
  | wAdd _ group index value h0 hv huniq hfk =>
    refine ⟨nodup_append_one h1 ?_, nodup_append_one h2 ?_, ?_, ?_, h5, h6, h7⟩
    · intro y hy heq
      exact nextId_not_mem _ (heq ▸ List.mem_map_of_mem (f := Weight.id) hy)
    · intro y hy heq
      rw [Prod.mk.injEq] at heq
      exact huniq y hy heq
    · intro w hw
      rcases List.mem_append.1 hw with hw | hw
      · exact h3 w hw
      · rw [List.mem_singleton] at hw; subst hw; exact h0
    · intro w hw
      rcases List.mem_append.1 hw with hw | hw
      · exact h4 w hw
      · rw [List.mem_singleton] at hw; subst hw; exact hv
  | wSet _ id value hv =>
    have e : ∀ {β : Type} (f : Weight → β), (∀ w, f { w with value := value } = f w) →
        (s.weights.map fun w => if w.id = id then { w with value := value } else w).map f =
          s.weights.map f := by
      intro β f hf
      rw [List.map_map]
      apply List.map_congr_left
      intro w _
      simp only [Function.comp]
      split
      · exact hf w
      · rfl
    refine ⟨?_, ?_, ?_, ?_, h5, h6, h7⟩
    · rw [e _ fun _ => rfl]; exact h1
    · rw [e _ fun _ => rfl]; exact h2
    · intro w hw
      obtain ⟨x, hx, rfl⟩ := List.mem_map.1 hw
      have := h3 x hx
      split <;> exact this
    · intro w hw
      obtain ⟨x, hx, rfl⟩ := List.mem_map.1 hw
      have := h4 x hx
      split
      · exact hv
      · exact this
  | wDel _ id =>
    obtain ⟨a, b, c, d⟩ := hsub (fun w => w.id != id)
    exact ⟨a, b, c, d, h5, h6, h7⟩
  | _ => exact ⟨h1, h2, h3, h4, h5, h6, h7⟩

theorem Reachable.weightInv {s : Store} (h : Reachable s) : WeightInv s :=
  h.of_prim (fun uid => ⟨by simp [Store.new], by simp [Store.new], by simp [Store.new],
    by simp [Store.new], by simp [Store.new], by simp [Store.new], by simp [Store.new]⟩)
    fun _ _ _ hp => WeightInv.prim hp

/-! ### Links and mappings -/

/-- Links are in order. -/
structure LinkInv (s : Store) : Prop where
  ids : (s.links.map (·.id)).Nodup
  names : (s.links.map fun l => (l.other, l.name)).Nodup
  defaults : s.links.Pairwise fun a b => a.other = b.other → ¬ (a.isDefault = true ∧ b.isDefault = true)

theorem LinkInv.prim {k : Kind} {s s' : Store} (hp : Prim k s s') (h : LinkInv s) : LinkInv s' := by
  obtain ⟨h1, h2, h3⟩ := h
  cases hp with
  | lAdd _ l huniq =>
    refine ⟨nodup_append_one h1 ?_, nodup_append_one h2 ?_, ?_⟩
    · intro y hy heq
      exact nextId_not_mem _ (heq ▸ List.mem_map_of_mem (f := Link.id) hy)
    · intro y hy heq
      rw [Prod.mk.injEq] at heq
      exact (huniq y hy heq.1).1 heq.2
    · refine List.pairwise_append.2 ⟨h3, List.pairwise_singleton _ _, ?_⟩
      intro a ha b hb hab
      rw [List.mem_singleton] at hb
      subst hb
      exact (huniq a ha hab).2
  | lUpd _ l hex huniq =>
    refine ⟨by simpa only [map_update_id] using h1, nodup_update h1 h2 ?_, ?_⟩
    · intro x hx hne heq
      rw [Prod.mk.injEq] at heq
      exact (huniq x hx hne heq.1).1 heq.2
    · rw [List.pairwise_map]
      have hid := h1
      unfold List.Nodup at hid
      rw [List.pairwise_map] at hid
      refine (hid.and h3).imp_of_mem ?_
      intro a b ha hb hab
      obtain ⟨hid, hd⟩ := hab
      split <;> split
      · omega
      · rename_i _ hne
        intro ho hd'
        exact (huniq b hb hne ho.symm).2 hd'.symm
      · rename_i hne _
        intro ho
        exact (huniq a ha hne ho).2
      · exact hd
  | lDel _ id =>
    exact ⟨nodup_filter_map _ h1, nodup_filter_map _ h2, h3.filter _⟩
  | _ => exact ⟨h1, h2, h3⟩

theorem Reachable.linkInv {s : Store} (h : Reachable s) : LinkInv s :=
  h.of_prim (fun uid => ⟨by simp [Store.new], by simp [Store.new], by simp [Store.new]⟩)
    fun _ _ _ hp => LinkInv.prim hp

/-- Mappings are in order. -/
structure MapInv (s : Store) : Prop where
  ids : (s.maps.map (·.id)).Nodup
  keys : (s.maps.map fun m => (m.link, m.other, m.index, m.level)).Nodup
  checks : ∀ m ∈ s.maps, mappingCheck m = true

theorem MapInv.prim {k : Kind} {s s' : Store} (hp : Prim k s s') (h : MapInv s) : MapInv s' := by
  obtain ⟨h1, h2, h3⟩ := h
  cases hp with
  | lDel _ id =>
    rcases hfk : s.fk with _ | _
    · exact ⟨h1, h2, h3⟩
    · exact ⟨nodup_filter_map _ h1, nodup_filter_map _ h2, fun m hm => h3 m (List.mem_of_mem_filter hm)⟩
  | mAdd _ m hid hcheck huniq hfk =>
    refine ⟨nodup_append_one h1 ?_, nodup_append_one h2 ?_, ?_⟩
    · intro y hy heq
      exact nextId_not_mem _ (hid ▸ heq ▸ List.mem_map_of_mem (f := Mapping.id) hy)
    · intro y hy heq
      simp only [Prod.mk.injEq] at heq
      exact huniq y hy heq
    · intro y hy
      rcases List.mem_append.1 hy with hy | hy
      · exact h3 y hy
      · rw [List.mem_singleton] at hy; subst hy; exact hcheck
  | mUpd _ m hex hcheck huniq hfk =>
    refine ⟨by simpa only [map_update_id] using h1, nodup_update h1 h2 ?_, ?_⟩
    · intro x hx hne heq
      simp only [Prod.mk.injEq] at heq
      exact huniq x hx hne heq
    · intro y hy
      rcases mem_update hy with rfl | ⟨hy, _⟩
      · exact hcheck
      · exact h3 y hy
  | mDel _ id =>
    exact ⟨nodup_filter_map _ h1, nodup_filter_map _ h2, fun m hm => h3 m (List.mem_of_mem_filter hm)⟩
  | _ => exact ⟨h1, h2, h3⟩

theorem Reachable.mapInv {s : Store} (h : Reachable s) : MapInv s :=
  h.of_prim (fun uid => ⟨by simp [Store.new], by simp [Store.new], by simp [Store.new]⟩)
    fun _ _ _ hp => MapInv.prim hp

/-! ### Quantities -/

/-- Locations, attribute groups and quantities are in order. -/
structure QuantInv (s : Store) : Prop where
  ids : (s.quants.map (·.id)).Nodup
  pairs : (s.quants.map fun q => (q.loc, q.ag)).Nodup
  locIds : (s.locs.map (·.id)).Nodup
  locLabels : (s.locs.map (·.labels)).Nodup
  locLens : ∀ l ∈ s.locs, l.labels.length = s.cols.length
  agIds : (s.agroups.map (·.id)).Nodup
  agAttrs : (s.agroups.map (·.attrs)).Nodup

theorem QuantInv.prim {k : Kind} {s s' : Store} (hp : Prim k s s') (h : QuantInv s) : QuantInv s' := by
  obtain ⟨h1, h2, h3, h4, h5, h6, h7⟩ := h
  cases hp with
  | locAdd _ labels hlen hne huniq =>
    refine ⟨h1, h2, nodup_append_one h3 ?_, nodup_append_one h4 ?_, ?_, h6, h7⟩
    · intro y hy heq
      exact nextId_not_mem _ (heq ▸ List.mem_map_of_mem (f := LocRec.id) hy)
    · intro y hy heq
      exact huniq (List.mem_map.2 ⟨y, hy, heq⟩)
    · intro l hl
      rcases List.mem_append.1 hl with hl | hl
      · exact h5 l hl
      · rw [List.mem_singleton] at hl; subst hl; exact hlen
  | locDel _ id =>
    have hl := fun l (hl : l ∈ s.locs.filter (fun x => x.id != id)) => h5 l (List.mem_of_mem_filter hl)
    rcases hfk : s.fk with _ | _
    · exact ⟨h1, h2, nodup_filter_map _ h3, nodup_filter_map _ h4, hl, h6, h7⟩
    · exact ⟨nodup_filter_map _ h1, nodup_filter_map _ h2, nodup_filter_map _ h3, nodup_filter_map _ h4,
        hl, h6, h7⟩
  | agAdd _ attrs hnil hkeys hne huniq =>
    refine ⟨h1, h2, h3, h4, h5, nodup_append_one h6 ?_, nodup_append_one h7 ?_⟩
    · intro y hy heq
      exact nextId_not_mem _ (heq ▸ List.mem_map_of_mem (f := AGroup.id) hy)
    · intro y hy heq
      exact huniq (List.mem_map.2 ⟨y, hy, heq⟩)
  | agDel _ id =>
    rcases hfk : s.fk with _ | _
    · exact ⟨h1, h2, h3, h4, h5, nodup_filter_map _ h6, nodup_filter_map _ h7⟩
    · exact ⟨nodup_filter_map _ h1, nodup_filter_map _ h2, h3, h4, h5, nodup_filter_map _ h6,
        nodup_filter_map _ h7⟩
  | qAdd _ loc ag value hfk huniq =>
    refine ⟨nodup_append_one h1 ?_, nodup_append_one h2 ?_, h3, h4, h5, h6, h7⟩
    · intro y hy heq
      exact nextId_not_mem _ (heq ▸ List.mem_map_of_mem (f := Quant.id) hy)
    · intro y hy heq
      rw [Prod.mk.injEq] at heq
      exact huniq y hy heq
  | qSet _ id value =>
    have e : ∀ {β : Type} (f : Quant → β), (∀ w, f { w with value := value } = f w) →
        (s.quants.map fun w => if w.id = id then { w with value := value } else w).map f =
          s.quants.map f := by
      intro β f hf
      rw [List.map_map]
      apply List.map_congr_left
      intro w _
      simp only [Function.comp]
      split
      · exact hf w
      · rfl
    refine ⟨?_, ?_, h3, h4, h5, h6, h7⟩
    · rw [e _ fun _ => rfl]; exact h1
    · rw [e _ fun _ => rfl]; exact h2
  | qDel _ id =>
    exact ⟨nodup_filter_map _ h1, nodup_filter_map _ h2, h3, h4, h5, h6, h7⟩
  | colAdd _ c hres hattr hnew =>
    refine ⟨h1, h2, ?_, ?_, ?_, h6, h7⟩
    · simpa only [Store.addCol, List.map_map, Function.comp_def] using h3
    · have := h4.map (f := fun l : List PyStr => l ++ [[]]) (fun a b hab => List.append_left_injective _ hab)
      simpa only [Store.addCol, List.map_map, Function.comp_def] using this
    · intro r hr
      simp only [Store.addCol, List.mem_map] at hr
      obtain ⟨x, hx, rfl⟩ := hr
      simp [Store.addCol, h5 x hx]
  | colRen _ old new _ _ _ _ =>
    refine ⟨h1, h2, h3, h4, ?_, h6, h7⟩
    simpa only [List.length_map] using h5
  | colDrop _ names hne hi hl hst =>
    refine ⟨h1, h2, ?_, hl, ?_, h6, h7⟩
    · simpa only [Store.dropCols, List.map_map, Function.comp_def] using h3
    · intro r hr
      simp only [Store.dropCols, List.mem_map] at hr
      obtain ⟨x, hx, rfl⟩ := hr
      exact keepCols_length _ _ _ (h5 x hx)
  | _ => exact ⟨h1, h2, h3, h4, h5, h6, h7⟩

theorem Reachable.quantInv {s : Store} (h : Reachable s) : QuantInv s :=
  h.of_prim (fun uid => ⟨by simp [Store.new], by simp [Store.new], by simp [Store.new],
    by simp [Store.new], by simp [Store.new], by simp [Store.new], by simp [Store.new]⟩)
    fun _ _ _ hp => QuantInv.prim hp

/-! ### Attribute sets -/

/-- The stored attribute sets are dictionaries in key order, with texts that are not empty. -/
structure AttrInv (s : Store) : Prop where
  keys : ∀ g ∈ s.agroups, (g.attrs.map (·.1)).Nodup
  sorted : ∀ g ∈ s.agroups, ∃ a, g.attrs = canonAttrs a
  nonempty : ∀ g ∈ s.agroups, ∀ kv ∈ g.attrs, kv.1 ≠ [] ∧ kv.2 ≠ []
  some : ∀ g ∈ s.agroups, g.attrs ≠ []

theorem AttrInv.prim {k : Kind} {s s' : Store} (hp : Prim k s s') (h : AttrInv s) : AttrInv s' := by
  obtain ⟨h1, h2, h3, h4⟩ := h
  cases hp with
  | agAdd _ attrs hnil hkeys hne huniq =>
    have hperm : (canonAttrs attrs).Perm attrs := sortedBy_perm _ _
    refine ⟨?_, ?_, ?_, ?_⟩
    · intro g hg
      rcases List.mem_append.1 hg with hg | hg
      · exact h1 g hg
      · rw [List.mem_singleton] at hg; subst hg
        exact (hperm.map _).nodup_iff.2 hkeys
    · intro g hg
      rcases List.mem_append.1 hg with hg | hg
      · exact h2 g hg
      · rw [List.mem_singleton] at hg; subst hg
        exact ⟨attrs, rfl⟩
    · intro g hg kv hkv
      rcases List.mem_append.1 hg with hg | hg
      · exact h3 g hg kv hkv
      · rw [List.mem_singleton] at hg; subst hg
        exact hne kv (hperm.mem_iff.1 hkv)
    · intro g hg he
      rcases List.mem_append.1 hg with hg | hg
      · exact h4 g hg he
      · rw [List.mem_singleton] at hg; subst hg
        have he : canonAttrs attrs = [] := he
        rw [he] at hperm
        exact hnil hperm.nil_eq.symm
  | agDel _ id =>
    exact ⟨fun g hg => h1 g (List.mem_of_mem_filter hg), fun g hg => h2 g (List.mem_of_mem_filter hg),
      fun g hg => h3 g (List.mem_of_mem_filter hg), fun g hg => h4 g (List.mem_of_mem_filter hg)⟩
  | _ => exact ⟨h1, h2, h3, h4⟩

theorem Reachable.attrInv {s : Store} (h : Reachable s) : AttrInv s :=
  h.of_prim (fun uid => ⟨by simp [Store.new], by simp [Store.new], by simp [Store.new], by simp [Store.new]⟩)
    fun _ _ _ hp => AttrInv.prim hp

/-! ### Columns and registered attributes -/

/-- Column names and registered attributes are in order. -/
structure ColInv (s : Store) : Prop where
  cols : (s.cols.map asciiLower).Nodup
  colsRes : ∀ c ∈ s.cols, c ∉ reservedNames
  attrs : (s.regAttrs.getD []).Nodup
  attrsRes : ∀ a ∈ s.regAttrs.getD [], a ∉ reservedNames
  disj : ∀ a ∈ s.regAttrs.getD [], a ∉ s.cols

theorem mem_sqlNames_of_mem {s : Store} {c : PyStr} (h : c ∈ s.cols) : asciiLower c ∈ s.sqlNames := by
  unfold Store.sqlNames
  exact List.mem_map_of_mem (List.mem_append_left _ h)

theorem ColInv.prim {k : Kind} {s s' : Store} (hp : Prim k s s') (h : ColInv s) : ColInv s' := by
  obtain ⟨h1, h2, h3, h4, h5⟩ := h
  cases hp with
  | attrs _ a hres hcol hnd => exact ⟨h1, h2, hnd, hres, hcol⟩
  | colAdd _ c hres hattr hnew =>
    refine ⟨nodup_append_one h1 ?_, ?_, h3, h4, ?_⟩
    · intro y hy heq
      exact hnew (heq ▸ mem_sqlNames_of_mem hy)
    · intro x hx
      rcases List.mem_append.1 hx with hx | hx
      · exact h2 x hx
      · rw [List.mem_singleton] at hx; subst hx; exact hres
    · intro a ha hx
      rcases List.mem_append.1 hx with hx | hx
      · exact h5 a ha hx
      · rw [List.mem_singleton] at hx; subst hx; exact hattr ha
  | colRen _ old new hres hattr hold hnew =>
    have hx' : ∀ x ∈ s.cols.map (fun c => if c = old then new else c), x = new ∨ x ∈ s.cols := by
      intro x hx
      obtain ⟨y, hy, rfl⟩ := List.mem_map.1 hx
      split
      · exact .inl rfl
      · exact .inr hy
    have hlow : ∀ x ∈ s.cols, x ≠ old → asciiLower x ≠ asciiLower new := by
      intro x hx hne heq
      refine hnew (heq ▸ mem_sqlNames_of_mem ?_)
      exact List.mem_filter.2 ⟨hx, by simpa using hne⟩
    refine ⟨?_, ?_, h3, h4, ?_⟩
    · unfold List.Nodup at *
      rw [List.pairwise_map] at h1
      rw [List.pairwise_map, List.pairwise_map]
      refine h1.imp_of_mem ?_
      intro a b ha hb hab
      by_cases hao : a = old <;> by_cases hbo : b = old
      · subst hao hbo
        exact absurd rfl hab
      · simp only [hao, hbo, if_true, if_false]
        exact (hlow b hb hbo).symm
      · simp only [hao, hbo, if_true, if_false]
        exact hlow a ha hao
      · simp only [hao, hbo, if_false]
        exact hab
    · intro x hx
      rcases hx' x hx with rfl | hx
      · exact hres
      · exact h2 x hx
    · intro a ha hx
      rcases hx' a hx with rfl | hx
      · exact hattr ha
      · exact h5 a ha hx
  | colDrop _ names hne hi hl hst =>
    refine ⟨nodup_filter_map _ h1, fun c hc => h2 c (List.mem_of_mem_filter hc), h3, h4, ?_⟩
    exact fun a ha hc => h5 a ha (List.mem_of_mem_filter hc)
  | _ => exact ⟨h1, h2, h3, h4, h5⟩

theorem Reachable.colInv {s : Store} (h : Reachable s) : ColInv s :=
  h.of_prim (fun uid => ⟨by simp [Store.new], by simp [Store.new], by simp [Store.new],
    by simp [Store.new], by simp [Store.new]⟩) fun _ _ _ hp => ColInv.prim hp

/-! ### References, while foreign keys are on -/

/-- Immediate foreign keys: weights to groups, mappings to links, quantities to locations and groups. -/
structure RefInv (s : Store) : Prop where
  fk : s.fk = true
  weights : ∀ w ∈ s.weights, ∃ g ∈ s.wgroups, g.id = w.group
  maps : ∀ m ∈ s.maps, ∃ l ∈ s.links, l.id = m.link
  locs : ∀ q ∈ s.quants, ∃ l ∈ s.locs, l.id = q.loc
  ags : ∀ q ∈ s.quants, ∃ g ∈ s.agroups, g.id = q.ag

theorem exists_of_update {α : Type} {id : α → Nat} {l : List α} {r : α} {i : Nat}
    (h : ∃ x ∈ l, id x = i) : ∃ x ∈ l.map (fun x => if id x = id r then r else x), id x = i := by
  obtain ⟨x, hx, hxi⟩ := h
  refine ⟨_, List.mem_map.2 ⟨x, hx, rfl⟩, ?_⟩
  split
  · rename_i he; rw [← he, hxi]
  · exact hxi

theorem RefInv.prim {k : Kind} (hk : k ∈ opKinds) {s s' : Store} (hp : Prim k s s') (h : RefInv s) :
    RefInv s' := by
  obtain ⟨h0, h1, h2, h3, h4⟩ := h
  have happ : ∀ {α : Type} {id : α → Nat} {l : List α} {y : α} {i : Nat}, (∃ x ∈ l, id x = i) →
      ∃ x ∈ l ++ [y], id x = i := fun ⟨x, hx, hxi⟩ => ⟨x, List.mem_append_left _ hx, hxi⟩
  cases hp with
  | wgAdd => exact ⟨h0, fun w hw => happ (h1 w hw), h2, h3, h4⟩
  | wgUpd => exact ⟨h0, fun w hw => exists_of_update (h1 w hw), h2, h3, h4⟩
  | wgDel _ id =>
    refine ⟨h0, fun w hw => ?_, h2, h3, h4⟩
    simp only [h0, if_true, List.mem_filter, bne_iff_ne] at hw
    obtain ⟨g, hg, hge⟩ := h1 w hw.1
    exact ⟨g, List.mem_filter.2 ⟨hg, by rw [bne_iff_ne, hge]; exact hw.2⟩, hge⟩
  | wAdd _ group index value _ _ _ hfk =>
    refine ⟨h0, fun w hw => ?_, h2, h3, h4⟩
    rcases List.mem_append.1 hw with hw | hw
    · exact h1 w hw
    · rw [List.mem_singleton] at hw; subst hw; exact hfk h0
  | wSet =>
    refine ⟨h0, fun w hw => ?_, h2, h3, h4⟩
    obtain ⟨x, hx, rfl⟩ := List.mem_map.1 hw
    have := h1 x hx
    split <;> exact this
  | wDel => exact ⟨h0, fun w hw => h1 w (List.mem_of_mem_filter hw), h2, h3, h4⟩
  | lAdd => exact ⟨h0, h1, fun m hm => happ (h2 m hm), h3, h4⟩
  | lUpd => exact ⟨h0, h1, fun m hm => exists_of_update (h2 m hm), h3, h4⟩
  | lDel _ id =>
    refine ⟨h0, h1, fun m hm => ?_, h3, h4⟩
    simp only [h0, if_true, List.mem_filter, bne_iff_ne] at hm
    obtain ⟨g, hg, hge⟩ := h2 m hm.1
    exact ⟨g, List.mem_filter.2 ⟨hg, by rw [bne_iff_ne, hge]; exact hm.2⟩, hge⟩
  | mAdd _ m _ _ _ hfk =>
    refine ⟨h0, h1, fun y hy => ?_, h3, h4⟩
    rcases List.mem_append.1 hy with hy | hy
    · exact h2 y hy
    · rw [List.mem_singleton] at hy; subst hy; exact hfk h0
  | mUpd _ m _ _ _ hfk =>
    refine ⟨h0, h1, fun y hy => ?_, h3, h4⟩
    rcases mem_update hy with rfl | ⟨hy, _⟩
    · exact hfk h0
    · exact h2 y hy
  | mDel => exact ⟨h0, h1, fun m hm => h2 m (List.mem_of_mem_filter hm), h3, h4⟩
  | locAdd => exact ⟨h0, h1, h2, fun q hq => happ (h3 q hq), h4⟩
  | locDel _ id =>
    refine ⟨h0, h1, h2, fun q hq => ?_, fun q hq => ?_⟩ <;>
      simp only [h0, if_true, List.mem_filter, bne_iff_ne] at hq
    · obtain ⟨g, hg, hge⟩ := h3 q hq.1
      exact ⟨g, List.mem_filter.2 ⟨hg, by rw [bne_iff_ne, hge]; exact hq.2⟩, hge⟩
    · exact h4 q hq.1
  | agAdd => exact ⟨h0, h1, h2, h3, fun q hq => happ (h4 q hq)⟩
  | agDel _ id =>
    refine ⟨h0, h1, h2, fun q hq => ?_, fun q hq => ?_⟩ <;>
      simp only [h0, if_true, List.mem_filter, bne_iff_ne] at hq
    · exact h3 q hq.1
    · obtain ⟨g, hg, hge⟩ := h4 q hq.1
      exact ⟨g, List.mem_filter.2 ⟨hg, by rw [bne_iff_ne, hge]; exact hq.2⟩, hge⟩
  | qAdd _ loc ag value hfk huniq =>
    refine ⟨h0, h1, h2, fun q hq => ?_, fun q hq => ?_⟩ <;> rcases List.mem_append.1 hq with hq | hq
    · exact h3 q hq
    · rw [List.mem_singleton] at hq; subst hq; exact (hfk h0).1
    · exact h4 q hq
    · rw [List.mem_singleton] at hq; subst hq; exact (hfk h0).2
  | qSet =>
    refine ⟨h0, h1, h2, fun q hq => ?_, fun q hq => ?_⟩ <;> obtain ⟨x, hx, rfl⟩ := List.mem_map.1 hq
    · have := h3 x hx
      split <;> exact this
    · have := h4 x hx
      split <;> exact this
  | qDel =>
    exact ⟨h0, h1, h2, fun q hq => h3 q (List.mem_of_mem_filter hq), fun q hq => h4 q (List.mem_of_mem_filter hq)⟩
  | colAdd =>
    refine ⟨h0, h1, h2, fun q hq => ?_, h4⟩
    obtain ⟨l, hl, hle⟩ := h3 q hq
    exact ⟨_, List.mem_map.2 ⟨l, hl, rfl⟩, hle⟩
  | colDrop =>
    refine ⟨h0, h1, h2, fun q hq => ?_, h4⟩
    obtain ⟨l, hl, hle⟩ := h3 q hq
    exact ⟨_, List.mem_map.2 ⟨l, hl, rfl⟩, hle⟩
  | fkOff => exact absurd hk (by decide)
  | _ => exact ⟨h0, h1, h2, h3, h4⟩

theorem ReachableFk.refInv {s : Store} (h : ReachableFk s) : RefInv s :=
  h.induction (fun uid => ⟨rfl, by simp [Store.new], by simp [Store.new], by simp [Store.new],
    by simp [Store.new]⟩) fun s op _ hop hP =>
      (step_steps_fk op hop s).invariant (fun _ hk _ _ hp => RefInv.prim hk hp) hP

theorem runTx_fkOk {α : Type} {m : M α} {s : Store} (h : fkOk s = true) : fkOk (runTx m s).1 = true := by
  unfold runTx
  split
  · split
    · assumption
    · exact h
  · exact h

theorem runAuto_fkOk {ms : List (M Unit)} {s : Store} (h : fkOk s = true) :
    fkOk (runAuto ms s).1 = true := by
  induction ms generalizing s with
  | nil => exact h
  | cons m ms ih =>
    have := runTx_fkOk (m := m) h
    unfold runAuto
    split
    · rename_i heq; rw [heq] at this; exact ih this
    · rename_i heq; rw [heq] at this; exact this

theorem step_fkOk {op : Op} {s : Store} (h : fkOk s = true) : fkOk (step op s).1 = true := by
  rcases hb : op.body with _ | m
  · cases op <;> simp only [Op.body, reduceCtorEq] at hb
    · simp only [step, reifyMappings]
      split
      · exact h
      · exact runAuto_fkOk h
    · simp only [step, deleteUnmatchedQuantities]
      have h1 := runAuto_fkOk (ms := s.nonmatchingLocs.map fun l => locDelete l.id) h
      split
      · rename_i heq; rw [heq] at h1; exact h1
      · rename_i heq; rw [heq] at h1; exact runAuto_fkOk h1
    · rfl
  · rw [step_of_body hb]
    exact runTx_fkOk h

theorem Reachable.fkOk {s : Store} (h : Reachable s) : fkOk s = true :=
  h.induction (P := fun s => Space.fkOk s = true) (fun _ => rfl) fun _ _ _ hP => step_fkOk hP

/-- Between operations weights and mappings refer to existing index records. -/
theorem ReachableFk.indexRefs {s : Store} (h : ReachableFk s) :
    (∀ w ∈ s.weights, w.index ∈ s.ids) ∧ (∀ m ∈ s.maps, m.index ∈ s.ids) := by
  have hok := h.reachable.fkOk
  have hfk := h.fk
  unfold Space.fkOk at hok
  simp only [hfk, Bool.not_true, Bool.false_or, Bool.and_eq_true, List.all_eq_true, List.any_eq_true,
    beq_iff_eq] at hok
  exact ⟨fun w hw => List.mem_map.2 (hok.1 w hw), fun m hm => List.mem_map.2 (hok.2 m hm)⟩

end Toron.Space
