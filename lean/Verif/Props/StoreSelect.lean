/-
C55: listings show exactly what is stored.
-/
import Verif.Spec.Select
import Verif.Lemmas.Store.Listing
import Verif.Props.StoreRead

namespace Toron.Space

open Toron.Selectors (PyStr)

theorem criteria_iff {cols : List PyStr} (hc : (cols.map asciiLower).Nodup) {criteria : List (PyStr × PyStr)}
    (hk : ∀ c v, (c, v) ∈ criteria → c ∈ cols) {labels : List PyStr} (hl : labels.length = cols.length) :
    matchesCriteria cols criteria labels = true ↔ Fits cols criteria labels := by
  unfold matchesCriteria Fits
  rw [List.all_eq_true]
  constructor
  · intro h c v hm
    have h1 := h (c, v) hm
    obtain ⟨i, hi, he⟩ := List.getElem_of_mem (hk c v hm)
    have hz : (cols.zip labels)[i]'(by rw [List.length_zip]; omega) = (cols[i], labels[i]'(by omega)) :=
      List.getElem_zip
    have hmem : (c, labels[i]'(by omega)) ∈ cols.zip labels := by
      rw [← he, ← hz]
      exact List.getElem_mem _
    unfold criterionHolds at h1
    rw [find_zip hc hmem] at h1
    simp only [beq_iff_eq] at h1
    rw [← h1]
    exact hmem
  · rintro h ⟨c, v⟩ hm
    unfold criterionHolds
    rw [find_zip hc (h c v hm)]
    simp

theorem mem_filterByLabel {s : Store} (hr : Reachable s) {criteria : List (PyStr × PyStr)}
    (hk : ∀ c v, (c, v) ∈ criteria → c ∈ s.cols) (undef : Bool) (r : IndexRec) :
    r ∈ s.filterByLabel criteria undef ↔
      r ∈ s.index ∧ Fits s.cols criteria r.labels ∧ (undef = true ∨ r.id ≠ 0) := by
  unfold Store.filterByLabel
  rw [List.mem_filter, Bool.and_eq_true, Bool.or_eq_true, bne_iff_ne]
  exact and_congr_right fun h => and_congr_left fun _ => criteria_iff hr.colInv.cols hk (hr.indexInv.lens r h)

/-- The index listing has exactly the records that fit the criteria, each once. -/
theorem C55_index {s : Store} (hr : Reachable s) {criteria : List (PyStr × PyStr)}
    (hk : ∀ c v, (c, v) ∈ criteria → c ∈ s.cols) :
    ((s.selectIndex criteria).map (·.1)).Nodup ∧ ∀ id labels, (id, labels) ∈ s.selectIndex criteria ↔
      (⟨id, labels⟩ : IndexRec) ∈ s.index ∧ Fits s.cols criteria labels := by
  constructor
  · unfold Store.selectIndex Store.filterByLabel
    rw [List.map_map]
    exact nodup_filter_map _ hr.indexInv.idsNodup
  · intro id labels
    unfold Store.selectIndex
    rw [List.mem_map]
    constructor
    · rintro ⟨r, h, he⟩
      cases he
      have := (mem_filterByLabel hr hk true r).1 h
      exact ⟨this.1, this.2.1⟩
    · rintro ⟨h1, h2⟩
      exact ⟨⟨id, labels⟩, (mem_filterByLabel hr hk true _).2 ⟨h1, h2, .inl rfl⟩, rfl⟩

/-- The weight listing of a group has every defined record that fits the criteria once, with its weight in that
group, or with none exactly if it has none. -/
theorem C55_weights {s : Store} (hr : Reachable s) {criteria : List (PyStr × PyStr)}
    (hk : ∀ c v, (c, v) ∈ criteria → c ∈ s.cols) {g : WGroup} (hg : g ∈ s.wgroups) :
    ((s.selectWeights g.name criteria).map (·.1)).Nodup ∧ ∀ id labels v,
      (id, labels, v) ∈ s.selectWeights g.name criteria ↔
        (⟨id, labels⟩ : IndexRec) ∈ s.index ∧ id ≠ 0 ∧ Fits s.cols criteria labels ∧
        ∀ x, v = some x ↔ ∃ w ∈ s.weights, w.group = g.id ∧ w.index = id ∧ w.value = x := by
  have hfind : s.findWGroup g.name = some g := by
    unfold Store.findWGroup
    rcases hx : s.wgroups.find? (fun x => x.name == g.name) with _ | x
    · exact absurd (List.find?_eq_none.1 hx g hg) (by simp)
    · have h1 := List.mem_of_find?_eq_some hx
      have h2 : x.name = g.name := by simpa using List.find?_some hx
      have := List.inj_on_of_nodup_map hr.weightInv.names h1 hg h2
      subst this
      exact hx
  have hw : ∀ (id : Nat) (v : Option ℚ), s.weightOf g.id id = v ↔
      ∀ x, v = some x ↔ ∃ w ∈ s.weights, w.group = g.id ∧ w.index = id ∧ w.value = x := by
    have key : ∀ id x, s.weightOf g.id id = some x ↔
        ∃ w ∈ s.weights, w.group = g.id ∧ w.index = id ∧ w.value = x := by
      intro id x
      unfold Store.weightOf Store.findWeight
      rcases hf : s.weights.find? (fun w => w.group == g.id && w.index == id) with _ | w
      · simp only [hf, Option.map_none, reduceCtorEq, false_iff]
        rintro ⟨w, hw, h1, h2, _⟩
        exact absurd (List.find?_eq_none.1 hf w hw) (by simp [h1, h2])
      · simp only [hf, Option.map_some, Option.some.injEq]
        have hwm := List.mem_of_find?_eq_some hf
        have hwp : w.group = g.id ∧ w.index = id := by simpa using List.find?_some hf
        constructor
        · rintro rfl
          exact ⟨w, hwm, hwp.1, hwp.2, rfl⟩
        · rintro ⟨w', hw', h1, h2, rfl⟩
          rw [List.inj_on_of_nodup_map hr.weightInv.pairs hwm hw' (by rw [hwp.1, hwp.2, h1, h2])]
    intro id v
    constructor
    · rintro rfl x
      exact key id x
    · intro h
      apply Option.ext
      intro x
      rw [key, h x]
  unfold Store.selectWeights
  rw [hfind]
  constructor
  · simp only [Store.filterByLabel, List.map_map]
    exact nodup_filter_map _ hr.indexInv.idsNodup
  · intro id labels v
    simp only [List.mem_map]
    constructor
    · rintro ⟨r, h, he⟩
      cases he
      have := (mem_filterByLabel hr hk false r).1 h
      exact ⟨this.1, by simpa using this.2.2, this.2.1, (hw _ _).1 rfl⟩
    · rintro ⟨h1, h2, h3, h4⟩
      refine ⟨⟨id, labels⟩, (mem_filterByLabel hr hk false _).2 ⟨h1, h3, .inr h2⟩, ?_⟩
      rw [(hw id v).2 h4]

/-- The mapping listing: the rows with a source are exactly the mappings of the link to defined records that fit the
criteria, and the rows without one are the fitting records that have no mapping. Missing for the full claim: mappings
to the undefined record, see `C55_violated_mappings`. -/
theorem C55_mappings_partial {s : Store} (hr : Reachable s) {criteria : List (PyStr × PyStr)}
    (hk : ∀ c v, (c, v) ∈ criteria → c ∈ s.cols) {ref : PyStr} {name : Option PyStr} {l : Link}
    (hl : getLink s.links ref name = .ok l) :
    ∃ rows, s.selectMappings ref name criteria = .ok rows ∧
      (∀ o x i labels, (∃ a, (⟨some o, some x, i, labels, a⟩ : MapView) ∈ rows) ↔
        (⟨i, labels⟩ : IndexRec) ∈ s.index ∧ i ≠ 0 ∧ Fits s.cols criteria labels ∧
          ∃ m ∈ s.maps, m.link = l.id ∧ m.index = i ∧ m.other = o ∧ m.value = x) ∧
      (∀ i labels, (∃ x a, (⟨none, x, i, labels, a⟩ : MapView) ∈ rows) ↔
        (⟨i, labels⟩ : IndexRec) ∈ s.index ∧ i ≠ 0 ∧ Fits s.cols criteria labels ∧
          ∀ m ∈ s.maps, m.link = l.id → m.index ≠ i) ∧
      (rows.filter fun v => v.other.isSome).length =
        (((s.filterByLabel criteria false).flatMap fun r =>
          s.maps.filter fun m => m.link == l.id && m.index == r.id)).length := by
  have hmv : ∀ (r : IndexRec) v, v ∈ s.mapViews l.id r ↔
      (∃ m ∈ s.maps, m.link = l.id ∧ m.index = r.id ∧ v = ⟨some m.other, some m.value, r.id, r.labels,
        if m.level = [] then none else Text.ambiguousText (some m.level) s.cols⟩) ∨
      ((∀ m ∈ s.maps, m.link = l.id → m.index ≠ r.id) ∧ v = ⟨none, none, r.id, r.labels, none⟩) := by
    intro r v
    unfold Store.mapViews
    split
    · next h =>
      rw [List.filter_eq_nil_iff] at h
      rw [List.mem_singleton]
      constructor
      · rintro rfl
        refine .inr ⟨fun m hm h1 h2 => h m hm (by simp [h1, h2]), rfl⟩
      · rintro (⟨m, hm, h1, h2, _⟩ | ⟨_, rfl⟩)
        · exact absurd (by simp [h1, h2]) (h m hm)
        · rfl
    · next h =>
      rw [List.mem_map]
      constructor
      · rintro ⟨m, hm, rfl⟩
        obtain ⟨h1, h2⟩ := List.mem_filter.1 hm
        rw [Bool.and_eq_true, beq_iff_eq, beq_iff_eq] at h2
        exact .inl ⟨m, h1, h2.1, h2.2, rfl⟩
      · rintro (⟨m, hm, h1, h2, rfl⟩ | ⟨hn, _⟩)
        · exact ⟨m, List.mem_filter.2 ⟨hm, by simp [h1, h2]⟩, rfl⟩
        · refine absurd (List.filter_eq_nil_iff.2 ?_) h
          intro m hm hmm
          rw [Bool.and_eq_true, beq_iff_eq, beq_iff_eq] at hmm
          exact hn m hm hmm.1 hmm.2
  refine ⟨(s.filterByLabel criteria false).flatMap (s.mapViews l.id), ?_, ?_, ?_, ?_⟩
  · unfold Store.selectMappings
    rw [hl]
    rfl
  · intro o x i labels
    simp only [List.mem_flatMap, hmv]
    constructor
    · rintro ⟨a, r, h, (⟨m, hm, h1, h2, he⟩ | ⟨_, he⟩)⟩
      · have := (mem_filterByLabel hr hk false r).1 h
        cases he
        exact ⟨this.1, by simpa using this.2.2, this.2.1, m, hm, h1, h2, rfl, rfl⟩
      · cases he
    · rintro ⟨h1, h2, h3, m, hm, h4, h5, rfl, rfl⟩
      exact ⟨_, ⟨i, labels⟩, (mem_filterByLabel hr hk false _).2 ⟨h1, h3, .inr h2⟩, .inl ⟨m, hm, h4, h5, rfl⟩⟩
  · intro i labels
    simp only [List.mem_flatMap, hmv]
    constructor
    · rintro ⟨x, a, r, h, (⟨m, hm, h1, h2, he⟩ | ⟨hn, he⟩)⟩
      · cases he
      · have := (mem_filterByLabel hr hk false r).1 h
        cases he
        exact ⟨this.1, by simpa using this.2.2, this.2.1, hn⟩
    · rintro ⟨h1, h2, h3, hn⟩
      exact ⟨none, none, ⟨i, labels⟩, (mem_filterByLabel hr hk false _).2 ⟨h1, h3, .inr h2⟩, .inr ⟨hn, rfl⟩⟩
  · generalize s.filterByLabel criteria false = rs
    induction rs with
    | nil => rfl
    | cons r rs ih =>
      rw [List.flatMap_cons, List.filter_append, List.length_append, ih, List.flatMap_cons, List.length_append]
      congr 1
      unfold Store.mapViews
      split
      · next h => rw [h]; rfl
      · next h =>
        rw [List.filter_eq_self.2, List.length_map]
        intro v hv
        obtain ⟨m, _, rfl⟩ := List.mem_map.1 hv
        rfl

/-- The quantity listing shows every quantity (whose location exists) once, and has a column for every attribute. -/
theorem C55_quantities {s : Store} (hr : Reachable s) {rows : List QuantView}
    (h : s.selectQuantities = .ok rows) :
    (∃ qs : List Quant, qs.Nodup ∧ (∀ q, q ∈ qs ↔ q ∈ s.quants ∧ ∃ l ∈ s.locs, l.id = q.loc) ∧
      List.Forall₂ (s.Shows s.attrNames) qs rows) ∧
    ∀ g ∈ s.agroups, ∀ k v, (k, v) ∈ g.attrs → k ∈ s.attrNames := by
  have hp := quants_of_locs hr.quantInv (List.Sublist.refl s.locs)
  refine ⟨⟨_, hp.symm.nodup (hr.quantInv.ids.of_map.filter _), fun q => ?_, quantViews_ok (fun l hl => hl) h⟩, ?_⟩
  · rw [hp.mem_iff, List.mem_filter, decide_eq_true_eq, List.mem_map]
  · intro g hg k v hkv
    unfold Store.attrNames
    rw [(sortedBy_perm _ _).mem_iff, List.mem_dedup, List.mem_flatMap]
    exact ⟨g, hg, List.mem_map_of_mem hkv⟩

/-- While foreign keys are on, the listing succeeds and shows all quantities. -/
theorem C55_quantities_all {s : Store} (hr : ReachableFk s) :
    ∃ rows qs, s.selectQuantities = .ok rows ∧ qs.Perm s.quants ∧ List.Forall₂ (s.Shows s.attrNames) qs rows := by
  obtain ⟨rows, h⟩ := quantViews_exists (s := s) s.attrNames s.locs hr.refInv.ags
  refine ⟨rows, _, h, ?_, quantViews_ok (fun l hl => hl) h⟩
  refine (quants_of_locs hr.reachable.quantInv (List.Sublist.refl s.locs)).trans ?_
  rw [List.filter_eq_self.2]
  intro q hq
  rw [decide_eq_true_eq, List.mem_map]
  exact hr.refInv.locs q hq

/-- The newer listing shows every quantity once too, with the registered attributes as columns. -/
theorem C55_quantities2_partial {s : Store} (hr : Reachable s) {rows : List QuantView}
    (h : s.selectQuantities2 = .ok rows) :
    ∃ qs : List Quant, qs.Nodup ∧ (∀ q, q ∈ qs ↔ q ∈ s.quants ∧ ∃ l ∈ s.locs, l.id = q.loc) ∧
      List.Forall₂ (s.Shows (s.regAttrs.getD [])) qs rows := by
  unfold Store.selectQuantities2 at h
  by_cases hn : s.regAttrs.getD [] = []
  · rw [if_pos hn] at h; cases h
  rw [if_neg hn] at h
  have hp := quants_of_locs hr.quantInv (List.Sublist.refl s.locs)
  refine ⟨_, hp.symm.nodup (hr.quantInv.ids.of_map.filter _), fun q => ?_, quantViews_ok (fun l hl => hl) h⟩
  rw [hp.mem_iff, List.mem_filter, decide_eq_true_eq, List.mem_map]

/-! ### Violations -/

/-- A criterion on a column that does not exist is no error: it selects everything if the value happens to be the
name of the column, and nothing otherwise. -/
theorem C55_violated_unknown_column {s : Store} (k v : PyStr) (hk : asciiLower k ∉ s.cols.map asciiLower) :
    s.selectIndex [(k, v)] = if k = v then s.selectIndex [] else [] := by
  have hc : ∀ labels : List PyStr, criterionHolds s.cols labels (k, v) = (k == v) := by
    intro labels
    unfold criterionHolds
    have : (s.cols.zip labels).find? (fun cl => asciiLower cl.1 == asciiLower k) = none := by
      rw [List.find?_eq_none]
      rintro ⟨c, x⟩ h he
      have h1 : asciiLower c = asciiLower k := by simpa using he
      exact hk (h1 ▸ List.mem_map_of_mem (List.of_mem_zip h).1)
    rw [this]
  unfold Store.selectIndex Store.filterByLabel matchesCriteria
  simp only [List.all_cons, hc, List.all_nil, Bool.and_true, Bool.true_or]
  by_cases h : k = v
  · simp [h]
  · simp [h]

/-- No listing of mappings shows the undefined record, by whatever link and criteria. -/
theorem C55_violated_mappings_never {s : Store} {ref : PyStr} {name : Option PyStr}
    {criteria : List (PyStr × PyStr)} {rows : List MapView} (h : s.selectMappings ref name criteria = .ok rows) :
    ∀ v ∈ rows, v.index ≠ 0 := by
  intro v hv
  unfold Store.selectMappings at h
  rcases hl : getLink s.links ref name with e | l
  · rw [hl] at h; cases h
  rw [hl] at h
  cases h
  obtain ⟨r, hr, hv⟩ := List.mem_flatMap.1 hv
  have h0 := (List.mem_filter.1 hr).2
  rw [Bool.and_eq_true] at h0
  have h0 : r.id ≠ 0 := by simpa using h0.2
  unfold Store.mapViews at hv
  split at hv
  · rw [List.mem_singleton] at hv
    subst hv
    exact h0
  · obtain ⟨m, _, rfl⟩ := List.mem_map.1 hv
    exact h0

def toUndefOps : List Op := Demo.ops ++ [.insertMappings2 Demo.other none [⟨5, 8, 0, [], some [0xC0#8]⟩]]

def toUndef : Store := run toUndefOps (Store.new ['u'])

/-- But mappings to the undefined record can be stored. -/
theorem C55_violated_mappings : ∃ s, ReachableFk s ∧ ∃ m ∈ s.maps, m.index = 0 ∧
    (getLink s.links Demo.other none).toOption.map (·.id) = some m.link ∧
    ∃ rows, (s.selectMappings Demo.other none []).toOption = some rows ∧ ∀ v ∈ rows, v.other ≠ some m.other := by
  refine ⟨toUndef, ⟨['u'], toUndefOps, by simp [toUndefOps, Demo.ops], rfl⟩, ⟨4, 1, 5, 0, [0xC0#8], 8, some 1⟩,
    by decide +kernel, rfl, by decide +kernel,
    [⟨some 1, some 10, 1, [['x'], ['1']], none⟩, ⟨some 1, some 30, 2, [['x'], ['2']], none⟩,
     ⟨some 2, some 30, 3, [['y'], ['1']], none⟩], by decide +kernel, by decide +kernel⟩

def unregOps : List Op := Demo.ops ++
  [.insertQuantities [['d']] [⟨none, [Demo.lx, Demo.l1], [(['d'], ['p'])], 5⟩,
    ⟨none, [Demo.lx, Demo.l1], [(['d'], ['q'])], 5⟩]]

def unreg : Store := run unregOps (Store.new ['u'])

/-- Two different attribute sets look the same in the newer listing if their attributes are not registered. -/
theorem C55_violated_quantities2 : ∃ s, ReachableFk s ∧
    s.selectQuantities.toOption = some [⟨[], [['x'], []], [some ['m'], none], 100⟩,
      ⟨[], [['y'], ['1']], [some ['m'], none], 7⟩, ⟨[], [['x'], ['1']], [none, some ['p']], 5⟩,
      ⟨[], [['x'], ['1']], [none, some ['q']], 5⟩] ∧
    s.selectQuantities2.toOption = some [⟨[], [['x'], []], [some ['m']], 100⟩, ⟨[], [['y'], ['1']], [some ['m']], 7⟩,
      ⟨[], [['x'], ['1']], [none], 5⟩, ⟨[], [['x'], ['1']], [none], 5⟩] :=
  ⟨unreg, ⟨['u'], unregOps, by simp [unregOps, Demo.ops], rfl⟩, by decide +kernel, by decide +kernel⟩

/-! ### Examples -/

example : Demo.store.selectIndex [(['A'], ['x'])] = [(1, [['x'], ['1']]), (2, [['x'], ['2']])] := by decide +kernel

example : Demo.store.selectWeights Demo.wname [] =
    [(1, [['x'], ['1']], some 3), (2, [['x'], ['2']], some 1), (3, [['y'], ['1']], some 5)] := by decide +kernel

example : (Demo.store.selectMappings Demo.other none [(['A'], ['y'])]).toOption =
    some [⟨some 2, some 30, 3, [['y'], ['1']], none⟩] := by decide +kernel

example : Demo.store.selectQuantities.toOption =
    some [⟨[], [['x'], []], [some ['m']], 100⟩, ⟨[], [['y'], ['1']], [some ['m']], 7⟩] := by decide +kernel

end Toron.Space
