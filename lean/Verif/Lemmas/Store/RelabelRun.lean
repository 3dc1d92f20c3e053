/-
Correcting labels: when it succeeds.
-/
import Verif.Lemmas.Store.Relabel
import Verif.Lemmas.Store.IndexLoadRun

namespace Toron.Space

open Toron.Selectors (PyStr)

theorem Reachable.refs {s : Store} (h : Reachable s) (hfk : s.fk = true) : RefInv s := by
  refine Reachable.of_prim (P := fun s => s.fk = true → RefInv s) (fun uid _ => ?_) ?_ h hfk
  · exact ⟨rfl, by simp [Store.new], by simp [Store.new], by simp [Store.new], by simp [Store.new]⟩
  · intro k s s' hp hP hfk'
    by_cases hk : k ∈ opKinds
    · refine RefInv.prim hk hp (hP ?_)
      cases hp <;> first | exact hfk' | (exfalso; exact absurd hfk' (by simp))
    · cases hp <;> first | exact absurd (by decide) hk | exact absurd hfk' (by simp)

theorem forM_weightAdd_run {target : Nat} (ht : target ≠ 0) {v : Nat → ℚ} : ∀ {gs : List Nat} {s : Store}
    (_ : gs.Nodup) (_ : ∀ g ∈ gs, 0 ≤ v g) (_ : ∀ w ∈ s.weights, w.index ≠ target ∨ w.group ∉ gs)
    (_ : s.fk = true → ∀ g ∈ gs, ∃ x ∈ s.wgroups, x.id = g),
    ∃ s', gs.forM (fun g => weightAdd g target (v g)) s = .ok ((), s') := by
  intro gs
  induction gs with
  | nil => intro s _ _ _ _; exact ⟨s, rfl⟩
  | cons g gs ih =>
    intro s hnd hv hfree hfk
    rw [List.nodup_cons] at hnd
    let t : Store := { s with weights := s.weights ++ [⟨nextId (s.weights.map (·.id)), g, target, v g⟩] }
    have h1 : weightAdd g target (v g) s = .ok ((), t) := by
      unfold weightAdd
      rw [get_bind, if_neg ht, if_neg (not_lt.2 (hv g List.mem_cons_self)), if_neg, if_neg]
      · rfl
      · rintro ⟨h, hn⟩
        obtain ⟨x, hx, he⟩ := hfk h g List.mem_cons_self
        exact hn (List.any_eq_true.2 ⟨x, hx, by simpa using he⟩)
      · intro h
        obtain ⟨w, hw, h⟩ := List.any_eq_true.1 h
        simp only [Bool.and_eq_true, beq_iff_eq] at h
        rcases hfree w hw with h' | h'
        · exact h' h.2
        · exact h' (h.1 ▸ List.mem_cons_self)
    obtain ⟨s', h2⟩ := ih (s := t) hnd.2 (fun x hx => hv x (List.mem_cons_of_mem _ hx)) (by
      intro w hw
      rcases List.mem_append.1 hw with hw | hw
      · exact (hfree w hw).imp_right fun h hc => h (List.mem_cons_of_mem _ hc)
      · rw [List.mem_singleton] at hw
        subst hw
        exact .inr hnd.1) (fun h x hx => hfk h x (List.mem_cons_of_mem _ hx))
    exact ⟨s', forM_cons_ok.2 ⟨t, h1, h2⟩⟩

theorem mergeWeights_run {ids : List Nat} {target : Nat} {s : Store} (hw : WeightInv s) (ht : target ≠ 0)
    (hfk : s.fk = true → ∀ w ∈ s.weights, ∃ g ∈ s.wgroups, g.id = w.group) :
    ∃ s', mergeWeights ids target s = .ok ((), s') := by
  unfold mergeWeights
  rw [get_bind]
  obtain ⟨t, h1, -⟩ := forM_run (l := (distinct (target :: ids)).flatMap fun i => s.weights.filter fun w => w.index == i)
    (f := fun w => weightDelete w.id) (P := fun _ => True) (s := s) (fun w _ t _ => ⟨_, rfl, trivial⟩) trivial
  have h2 := forM_weightDelete h1
  rw [filter_not_chosen hw.ids] at h2
  have hold : ∀ w ∈ (distinct (target :: ids)).flatMap (fun i => s.weights.filter fun w => w.index == i),
      w ∈ s.weights := by
    intro w hw
    obtain ⟨i, _, hw⟩ := List.mem_flatMap.1 hw
    exact List.mem_of_mem_filter hw
  obtain ⟨s', h3⟩ := forM_weightAdd_run (s := t) ht
    (gs := distinct (((distinct (target :: ids)).flatMap fun i => s.weights.filter fun w => w.index == i).map (·.group)))
    (v := fun g => ((((distinct (target :: ids)).flatMap fun i => s.weights.filter fun w => w.index == i).filter
      fun w => w.group == g).map (·.value)).sum) (nodup_distinct _)
    (fun g _ => List.sum_nonneg fun x hx => by
      obtain ⟨w, hm, rfl⟩ := List.mem_map.1 hx
      exact hw.nonneg w (hold w (List.mem_of_mem_filter hm)))
    (by
      intro w hm
      rw [h2] at hm
      have := (List.mem_filter.1 hm).2
      simp only [decide_eq_true_eq, List.mem_cons, not_or] at this
      exact .inl this.1)
    (by
      intro h g hg
      rw [h2] at h ⊢
      rw [mem_distinct] at hg
      obtain ⟨w, hm, rfl⟩ := List.mem_map.1 hg
      exact hfk h w (hold w hm))
  exact ⟨s', bind_ok.2 ⟨(), t, h1, h3⟩⟩

theorem forM_mappingAdd_run {target : Nat} (ht : target ≠ 0) {v : Nat × Int × List Byte → ℚ}
    {p : Nat × Int × List Byte → Option ℚ} : ∀ {ks : List (Nat × Int × List Byte)} {s : Store}
    (_ : ks.Nodup) (_ : ∀ k ∈ ks, 0 ≤ v k ∧ ∀ q, p k = some q → 0 ≤ q ∧ q ≤ 1)
    (_ : ∀ m ∈ s.maps, m.index ≠ target ∨ m.key ∉ ks)
    (_ : s.fk = true → ∀ k ∈ ks, ∃ x ∈ s.links, x.id = k.1),
    ∃ s', ks.forM (fun k => mappingAdd k.1 k.2.1 target (some k.2.2) (v k) (p k)) s = .ok ((), s') := by
  intro ks
  induction ks with
  | nil => intro s _ _ _ _; exact ⟨s, rfl⟩
  | cons k ks ih =>
    intro s hnd hv hfree hfk
    rw [List.nodup_cons] at hnd
    let t : Store := { s with maps := s.maps ++ [⟨nextId (s.maps.map (·.id)), k.1, k.2.1, target, k.2.2, v k, p k⟩] }
    have h1 : mappingAdd k.1 k.2.1 target (some k.2.2) (v k) (p k) s = .ok ((), t) := by
      unfold mappingAdd
      rw [get_bind, if_neg (fun h => ht h.2)]
      dsimp only
      rw [if_neg, if_neg, if_neg]
      · rfl
      · rintro ⟨h, hn⟩
        obtain ⟨x, hx, he⟩ := hfk h k List.mem_cons_self
        exact hn (List.any_eq_true.2 ⟨x, hx, by simpa using he⟩)
      · intro h
        obtain ⟨m, hm, h⟩ := List.any_eq_true.1 h
        simp only [Bool.and_eq_true, beq_iff_eq] at h
        rcases hfree m hm with h' | h'
        · exact h' h.1.2
        · apply h'
          have : m.key = k := by
            unfold Mapping.key
            rw [h.1.1.1, h.1.1.2, h.2]
          rw [this]
          exact List.mem_cons_self
      · have hk := hv k List.mem_cons_self
        simp only [mappingCheck, Bool.not_eq_true', Bool.not_eq_false, Bool.and_eq_true, decide_eq_true_eq]
        refine ⟨⟨hk.1, ?_⟩, by simp [ht]⟩
        cases hp : p k with
        | none => rfl
        | some q => simpa using hk.2 q hp
    obtain ⟨s', h2⟩ := ih (s := t) hnd.2 (fun x hx => hv x (List.mem_cons_of_mem _ hx)) (by
      intro w hw
      rcases List.mem_append.1 hw with hw | hw
      · exact (hfree w hw).imp_right fun h hc => h (List.mem_cons_of_mem _ hc)
      · rw [List.mem_singleton] at hw
        subst hw
        exact .inr hnd.1) (fun h x hx => hfk h x (List.mem_cons_of_mem _ hx))
    exact ⟨s', forM_cons_ok.2 ⟨t, h1, h2⟩⟩

/-- A part of proportions that are as they should be can be put together. -/
theorem propSum_part {o : Int} (ho : 0 ≤ o) {ps qs : List (Option ℚ)} (hok : OkProps o ps)
    (hpos : ∀ p ∈ ps, ∀ q, p = some q → 0 ≤ q) (hsub : qs.Subperm ps) :
    ∀ q, propSum qs = some q → 0 ≤ q ∧ q ≤ 1 := by
  intro q hq
  have hmem : ∀ p ∈ qs, p ∈ ps := fun p hp => hsub.subset hp
  unfold propSum at hq
  split at hq
  · cases hq
  cases hq
  constructor
  · refine List.sum_nonneg fun x hx => ?_
    obtain ⟨p, hp, he⟩ := List.mem_filterMap.1 hx
    exact hpos p (hmem p hp) x he
  · rcases lt_or_eq_of_le ho with h | h
    · by_cases hps : ps = []
      · subst hps
        have : qs = [] := List.subperm_nil.1 hsub
        subst this
        simp
      have h1 := hok.1 h hps
      unfold propSum at h1
      split at h1
      · cases h1
      rw [← Option.some.inj h1]
      obtain ⟨l, hl, hs⟩ := hsub
      rw [← (hl.filterMap id).sum_eq]
      refine List.Sublist.sum_le_sum (hs.filterMap id) fun x hx => ?_
      obtain ⟨p, hp, he⟩ := List.mem_filterMap.1 hx
      exact hpos p hp x he
    · have : (qs.filterMap id).sum = 0 := by
        refine List.sum_eq_zero fun x hx => ?_
        obtain ⟨p, hp, he⟩ := List.mem_filterMap.1 hx
        have := hok.2 h.symm p (hmem p hp)
        rw [this] at he
        exact (Option.some.inj he).symm
      rw [this]
      exact zero_le_one

theorem mergeMappings_run {ids : List Nat} {target : Nat} {s : Store} (hm : MapInv s) (ht : target ≠ 0)
    (hok : PropOk s.maps) (hpos : ∀ m ∈ s.maps, 0 ≤ m.other)
    (hfk : s.fk = true → ∀ m ∈ s.maps, ∃ l ∈ s.links, l.id = m.link) :
    ∃ s', mergeMappings ids target s = .ok ((), s') := by
  unfold mergeMappings
  rw [get_bind]
  dsimp only
  obtain ⟨t, h1, -⟩ := forM_run (l := (distinct (target :: ids)).flatMap fun i => s.maps.filter fun m => m.index == i)
    (f := fun m => mappingDelete m.id) (P := fun _ => True) (s := s) (fun w _ t _ => ⟨_, rfl, trivial⟩) trivial
  have h2 := forM_mappingDelete h1
  rw [filter_not_chosen hm.ids] at h2
  have hperm := chosen_perm (l := s.maps) (key := Mapping.index) (target :: ids)
  generalize hold : (distinct (target :: ids)).flatMap (fun i => s.maps.filter fun m => m.index == i) = old at *
  have hsub : ∀ m ∈ old, m ∈ s.maps := fun m h => List.mem_of_mem_filter (hperm.subset h)
  have hcheck : ∀ m ∈ s.maps, 0 ≤ m.value ∧ ∀ q, m.prop = some q → 0 ≤ q := by
    intro m h
    have := hm.checks m h
    unfold mappingCheck at this
    simp only [Bool.and_eq_true, decide_eq_true_eq] at this
    refine ⟨this.1.1, fun q hq => ?_⟩
    have h' := this.1.2
    rw [hq] at h'
    simp only [decide_eq_true_eq] at h'
    exact h'.1
  obtain ⟨s', h3⟩ := forM_mappingAdd_run (s := t) ht (ks := distinct (old.map Mapping.key))
    (v := fun k => ((old.filter fun m => m.key == k).map (·.value)).sum)
    (p := fun k => ((old.filter fun m => m.key == k).map (·.prop)).foldl addProp (some 0)) (nodup_distinct _)
    (fun k hk => ⟨List.sum_nonneg fun x hx => by
        obtain ⟨m, hmm, rfl⟩ := List.mem_map.1 hx
        exact (hcheck m (hsub m (List.mem_of_mem_filter hmm))).1, by
      rw [foldl_addProp, zero_addProp]
      rw [mem_distinct] at hk
      obtain ⟨m, hmm, rfl⟩ := List.mem_map.1 hk
      refine propSum_part (hpos m (hsub m hmm)) (hok m.link m.other) ?_ ?_
      · intro p hp q hq
        obtain ⟨x, hx, rfl⟩ := List.mem_map.1 hp
        exact (hcheck x (List.mem_of_mem_filter hx)).2 q hq
      · have h4 : (old.filter fun x => x.key == m.key).Perm
            ((s.maps.filter fun x => decide (x.index ∈ target :: ids)).filter fun x => x.key == m.key) := hperm.filter _
        refine ⟨_, (h4.map _).symm, List.Sublist.map _ ?_⟩
        unfold mapsAt
        rw [List.filter_filter]
        exact List.monotone_filter_right _ fun x hx => by
          simp only [Bool.and_eq_true, beq_iff_eq, decide_eq_true_eq] at hx ⊢
          have := hx.1
          unfold Mapping.key at this
          simp only [Prod.mk.injEq] at this
          exact ⟨this.1, this.2.1⟩⟩)
    (by
      intro m hmm
      rw [h2] at hmm
      have := (List.mem_filter.1 hmm).2
      simp only [decide_eq_true_eq, List.mem_cons, not_or] at this
      exact .inl this.1)
    (by
      intro h k hk
      rw [h2] at h ⊢
      rw [mem_distinct] at hk
      obtain ⟨m, hmm, rfl⟩ := List.mem_map.1 hk
      exact hfk h m (hsub m hmm))
  exact ⟨s', bind_ok.2 ⟨(), t, h1, h3⟩⟩

/-! ### Rows -/

theorem indexUpdate_run {s : Store} {r : IndexRec} (hb : ∀ c ∈ s.cols, bareOk c = true)
    (hl : r.labels.length = s.cols.length) (hne : r.labels ≠ []) (hx : ∃ x ∈ s.index, x.id = r.id) (h0 : r.id ≠ 0)
    (he : [] ∉ r.labels) (hu : ∀ x ∈ s.index, x.id ≠ r.id → x.labels ≠ r.labels) :
    indexUpdate r s = .ok ((), { s with index := s.index.map fun x => if x.id = r.id then r else x }) := by
  unfold indexUpdate
  rw [get_bind, if_neg, if_neg, if_neg, if_neg h0, if_neg he, if_neg]
  · rfl
  · intro h
    obtain ⟨x, hx, h⟩ := List.any_eq_true.1 h
    simp only [Bool.and_eq_true, bne_iff_ne, beq_iff_eq] at h
    exact hu x hx h.1 h.2
  · rw [not_not]
    obtain ⟨x, hx, h⟩ := hx
    exact List.any_eq_true.2 ⟨x, hx, by simpa using h⟩
  · rintro (h | h)
    · exact h hl
    · exact hne h
  · simpa using hb

/-- What is needed for correcting labels. -/
structure Ready (s : Store) : Prop where
  index : IndexInv s
  weights : WeightInv s
  maps : MapInv s
  props : PropOk s.maps
  others : ∀ m ∈ s.maps, 0 ≤ m.other
  refs : s.fk = true → RefInv s
  bare : ∀ c ∈ s.cols, bareOk c = true

theorem updateIndexRow_run {merge : Bool} {acc : UpdateAcc} {row : Nat × List PyStr} {s : Store}
    {into : List (Nat × Nat)} {t : Relabelled} (hs : Ready s) (hlen : row.2.length = s.cols.length)
    (hown : ∀ r ∈ s.index, r.id = row.1 → r.labels ≠ row.2) (hacc : acc.merged = into.map (·.1))
    (h : Relabelled.row merge ⟨s.index, into⟩ row = some t) :
    ∃ acc' s', updateIndexRow merge acc row s = .ok (acc', s') := by
  unfold updateIndexRow
  unfold Relabelled.row at h
  split at h
  · rename_i he
    rw [if_pos he]
    exact ⟨acc, s, rfl⟩
  rename_i he
  rw [if_neg he, get_bind]
  split at h
  · rename_i hnm
    have hf : s.index.find? (fun r => r.id == row.1) = none := by
      rw [List.find?_eq_none]
      intro r hr hc
      exact hnm (List.mem_map.2 ⟨r, hr, by simpa using hc⟩)
    simp only [hf]
    split at h
    · cases h
    · rename_i hn
      rw [if_neg (by rw [hacc]; exact hn)]
      exact ⟨acc, s, rfl⟩
  rename_i hm
  rw [not_not] at hm
  split at h
  · cases h
  rename_i h0
  obtain ⟨r, hr, hri⟩ := List.mem_map.1 hm
  have hf : s.index.find? (fun r => r.id == row.1) = some r := by
    obtain ⟨r', hr'⟩ := Option.isSome_iff_exists.1
      (List.find?_isSome (p := fun r : IndexRec => r.id == row.1).2 ⟨r, hr, by simpa using hri⟩)
    rw [hr']
    have h1 := List.mem_of_find?_eq_some hr'
    have h2 : r'.id = row.1 := by simpa using List.find?_some hr'
    rw [List.inj_on_of_nodup_map hs.index.idsNodup h1 hr (h2.trans hri.symm)]
  simp only [hf]
  have hne : row.2 ≠ [] := by
    intro h
    rw [h] at hlen
    have hu := hs.index.undef
    have hl := hs.index.lens r hr
    rw [← hlen, List.length_nil, List.length_eq_zero_iff] at hl
    have hul : s.undefinedRecord.labels = [] := by
      unfold Store.undefinedRecord
      rw [← hlen]
      rfl
    have := List.inj_on_of_nodup_map hs.index.labels hr hu (hl.trans hul.symm)
    exact h0 (hri.symm.trans (congrArg IndexRec.id this))
  dsimp only at h
  rw [find_labels] at h
  cases hfl : s.findByLabels row.2 with
  | none =>
    have hu := indexUpdate_run (s := s) (r := { r with labels := row.2 }) hs.bare hlen hne ⟨r, hr, rfl⟩
      (by rw [← hri] at h0; exact h0) he (by
        intro x hx _ hc
        exact absurd (List.find?_eq_none.1 hfl x hx) (by simpa using hc))
    exact ⟨_, _, bind_ok.2 ⟨acc, s, rfl, bind_ok.2 ⟨(), _, hu, rfl⟩⟩⟩
  | some o =>
    rw [hfl] at h
    dsimp only at h
    have ho := List.mem_of_find?_eq_some hfl
    have hol : o.labels = row.2 := by simpa using List.find?_some hfl
    have hor : o.id ≠ row.1 := fun he => hown o ho he hol
    rw [if_neg hor] at h
    split at h
    · cases h
    rename_i hc
    rw [not_or] at hc
    have hr0 : r.id ≠ 0 := by rw [hri]; exact h0
    obtain ⟨t1, h1⟩ := mergeWeights_run (ids := [o.id]) hs.weights hr0 fun h => (hs.refs h).weights
    have hs1 := (mergeWeights_does ..).steps _ _ _ h1
    have hm1 : t1.maps = s.maps := hs1.maps_eq (by decide)
    obtain ⟨t2, h2⟩ := mergeMappings_run (ids := [o.id]) (hs.maps.steps hs1) hr0 (by rw [hm1]; exact hs.props)
      (by rw [hm1]; exact hs.others) (by
        rw [hs1.fk_eq (by decide), hm1, hs1.links_eq (by decide)]
        exact fun h => (hs.refs h).maps)
    have hs2 := (mergeMappings_does ..).steps _ _ _ h2
    have hi2 : t2.index = s.index := by rw [hs2.index_eq (by decide), hs1.index_eq (by decide)]
    have hc2 : t2.cols = s.cols := by rw [hs2.cols_eq (by decide), hs1.cols_eq (by decide)]
    have h3 : indexDelete o.id t2 = .ok ((), { t2 with index := t2.index.filter fun x => x.id != o.id }) := by
      unfold indexDelete
      rw [get_bind, if_neg (fun h => hc.2 h.1)]
      rfl
    have h4 := indexUpdate_run (s := { t2 with index := t2.index.filter fun x => x.id != o.id })
      (r := { r with labels := row.2 }) (by dsimp only; rw [hc2]; exact hs.bare) (by dsimp only; rw [hc2]; exact hlen)
      hne ⟨r, by
        dsimp only
        rw [hi2]
        exact List.mem_filter.2 ⟨hr, by simpa using fun h : r.id = o.id => hor (h.symm.trans hri)⟩, rfl⟩
      hr0 he (by
        intro x hx _ hcc
        dsimp only at hx
        rw [hi2] at hx
        obtain ⟨hx, hxo⟩ := List.mem_filter.1 hx
        have := List.inj_on_of_nodup_map hs.index.labels hx ho (hcc.trans hol.symm)
        rw [this] at hxo
        simp at hxo)
    refine ⟨_, _, bind_ok.2 ⟨{ acc with merged := acc.merged ++ [o.id] }, _, ?_, bind_ok.2 ⟨(), _, h4, rfl⟩⟩⟩
    unfold mergeConflict
    dsimp only
    rw [if_neg (by simpa using hc.1)]
    exact bind_ok.2 ⟨(), t1, h1, bind_ok.2 ⟨(), t2, h2, bind_ok.2 ⟨(), _, h3, rfl⟩⟩⟩

theorem Moved.others {s s' : Store} {d : Nat → Nat} (h : Moved s s' d) (ho : ∀ m ∈ s.maps, 0 ≤ m.other) :
    ∀ m ∈ s'.maps, 0 ≤ m.other := by
  intro m hm
  have hk := (h.2 (m.link, m.other, m.level) fun _ => true).2.2
  by_contra hneg
  have : s.mapsIn (m.link, m.other, m.level) (fun _ => true) = [] := by
    unfold Store.mapsIn
    rw [List.map_eq_nil_iff, List.filter_eq_nil_iff]
    intro x hx hc
    simp only [Bool.and_true, decide_eq_true_eq] at hc
    exact hneg (hc.2.1 ▸ ho x hx)
  have h2 := hk.2 this
  unfold Store.mapsIn at h2
  rw [List.map_eq_nil_iff, List.filter_eq_nil_iff] at h2
  exact h2 m hm (by simp)

theorem Ready.row {merge : Bool} {acc acc' : UpdateAcc} {row : Nat × List PyStr} {s s' : Store} {d : Nat → Nat}
    (hs : Ready s) (hmv : Moved s s' d) (h : updateIndexRow merge acc row s = .ok (acc', s')) : Ready s' := by
  have hst := (updateIndexRow_does merge acc row).steps _ _ _ h
  refine ⟨hst.invariant (fun _ _ _ _ hp => IndexInv.prim hp) hs.index, hs.weights.steps hst, hs.maps.steps hst,
    updateIndexRow_maps hs.maps hs.props h, hmv.others hs.others, ?_, ?_⟩
  · rw [hst.fk_eq (by decide)]
    intro hfk
    have hsub : ∀ k ∈ [Kind.wAdd, .wDel, .mAdd, .mDel, .idxDel, .idxUpd], k ∈ opKinds := by decide
    exact hst.invariant (P := RefInv) (fun k hk _ _ hp => RefInv.prim (hsub k hk) hp) (hs.refs hfk)
  · rw [hst.cols_eq (by decide)]
    exact hs.bare

theorem updateIndexRows_run {merge : Bool} {rows : List (Nat × List PyStr)} : ∀ {acc : UpdateAcc} {s : Store}
    {into : List (Nat × Nat)} {t : Relabelled} (_ : Ready s) (_ : ∀ row ∈ rows, row.2.length = s.cols.length)
    (_ : (rows.map (·.1)).Nodup)
    (_ : ∀ row ∈ rows, ∀ r ∈ s.index, r.id = row.1 → r.labels ≠ row.2) (_ : acc.merged = into.map (·.1))
    (_ : Relabelled.rows merge rows ⟨s.index, into⟩ = some t),
    ∃ acc' s', rows.foldlM (updateIndexRow merge) acc s = .ok (acc', s') ∧ Ready s' := by
  induction rows with
  | nil => intro acc s into t hs _ _ _ _ _; exact ⟨acc, s, rfl, hs⟩
  | cons row rows ih =>
    intro acc s into t hs hlen hnd hown hacc h
    rw [List.map_cons, List.nodup_cons] at hnd
    unfold Relabelled.rows at h
    rw [List.foldlM_cons] at h
    cases hr : Relabelled.row merge ⟨s.index, into⟩ row with
    | none => rw [hr] at h; cases h
    | some t1 =>
      obtain ⟨acc1, s1, h1⟩ := updateIndexRow_run hs (hlen row List.mem_cons_self) (hown row List.mem_cons_self) hacc hr
      obtain ⟨ext1, k1, k2, k3⟩ := updateIndexRow_spec hs.weights hs.maps (hown row List.mem_cons_self) hacc h1
      have hst := (updateIndexRow_does merge acc row).steps _ _ _ h1
      rw [k1] at h
      obtain ⟨acc2, s2, h2, h3⟩ := ih (hs.row k3 h1)
        (fun row' hr' => by rw [hst.cols_eq (by decide)]; exact hlen row' (List.mem_cons_of_mem _ hr')) hnd.2 (by
          intro row' hr' y hy hyi
          rcases Relabelled.row_mem k1 y hy with hy' | hy'
          · exact absurd (hyi.symm.trans hy') (fun he => hnd.1 (he ▸ List.mem_map_of_mem hr'))
          · exact hown row' (List.mem_cons_of_mem _ hr') y hy' hyi) k2 h
      exact ⟨acc2, s2, foldlM_cons_ok.2 ⟨acc1, s1, h1, h2⟩, h3⟩

/-! ### After the rows -/

theorem wgroupUpdate_complete {s t : Store} (hw : WeightInv s)
    (ht : t.wgroups.map (fun g => (g.id, g.name)) = s.wgroups.map fun g => (g.id, g.name)) {g : WGroup}
    (hg : g ∈ s.wgroups) (b : Bool) :
    ∃ t', wgroupUpdate { g with complete := b } t = .ok ((), t') ∧
      t'.wgroups.map (fun g => (g.id, g.name)) = s.wgroups.map fun g => (g.id, g.name) := by
  have key : ∀ x ∈ t.wgroups, ∃ y ∈ s.wgroups, y.id = x.id ∧ y.name = x.name := by
    intro x hx
    have hm : (x.id, x.name) ∈ s.wgroups.map fun g => (g.id, g.name) := by
      rw [← ht]; exact List.mem_map_of_mem (f := fun g : WGroup => (g.id, g.name)) hx
    obtain ⟨y, hy, he⟩ := List.mem_map.1 hm
    exact ⟨y, hy, congrArg Prod.fst he, congrArg Prod.snd he⟩
  refine ⟨{ t with wgroups := t.wgroups.map fun x => if x.id = g.id then { g with complete := b } else x }, ?_, ?_⟩
  · unfold wgroupUpdate
    refine bind_ok.2 ⟨t, t, rfl, ?_⟩
    rw [if_neg, if_neg]
    · rfl
    · intro h
      obtain ⟨x, hx, h⟩ := List.any_eq_true.1 h
      rw [Bool.and_eq_true, bne_iff_ne, beq_iff_eq] at h
      obtain ⟨y, hy, h1, h2⟩ := key x hx
      have := List.inj_on_of_nodup_map hw.names hy hg (h2.trans h.2)
      exact h.1 (by rw [← h1, this])
    · rw [not_not]
      have hm : (g.id, g.name) ∈ t.wgroups.map fun g => (g.id, g.name) := by
        rw [ht]; exact List.mem_map_of_mem (f := fun g : WGroup => (g.id, g.name)) hg
      obtain ⟨y, hy, he⟩ := List.mem_map.1 hm
      exact List.any_eq_true.2 ⟨y, hy, by simpa using congrArg Prod.fst he⟩
  · rw [← ht]
    show (t.wgroups.map _).map _ = _
    rw [List.map_map]
    apply List.map_congr_left
    intro x hx
    rw [Function.comp_apply]
    split
    · rename_i he
      obtain ⟨y, hy, h1, h2⟩ := key x hx
      have := List.inj_on_of_nodup_map hw.gids hy hg (h1.trans he)
      subst this
      rw [Prod.mk.injEq]; exact ⟨h1, h2⟩
    · rfl

theorem promoteGroups_run {s : Store} (hw : WeightInv s) : ∃ s', promoteGroups s = .ok ((), s') := by
  obtain ⟨s', h, -⟩ := forM_run (l := s.wgroups)
    (f := fun g => do whenM (!g.complete && (← get).wgroupIsComplete g.id) (wgroupUpdate { g with complete := true }))
    (P := fun t => t.wgroups.map (fun g => (g.id, g.name)) = s.wgroups.map fun g => (g.id, g.name)) (s := s)
    (fun g hg t ht => by
      rw [get_bind]
      by_cases hc : (!g.complete && t.wgroupIsComplete g.id) = true
      · obtain ⟨t', h1, h2⟩ := wgroupUpdate_complete hw ht hg true
        exact ⟨t', whenM_ok.2 (.inl ⟨hc, h1⟩), h2⟩
      · exact ⟨t, whenM_ok.2 (.inr ⟨Bool.eq_false_iff.2 hc, rfl⟩), ht⟩) rfl
  exact ⟨s', bind_ok.2 ⟨s, s, rfl, h⟩⟩

theorem linkUpdate_complete {u t : Store} (hl : LinkInv u)
    (ht : t.links.map (fun l => (l.id, l.other, l.name, l.isDefault)) =
      u.links.map fun l => (l.id, l.other, l.name, l.isDefault)) {g : Link} (hg : g ∈ u.links) (b : Bool) :
    ∃ t', linkUpdate { g with complete := b } t = .ok ((), t') ∧
      t'.links.map (fun l => (l.id, l.other, l.name, l.isDefault)) =
        u.links.map fun l => (l.id, l.other, l.name, l.isDefault) := by
  have key : ∀ x ∈ t.links, ∃ y ∈ u.links, y.id = x.id ∧ y.other = x.other ∧ y.name = x.name ∧
      y.isDefault = x.isDefault := by
    intro x hx
    have hm : (x.id, x.other, x.name, x.isDefault) ∈ u.links.map fun l => (l.id, l.other, l.name, l.isDefault) := by
      rw [← ht]; exact List.mem_map_of_mem (f := fun l : Link => (l.id, l.other, l.name, l.isDefault)) hx
    obtain ⟨y, hy, he⟩ := List.mem_map.1 hm
    simp only [Prod.mk.injEq] at he
    exact ⟨y, hy, he.1, he.2.1, he.2.2.1, he.2.2.2⟩
  refine ⟨{ t with links := t.links.map fun x => if x.id = g.id then { g with complete := b } else x }, ?_, ?_⟩
  · unfold linkUpdate
    refine bind_ok.2 ⟨t, t, rfl, ?_⟩
    rw [if_neg, if_neg]
    · rfl
    · intro h
      obtain ⟨x, hx, h⟩ := List.any_eq_true.1 h
      simp only [Bool.and_eq_true, bne_iff_ne, beq_iff_eq, Bool.or_eq_true] at h
      obtain ⟨y, hy, h1, h2, h3, h4⟩ := key x hx
      obtain ⟨⟨k1, k2⟩, k3⟩ := h
      have hne : y ≠ g := fun he => k1 (by rw [← h1, he])
      rcases k3 with k3 | ⟨k3, k4⟩
      · exact hne (List.inj_on_of_nodup_map hl.names hy hg (by rw [h2, h3, k2, k3]))
      · have : Std.Symm fun a b : Link => a.other = b.other → ¬ (a.isDefault = true ∧ b.isDefault = true) :=
          ⟨fun a b hab ho hd => hab ho.symm hd.symm⟩
        have := hl.defaults.forall hy hg hne
        exact this (h2.trans k2) ⟨h4.trans k3, k4⟩
    · rw [not_not]
      have hm : (g.id, g.other, g.name, g.isDefault) ∈ t.links.map fun l => (l.id, l.other, l.name, l.isDefault) := by
        rw [ht]; exact List.mem_map_of_mem (f := fun l : Link => (l.id, l.other, l.name, l.isDefault)) hg
      obtain ⟨y, hy, he⟩ := List.mem_map.1 hm
      exact List.any_eq_true.2 ⟨y, hy, by simpa using congrArg Prod.fst he⟩
  · rw [← ht]
    show (t.links.map _).map _ = _
    rw [List.map_map]
    apply List.map_congr_left
    intro x hx
    rw [Function.comp_apply]
    split
    · rename_i he
      obtain ⟨y, hy, h1, h2, h3, h4⟩ := key x hx
      have := List.inj_on_of_nodup_map hl.ids hy hg (h1.trans he)
      subst this
      simp only [Prod.mk.injEq]; exact ⟨h1, h2, h3, h4⟩
    · rfl

theorem promoteLinks_run {s : Store} (hl : LinkInv s) : ∃ s', promoteLinks s = .ok ((), s') := by
  obtain ⟨s', h, -⟩ := forM_run (l := s.links)
    (f := fun l => do whenM (!l.complete && (← get).mappingIsComplete l.id) (linkUpdate { l with complete := true }))
    (P := fun t => t.links.map (fun l => (l.id, l.other, l.name, l.isDefault)) =
      s.links.map fun l => (l.id, l.other, l.name, l.isDefault)) (s := s)
    (fun g hg t ht => by
      rw [get_bind]
      by_cases hc : (!g.complete && t.mappingIsComplete g.id) = true
      · obtain ⟨t', h1, h2⟩ := linkUpdate_complete hl ht hg true
        exact ⟨t', whenM_ok.2 (.inl ⟨hc, h1⟩), h2⟩
      · exact ⟨t, whenM_ok.2 (.inr ⟨Bool.eq_false_iff.2 hc, rfl⟩), ht⟩) rfl
  exact ⟨s', bind_ok.2 ⟨s, s, rfl, h⟩⟩

theorem afterMerge_run {s : Store} (hw : WeightInv s) (hl : LinkInv s) : ∃ s', afterMerge s = .ok ((), s') := by
  let t : Store := { s with indexHash := s.indexIds }
  have h1 : refreshIndexHash s = .ok ((), t) := rfl
  obtain ⟨u, h2⟩ := promoteGroups_run (s := t) ⟨hw.1, hw.2, hw.3, hw.4, hw.5, hw.6, hw.7⟩
  have h2' : Steps [.wgUpd] t u := Does.steps (by unfold promoteGroups; does) _ _ _ h2
  have hlu : u.links = s.links := h2'.links_eq (by decide)
  obtain ⟨v, h3⟩ := promoteLinks_run (s := u) ⟨by rw [hlu]; exact hl.ids, by rw [hlu]; exact hl.names,
    by rw [hlu]; exact hl.defaults⟩
  exact ⟨v, bind_ok.2 ⟨(), t, h1, bind_ok.2 ⟨(), u, h2, h3⟩⟩⟩

/-- Nothing ends up at a record that is not there. -/
theorem Relabelled.row_ids {merge : Bool} {t t' : Relabelled} {row : Nat × List PyStr}
    (h : Relabelled.row merge t row = some t') :
    ∃ ext, t'.into = t.into ++ ext ∧ ∀ i ∈ t.recs.map (·.id), ends ext i ∈ t'.recs.map (·.id) := by
  have hset : ∀ (l : List IndexRec) i labels, (withLabels i labels l).map (·.id) = l.map (·.id) := by
    intro l i labels
    unfold withLabels
    rw [List.map_map]
    apply List.map_congr_left
    intro x _
    rw [Function.comp_apply]
    split
    · rename_i h; exact h.symm
    · rfl
  unfold Relabelled.row at h
  split at h
  · cases h; exact ⟨[], by rw [List.append_nil], fun i hi => hi⟩
  split at h
  · split at h
    · cases h
    · cases h; exact ⟨[], by rw [List.append_nil], fun i hi => hi⟩
  rename_i hm
  rw [not_not] at hm
  split at h
  · cases h
  split at h
  · cases h
    exact ⟨[], by rw [List.append_nil], fun i hi => by rw [hset]; exact hi⟩
  · rename_i o _
    split at h
    · cases h; exact ⟨[], by rw [List.append_nil], fun i hi => hi⟩
    rename_i hor
    split at h
    · cases h
    · cases h
      refine ⟨_, rfl, fun i hi => ?_⟩
      rw [hset]
      have hmem : ∀ j ∈ t.recs.map (·.id), j ≠ o.id →
          j ∈ (t.recs.filter fun r => decide (r.id ≠ o.id)).map (·.id) := by
        intro j hj hne
        obtain ⟨r, hr, rfl⟩ := List.mem_map.1 hj
        exact List.mem_map.2 ⟨r, List.mem_filter.2 ⟨hr, by simpa using hne⟩, rfl⟩
      show (if i = o.id then row.1 else i) ∈ _
      split
      · exact hmem _ hm fun h => hor h.symm
      · rename_i hne
        exact hmem _ hi hne

theorem Relabelled.rows_ids {merge : Bool} {rows : List (Nat × List PyStr)} : ∀ {t t' : Relabelled}
    (_ : Relabelled.rows merge rows t = some t'),
    ∃ ext, t'.into = t.into ++ ext ∧ ∀ i ∈ t.recs.map (·.id), ends ext i ∈ t'.recs.map (·.id) := by
  induction rows with
  | nil =>
    intro t t' h
    cases h
    exact ⟨[], by rw [List.append_nil], fun i hi => hi⟩
  | cons row rows ih =>
    intro t t' h
    unfold Relabelled.rows at h
    rw [List.foldlM_cons] at h
    cases hr : Relabelled.row merge t row with
    | none => rw [hr] at h; cases h
    | some t1 =>
      rw [hr] at h
      obtain ⟨e1, k1, k2⟩ := Relabelled.row_ids hr
      obtain ⟨e2, k3, k4⟩ := ih (t := t1) h
      exact ⟨e1 ++ e2, by rw [k3, k1, List.append_assoc], fun i hi => by rw [ends_append]; exact k4 _ (k2 i hi)⟩

theorem Moved.fkOk {s s' : Store} {ext : List (Nat × Nat)} (h : Moved s s' (ends ext))
    (hids : ∀ i ∈ s.index.map (·.id), ends ext i ∈ s'.index.map (·.id)) (hfk : s'.fk = s.fk) (hok : fkOk s = true) :
    fkOk s' = true := by
  unfold Space.fkOk at hok ⊢
  rw [hfk]
  rw [Bool.or_eq_true] at hok ⊢
  rcases hok with hok | hok
  · exact .inl hok
  right
  rw [Bool.and_eq_true, List.all_eq_true, List.all_eq_true] at hok ⊢
  have hany : ∀ i, i ∈ s'.index.map (·.id) → (s'.index.any fun r => r.id == i) = true := by
    intro i hi
    obtain ⟨r, hr, he⟩ := List.mem_map.1 hi
    exact List.any_eq_true.2 ⟨r, hr, by simpa using he⟩
  have hmem : ∀ i, (s.index.any fun r => r.id == i) = true → i ∈ s.index.map (·.id) := by
    intro i hi
    obtain ⟨r, hr, he⟩ := List.any_eq_true.1 hi
    exact List.mem_map.2 ⟨r, hr, by simpa using he⟩
  constructor
  · intro w hw
    have hk := (h.1 w.group fun i => i == w.index).2
    have hne : s'.weightsIn w.group (fun i => i == w.index) ≠ [] := by
      unfold Store.weightsIn
      rw [ne_eq, List.map_eq_nil_iff]
      exact List.ne_nil_of_mem (List.mem_filter.2 ⟨hw, by simp⟩)
    have := fun h => hne (hk.2 h)
    unfold Store.weightsIn at this
    rw [List.map_eq_nil_iff] at this
    obtain ⟨x, hx⟩ := List.exists_mem_of_ne_nil _ this
    obtain ⟨hx, he⟩ := List.mem_filter.1 hx
    simp only [Bool.and_eq_true, beq_iff_eq] at he
    rw [← he.2]
    exact hany _ (hids _ (hmem _ (hok.1 x hx)))
  · intro m hm
    have hk := (h.2 (m.link, m.other, m.level) fun i => i == m.index).2.2
    have hne : s'.mapsIn (m.link, m.other, m.level) (fun i => i == m.index) ≠ [] := by
      unfold Store.mapsIn
      rw [ne_eq, List.map_eq_nil_iff]
      exact List.ne_nil_of_mem (List.mem_filter.2 ⟨hm, by simp⟩)
    have := fun h => hne (hk.2 h)
    unfold Store.mapsIn at this
    rw [List.map_eq_nil_iff] at this
    obtain ⟨x, hx⟩ := List.exists_mem_of_ne_nil _ this
    obtain ⟨hx, he⟩ := List.mem_filter.1 hx
    simp only [Bool.and_eq_true, beq_iff_eq] at he
    rw [← he.2]
    exact hany _ (hids _ (hmem _ (hok.2 x hx)))

/-- What succeeds does what it should. -/
theorem updateIndex_spec {merge : Bool} {rows : List (Nat × List PyStr)} {s s' : Store} (hw : WeightInv s) (hm : MapInv s)
    (hnd : (rows.map (·.1)).Nodup) (hown : ∀ row ∈ rows, ∀ r ∈ s.index, r.id = row.1 → r.labels ≠ row.2)
    (h : updateIndex merge rows s = .ok ((), s')) :
    ∃ into, Relabelled.rows merge rows ⟨s.index, []⟩ = some ⟨s'.index, into⟩ ∧ Moved s s' (ends into) := by
  obtain ⟨acc, t, u, h1, h2, h3⟩ := updateIndex_parts h
  obtain ⟨ext, k1, _, k3⟩ := updateIndexRows_spec (into := []) hw hm hnd hown rfl h1
  have h2' : Steps [.structs] t u := Does.steps (by does) _ _ _ h2
  have h3' : Steps [.hash, .wgUpd, .lUpd] u s' := Does.steps (by does) _ _ _ h3
  refine ⟨ext, ?_, ?_⟩
  · rw [k1, List.nil_append, h3'.index_eq (by decide), h2'.index_eq (by decide)]
  · have := k3.trans (Moved.of_eq (s := t) (s' := s')
      (by rw [h3'.weights_eq (by decide), h2'.weights_eq (by decide)])
      (by rw [h3'.maps_eq (by decide), h2'.maps_eq (by decide)]))
    exact this

/-- What should succeed succeeds. -/
theorem updateIndex_run {merge : Bool} {rows : List (Nat × List PyStr)} {s : Store} (hs : Ready s) (hl : LinkInv s)
    (hlen : ∀ row ∈ rows, row.2.length = s.cols.length)
    (hnd : (rows.map (·.1)).Nodup) (hown : ∀ row ∈ rows, ∀ r ∈ s.index, r.id = row.1 → r.labels ≠ row.2)
    (hok : fkOk s = true) {t : Relabelled} (h : Relabelled.rows merge rows ⟨s.index, []⟩ = some t) :
    ∃ s', updateIndex merge rows s = .ok ((), s') ∧ fkOk s' = true := by
  obtain ⟨acc, u, h1, hu⟩ := updateIndexRows_run (acc := ⟨[], false⟩) hs hlen hnd hown rfl h
  have hst : Steps [.wAdd, .wDel, .mAdd, .mDel, .idxDel, .idxUpd] s u := Does.steps (by does) _ _ _ h1
  have hlu : LinkInv u := hst.invariant (fun _ _ _ _ hp => LinkInv.prim hp) hl
  obtain ⟨v, h2⟩ : ∃ v, whenM (acc.merged ≠ [] ∨ acc.updated) refreshGranularity u = .ok ((), v) := by
    by_cases hc : acc.merged ≠ [] ∨ acc.updated
    · exact ⟨_, whenM_ok.2 (.inl ⟨decide_eq_true hc, rfl⟩)⟩
    · exact ⟨_, whenM_ok.2 (.inr ⟨by simpa using hc, rfl⟩)⟩
  have h2' : Steps [.structs] u v := Does.steps (by does) _ _ _ h2
  obtain ⟨s', h3⟩ : ∃ s', whenM (acc.merged ≠ []) afterMerge v = .ok ((), s') := by
    by_cases hc : acc.merged ≠ []
    · obtain ⟨s', h⟩ := afterMerge_run (s := v) (hu.weights.steps h2')
        (h2'.invariant (fun _ _ _ _ hp => LinkInv.prim hp) hlu)
      exact ⟨s', whenM_ok.2 (.inl ⟨decide_eq_true hc, h⟩)⟩
    · exact ⟨_, whenM_ok.2 (.inr ⟨by simpa using hc, rfl⟩)⟩
  have hall : updateIndex merge rows s = .ok ((), s') :=
    bind_ok.2 ⟨acc, u, h1, bind_ok.2 ⟨(), v, h2, h3⟩⟩
  refine ⟨s', hall, ?_⟩
  obtain ⟨into, k1, k2⟩ := updateIndex_spec hs.weights hs.maps hnd hown hall
  obtain ⟨ext, e1, e2⟩ := Relabelled.rows_ids k1
  rw [List.nil_append] at e1
  dsimp only at e1
  subst e1
  have hsall := (updateIndex_does merge rows).steps _ _ _ hall
  exact k2.fkOk e2 (hsall.fk_eq (by decide)) hok

end Toron.Space
