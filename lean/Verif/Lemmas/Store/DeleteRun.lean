/-
When deleting index records succeeds.
-/
import Verif.Lemmas.Store.Delete
import Verif.Lemmas.Store.RelabelRun
import Verif.Lemmas.Store.MapLoad

namespace Toron.Space

open Toron.Selectors (PyStr)

/-- The record can be deleted: it is not the undefined one and its mappings name every column. -/
def Store.Deletable (s : Store) (id : Nat) : Prop :=
  id ≠ 0 ∧ ∀ m ∈ s.maps, m.index = id → m.level = fullLevel s.cols.length

theorem Deleted.deletable {D : List Nat} {s s' : Store} (h : Deleted D s s') {i : Nat} (hi : s.Deletable i) :
    s'.Deletable i := by
  refine ⟨hi.1, fun m hm he => ?_⟩
  obtain ⟨x, hx, hb, _⟩ := h.was hm
  obtain ⟨_, _, _, hix, hl, _⟩ := Mapping.bare_eq hb
  rw [← hl, h.cols]
  exact hi.2 x hx (hix.trans he)

theorem deleteIndexRecord_run {s : Store} {id : Nat} (hm : MapInv s) (hd : s.Deletable id) :
    ∃ s', deleteIndexRecord id s = .ok ((), s') := by
  unfold deleteIndexRecord
  rw [get_bind]
  obtain ⟨t1, h1, -⟩ := forM_run (l := s.weights.filter fun w => w.index == id) (f := fun w => weightDelete w.id)
    (P := fun _ => True) (s := s) (fun w _ t _ => ⟨_, rfl, trivial⟩) trivial
  obtain ⟨t2, h2, -⟩ := forM_run (l := s.maps.filter fun m => m.index == id)
    (f := fun m => if m.level ≠ fullLevel s.cols.length then throw (.valueError "some mappings are ambiguous")
      else mappingDelete m.id)
    (P := fun _ => True) (s := t1) (fun m hmem t _ => by
      obtain ⟨k1, k2⟩ := List.mem_filter.1 hmem
      rw [if_neg (not_not.2 (hd.2 m k1 (by simpa using k2)))]
      exact ⟨_, rfl, trivial⟩) trivial
  have s1 : Steps [.wDel] s t1 := Does.steps (by does) _ _ _ h1
  have s2 : Steps [.mDel] t1 t2 := Does.steps (by does) _ _ _ h2
  obtain ⟨t3, h3, -⟩ := forM_run (l := distinct ((s.maps.filter fun m => m.index == id).map (·.other)))
    (f := fun other => do (← get).links.forM fun l => refreshProportions l.id other)
    (P := fun t => MapInv t) (s := t2) (fun o _ t ht => by
      rw [get_bind]
      obtain ⟨t', k1, k2, -⟩ := forM_run (l := t.links) (f := fun l => refreshProportions l.id o)
        (P := fun u => MapInv u ∧ u.links = t.links) (s := t) (fun l hl u hu => by
          obtain ⟨u', k1, -⟩ := refreshProportions_run hu.1 (lk := l.id) (fun _ => ⟨l, by rw [hu.2]; exact hl, rfl⟩) o
          have hs := (refreshProportions_does l.id o).steps _ _ _ k1
          exact ⟨u', k1, hu.1.steps hs, (hs.links_eq (by decide)).trans hu.2⟩) ⟨ht, rfl⟩
      exact ⟨t', k1, k2⟩) ((hm.steps s1).steps s2)
  refine ⟨{ t3 with index := t3.index.filter fun x => x.id != id },
    bind_ok.2 ⟨(), t1, h1, bind_ok.2 ⟨(), t2, h2, bind_ok.2 ⟨(), t3, h3, ?_⟩⟩⟩⟩
  unfold indexDelete
  rw [get_bind, if_neg (fun h => hd.1 h.1)]
  rfl

theorem deleteIndexRow_run {s : Store} {d : Bool} {row : Nat × List PyStr} (hm : MapInv s)
    (hd : ∀ r ∈ s.index, (r.id, r.labels) = row → s.Deletable r.id) :
    ∃ d' s', deleteIndexRow d row s = .ok (d', s') := by
  unfold deleteIndexRow
  rw [get_bind]
  rcases hr : s.index.find? (fun r => r.id == row.1) with _ | r <;> simp only [hr]
  · exact ⟨_, _, rfl⟩
  · by_cases hl : r.labels ≠ row.2
    · rw [if_pos hl]
      exact ⟨_, _, rfl⟩
    · rw [if_neg hl]
      have hmem := List.mem_of_find?_eq_some hr
      have hid : r.id = row.1 := by simpa using List.find?_some hr
      obtain ⟨s', h⟩ := deleteIndexRecord_run hm (hd r hmem (Prod.ext hid (not_not.1 hl)))
      exact ⟨true, s', bind_ok.2 ⟨(), s', h, rfl⟩⟩

theorem deleteIndexRows_run {rows : List (Nat × List PyStr)} : ∀ {s : Store} {d : Bool} (_ : DelInv s)
    (_ : ∀ r ∈ s.index, (r.id, r.labels) ∈ rows → s.Deletable r.id),
    ∃ d' s', rows.foldlM deleteIndexRow d s = .ok (d', s') := by
  induction rows with
  | nil => exact fun _ _ => ⟨_, _, rfl⟩
  | cons row rows ih =>
    intro s d hi hd
    obtain ⟨d1, t, h1⟩ := deleteIndexRow_run (d := d) hi.maps fun r hr he => hd r hr (he ▸ List.mem_cons_self)
    obtain ⟨D, hD, hi', -, -⟩ := deleteIndexRows_deleted (rows := [row]) (b := d) (b' := d1) (s' := t) hi
      (foldlM_cons_ok.2 ⟨d1, t, h1, rfl⟩)
    obtain ⟨d2, u, h2⟩ := ih (d := d1) hi' fun r hr he => by
      rw [hD.index] at hr
      exact hD.deletable (hd r (List.mem_of_mem_filter hr) (List.mem_cons_of_mem _ he))
    exact ⟨d2, u, foldlM_cons_ok.2 ⟨d1, t, h1, h2⟩⟩

theorem deleteRecords_run {ids : List Nat} : ∀ {s : Store} (_ : DelInv s) (_ : ∀ i ∈ ids, s.Deletable i),
    ∃ s', ids.forM (fun i => deleteIndexRecord i) s = .ok ((), s') := by
  induction ids with
  | nil => exact fun _ _ => ⟨_, rfl⟩
  | cons i ids ih =>
    intro s hi hd
    obtain ⟨t, h1⟩ := deleteIndexRecord_run hi.maps (hd i List.mem_cons_self)
    obtain ⟨hi', hD⟩ := hi.step h1
    obtain ⟨u, h2⟩ := ih hi' fun j hj => hD.deletable (hd j (List.mem_cons_of_mem _ hj))
    exact ⟨u, forM_cons_ok.2 ⟨t, h1, h2⟩⟩

theorem deleteIndexTarget_run {t : Target (Nat × List PyStr)} {s : Store} (hi : DelInv s)
    (hd : ∀ r ∈ s.index, s.chosen t r = true → s.Deletable r.id) : ∃ d s', deleteIndexTarget t s = .ok (d, s') := by
  unfold deleteIndexTarget
  cases t with
  | rows rs => exact deleteIndexRows_run hi fun r hr he => hd r hr (by simpa [Store.chosen] using he)
  | criteria cs =>
    obtain ⟨s', h⟩ := deleteRecords_run (ids := (s.filterByLabel cs).map (·.id)) hi fun i hmem => by
      obtain ⟨r, hr, rfl⟩ := List.mem_map.1 hmem
      obtain ⟨hr1, hr2⟩ := List.mem_filter.1 hr
      exact hd r hr1 (by simpa [Store.chosen] using hr2)
    rw [forM_map] at h
    exact ⟨_, s', bind_ok.2 ⟨s, s, rfl, bind_ok.2 ⟨(), s', h, rfl⟩⟩⟩

theorem linkUpdate_hash_run {u t : Store} (hl : LinkInv u)
    (ht : t.links.map (fun l => (l.id, l.other, l.name, l.isDefault)) =
      u.links.map fun l => (l.id, l.other, l.name, l.isDefault)) {g : Link} (hg : g ∈ u.links) (h : Option (List Int))
    (b : Bool) :
    ∃ t', linkUpdate { g with otherHash := h, complete := b } t = .ok ((), t') ∧
      t'.links.map (fun l => (l.id, l.other, l.name, l.isDefault)) =
        u.links.map fun l => (l.id, l.other, l.name, l.isDefault) := by
  let u' : Store := { u with links := u.links.map fun l => { l with otherHash := h } }
  have e : u'.links.map (fun l => (l.id, l.other, l.name, l.isDefault)) =
      u.links.map fun l => (l.id, l.other, l.name, l.isDefault) := by
    show (u.links.map _).map _ = _
    rw [List.map_map]
    rfl
  have hl' : LinkInv u' := by
    refine ⟨?_, ?_, ?_⟩
    · have := hl.ids
      show ((u.links.map _).map _).Nodup
      rw [List.map_map]
      exact this
    · have := hl.names
      show ((u.links.map _).map _).Nodup
      rw [List.map_map]
      exact this
    · show (u.links.map _).Pairwise _
      rw [List.pairwise_map]
      exact hl.defaults
  have hg' : ({ g with otherHash := h } : Link) ∈ u'.links := List.mem_map.2 ⟨g, hg, rfl⟩
  obtain ⟨t', h1, h2⟩ := linkUpdate_complete hl' (ht.trans e.symm) hg' b
  exact ⟨t', h1, h2.trans e⟩

theorem afterDeleteIndex_run {s : Store} (hw : WeightInv s) (hl : LinkInv s) :
    ∃ s', afterDeleteIndex s = .ok ((), s') := by
  obtain ⟨t, h1⟩ : ∃ t, refreshIndexHash s = .ok ((), t) := ⟨_, rfl⟩
  obtain ⟨u, h2⟩ : ∃ u, refreshGranularity t = .ok ((), u) := ⟨_, rfl⟩
  have s1 : Steps [.hash] s t := Does.steps (by does) _ _ _ h1
  have s2 : Steps [.structs] t u := Does.steps (by does) _ _ _ h2
  obtain ⟨v, h3⟩ := promoteGroups_run (s := u) ((hw.steps s1).steps s2)
  have s3 : Steps [.wgUpd] u v := Does.steps (by unfold promoteGroups; does) _ _ _ h3
  have hlv : LinkInv v := by
    have e : v.links = s.links :=
      (s3.links_eq (by decide)).trans ((s2.links_eq (by decide)).trans (s1.links_eq (by decide)))
    exact ⟨by rw [e]; exact hl.ids, by rw [e]; exact hl.names, by rw [e]; exact hl.defaults⟩
  obtain ⟨w, h4, -⟩ := forM_run (l := v.links)
    (f := fun l => do
      let s ← get
      linkUpdate { l with
        otherHash := some (s.distinctOthers l.id), complete := l.complete || s.mappingIsComplete l.id })
    (P := fun t => t.links.map (fun l => (l.id, l.other, l.name, l.isDefault)) =
      v.links.map fun l => (l.id, l.other, l.name, l.isDefault)) (s := v)
    (fun g hg t ht => by
      rw [get_bind]
      exact linkUpdate_hash_run hlv ht hg _ _) rfl
  exact ⟨w, bind_ok.2 ⟨(), t, h1, bind_ok.2 ⟨(), u, h2, bind_ok.2 ⟨(), v, h3, bind_ok.2 ⟨v, v, rfl, h4⟩⟩⟩⟩⟩

theorem Deleted.fkOk {D : List Nat} {s s' : Store} (h : Deleted D s s') (hfk : s'.fk = s.fk) (hok : fkOk s = true) :
    Space.fkOk s' = true := by
  unfold Space.fkOk at hok ⊢
  rw [hfk]
  rw [Bool.or_eq_true] at hok ⊢
  refine hok.imp id fun hok => ?_
  rw [Bool.and_eq_true, List.all_eq_true, List.all_eq_true] at hok ⊢
  have key : ∀ i, i ∉ D → (s.index.any fun r => r.id == i) = true → (s'.index.any fun r => r.id == i) = true := by
    intro i hi ha
    obtain ⟨r, hr, he⟩ := List.any_eq_true.1 ha
    refine List.any_eq_true.2 ⟨r, ?_, he⟩
    rw [h.index]
    refine List.mem_filter.2 ⟨hr, ?_⟩
    have : r.id = i := by simpa using he
    simpa [this] using hi
  refine ⟨fun w hw => ?_, fun m hm => ?_⟩
  · rw [h.weights] at hw
    obtain ⟨hw1, hw2⟩ := List.mem_filter.1 hw
    exact key _ (by simpa using hw2) (hok.1 w hw1)
  · obtain ⟨x, hx, hb, hi⟩ := h.was hm
    rw [← (Mapping.bare_eq hb).2.2.2.1]
    exact key _ hi (hok.2 x hx)

theorem deleteIndex_run {t : Target (Nat × List PyStr)} {s : Store} (hi : DelInv s) (hl : LinkInv s)
    (hok : fkOk s = true) (ht : t.isEmpty = false) (hd : ∀ r ∈ s.index, s.chosen t r = true → s.Deletable r.id) :
    ∃ s', deleteIndex t s = .ok ((), s') ∧ fkOk s' = true := by
  obtain ⟨d, u, h1⟩ := deleteIndexTarget_run hi hd
  have hs := (deleteIndexTarget_does t).steps _ _ _ h1
  obtain ⟨D, hD, hi', -, -⟩ := deleteIndexTarget_deleted hi h1
  obtain ⟨s', h2⟩ : ∃ s', whenM d afterDeleteIndex u = .ok ((), s') := by
    cases d with
    | false => exact ⟨_, whenM_ok.2 (.inr ⟨rfl, rfl⟩)⟩
    | true =>
      obtain ⟨s', h⟩ := afterDeleteIndex_run (s := u) hi'.weights
        (hs.invariant (fun _ _ _ _ hp => LinkInv.prim hp) hl)
      exact ⟨s', whenM_ok.2 (.inl ⟨rfl, h⟩)⟩
  have hall : deleteIndex t s = .ok ((), s') := by
    unfold deleteIndex
    rw [if_neg (by rw [ht]; simp)]
    exact bind_ok.2 ⟨d, u, h1, h2⟩
  obtain ⟨E, hE, -, -⟩ := deleteIndex_deleted hi hall
  exact ⟨s', hall, hE.fkOk (((deleteIndex_does t).steps _ _ _ hall).fk_eq (by decide)) hok⟩

/-! ### The mappings that are left -/

/-- The mappings left after several records have been deleted. -/
def mapsGone (links : List Nat) (ms : List Mapping) (D : List Nat) : List Mapping :=
  refreshMaps (ms.filter fun m => decide (m.index ∉ D)) fun l o =>
    decide (l ∈ links) && decide (o ∈ (ms.filter fun m => decide (m.index ∈ D)).map (·.other))

theorem mapsGone_nil (links : List Nat) (ms : List Mapping) : mapsGone links ms [] = ms := by
  unfold mapsGone
  simp [refreshMaps_none]

theorem mapsAt_filter {ms : List Mapping} {q : Mapping → Bool} {link : Nat} {other : Int}
    (h : ∀ m ∈ ms, m.other = other → q m = true) : mapsAt (ms.filter q) link other = mapsAt ms link other := by
  unfold mapsAt
  rw [List.filter_filter]
  apply List.filter_congr
  intro m hm
  by_cases ho : m.other = other
  · rw [h m hm ho, Bool.and_true]
  · simp [ho]

theorem fresh_congr {ms ns : List Mapping} {m : Mapping}
    (h : (mapsAt ms m.link m.other).map (·.value) = (mapsAt ns m.link m.other).map (·.value)) : fresh ms m = fresh ns m := by
  have hl := congrArg List.length h
  rw [List.length_map, List.length_map] at hl
  unfold fresh
  simp only [h, hl]

theorem mapsWithout_mapsGone (links : List Nat) (ms : List Mapping) (D : List Nat) (id : Nat) :
    mapsWithout links (mapsGone links ms D) id = mapsGone links ms (D ++ [id]) := by
  set X := ms.filter fun m => decide (m.index ∉ D) with hX
  set Y := X.filter fun m => m.index != id with hY
  have hY' : (ms.filter fun m => decide (m.index ∉ D ++ [id])) = Y := by
    rw [hY, hX, List.filter_filter]
    apply List.filter_congr
    intro m _
    rw [Bool.eq_iff_iff]
    simp [and_comm]
  set p : Nat → Int → Bool := fun l o => decide (l ∈ links) && decide (o ∈ (ms.filter fun m => decide (m.index ∈ D)).map (·.other)) with hp
  set q : Nat → Int → Bool := fun l o => decide (l ∈ links) && decide (o ∈ (X.filter fun m => m.index == id).map (·.other)) with hq
  have e1 : mapsGone links ms D = refreshMaps X p := rfl
  have e2 : ((refreshMaps X p).filter fun m => m.index == id).map (·.other) = (X.filter fun m => m.index == id).map (·.other) := by
    rw [refreshMaps_filter X p _ (fun _ _ => rfl), List.map_map]
    apply List.map_congr_left
    intro m _
    simp only [Function.comp]
    split <;> rfl
  have e3 : mapsWithout links (refreshMaps X p) id = refreshMaps ((refreshMaps X p).filter fun m => m.index != id) q := by
    unfold mapsWithout
    rw [e2]
  have e4 : ((refreshMaps X p).filter fun m => m.index != id) =
      Y.map fun m => if p m.link m.other then { m with prop := fresh X m } else m :=
    refreshMaps_filter X p _ (fun _ _ => rfl)
  have efresh : ∀ m, fresh (Y.map fun m => if p m.link m.other then { m with prop := fresh X m } else m) m = fresh Y m := by
    intro m
    have hv : (mapsAt (Y.map fun m => if p m.link m.other then { m with prop := fresh X m } else m) m.link m.other).map (·.value) =
        (mapsAt Y m.link m.other).map (·.value) := by
      unfold mapsAt
      rw [List.filter_map, List.map_map]
      have : (Y.filter ((fun x : Mapping => x.link == m.link && x.other == m.other) ∘
          fun m => if p m.link m.other = true then { m with prop := fresh X m } else m)) =
          Y.filter fun x : Mapping => x.link == m.link && x.other == m.other := by
        apply List.filter_congr
        intro x _
        simp only [Function.comp]
        split <;> rfl
      rw [this]
      apply List.map_congr_left
      intro x _
      simp only [Function.comp]
      split <;> rfl
    exact fresh_congr hv
  rw [e1, e3, e4]
  unfold mapsGone
  rw [hY']
  conv_lhs => unfold refreshMaps
  conv_rhs => unfold refreshMaps
  rw [List.map_map]
  apply List.map_congr_left
  intro m hm
  simp only [Function.comp, efresh]
  have hor : (decide (m.link ∈ links) && decide (m.other ∈ (ms.filter fun m => decide (m.index ∈ D ++ [id])).map (·.other))) =
      (p m.link m.other || q m.link m.other) := by
    rw [hp, hq, ← Bool.and_or_distrib_left]
    congr 1
    rw [Bool.eq_iff_iff]
    simp only [decide_eq_true_eq, Bool.or_eq_true, List.mem_map, List.mem_filter, hX, List.mem_append,
      List.mem_singleton, beq_iff_eq]
    constructor
    · rintro ⟨x, ⟨hx, hD | hid⟩, ho⟩
      · exact .inl ⟨x, ⟨hx, hD⟩, ho⟩
      · by_cases hD : x.index ∈ D
        · exact .inl ⟨x, ⟨hx, hD⟩, ho⟩
        · exact .inr ⟨x, ⟨⟨hx, hD⟩, hid⟩, ho⟩
    · rintro (⟨x, ⟨hx, hD⟩, ho⟩ | ⟨x, ⟨⟨hx, _⟩, hid⟩, ho⟩)
      · exact ⟨x, ⟨hx, .inl hD⟩, ho⟩
      · exact ⟨x, ⟨hx, .inr hid⟩, ho⟩
  simp only [hor]
  by_cases h1 : q m.link m.other = true
  · cases h2 : p m.link m.other <;> simp [h1, h2, fresh_prop]
  · have h1' : q m.link m.other = false := by simpa using h1
    by_cases h2 : p m.link m.other = true
    · have hfr : fresh X m = fresh Y m := by
        have hno : ∀ x ∈ X, x.other = m.other → (x.index != id) = true := by
          intro x hx ho
          by_contra hc
          have hid : x.index = id := by simpa using hc
          have hlink : m.link ∈ links := by
            rw [hp] at h2
            simp only [Bool.and_eq_true, decide_eq_true_eq] at h2
            exact h2.1
          apply h1
          rw [hq]
          simp only [Bool.and_eq_true, decide_eq_true_eq]
          exact ⟨hlink, List.mem_map.2 ⟨x, List.mem_filter.2 ⟨hx, by simpa using hid⟩, ho⟩⟩
        unfold fresh
        rw [hY, mapsAt_filter hno]
      simp [h1', h2, hfr]
    · have h2' : p m.link m.other = false := by simpa using h2
      simp [h1', h2']

theorem deleteIndexRecord_gone {links : List Nat} {ms : List Mapping} {D : List Nat} {id : Nat} {s s' : Store}
    (hi : DelInv s) (hl : s.links.map (·.id) = links) (hm : s.maps = mapsGone links ms D)
    (h : deleteIndexRecord id s = .ok ((), s')) :
    s'.links.map (·.id) = links ∧ s'.maps = mapsGone links ms (D ++ [id]) := by
  obtain ⟨_, _, rfl⟩ := deleteIndexRecord_ok hi.weights.ids hi.maps.ids h
  refine ⟨hl, ?_⟩
  show mapsWithout (s.links.map (·.id)) s.maps id = _
  rw [hl, hm, mapsWithout_mapsGone]

theorem deleteRecords_gone {links : List Nat} {ms : List Mapping} {ids : List Nat} : ∀ {D : List Nat} {s s' : Store}
    (_ : DelInv s) (_ : s.links.map (·.id) = links) (_ : s.maps = mapsGone links ms D)
    (_ : ids.forM (fun i => deleteIndexRecord i) s = .ok ((), s')), s'.maps = mapsGone links ms (D ++ ids) := by
  induction ids with
  | nil => intro D s s' _ _ hm h; cases h; simpa using hm
  | cons i ids ih =>
    intro D s s' hi hl hm h
    obtain ⟨t, h1, h2⟩ := forM_cons_ok.1 h
    obtain ⟨hl', hm'⟩ := deleteIndexRecord_gone hi hl hm h1
    have := ih (hi.step h1).1 hl' hm' h2
    simpa using this

/-- Deleting a list of records, one after the other. -/
inductive DeletedSeq : List Nat → Store → Store → Prop
  | nil (s : Store) : DeletedSeq [] s s
  | cons {i : Nat} {D : List Nat} {s t u : Store} (hi : i ∈ s.ids) (h : deleteIndexRecord i s = .ok ((), t))
      (hs : DeletedSeq D t u) : DeletedSeq (i :: D) s u

theorem DeletedSeq.spec {D : List Nat} {s u : Store} (h : DeletedSeq D s u) (hi : DelInv s) :
    Deleted D s u ∧ DelInv u ∧ (∀ d ∈ D, d ∈ s.ids) := by
  induction h with
  | nil s => exact ⟨Deleted.refl s, hi, by simp⟩
  | @cons i D s t u hmem h hs ih =>
    obtain ⟨hi', hd⟩ := hi.step h
    obtain ⟨h1, h2, h3⟩ := ih hi'
    refine ⟨hd.trans h1, h2, ?_⟩
    intro d hD
    rcases List.mem_cons.1 hD with rfl | hD
    · exact hmem
    · obtain ⟨r, hr, he⟩ := List.mem_map.1 (h3 d hD)
      rw [hd.index] at hr
      exact List.mem_map.2 ⟨r, List.mem_of_mem_filter hr, he⟩

theorem DeletedSeq.gone {links : List Nat} {ms : List Mapping} {D : List Nat} {s u : Store} (h : DeletedSeq D s u) :
    ∀ {E : List Nat} (_ : DelInv s) (_ : s.links.map (·.id) = links) (_ : s.maps = mapsGone links ms E),
      u.maps = mapsGone links ms (E ++ D) := by
  induction h with
  | nil s => intro E _ _ hm; simpa using hm
  | @cons i D s t u hmem h hs ih =>
    intro E hi hl hm
    obtain ⟨hl', hm'⟩ := deleteIndexRecord_gone hi hl hm h
    have := ih (hi.step h).1 hl' hm'
    simpa using this

theorem deleteIndexRows_seq {rows : List (Nat × List PyStr)} : ∀ {b b' : Bool} {s s' : Store}
    (_ : rows.foldlM deleteIndexRow b s = .ok (b', s')), ∃ D, DeletedSeq D s s' := by
  induction rows with
  | nil => intro b b' s s' h; cases h; exact ⟨[], .nil _⟩
  | cons row rows ih =>
    intro b b' s s' h
    obtain ⟨c, t, h1, h2⟩ := foldlM_cons_ok.1 h
    obtain ⟨D, hD⟩ := ih h2
    unfold deleteIndexRow at h1
    rw [get_bind] at h1
    rcases hr : s.index.find? (fun r => r.id == row.1) with _ | r0 <;> simp only [hr] at h1
    · cases h1; exact ⟨D, hD⟩
    · rw [ite_ok] at h1
      obtain ⟨hl, h1⟩ | ⟨hl, h1⟩ := h1
      · cases h1; exact ⟨D, hD⟩
      · rw [bind_ok] at h1
        obtain ⟨_, t', h1, h3⟩ := h1
        cases h3
        exact ⟨r0.id :: D, .cons (List.mem_map.2 ⟨r0, List.mem_of_find?_eq_some hr, rfl⟩) h1 hD⟩

theorem deleteRecords_seq {ids : List Nat} : ∀ {s s' : Store} (_ : DelInv s) (_ : ids.Nodup) (_ : ∀ i ∈ ids, i ∈ s.ids)
    (_ : ids.forM (fun i => deleteIndexRecord i) s = .ok ((), s')), DeletedSeq ids s s' := by
  induction ids with
  | nil => intro s s' _ _ _ h; cases h; exact .nil _
  | cons i ids ih =>
    intro s s' hi hn hmem h
    obtain ⟨t, h1, h2⟩ := forM_cons_ok.1 h
    obtain ⟨hi', hd⟩ := hi.step h1
    refine .cons (hmem i List.mem_cons_self) h1 (ih hi' (List.nodup_cons.1 hn).2 (fun j hj => ?_) h2)
    obtain ⟨r, hr, he⟩ := List.mem_map.1 (hmem j (List.mem_cons_of_mem _ hj))
    refine List.mem_map.2 ⟨r, ?_, he⟩
    rw [hd.index]
    refine List.mem_filter.2 ⟨hr, ?_⟩
    have : r.id ≠ i := fun hc => (List.nodup_cons.1 hn).1 (by rw [← hc, he]; exact hj)
    simpa using this

theorem deleteIndex_gone {t : Target (Nat × List PyStr)} {s s' : Store} (hi : DelInv s)
    (h : deleteIndex t s = .ok ((), s')) :
    ∃ D, (∀ i, i ∈ D ↔ i ∈ s.ids ∧ i ∉ s'.ids) ∧ s'.maps = mapsGone (s.links.map (·.id)) s.maps D := by
  obtain ⟨d, u, h1, h2⟩ := deleteIndex_parts h
  have hs : Steps [.hash, .structs, .wgUpd, .lUpd] u s' := Does.steps (by does) _ _ _ h2
  obtain ⟨D, hD⟩ : ∃ D, DeletedSeq D s u := by
    unfold deleteIndexTarget at h1
    cases t with
    | rows rs => exact deleteIndexRows_seq h1
    | criteria cs =>
      simp only [bind_ok, get_ok, pure_ok] at h1
      obtain ⟨_, _, he, _, t, h1, h⟩ := h1
      cases he
      cases h
      refine ⟨(s.filterByLabel cs).map (·.id), deleteRecords_seq hi ?_ ?_
        ((congrFun (forM_map (s.filterByLabel cs) (·.id) fun i => deleteIndexRecord i) s).trans h1)⟩
      · exact nodup_filter_map _ hi.index
      · intro i hmem
        obtain ⟨r, hr, he⟩ := List.mem_map.1 hmem
        exact List.mem_map.2 ⟨r, List.mem_of_mem_filter hr, he⟩
  obtain ⟨hdel, -, hsub⟩ := hD.spec hi
  have hg := hD.gone (ms := s.maps) (E := []) hi rfl (mapsGone_nil _ _).symm
  refine ⟨D, fun i => ?_, by rw [hs.maps_eq (by decide), hg]; rfl⟩
  have hidx : s'.ids = s.ids.filter fun i => decide (i ∉ D) := by
    show s'.index.map _ = _
    rw [hs.index_eq (by decide), hdel.index]
    unfold Store.ids
    rw [List.filter_map]
    rfl
  rw [hidx, List.mem_filter]
  constructor
  · exact fun h => ⟨hsub i h, by simp [h]⟩
  · rintro ⟨h1, h2⟩
    by_contra hc
    exact h2 ⟨h1, by simpa using hc⟩

theorem mapsGone_left {s : Store} {D : List Nat} {gone : Nat → Prop} [DecidablePred gone] (h : ∀ i, i ∈ D ↔ gone i) :
    mapsGone (s.links.map (·.id)) s.maps D = s.mapsLeft gone := by
  unfold mapsGone Store.mapsLeft refreshMaps
  have e : (s.maps.filter fun m => decide (m.index ∉ D)) = s.maps.filter fun m => decide (¬ gone m.index) :=
    List.filter_congr fun m _ => by rw [decide_eq_decide, h]
  rw [e]
  apply List.map_congr_left
  intro m _
  have hc : (decide (m.link ∈ s.links.map (·.id)) && decide (m.other ∈ (s.maps.filter fun m => decide (m.index ∈ D)).map (·.other))) = true ↔
      (∃ l ∈ s.links, l.id = m.link) ∧ ∃ x ∈ s.maps, gone x.index ∧ x.other = m.other := by
    simp only [Bool.and_eq_true, decide_eq_true_eq, List.mem_map, List.mem_filter, h, and_assoc]
  by_cases h1 : (∃ l ∈ s.links, l.id = m.link) ∧ ∃ x ∈ s.maps, gone x.index ∧ x.other = m.other
  · rw [if_pos (hc.2 h1), if_pos h1]
    have : fresh (s.maps.filter fun m => decide (¬ gone m.index)) m =
        some (shareAmong (s.maps.filter fun m => decide (¬ gone m.index)) m) := by
      unfold fresh shareAmong mapsAt
      dsimp only
      split
      · rfl
      · rfl
    rw [this]
  · rw [if_neg (fun hh => h1 (hc.1 hh)), if_neg h1]

end Toron.Space
