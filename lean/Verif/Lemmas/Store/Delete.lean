/-
The effect of deleting index records.
-/
import Verif.Lemmas.Store.Merge
import Verif.Spec.Delete

set_option linter.unusedSimpArgs false

namespace Toron.Space

open Toron.Selectors (PyStr Sel)

/-- The tables after the records `D` have been deleted. -/
structure Deleted (D : List Nat) (s s' : Store) : Prop where
  index : s'.index = s.index.filter fun r => decide (r.id ∉ D)
  weights : s'.weights = s.weights.filter fun w => decide (w.index ∉ D)
  maps : s'.maps.map Mapping.bare = (s.maps.filter fun m => decide (m.index ∉ D)).map Mapping.bare
  keep : ∀ m ∈ s.maps, m.index ∉ D → (∀ m0 ∈ s.maps, m0.index ∈ D → m0.other ≠ m.other) → m ∈ s'.maps
  levels : ∀ m ∈ s.maps, m.index ∈ D → m.level = fullLevel s.cols.length
  cols : s'.cols = s.cols
  zero : 0 ∈ D → ∀ x ∈ s.index, x.id ≠ 0

theorem Deleted.refl (s : Store) : Deleted [] s s :=
  ⟨by simp, by simp, by simp, by simp, by simp, rfl, by simp⟩

/-- A mapping that is still there was there before, up to the proportion. -/
theorem Deleted.was {D : List Nat} {s s' : Store} (h : Deleted D s s') {m : Mapping} (hm : m ∈ s'.maps) :
    ∃ x ∈ s.maps, x.bare = m.bare ∧ x.index ∉ D := by
  have : m.bare ∈ s'.maps.map Mapping.bare := List.mem_map_of_mem hm
  rw [h.maps, List.mem_map] at this
  obtain ⟨x, hx, he⟩ := this
  rw [List.mem_filter] at hx
  exact ⟨x, hx.1, he, by simpa using hx.2⟩

theorem Deleted.still {D : List Nat} {s s' : Store} (h : Deleted D s s') {m : Mapping} (hm : m ∈ s.maps)
    (hi : m.index ∉ D) : ∃ x ∈ s'.maps, x.bare = m.bare := by
  have : m.bare ∈ (s.maps.filter fun m => decide (m.index ∉ D)).map Mapping.bare :=
    List.mem_map_of_mem (List.mem_filter.2 ⟨hm, by simpa using hi⟩)
  rw [← h.maps, List.mem_map] at this
  exact this

theorem Mapping.bare_eq {a b : Mapping} (h : a.bare = b.bare) :
    a.id = b.id ∧ a.link = b.link ∧ a.other = b.other ∧ a.index = b.index ∧ a.level = b.level ∧
      a.value = b.value := by
  simp only [Mapping.bare, Mapping.mk.injEq] at h
  exact ⟨h.1, h.2.1, h.2.2.1, h.2.2.2.1, h.2.2.2.2.1, h.2.2.2.2.2.1⟩

theorem Deleted.trans {D E : List Nat} {s t u : Store} (h1 : Deleted D s t) (h2 : Deleted E t u) :
    Deleted (D ++ E) s u := by
  refine ⟨?_, ?_, ?_, ?_, ?_, h2.cols.trans h1.cols, ?_⟩
  · rw [h2.index, h1.index, List.filter_filter]
    apply List.filter_congr
    intro r _
    rw [Bool.eq_iff_iff]
    simp [and_comm]
  · rw [h2.weights, h1.weights, List.filter_filter]
    apply List.filter_congr
    intro r _
    rw [Bool.eq_iff_iff]
    simp [and_comm]
  · have key : ∀ (l : List Mapping), (l.filter fun m => decide (m.index ∉ E)).map Mapping.bare =
        (l.map Mapping.bare).filter fun m => decide (m.index ∉ E) := by
      intro l
      rw [List.filter_map]
      rfl
    rw [h2.maps, key, h1.maps, ← key, List.filter_filter]
    congr 1
    apply List.filter_congr
    intro m _
    rw [Bool.eq_iff_iff]
    simp [and_comm]
  · intro m hm hi hne
    rw [List.mem_append, not_or] at hi
    refine h2.keep m (h1.keep m hm hi.1 fun m0 h0 hi0 => hne m0 h0 (by simp [hi0])) hi.2 ?_
    intro m0 h0 hi0
    obtain ⟨x, hx, he, _⟩ := h1.was h0
    obtain ⟨_, _, ho, hix, _⟩ := Mapping.bare_eq he
    rw [← ho]
    exact hne x hx (by simp [hix, hi0])
  · intro m hm hi
    by_cases hd : m.index ∈ D
    · exact h1.levels m hm hd
    · obtain ⟨x, hx, he⟩ := h1.still hm hd
      obtain ⟨_, _, _, hix, hl, _⟩ := Mapping.bare_eq he
      rw [← hl, ← h1.cols]
      refine h2.levels x hx ?_
      rw [hix]
      simpa [hd] using hi
  · intro h0
    by_cases hd : 0 ∈ D
    · exact h1.zero hd
    · have he : 0 ∈ E := by simpa [hd] using h0
      intro x hx hx0
      have := h2.zero he x (by rw [h1.index, List.mem_filter]; exact ⟨hx, by simpa [hx0] using hd⟩)
      exact this hx0

theorem deleteIndexRecord_deleted {id : Nat} {s s' : Store} (hw : (s.weights.map (·.id)).Nodup)
    (hm : (s.maps.map (·.id)).Nodup) (h : deleteIndexRecord id s = .ok ((), s')) : Deleted [id] s s' := by
  obtain ⟨h1, h2, rfl⟩ := deleteIndexRecord_ok hw hm h
  refine ⟨?_, ?_, ?_, ?_, ?_, rfl, ?_⟩
  · apply List.filter_congr
    intro r _
    rw [Bool.eq_iff_iff]
    simp
  · apply List.filter_congr
    intro r _
    rw [Bool.eq_iff_iff]
    simp
  · show (mapsWithout _ _ _).map _ = _
    unfold mapsWithout
    rw [refreshMaps_map Mapping.bare (fun _ _ => rfl)]
    congr 1
    apply List.filter_congr
    intro r _
    rw [Bool.eq_iff_iff]
    simp
  · intro m hm hi hne
    show m ∈ mapsWithout _ _ _
    unfold mapsWithout refreshMaps
    rw [List.mem_map]
    refine ⟨m, List.mem_filter.2 ⟨hm, by simpa using hi⟩, ?_⟩
    rw [if_neg]
    intro hc
    simp only [Bool.and_eq_true, decide_eq_true_eq] at hc
    obtain ⟨m0, hm0, he⟩ := List.mem_map.1 hc.2
    rw [List.mem_filter] at hm0
    exact hne m0 hm0.1 (by simpa using hm0.2) he
  · intro m hm hi
    exact h1 m hm (by simpa using hi)
  · intro h0
    exact h2 (List.mem_singleton.1 h0).symm

/-- The invariants needed while records are deleted. -/
structure DelInv (s : Store) : Prop where
  index : (s.index.map (·.id)).Nodup
  weights : WeightInv s
  maps : MapInv s

theorem DelInv.step {id : Nat} {s s' : Store} (hi : DelInv s) (h : deleteIndexRecord id s = .ok ((), s')) :
    DelInv s' ∧ Deleted [id] s s' := by
  have hd := deleteIndexRecord_deleted hi.weights.ids hi.maps.ids h
  have hs := (deleteIndexRecord_does id).steps _ _ _ h
  refine ⟨⟨?_, hi.weights.steps hs, hi.maps.steps hs⟩, hd⟩
  rw [hd.index]
  exact nodup_filter_map _ hi.index

theorem deleteIndexRows_deleted {rows : List (Nat × List PyStr)} {b b' : Bool} {s s' : Store} (hi : DelInv s)
    (h : rows.foldlM deleteIndexRow b s = .ok (b', s')) :
    ∃ D, Deleted D s s' ∧ DelInv s' ∧ (∀ d ∈ D, d ∈ s.ids) ∧
      ∀ r ∈ s.index, r.id ∈ D ↔ (r.id, r.labels) ∈ rows := by
  induction rows generalizing b s with
  | nil => cases h; exact ⟨[], Deleted.refl _, hi, by simp, by simp⟩
  | cons row rows ih =>
    obtain ⟨c, t, h1, h2⟩ := foldlM_cons_ok.1 h
    have key : ∃ D, Deleted D s t ∧ DelInv t ∧ (∀ d ∈ D, d ∈ s.ids) ∧
        ∀ r ∈ s.index, r.id ∈ D ↔ (r.id, r.labels) = row := by
      unfold deleteIndexRow at h1
      rw [bind_ok] at h1
      obtain ⟨_, _, he, h1⟩ := h1
      rw [get_ok] at he
      cases he
      rcases hr : s.index.find? (fun r => r.id == row.1) with _ | r0 <;> simp only [hr] at h1
      · rw [pure_ok] at h1
        cases h1
        refine ⟨[], Deleted.refl _, hi, by simp, fun r hr' => ⟨by simp, fun he => ?_⟩⟩
        rw [List.find?_eq_none] at hr
        exact absurd (by rw [← he]; simp) (hr r hr')
      · have hmem := List.mem_of_find?_eq_some hr
        have hid : r0.id = row.1 := by simpa using List.find?_some hr
        rw [ite_ok] at h1
        obtain ⟨hl, h1⟩ | ⟨hl, h1⟩ := h1
        · rw [pure_ok] at h1
          cases h1
          refine ⟨[], Deleted.refl _, hi, by simp, fun r hr' => ⟨by simp, fun he => ?_⟩⟩
          have : r = r0 := eq_of_id hi.index hr' hmem (by rw [hid, ← he])
          exact absurd (by rw [← this, ← he]) hl
        · rw [bind_ok] at h1
          obtain ⟨_, t', h1, h3⟩ := h1
          rw [pure_ok] at h3
          cases h3
          obtain ⟨hi', hd⟩ := hi.step h1
          refine ⟨[r0.id], hd, hi', List.forall_mem_singleton.2 (List.mem_map.2 ⟨r0, hmem, rfl⟩), fun r hr' => ?_⟩
          simp only [List.mem_singleton]
          constructor
          · intro he
            have : r = r0 := eq_of_id hi.index hr' hmem he
            rw [this, hid]
            exact Prod.ext rfl (not_not.1 hl)
          · intro he
            rw [hid, ← he]
    obtain ⟨D, hd, hi', hsub, hD⟩ := key
    obtain ⟨E, he, hi2, hsub2, hE⟩ := ih hi' h2
    have hids : ∀ i ∈ t.ids, i ∈ s.ids := by
      intro i hi
      obtain ⟨r, hr, he⟩ := List.mem_map.1 hi
      rw [hd.index] at hr
      exact List.mem_map.2 ⟨r, List.mem_of_mem_filter hr, he⟩
    refine ⟨D ++ E, hd.trans he, hi2, ?_, fun r hr => ?_⟩
    · intro d hd
      rcases List.mem_append.1 hd with h | h
      · exact hsub d h
      · exact hids d (hsub2 d h)
    rw [List.mem_append, List.mem_cons, hD r hr]
    by_cases hr' : r.id ∈ D
    · simp [(hD r hr).1 hr']
    · rw [hE r (by rw [hd.index, List.mem_filter]; exact ⟨hr, by simpa using hr'⟩)]

theorem deleteRecords_deleted {ids : List Nat} {s s' : Store} (hi : DelInv s)
    (h : ids.forM (fun i => deleteIndexRecord i) s = .ok ((), s')) : Deleted ids s s' ∧ DelInv s' := by
  induction ids generalizing s with
  | nil => cases h; exact ⟨Deleted.refl _, hi⟩
  | cons i ids ih =>
    obtain ⟨t, h1, h2⟩ := forM_cons_ok.1 h
    obtain ⟨hi1, hd⟩ := hi.step h1
    obtain ⟨hd2, hi2⟩ := ih hi1 h2
    exact ⟨hd.trans hd2, hi2⟩

theorem forM_map {α β : Type} (l : List α) (g : α → β) (f : β → M Unit) :
    (l.map g).forM f = l.forM fun a => f (g a) := by
  induction l with
  | nil => rfl
  | cons x xs ih =>
    funext s
    show (f (g x) >>= fun _ => (xs.map g).forM f) s = (f (g x) >>= fun _ => xs.forM fun a => f (g a)) s
    rw [ih]

theorem deleteIndexTarget_deleted {t : Target (Nat × List PyStr)} {b : Bool} {s s' : Store} (hi : DelInv s)
    (h : deleteIndexTarget t s = .ok (b, s')) :
    ∃ D, Deleted D s s' ∧ DelInv s' ∧ (∀ d ∈ D, d ∈ s.ids) ∧
      ∀ r ∈ s.index, r.id ∈ D ↔ s.chosen t r = true := by
  unfold deleteIndexTarget at h
  cases t with
  | rows rs =>
    obtain ⟨D, h1, h2, hsub, h3⟩ := deleteIndexRows_deleted hi h
    exact ⟨D, h1, h2, hsub, fun r hr => by rw [h3 r hr]; simp [Store.chosen]⟩
  | criteria cs =>
    simp only [bind_ok, get_ok, pure_ok] at h
    obtain ⟨_, _, he, _, t, h1, h⟩ := h
    cases he
    cases h
    obtain ⟨h2, h3⟩ := deleteRecords_deleted hi
      ((congrFun (forM_map (s.filterByLabel cs) (·.id) fun i => deleteIndexRecord i) s).trans h1)
    refine ⟨_, h2, h3, ?_, fun r hr => ?_⟩
    · intro d hd
      obtain ⟨r, hr, he⟩ := List.mem_map.1 hd
      exact List.mem_map.2 ⟨r, List.mem_of_mem_filter hr, he⟩
    rw [List.mem_map]
    constructor
    · rintro ⟨x, hx, he⟩
      obtain ⟨hx1, hx2⟩ := List.mem_filter.1 hx
      rw [eq_of_id hi.index hr hx1 he.symm]
      simpa [Store.chosen] using hx2
    · intro hc
      exact ⟨r, List.mem_filter.2 ⟨hr, by simpa [Store.chosen] using hc⟩, rfl⟩

theorem Reachable.delInv {s : Store} (h : Reachable s) : DelInv s :=
  ⟨h.indexInv.idsNodup, h.weightInv, h.mapInv⟩

theorem deleteIndex_deleted {t : Target (Nat × List PyStr)} {s s' : Store} (hi : DelInv s)
    (h : deleteIndex t s = .ok ((), s')) :
    ∃ D, Deleted D s s' ∧ (∀ d ∈ D, d ∈ s.ids) ∧ ∀ r ∈ s.index, r.id ∈ D ↔ s.chosen t r = true := by
  obtain ⟨d, u, h1, h2⟩ := deleteIndex_parts h
  obtain ⟨D, hd, _, hsub, hD⟩ := deleteIndexTarget_deleted hi h1
  have hs : Steps [.hash, .structs, .wgUpd, .lUpd] u s' := Does.steps (by does) _ _ _ h2
  have e1 : s'.index = u.index := hs.index_eq (by decide)
  have e2 : s'.weights = u.weights := hs.weights_eq (by decide)
  have e3 : s'.maps = u.maps := hs.maps_eq (by decide)
  have e4 : s'.cols = u.cols := hs.cols_eq (by decide)
  exact ⟨D, ⟨e1.trans hd.index, e2.trans hd.weights, by rw [e3, hd.maps],
    fun m hm hi hne => e3 ▸ hd.keep m hm hi hne, hd.levels, e4.trans hd.cols, hd.zero⟩, hsub, hD⟩

end Toron.Space
