/-
Mappings: the effect of refreshing proportions, of deleting a record and of merging records.
-/
import Verif.Lemmas.Store.Frames
import Verif.Lemmas.Distinct
import Verif.Lemmas.Py
import Mathlib.Tactic.Ring
import Mathlib.Tactic.FieldSimp
import Mathlib.Tactic.Linarith

set_option linter.unusedSimpArgs false

namespace Toron.Space

open Toron.Selectors (PyStr Sel)

/-! ### Refreshing proportions -/

/-- The mappings of a link from a source record. -/
def mapsAt (ms : List Mapping) (link : Nat) (other : Int) : List Mapping :=
  ms.filter fun m => m.link == link && m.other == other

/-- The proportion a mapping gets. -/
def fresh (ms : List Mapping) (m : Mapping) : Option ℚ :=
  if m.other = 0 then some 0
  else
    let same := mapsAt ms m.link m.other
    let total := (same.map (·.value)).sum
    some (if total = 0 then 1 / (same.length : ℚ) else m.value / total)

/-- Refresh the proportions of the chosen links and source records. -/
def refreshMaps (ms : List Mapping) (p : Nat → Int → Bool) : List Mapping :=
  ms.map fun m => if p m.link m.other then { m with prop := fresh ms m } else m

theorem refreshMaps_map {β : Type} (f : Mapping → β) (hf : ∀ m p, f { m with prop := p } = f m)
    (ms : List Mapping) (p : Nat → Int → Bool) : (refreshMaps ms p).map f = ms.map f := by
  unfold refreshMaps
  rw [List.map_map]
  apply List.map_congr_left
  intro m _
  simp only [Function.comp]
  split
  · exact hf m _
  · rfl

theorem refreshMaps_filter (ms : List Mapping) (p : Nat → Int → Bool) (q : Mapping → Bool)
    (hq : ∀ m p, q { m with prop := p } = q m) :
    (refreshMaps ms p).filter q =
      (ms.filter q).map fun m => if p m.link m.other then { m with prop := fresh ms m } else m := by
  unfold refreshMaps
  rw [List.filter_map]
  congr 1
  apply List.filter_congr
  intro m _
  simp only [Function.comp]
  split
  · exact hq m _
  · rfl

theorem mapsAt_values (ms : List Mapping) (p : Nat → Int → Bool) (link : Nat) (other : Int) :
    (mapsAt (refreshMaps ms p) link other).map (·.value) = (mapsAt ms link other).map (·.value) := by
  unfold mapsAt
  rw [refreshMaps_filter ms p _ (fun _ _ => rfl), List.map_map]
  apply List.map_congr_left
  intro m _
  simp only [Function.comp]
  split <;> rfl

theorem fresh_refreshMaps (ms : List Mapping) (p : Nat → Int → Bool) (m : Mapping) :
    fresh (refreshMaps ms p) m = fresh ms m := by
  have hv := mapsAt_values ms p m.link m.other
  have hl : (mapsAt (refreshMaps ms p) m.link m.other).length = (mapsAt ms m.link m.other).length := by
    have := congrArg List.length hv
    simpa using this
  unfold fresh
  simp only [hv, hl]

theorem fresh_prop (ms : List Mapping) (m : Mapping) (p : Option ℚ) :
    fresh ms { m with prop := p } = fresh ms m := rfl

theorem refreshMaps_refreshMaps (ms : List Mapping) (p q : Nat → Int → Bool) :
    refreshMaps (refreshMaps ms p) q = refreshMaps ms fun l o => p l o || q l o := by
  conv_lhs => unfold refreshMaps
  rw [List.map_map]
  conv_rhs => unfold refreshMaps
  apply List.map_congr_left
  intro m _
  have := fresh_refreshMaps ms p
  unfold refreshMaps at this
  simp only [Function.comp, this]
  by_cases hp : p m.link m.other <;> by_cases hq : q m.link m.other <;> simp [hp, hq, fresh_prop]

theorem refreshMaps_congr {ms : List Mapping} {p q : Nat → Int → Bool}
    (h : ∀ m ∈ ms, p m.link m.other = q m.link m.other) : refreshMaps ms p = refreshMaps ms q := by
  unfold refreshMaps
  apply List.map_congr_left
  intro m hm
  rw [h m hm]

theorem refreshMaps_none (ms : List Mapping) : refreshMaps ms (fun _ _ => false) = ms := by
  simp [refreshMaps]

theorem refreshMaps_ids (ms : List Mapping) (p : Nat → Int → Bool) :
    (refreshMaps ms p).map (·.id) = ms.map (·.id) := refreshMaps_map _ (fun _ _ => rfl) ms p

theorem refreshProportions_ok {link : Nat} {other : Int} {s s' : Store} (hnd : (s.maps.map (·.id)).Nodup)
    (h : refreshProportions link other s = .ok ((), s')) :
    s' = { s with maps := refreshMaps s.maps fun l o => l == link && o == other } := by
  have hmem : ∀ m ∈ s.maps, (m.id ∈ (s.findMaps link other).map (·.id) ↔ (m.link == link && m.other == other) = true) := by
    intro m hm
    constructor
    · intro h
      obtain ⟨x, hx, he⟩ := List.mem_map.1 h
      obtain ⟨hx1, hx2⟩ := List.mem_filter.1 hx
      rw [eq_of_id hnd hx1 hm he] at hx2
      exact hx2
    · intro h
      exact List.mem_map_of_mem (List.mem_filter.2 ⟨hm, h⟩)
  unfold refreshProportions at h
  rw [bind_ok] at h
  obtain ⟨_, _, he, h⟩ := h
  rw [get_ok] at he
  cases he
  dsimp only at h
  rw [ite_ok] at h
  obtain ⟨h0, h⟩ | ⟨h0, h⟩ := h
  · have h' : (s.findMaps link other).forM (fun m => mappingUpdate { m with prop := some 0 }) s =
        .ok ((), s') := by
      have key : ∀ (ms : List Mapping) (t : Store),
          ms.forM (fun m => if m.index = 0 then
            (throw (Err.valueError "undefined-to-undefined mapping is invalid") : M Unit)
            else mappingUpdate { m with prop := some 0 }) t = .ok ((), s') →
          ms.forM (fun m => mappingUpdate { m with prop := some 0 }) t = .ok ((), s') := by
        intro ms
        induction ms with
        | nil => intro t h; exact h
        | cons m ms ih =>
          intro t h
          rw [forM_cons_ok] at h ⊢
          obtain ⟨t1, h1, h2⟩ := h
          rw [ite_ok] at h1
          obtain ⟨_, h1⟩ | ⟨_, h1⟩ := h1
          · exact absurd h1 (by simp [throw_ok])
          · exact ⟨t1, h1, ih t1 h2⟩
      exact key _ _ h
    rw [forM_mappingUpdate (ms := s.findMaps link other) (g := fun m => { m with prop := some 0 }) hnd
      (fun m hm => List.mem_of_mem_filter hm) (fun _ _ => rfl) h']
    congr 1
    unfold refreshMaps
    apply List.map_congr_left
    intro m hm
    by_cases hp : (m.link == link && m.other == other) = true
    · rw [if_pos ((hmem m hm).2 hp), if_pos hp]
      have : m.other = 0 := by
        simp only [Bool.and_eq_true, beq_iff_eq] at hp
        rw [hp.2, h0]
      simp [fresh, this]
    · rw [if_neg (fun hc => hp ((hmem m hm).1 hc)), if_neg hp]
  · rw [forM_mappingUpdate (ms := s.findMaps link other) (g := fun m => { m with prop := some (
        if ((s.findMaps link other).map (·.value)).sum = 0 then 1 / ((s.findMaps link other).length : ℚ)
        else m.value / ((s.findMaps link other).map (·.value)).sum) }) hnd
      (fun m hm => List.mem_of_mem_filter hm) (fun _ _ => rfl) h]
    congr 1
    unfold refreshMaps
    apply List.map_congr_left
    intro m hm
    by_cases hp : (m.link == link && m.other == other) = true
    · rw [if_pos ((hmem m hm).2 hp), if_pos hp]
      simp only [Bool.and_eq_true, beq_iff_eq] at hp
      have : m.other ≠ 0 := by rw [hp.2]; exact h0
      simp only [fresh, this, if_false, hp.1, hp.2]
      simp [h0, mapsAt, Store.findMaps]
    · rw [if_neg (fun hc => hp ((hmem m hm).1 hc)), if_neg hp]

/-- Refreshing several source records of a link. -/
theorem forM_refresh {link : Nat} {others : List Int} {s s' : Store} (hnd : (s.maps.map (·.id)).Nodup)
    (h : others.forM (fun o => refreshProportions link o) s = .ok ((), s')) :
    s' = { s with maps := refreshMaps s.maps fun l o => l == link && decide (o ∈ others) } := by
  induction others generalizing s with
  | nil =>
    cases h
    simp [refreshMaps_none]
  | cons x xs ih =>
    obtain ⟨t, h1, h2⟩ := forM_cons_ok.1 h
    have ht := refreshProportions_ok hnd h1
    subst ht
    rw [ih (by rw [refreshMaps_ids]; exact hnd) h2]
    congr 1
    simp only [refreshMaps_refreshMaps]
    apply refreshMaps_congr
    intro m _
    by_cases ha : m.link = link <;> by_cases hb : m.other = x <;> simp [ha, hb]

/-- Refreshing a source record for several links. -/
theorem forM_refresh_links {links : List Link} {other : Int} {s s' : Store}
    (hnd : (s.maps.map (·.id)).Nodup)
    (h : links.forM (fun l => refreshProportions l.id other) s = .ok ((), s')) :
    s' = { s with maps := refreshMaps s.maps fun l o => decide (l ∈ links.map (·.id)) && o == other } := by
  induction links generalizing s with
  | nil =>
    cases h
    simp [refreshMaps_none]
  | cons x xs ih =>
    obtain ⟨t, h1, h2⟩ := forM_cons_ok.1 h
    have ht := refreshProportions_ok hnd h1
    subst ht
    rw [ih (by rw [refreshMaps_ids]; exact hnd) h2]
    congr 1
    simp only [refreshMaps_refreshMaps]
    apply refreshMaps_congr
    intro m _
    by_cases ha : m.link = x.id <;> by_cases hb : m.other = other <;> simp [ha, hb]

/-- Refreshing several source records for all links. -/
theorem forM_refresh_all {others : List Int} {s s' : Store} (hnd : (s.maps.map (·.id)).Nodup)
    (h : others.forM (fun other => (get : M Store) >>= fun t =>
      t.links.forM fun l => refreshProportions l.id other) s = .ok ((), s')) :
    s' = { s with maps := refreshMaps s.maps (fun l o =>
      decide (l ∈ s.links.map (·.id)) && decide (o ∈ others)) } := by
  induction others generalizing s with
  | nil =>
    cases h
    simp [refreshMaps_none]
  | cons x xs ih =>
    obtain ⟨t, h1, h2⟩ := forM_cons_ok.1 h
    rw [bind_ok] at h1
    obtain ⟨_, _, he, h1⟩ := h1
    rw [get_ok] at he
    cases he
    have ht := forM_refresh_links hnd h1
    subst ht
    rw [ih (by rw [refreshMaps_ids]; exact hnd) h2]
    congr 1
    simp only [refreshMaps_refreshMaps]
    apply refreshMaps_congr
    intro m _
    by_cases ha : m.link ∈ s.links.map (·.id) <;> by_cases hb : m.other = x <;> simp [ha, hb]

theorem mappingIsComplete_refresh {s : Store} (p : Nat → Int → Bool) (link : Nat) :
    ({ s with maps := refreshMaps s.maps p } : Store).mappingIsComplete link = s.mappingIsComplete link := by
  unfold Store.mappingIsComplete
  apply congrArg (List.all s.index)
  funext r
  congr 1
  unfold refreshMaps
  rw [List.any_map]
  apply congrArg (List.any s.maps)
  funext m
  simp only [Function.comp]
  split <;> rfl

theorem refreshLink_ok {l : Link} {s s' : Store} (hnd : (s.maps.map (·.id)).Nodup)
    (h : refreshLink l s = .ok ((), s')) :
    s' = { s with
      maps := refreshMaps s.maps fun k o => k == l.id && decide (0 ≤ o),
      links := upd Link.id { l with
        otherHash := some (s.distinctOthers l.id), complete := s.mappingIsComplete l.id } s.links } := by
  unfold refreshLink at h
  simp only [bind_ok, get_ok] at h
  obtain ⟨_, _, he, _, t, h1, _, _, he2, h2⟩ := h
  cases he
  cases he2
  have ht := forM_refresh hnd h1
  have hm : (refreshMaps s.maps fun k o => k == l.id && decide (o ∈ s.distinctOthers l.id)) =
      refreshMaps s.maps fun k o => k == l.id && decide (0 ≤ o) := by
    apply refreshMaps_congr
    intro m hm
    by_cases hl : m.link = l.id
    · have : m.other ∈ s.distinctOthers l.id ↔ 0 ≤ m.other := by
        unfold Store.distinctOthers
        simp only [List.mem_cons, mem_sortedBy, mem_distinct, List.mem_map, List.mem_filter,
          Bool.and_eq_true, beq_iff_eq, decide_eq_true_eq]
        constructor
        · rintro (h | ⟨x, ⟨_, _, hx⟩, he⟩)
          · rw [h]
          · rw [← he]; exact le_of_lt hx
        · intro h
          rcases h.lt_or_eq with h | h
          · exact .inr ⟨m, ⟨hm, hl, h⟩, rfl⟩
          · exact .inl h.symm
      show (m.link == l.id && decide (m.other ∈ s.distinctOthers l.id)) = (m.link == l.id && decide (0 ≤ m.other))
      rw [decide_eq_decide.2 this]
    · show (m.link == l.id && decide (m.other ∈ s.distinctOthers l.id)) = (m.link == l.id && decide (0 ≤ m.other))
      rw [beq_eq_false_iff_ne.2 hl]
      rfl
  rw [linkUpdate_ok h2, ht]
  rw [hm]
  rw [mappingIsComplete_refresh]

/-! ### Deleting a record -/

theorem forM_guard_ok {α : Type} {l : List α} {p : α → Prop} [DecidablePred p] {e : Err} {f : α → M Unit}
    {s s' : Store} (h : l.forM (fun a => if p a then (throw e : M Unit) else f a) s = .ok ((), s')) :
    (∀ a ∈ l, ¬ p a) ∧ l.forM f s = .ok ((), s') := by
  induction l generalizing s with
  | nil => exact ⟨by simp, h⟩
  | cons a l ih =>
    obtain ⟨t, h1, h2⟩ := forM_cons_ok.1 h
    rw [ite_ok] at h1
    obtain ⟨_, h1⟩ | ⟨hp, h1⟩ := h1
    · exact absurd h1 (by simp [throw_ok])
    · obtain ⟨h3, h4⟩ := ih h2
      exact ⟨by simpa using ⟨hp, h3⟩, forM_cons_ok.2 ⟨t, h1, h4⟩⟩

/-- The mappings left after a record has been deleted: those of other records, with fresh proportions for
the source records the deleted mappings came from. -/
def mapsWithout (links : List Nat) (ms : List Mapping) (id : Nat) : List Mapping :=
  refreshMaps (ms.filter fun m => m.index != id) fun l o =>
    decide (l ∈ links) && decide (o ∈ (ms.filter fun m => m.index == id).map (·.other))

theorem deleteIndexRecord_ok {id : Nat} {s s' : Store} (hw : (s.weights.map (·.id)).Nodup)
    (hm : (s.maps.map (·.id)).Nodup) (h : deleteIndexRecord id s = .ok ((), s')) :
    (∀ m ∈ s.maps, m.index = id → m.level = fullLevel s.cols.length) ∧
    (id = 0 → ∀ x ∈ s.index, x.id ≠ 0) ∧
    s' = { s with
      index := s.index.filter (fun x => x.id != id),
      weights := s.weights.filter (fun w => w.index != id),
      maps := mapsWithout (s.links.map (·.id)) s.maps id } := by
  unfold deleteIndexRecord at h
  rw [bind_ok] at h
  obtain ⟨_, _, he, h⟩ := h
  rw [get_ok] at he
  cases he
  rw [bind_ok] at h
  obtain ⟨_, t1, h1, h⟩ := h
  have ht1 := forM_weightDelete h1
  rw [bind_ok] at h
  obtain ⟨_, t2, h2, h⟩ := h
  obtain ⟨hlev, h2⟩ := forM_guard_ok h2
  have ht2 := forM_mappingDelete h2
  rw [bind_ok] at h
  obtain ⟨_, t3, h3, h⟩ := h
  have hw' : (s.weights.filter fun w => w.id ∉ (s.weights.filter fun w => w.index == id).map (·.id)) =
      s.weights.filter fun w => w.index != id := filter_not_mem_sub hw
  have hm' : (s.maps.filter fun m => m.id ∉ (s.maps.filter fun m => m.index == id).map (·.id)) =
      s.maps.filter fun m => m.index != id := filter_not_mem_sub hm
  subst ht1
  simp only [hw'] at ht2
  simp only [hm'] at ht2
  subst ht2
  have ht3 := forM_refresh_all (nodup_filter_map _ hm) h3
  obtain ⟨h4, h5⟩ := indexDelete_ok h
  subst ht3
  refine ⟨fun m hm he => ?_, h4, ?_⟩
  · have := hlev m (List.mem_filter.2 ⟨hm, by simpa using he⟩)
    simpa using this
  · rw [h5]
    simp only [mapsWithout, mem_distinct]

end Toron.Space
