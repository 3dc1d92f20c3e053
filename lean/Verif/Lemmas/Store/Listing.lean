/-
Listings and the deletion of quantities.
-/
import Verif.Spec.Listing
import Verif.Lemmas.Store.Unmatched
import Verif.Lemmas.Store.Links

namespace Toron.Space

open Toron.Selectors (PyStr)
open Toron.Spec

/-! ### Deleting -/

theorem forM_modify {α : Type} (l : List α) (f : α → Store → Store) (s : Store) :
    (l.forM fun a => (modify (f a) : M Unit)) s = .ok ((), l.foldl (fun t a => f a t) s) := by
  induction l generalizing s with
  | nil => rfl
  | cons x xs ih => exact ih (f x s)

theorem foldl_quantDelete (ids : List Nat) (s : Store) :
    ids.foldl (fun t i => { t with quants := t.quants.filter fun q => q.id != i }) s =
      { s with quants := s.quants.filter fun q => decide (q.id ∉ ids) } := by
  induction ids generalizing s with
  | nil => simp
  | cons i is ih =>
    rw [List.foldl_cons, ih]
    simp only [List.filter_filter]
    congr 1
    apply List.filter_congr
    intro q _
    rw [Bool.eq_iff_iff]
    simp [and_comm]

theorem foldl_locDelete (ids : List Nat) (s : Store) :
    ids.foldl (fun t i => { t with
        locs := t.locs.filter (fun x => x.id != i),
        quants := if t.fk then t.quants.filter (fun q => q.loc != i) else t.quants }) s =
      { s with locs := s.locs.filter fun l => decide (l.id ∉ ids),
               quants := if s.fk then s.quants.filter (fun q => decide (q.loc ∉ ids)) else s.quants } := by
  induction ids generalizing s with
  | nil => simp
  | cons i is ih =>
    rw [List.foldl_cons, ih]
    simp only [List.filter_filter]
    have e1 : (s.locs.filter fun l => decide (l.id ∉ is) && (l.id != i)) =
        s.locs.filter fun l => decide (l.id ∉ i :: is) := by
      apply List.filter_congr
      intro q _
      rw [Bool.eq_iff_iff]
      simp [and_comm]
    have e2 : (s.quants.filter fun q => decide (q.loc ∉ is) && (q.loc != i)) =
        s.quants.filter fun q => decide (q.loc ∉ i :: is) := by
      apply List.filter_congr
      intro q _
      rw [Bool.eq_iff_iff]
      simp [and_comm]
    rw [e1]
    cases s.fk
    · simp
    · simp only [if_true, List.filter_filter, e2]

theorem foldl_agDelete (ids : List Nat) (s : Store) :
    ids.foldl (fun t i => { t with
        agroups := t.agroups.filter (fun x => x.id != i),
        quants := if t.fk then t.quants.filter (fun q => q.ag != i) else t.quants }) s =
      { s with agroups := s.agroups.filter fun l => decide (l.id ∉ ids),
               quants := if s.fk then s.quants.filter (fun q => decide (q.ag ∉ ids)) else s.quants } := by
  induction ids generalizing s with
  | nil => simp
  | cons i is ih =>
    rw [List.foldl_cons, ih]
    simp only [List.filter_filter]
    have e1 : (s.agroups.filter fun l => decide (l.id ∉ is) && (l.id != i)) =
        s.agroups.filter fun l => decide (l.id ∉ i :: is) := by
      apply List.filter_congr
      intro q _
      rw [Bool.eq_iff_iff]
      simp [and_comm]
    have e2 : (s.quants.filter fun q => decide (q.ag ∉ is) && (q.ag != i)) =
        s.quants.filter fun q => decide (q.ag ∉ i :: is) := by
      apply List.filter_congr
      intro q _
      rw [Bool.eq_iff_iff]
      simp [and_comm]
    rw [e1]
    cases s.fk
    · simp
    · simp only [if_true, List.filter_filter, e2]

/-- Remove the attribute groups that no quantity uses. -/
def Store.dropUnusedAg (s : Store) : Store :=
  { s with agroups := s.agroups.filter fun g => s.quants.any fun q => q.ag == g.id }

/-- Remove the locations that no quantity uses. -/
def Store.dropUnusedLoc (s : Store) : Store :=
  { s with locs := s.locs.filter fun l => s.quants.any fun q => q.loc == l.id }

theorem foldl_unusedAg {s : Store} :
    ((s.agroups.filter fun g => !s.quants.any fun q => q.ag == g.id).map (·.id)).foldl (fun t i => { t with
        agroups := t.agroups.filter (fun x => x.id != i),
        quants := if t.fk then t.quants.filter (fun q => q.ag != i) else t.quants }) s = s.dropUnusedAg := by
  rw [foldl_agDelete]
  have hmem : ∀ i, i ∈ (s.agroups.filter fun g => !s.quants.any fun q => q.ag == g.id).map (·.id) →
      ∀ q ∈ s.quants, q.ag ≠ i := by
    intro i hi q hq he
    obtain ⟨g, hg, rfl⟩ := List.mem_map.1 hi
    have := (List.mem_filter.1 hg).2
    rw [Bool.not_eq_true', List.any_eq_false] at this
    exact this q hq (by simpa using he)
  have e1 : (s.quants.filter fun q => decide (q.ag ∉ (s.agroups.filter fun g =>
      !s.quants.any fun q => q.ag == g.id).map (·.id))) = s.quants := by
    rw [List.filter_eq_self]
    intro q hq
    rw [decide_eq_true_eq]
    exact fun h => hmem _ h q hq rfl
  rw [e1, ite_self]
  unfold Store.dropUnusedAg
  congr 1
  apply List.filter_congr
  intro g hg
  rw [Bool.eq_iff_iff, decide_eq_true_eq]
  constructor
  · intro h
    by_contra hn
    exact h (List.mem_map_of_mem (List.mem_filter.2 ⟨hg, by simpa using hn⟩))
  · intro h hm
    obtain ⟨q, hq, he⟩ := List.any_eq_true.1 h
    exact hmem _ hm q hq (by simpa using he)

theorem foldl_unusedLoc {s : Store} :
    ((s.locs.filter fun l => !s.quants.any fun q => q.loc == l.id).map (·.id)).foldl (fun t i => { t with
        locs := t.locs.filter (fun x => x.id != i),
        quants := if t.fk then t.quants.filter (fun q => q.loc != i) else t.quants }) s = s.dropUnusedLoc := by
  rw [foldl_locDelete]
  have hmem : ∀ i, i ∈ (s.locs.filter fun l => !s.quants.any fun q => q.loc == l.id).map (·.id) →
      ∀ q ∈ s.quants, q.loc ≠ i := by
    intro i hi q hq he
    obtain ⟨g, hg, rfl⟩ := List.mem_map.1 hi
    have := (List.mem_filter.1 hg).2
    rw [Bool.not_eq_true', List.any_eq_false] at this
    exact this q hq (by simpa using he)
  have e1 : (s.quants.filter fun q => decide (q.loc ∉ (s.locs.filter fun l =>
      !s.quants.any fun q => q.loc == l.id).map (·.id))) = s.quants := by
    rw [List.filter_eq_self]
    intro q hq
    rw [decide_eq_true_eq]
    exact fun h => hmem _ h q hq rfl
  rw [e1, ite_self]
  unfold Store.dropUnusedLoc
  congr 1
  apply List.filter_congr
  intro g hg
  rw [Bool.eq_iff_iff, decide_eq_true_eq]
  constructor
  · intro h
    by_contra hn
    exact h (List.mem_map_of_mem (List.mem_filter.2 ⟨hg, by simpa using hn⟩))
  · intro h hm
    obtain ⟨q, hq, he⟩ := List.any_eq_true.1 h
    exact hmem _ hm q hq (by simpa using he)

/-- The ids of the locations with no record. -/
def Store.lostLocs (s : Store) : List Nat := s.locsWithoutIndex.map (·.id)

theorem quantDeletes_eq {s : Store} (hids : (s.quants.map (·.id)).Nodup) (ls : List LocRec) :
    (ls.forM fun l => (s.quants.filter fun q => q.loc == l.id).forM fun q => quantDelete q.id) s =
      .ok ((), { s with quants := s.quants.filter fun q => decide (q.loc ∉ ls.map (·.id)) }) := by
  have hin : ∀ (l : LocRec) (t : Store),
      ((s.quants.filter fun q => q.loc == l.id).forM fun q => quantDelete q.id) t = .ok ((), { t with
        quants := t.quants.filter fun x => decide (x.id ∉ (s.quants.filter fun q => q.loc == l.id).map (·.id)) }) := by
    intro l t
    have := forM_modify (s.quants.filter fun q => q.loc == l.id)
      (fun q t => { t with quants := t.quants.filter fun x => x.id != q.id }) t
    have e := foldl_quantDelete ((s.quants.filter fun q => q.loc == l.id).map (·.id)) t
    rw [List.foldl_map] at e
    rw [e] at this
    exact this
  have hgen : ∀ (ls : List LocRec) (t : Store), (∀ q ∈ t.quants, q ∈ s.quants) →
      (ls.forM fun l => (s.quants.filter fun q => q.loc == l.id).forM fun q => quantDelete q.id) t =
        .ok ((), { t with quants := t.quants.filter fun q => decide (q.loc ∉ ls.map (·.id)) }) := by
    intro ls
    induction ls with
    | nil =>
      intro t _
      simp only [List.map_nil, List.not_mem_nil, not_false_eq_true, decide_true, List.filter_true]
      rfl
    | cons l ls ih =>
      intro t ht
      refine forM_cons_ok.2 ⟨_, hin l t, ?_⟩
      rw [ih _ fun q hq => ht q (List.mem_of_mem_filter hq)]
      simp only [List.filter_filter]
      congr 3
      apply List.filter_congr
      intro q hqt
      rw [Bool.eq_iff_iff]
      simp only [Bool.and_eq_true, decide_eq_true_eq, List.map_cons, List.mem_cons, not_or]
      have hid : q.id ∈ (s.quants.filter fun x => x.loc == l.id).map (·.id) ↔ q.loc = l.id := by
        constructor
        · intro h
          obtain ⟨x, hx, he⟩ := List.mem_map.1 h
          obtain ⟨hx1, hx2⟩ := List.mem_filter.1 hx
          rw [← List.inj_on_of_nodup_map hids hx1 (ht q hqt) he]
          simpa using hx2
        · intro h
          exact List.mem_map_of_mem (List.mem_filter.2 ⟨ht q hqt, by simpa using h⟩)
      rw [hid, and_comm]
  exact hgen ls s fun q h => h

theorem deleteWithoutIndex_eq {s : Store} (hq : QuantInv s) :
    deleteQuantitiesWithoutIndex s = .ok ((),
      (Store.dropUnusedAg (Store.dropUnusedLoc
        { s with quants := s.quants.filter fun q => decide (q.loc ∉ s.lostLocs) }))) := by
  set t : Store := { s with quants := s.quants.filter fun q => decide (q.loc ∉ s.lostLocs) } with ht
  simp only [deleteQuantitiesWithoutIndex, bind_ok, get_ok]
  have h2 := forM_modify (t.locs.filter fun l => !t.quants.any fun q => q.loc == l.id)
    (fun l u => { u with
      locs := u.locs.filter (fun x => x.id != l.id),
      quants := if u.fk then u.quants.filter (fun q => q.loc != l.id) else u.quants }) t
  have e2 := foldl_unusedLoc (s := t)
  rw [List.foldl_map] at e2
  rw [e2] at h2
  have h3 := forM_modify (t.dropUnusedLoc.agroups.filter fun g => !t.dropUnusedLoc.quants.any fun q => q.ag == g.id)
    (fun l u => { u with
      agroups := u.agroups.filter (fun x => x.id != l.id),
      quants := if u.fk then u.quants.filter (fun q => q.ag != l.id) else u.quants }) t.dropUnusedLoc
  have e3 := foldl_unusedAg (s := t.dropUnusedLoc)
  rw [List.foldl_map] at e3
  rw [e3] at h3
  exact ⟨s, s, rfl, (), t, quantDeletes_eq hq.ids _, t, t, rfl, (), t.dropUnusedLoc, h2, t.dropUnusedLoc,
    t.dropUnusedLoc, rfl, h3⟩

theorem runAuto_modify {α : Type} (l : List α) (f : α → Store → Store) (hf : ∀ a t, fkOk (f a t) = fkOk t)
    {s : Store} (hs : fkOk s = true) :
    runAuto (l.map fun a => (modify (f a) : M Unit)) s = (l.foldl (fun t a => f a t) s, .ok ()) := by
  induction l generalizing s with
  | nil => rfl
  | cons x xs ih =>
    have hx : runTx (modify (f x) : M Unit) s = (f x s, .ok ()) := by
      unfold runTx
      show (if fkOk (f x s) = true then _ else _) = _
      rw [if_pos ((hf x s).trans hs)]
    rw [List.map_cons, runAuto, hx, List.foldl_cons]
    exact ih ((hf x s).trans hs)

/-- The ids of the locations that do not match. -/
def Store.unmatchedLocs (s : Store) : List Nat := s.nonmatchingLocs.map (·.id)

theorem deleteUnmatched_eq {s : Store} (hs : fkOk s = true) :
    deleteUnmatchedQuantities s = (Store.dropUnusedAg
      { s with locs := s.locs.filter fun l => decide (l.id ∉ s.unmatchedLocs),
               quants := if s.fk then s.quants.filter (fun q => decide (q.loc ∉ s.unmatchedLocs)) else s.quants },
      .ok ()) := by
  have h1 := runAuto_modify s.nonmatchingLocs (fun l u => { u with
      locs := u.locs.filter (fun x => x.id != l.id),
      quants := if u.fk then u.quants.filter (fun q => q.loc != l.id) else u.quants }) (fun _ _ => rfl) hs
  have e1 := foldl_locDelete s.unmatchedLocs s
  unfold Store.unmatchedLocs at e1 ⊢
  rw [List.foldl_map] at e1
  rw [e1] at h1
  set t : Store := { s with
    locs := s.locs.filter fun l => decide (l.id ∉ s.nonmatchingLocs.map (·.id)),
    quants := if s.fk then s.quants.filter (fun q => decide (q.loc ∉ s.nonmatchingLocs.map (·.id)))
      else s.quants } with ht
  have h2 := runAuto_modify (t.agroups.filter fun g => !t.quants.any fun q => q.ag == g.id) (fun l u => { u with
      agroups := u.agroups.filter (fun x => x.id != l.id),
      quants := if u.fk then u.quants.filter (fun q => q.ag != l.id) else u.quants }) (fun _ _ => rfl)
      (s := t) hs
  have e2 := foldl_unusedAg (s := t)
  rw [List.foldl_map] at e2
  rw [e2] at h2
  unfold deleteUnmatchedQuantities
  have h1' : runAuto (s.nonmatchingLocs.map fun l => locDelete l.id) s = (t, .ok ()) := h1
  rw [h1']
  exact h2

/-! ### Which quantities -/

theorem noRecord_iff {s : Store} (hr : Reachable s) (q : Quant) :
    q.loc ∈ s.lostLocs ↔ s.NoRecord false q := by
  unfold Store.lostLocs Store.locsWithoutIndex Store.NoRecord
  simp only [List.mem_map, List.mem_filter, Bool.not_eq_true', Bool.false_eq_true, false_or]
  constructor
  · rintro ⟨l, ⟨hl, ha⟩, he⟩
    refine ⟨l, hl, he, fun h => ?_⟩
    have := (anyIndex_iff hr (hr.quantInv.locLens l hl)).2 h
    rw [ha] at this
    cases this
  · rintro ⟨l, hl, he, ha⟩
    refine ⟨l, ⟨hl, ?_⟩, he⟩
    rw [← Bool.not_eq_true]
    exact fun h => ha ((anyIndex_iff hr (hr.quantInv.locLens l hl)).1 h)

theorem unmatched_iff {s : Store} (hr : Reachable s) (q : Quant) :
    q.loc ∈ s.unmatchedLocs ↔ s.Unmatched false q := by
  unfold Store.Unmatched
  rw [← noRecord_iff hr]
  unfold Store.unmatchedLocs Store.nonmatchingLocs Store.lostLocs Store.locsWithoutIndex Store.Counted
  simp only [List.mem_map, List.mem_filter, Bool.or_eq_true, Bool.not_eq_true']
  constructor
  · rintro ⟨l, ⟨hl, h | h⟩, he⟩
    · right
      refine ⟨⟨l, hl, he⟩, ?_⟩
      rintro ⟨l', hl', he', st, hst, hb⟩
      have : l' = l := List.inj_on_of_nodup_map hr.quantInv.locIds hl' hl (he'.trans he.symm)
      subst this
      have := (structOk_iff hr (hr.quantInv.locLens l' hl)).2 ⟨st, hst, hb⟩
      rw [h] at this
      cases this
    · exact .inl ⟨l, ⟨hl, h⟩, he⟩
  · rintro (⟨l, ⟨hl, h⟩, he⟩ | ⟨⟨l, hl, he⟩, h⟩)
    · exact ⟨l, ⟨hl, .inr h⟩, he⟩
    · refine ⟨l, ⟨hl, .inl ?_⟩, he⟩
      rw [← Bool.not_eq_true]
      exact fun hk => h ⟨l, hl, he, (structOk_iff hr (hr.quantInv.locLens l hl)).1 hk⟩

/-! ### Rows -/

theorem exceptMapM_ok {α β : Type} {f : α → Except Err β} {l : List α} {out : List β} (h : l.mapM f = .ok out) :
    List.Forall₂ (fun x y => f x = .ok y) l out := by
  induction l generalizing out with
  | nil =>
    cases h
    exact .nil
  | cons x xs ih =>
    rw [List.mapM_cons] at h
    rcases hx : f x with e | y
    · rw [hx] at h; cases h
    rw [hx] at h
    rcases hxs : xs.mapM f with e | ys
    · rw [hxs] at h; cases h
    rw [hxs] at h
    cases h
    exact .cons hx (ih hxs)

theorem exceptMapM_exists {α β : Type} {f : α → Except Err β} {l : List α} (h : ∀ x ∈ l, ∃ y, f x = .ok y) :
    ∃ out, l.mapM f = .ok out := by
  induction l with
  | nil => exact ⟨[], rfl⟩
  | cons x xs ih =>
    obtain ⟨y, hy⟩ := h x (by simp)
    obtain ⟨ys, hys⟩ := ih fun z hz => h z (by simp [hz])
    exact ⟨y :: ys, by rw [List.mapM_cons, hy, hys]; rfl⟩

theorem quantView_shows {s : Store} {names : List PyStr} {l : LocRec} {q : Quant} {v : QuantView}
    (hl : l ∈ s.locs) (hq : q.loc = l.id) (h : s.quantView names l q = .ok v) : s.Shows names q v := by
  unfold Store.quantView at h
  rcases ha : s.getAttrs q.ag with e | a
  · rw [ha] at h; cases h
  rw [ha] at h
  cases h
  have hg : ∃ g ∈ s.agroups, g.id = q.ag ∧ g.attrs = a := by
    unfold Store.getAttrs at ha
    rcases hf : s.agroups.find? (fun g => g.id == q.ag) with _ | g
    · rw [hf] at ha; cases ha
    · rw [hf] at ha
      cases ha
      exact ⟨g, List.mem_of_find?_eq_some hf, by simpa using List.find?_some hf, rfl⟩
  obtain ⟨g, hg1, hg2, rfl⟩ := hg
  exact ⟨⟨l, hl, hq.symm, rfl⟩, ⟨g, hg1, hg2, rfl⟩, rfl, rfl⟩

/-- A listing of the quantities of some locations. -/
theorem quantViews_ok {s : Store} {names : List PyStr} {locs : List LocRec} (hsub : ∀ l ∈ locs, l ∈ s.locs)
    {rows : List QuantView} (h : s.quantViews names locs = .ok rows) :
    List.Forall₂ (s.Shows names) (locs.flatMap fun l => s.quants.filter fun q => q.loc == l.id) rows := by
  unfold Store.quantViews at h
  obtain ⟨bs, h1, h2, h3⟩ := flatMapE_ok h
  subst h1
  subst h2
  have key : ∀ b ∈ bs, List.Forall₂ (s.Shows names) (s.quants.filter fun q => q.loc == b.1.id) b.2 := by
    intro b hb
    have hf := exceptMapM_ok (h3 b hb)
    have hl := hsub b.1 (List.mem_map_of_mem hb)
    have hm : ∀ q ∈ s.quants.filter (fun q => q.loc == b.1.id), q.loc = b.1.id :=
      fun q hq => by simpa using (List.mem_filter.1 hq).2
    clear h3
    generalize s.quants.filter (fun q => q.loc == b.1.id) = qs at hf hm ⊢
    generalize b.2 = out at hf ⊢
    induction hf with
    | nil => exact .nil
    | cons hx _ ih =>
      exact .cons (quantView_shows hl (hm _ (by simp)) hx) (ih fun q hq => hm q (by simp [hq]))
  clear h h3 hsub
  induction bs with
  | nil => exact .nil
  | cons b bs ih =>
    rw [List.map_cons, List.flatMap_cons, List.flatMap_cons]
    exact List.rel_append (key b (by simp)) (ih fun c hc => key c (by simp [hc]))

theorem quantViews_exists {s : Store} (names : List PyStr) (locs : List LocRec)
    (href : ∀ q ∈ s.quants, ∃ g ∈ s.agroups, g.id = q.ag) : ∃ rows, s.quantViews names locs = .ok rows := by
  unfold Store.quantViews
  refine flatMapE_exists fun l _ => exceptMapM_exists fun q hq => ?_
  obtain ⟨g, hg, hgi⟩ := href q (List.mem_of_mem_filter hq)
  unfold Store.quantView Store.getAttrs
  rcases hf : s.agroups.find? (fun g => g.id == q.ag) with _ | x
  · exact absurd (List.find?_eq_none.1 hf g hg) (by simpa using hgi)
  · rw [hf]
    exact ⟨_, rfl⟩

/-- The quantities of some locations are those with their location among them. -/
theorem quants_of_locs {s : Store} (hq : QuantInv s) {locs : List LocRec} (hsub : locs.Sublist s.locs) :
    (locs.flatMap fun l => s.quants.filter fun q => q.loc == l.id).Perm
      (s.quants.filter fun q => decide (q.loc ∈ locs.map (·.id))) := by
  have hnd : (locs.map (·.id)).Nodup := hq.locIds.sublist (hsub.map _)
  rw [List.perm_ext_iff_of_nodup]
  · intro q
    simp only [List.mem_flatMap, List.mem_filter, decide_eq_true_eq, List.mem_map, beq_iff_eq]
    constructor
    · rintro ⟨l, hl, h1, h2⟩
      exact ⟨h1, l, hl, h2.symm⟩
    · rintro ⟨h1, l, hl, h2⟩
      exact ⟨l, hl, h1, h2.symm⟩
  · clear hsub
    induction locs with
    | nil => exact List.nodup_nil
    | cons l ls ih =>
      rw [List.map_cons, List.nodup_cons] at hnd
      rw [List.flatMap_cons, List.nodup_append]
      refine ⟨hq.ids.of_map.filter _, ih hnd.2, ?_⟩
      intro a ha b hb he
      subst he
      have h1 : a.loc = l.id := by simpa using (List.mem_filter.1 ha).2
      obtain ⟨l', hl', hb'⟩ := List.mem_flatMap.1 hb
      have h2 : a.loc = l'.id := by simpa using (List.mem_filter.1 hb').2
      exact hnd.1 (h1.symm.trans h2 ▸ List.mem_map_of_mem hl')
  · exact hq.ids.of_map.filter _

end Toron.Space
