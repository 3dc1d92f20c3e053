/-
C34: unmatched quantities. C55: listings show what is stored.
-/
import Verif.Lemmas.Store.Listing
import Verif.Lemmas.Store.Call
import Verif.Props.StoreRead

namespace Toron.Space

open Toron.Selectors (PyStr Sel CaseMap asciiCase)
open Toron.Spec

/-! ### C34: the listings -/

/-- The listing of quantities without index record shows exactly the quantities whose location matches no record
other than the undefined one, each once. Missing for the full claim: the undefined record does not count, see
`C34_violated_undefined`. -/
theorem C34_list_without_index_partial {s : Store} (hr : Reachable s) {rows : List QuantView}
    (h : s.selectWithoutIndex true = .ok rows) :
    ∃ qs : List Quant, qs.Nodup ∧ (∀ q, q ∈ qs ↔ q ∈ s.quants ∧ s.NoRecord false q) ∧
      List.Forall₂ (s.Shows s.attrNames) qs rows := by
  have hsub : s.locsWithoutIndex.Sublist s.locs := List.filter_sublist
  have hp := quants_of_locs hr.quantInv hsub
  refine ⟨_, hp.symm.nodup (hr.quantInv.ids.of_map.filter _), fun q => ?_, quantViews_ok (fun l hl => hsub.subset hl) h⟩
  rw [hp.mem_iff, List.mem_filter, decide_eq_true_eq]
  exact and_congr_right fun _ => noRecord_iff hr q

/-- The same for the listing of unmatched quantities, which also has those with an invalid combination of labels. -/
theorem C34_list_unmatched_partial {s : Store} (hr : Reachable s) {rows : List QuantView}
    (h : s.selectUnmatched true = .ok rows) :
    ∃ qs : List Quant, qs.Nodup ∧ (∀ q, q ∈ qs ↔ q ∈ s.quants ∧ s.Unmatched false q) ∧
      List.Forall₂ (s.Shows s.attrNames) qs rows := by
  have hsub : s.nonmatchingLocs.Sublist s.locs := List.filter_sublist
  have hp := quants_of_locs hr.quantInv hsub
  refine ⟨_, hp.symm.nodup (hr.quantInv.ids.of_map.filter _), fun q => ?_, quantViews_ok (fun l hl => hsub.subset hl) h⟩
  rw [hp.mem_iff, List.mem_filter, decide_eq_true_eq]
  exact and_congr_right fun _ => unmatched_iff hr q

/-- While foreign keys are on, both listings (with a header) succeed. -/
theorem C34_list_succeeds {s : Store} (hr : ReachableFk s) :
    (∃ rows, s.selectWithoutIndex true = .ok rows) ∧ ∃ rows, s.selectUnmatched true = .ok rows :=
  ⟨quantViews_exists _ _ hr.refInv.ags, quantViews_exists _ _ hr.refInv.ags⟩

/-! ### C34: deleting -/

theorem dropUnused_without {s : Store} {P : Quant → Prop} {Q : List Quant} {L : List LocRec}
    (hq : Q.Sublist s.quants) (hg : ∀ q ∈ Q, ¬ P q) (hk : ∀ q ∈ s.quants, ¬ P q → q ∈ Q) (hl : L.Sublist s.locs)
    (hlk : ∀ l ∈ s.locs, (∃ q ∈ Q, q.loc = l.id) → l ∈ L) :
    s.Without P (Store.dropUnusedAg { s with quants := Q, locs := L }) := by
  refine ⟨hg, hk, hq, hl, hlk, List.filter_sublist, ?_, rfl⟩
  rintro g hgm ⟨q, hq', he⟩
  exact List.mem_filter.2 ⟨hgm, List.any_eq_true.2 ⟨q, hq', by simpa using he⟩⟩

/-- Deleting quantities without index record always succeeds, removes exactly the listed quantities, and leaves
nothing to list. -/
theorem C34_delete_without_index_partial {s : Store} (hr : Reachable s) :
    ∃ s', step .deleteQuantitiesWithoutIndex s = (s', .ok ()) ∧ s.Without (s.NoRecord false) s' ∧
      s'.selectWithoutIndex true = .ok [] := by
  have hrun := deleteWithoutIndex_eq hr.quantInv
  set t : Store := { s with quants := s.quants.filter fun q => decide (q.loc ∉ s.lostLocs) } with ht
  have hstep : step .deleteQuantitiesWithoutIndex s = (t.dropUnusedLoc.dropUnusedAg, .ok ()) := by
    show runTx deleteQuantitiesWithoutIndex s = _
    unfold runTx
    rw [hrun]
    have : fkOk t.dropUnusedLoc.dropUnusedAg = fkOk s := rfl
    simp only [this, hr.fkOk, if_true]
  have hlocs : ∀ l ∈ t.dropUnusedLoc.locs, l ∈ s.locs ∧ ∃ q ∈ t.quants, q.loc = l.id := by
    intro l hl
    obtain ⟨h1, h2⟩ := List.mem_filter.1 hl
    obtain ⟨q, hq, he⟩ := List.any_eq_true.1 h2
    exact ⟨h1, q, hq, by simpa using he⟩
  refine ⟨_, hstep, ?_, ?_⟩
  · refine dropUnused_without List.filter_sublist ?_ ?_ List.filter_sublist ?_
    · intro q hq hn
      have := (List.mem_filter.1 hq).2
      rw [decide_eq_true_eq] at this
      exact this ((noRecord_iff hr q).2 hn)
    · intro q hq hn
      refine List.mem_filter.2 ⟨hq, ?_⟩
      rw [decide_eq_true_eq]
      exact fun h => hn ((noRecord_iff hr q).1 h)
    · rintro l hl ⟨q, hq, he⟩
      exact List.mem_filter.2 ⟨hl, List.any_eq_true.2 ⟨q, hq, by simpa using he⟩⟩
  · have hnone : t.dropUnusedLoc.dropUnusedAg.locsWithoutIndex = [] := by
      unfold Store.locsWithoutIndex
      rw [List.filter_eq_nil_iff]
      intro l hl hn
      obtain ⟨h1, q, hq, he⟩ := hlocs l hl
      have := (List.mem_filter.1 hq).2
      rw [decide_eq_true_eq, he] at this
      exact this (List.mem_map_of_mem (List.mem_filter.2 ⟨h1, hn⟩))
    unfold Store.selectWithoutIndex
    rw [hnone]
    rfl

/-- While foreign keys are on, deleting unmatched quantities always succeeds, removes exactly the listed
quantities, and leaves nothing to list. -/
theorem C34_delete_unmatched_partial {s : Store} (hr : ReachableFk s) :
    ∃ s', step .deleteUnmatchedQuantities s = (s', .ok ()) ∧ s.Without (s.Unmatched false) s' ∧
      s'.selectUnmatched true = .ok [] := by
  have hR := hr.reachable
  refine ⟨_, deleteUnmatched_eq hR.fkOk, ?_, ?_⟩
  · have hQ : (if s.fk = true then s.quants.filter (fun q => decide (q.loc ∉ s.unmatchedLocs)) else s.quants) =
        s.quants.filter (fun q => decide (q.loc ∉ s.unmatchedLocs)) := if_pos hr.refInv.fk
    rw [hQ]
    refine dropUnused_without List.filter_sublist ?_ ?_ List.filter_sublist ?_
    · intro q hq hn
      have := (List.mem_filter.1 hq).2
      rw [decide_eq_true_eq] at this
      exact this ((unmatched_iff hR q).2 hn)
    · intro q hq hn
      refine List.mem_filter.2 ⟨hq, ?_⟩
      rw [decide_eq_true_eq]
      exact fun h => hn ((unmatched_iff hR q).1 h)
    · rintro l hl ⟨q, hq, he⟩
      have := (List.mem_filter.1 hq).2
      rw [decide_eq_true_eq, he] at this
      exact List.mem_filter.2 ⟨hl, by simpa using this⟩
  · unfold Store.selectUnmatched
    have hnone : ∀ t : Store, t.locs = s.locs.filter (fun l => decide (l.id ∉ s.unmatchedLocs)) → t.index = s.index →
        t.structs = s.structs → t.cols = s.cols → t.nonmatchingLocs = [] := by
      intro t h1 h2 h3 h4
      unfold Store.nonmatchingLocs
      rw [List.filter_eq_nil_iff]
      intro l hl hn
      rw [h1] at hl
      obtain ⟨hl1, hl2⟩ := List.mem_filter.1 hl
      rw [decide_eq_true_eq] at hl2
      refine hl2 (List.mem_map_of_mem (List.mem_filter.2 ⟨hl1, ?_⟩))
      unfold Store.structOk Store.anyIndex Store.filterByLabel at hn ⊢
      rw [h2, h3, h4] at hn
      exact hn
    rw [hnone]
    · rfl
    all_goals rfl

/-- Afterwards every quantity that is read matches a record, so that reading cannot fail for want of one (see
`C14_succeeds`). -/
theorem C34_then_readable {s s' : Store} (hr : ReachableFk s)
    (h : step .deleteUnmatchedQuantities s = (s', .ok ())) :
    ∀ q ∈ s'.quants, s'.Counted q ∧ ∃ l ∈ s'.locs, l.id = q.loc ∧ ∃ r ∈ s'.index, labelsMatch l.labels r.labels := by
  obtain ⟨t, ht, hw, _⟩ := C34_delete_unmatched_partial hr
  rw [h] at ht
  cases ht
  have hR' : ReachableFk s' := by
    have := hr.step .deleteUnmatchedQuantities (by simp)
    rwa [h] at this
  intro q hq
  have hn := hw.gone q hq
  obtain ⟨l, hl, he⟩ := hR'.refInv.locs q hq
  have hls := hw.locs.subset hl
  have hc : s.Counted q := by
    by_contra hc
    exact hn (.inr ⟨⟨l, hls, he⟩, hc⟩)
  have hi : s'.index = s.index := by rw [hw.rest]
  have hst : s'.structs = s.structs := by rw [hw.rest]
  refine ⟨?_, l, hl, he, ?_⟩
  · obtain ⟨l', hl', he', st, hst', hb⟩ := hc
    have : l' = l := List.inj_on_of_nodup_map hr.reachable.quantInv.locIds hl' hls (he'.trans he.symm)
    subst this
    exact ⟨l', hl, he', st, hst ▸ hst', hb⟩
  · by_contra hx
    refine hn (.inl ⟨l, hls, he, ?_⟩)
    rintro ⟨r, hrm, _, hm⟩
    exact hx ⟨r, hi ▸ hrm, hm⟩

/-! ### C34: examples and violations -/

/-- Two quantities more: one without a record, one without a valid combination of labels. -/
def strayOps : List Op := Demo.ops ++
  [.insertQuantities2 true true .abort
    [⟨none, [['z'], ['1']], [(['c'], ['m'])], 5⟩, ⟨none, [[], ['1']], [(['c'], ['n'])], 6⟩]]

def stray : Store := run strayOps (Store.new ['u'])

theorem stray_reachable : ReachableFk stray := ⟨['u'], strayOps, by simp [strayOps, Demo.ops], rfl⟩

instance : DecidableEq (List QuantView) := inferInstance

/-- The listings and the deletion on a history with quantities of both kinds. -/
example : (stray.selectWithoutIndex true).toOption = some [⟨[], [['z'], ['1']], [some ['m']], 5⟩] ∧
    (stray.selectUnmatched true).toOption =
      some [⟨[], [['z'], ['1']], [some ['m']], 5⟩, ⟨[], [[], ['1']], [some ['n']], 6⟩] ∧
    stray.quants.length = 4 ∧ (step .deleteUnmatchedQuantities stray).1.quants = Demo.store.quants := by
  refine ⟨by decide +kernel, by decide +kernel, by decide +kernel, by decide +kernel⟩

/-- A quantity for the undefined record. -/
def undefOps : List Op := Demo.ops ++
  [.insertQuantities2 false false .abort [⟨none, [['-'], ['-']], [(['c'], ['m'])], 9⟩]]

def undef : Store := run undefOps (Store.new ['u'])

/-- The quantity of a location that matches only the undefined record is listed as one without a record, and is
deleted, although the location does match that record: the insertion accepts it as matching, and reading the
dataspace returns it for that record. -/
theorem C34_violated_undefined : ∃ s, ReachableFk s ∧ ∃ q ∈ s.quants, ¬ s.NoRecord true q ∧ s.Counted q ∧
    (∃ rows, (s.call asciiCase [] false).toOption = some rows ∧ (0, [(['c'], ['m'])], q.value) ∈ rows) ∧
    (s.selectWithoutIndex true).toOption = some [⟨[], [['-'], ['-']], [some ['m']], q.value⟩] ∧
    q ∉ (step .deleteQuantitiesWithoutIndex s).1.quants ∧ q ∉ (step .deleteUnmatchedQuantities s).1.quants := by
  have hl : undef.locs = [⟨1, [['x'], []]⟩, ⟨2, [['y'], ['1']]⟩, ⟨3, [['-'], ['-']]⟩] := by decide +kernel
  have hi : undef.index = _ := (by decide +kernel : undef.index = Demo.store.index).trans Demo.index_eq
  have hb : undef.structs.map (·.bits) = [[false, false], [true, false], [true, true]] := by decide +kernel
  refine ⟨undef, ⟨['u'], undefOps, by simp [undefOps, Demo.ops], rfl⟩, ⟨3, 3, 1, 9⟩, by decide +kernel, ?_, ?_,
    ⟨_, (by decide +kernel : (undef.call asciiCase [] false).toOption = some [(3, [(['c'], ['m'])], 7),
      (0, [(['c'], ['m'])], 9), (1, [(['c'], ['m'])], 75), (2, [(['c'], ['m'])], 25)]), by simp⟩,
    by decide +kernel, by decide +kernel, by decide +kernel⟩
  · rintro ⟨l, hlm, he, hn⟩
    rw [hl] at hlm
    simp only [List.mem_cons, List.not_mem_nil, or_false] at hlm
    rcases hlm with rfl | rfl | rfl
    · cases he
    · cases he
    · refine hn ⟨⟨0, [['-'], ['-']]⟩, by rw [hi]; simp, .inl rfl, ?_⟩
      simp [labelsMatch]
  · refine ⟨⟨3, [['-'], ['-']]⟩, by rw [hl]; simp, rfl, ?_⟩
    have : [true, true] ∈ undef.structs.map (·.bits) := by rw [hb]; simp
    obtain ⟨st, h1, h2⟩ := List.mem_map.1 this
    exact ⟨st, h1, h2⟩

/-- After the dataspace was reopened, the deletion removes locations but not their quantities: the listing is empty
although the unmatched quantities are still stored. -/
theorem C34_violated_reopened : ∃ s, Reachable s ∧ (s.selectUnmatched true).toOption ≠ some [] ∧
    (step .deleteUnmatchedQuantities s).2 = .ok () ∧
    (step .deleteUnmatchedQuantities s).1.quants = s.quants ∧
    ((step .deleteUnmatchedQuantities s).1.selectUnmatched true).toOption = some [] := by
  refine ⟨run (strayOps ++ [.reopen]) (Store.new ['u']), ⟨_, _, rfl⟩, by decide +kernel, by decide +kernel,
    by decide +kernel, by decide +kernel⟩

/-- Without a header row, a listing is either empty or fails. -/
theorem C34_list_no_header {s : Store} (hr : ReachableFk s) :
    (s.selectUnmatched false).toOption = some [] ∨ s.selectUnmatched false = .error (.nameError "attr_cols") := by
  unfold Store.selectUnmatched Store.quantViewsHeader
  rw [if_neg (by simp)]
  generalize s.nonmatchingLocs = ls
  induction ls with
  | nil => exact .inl rfl
  | cons l ls ih =>
    unfold flatMapE
    rcases hq : s.quants.filter (fun q => q.loc == l.id) with _ | ⟨q, qs⟩
    all_goals simp only [hq]
    · rcases ih with ih | ih
      · left
        generalize flatMapE _ ls = r at ih
        rcases r with e | r
        · cases ih
        · simpa [bind, Except.bind, List.mapM_nil, pure, Except.pure] using ih
      · right
        simp only [bind, Except.bind] at ih ⊢
        rw [ih]
        rfl
    · right
      have hm : q ∈ s.quants := List.mem_of_mem_filter (by rw [hq]; simp)
      obtain ⟨g, hg, hgi⟩ := hr.refInv.ags q hm
      have : ∃ a, s.getAttrs q.ag = .ok a := by
        unfold Store.getAttrs
        rcases hf : s.agroups.find? (fun g => g.id == q.ag) with _ | x
        · exact absurd (List.find?_eq_none.1 hf g hg) (by simpa using hgi)
        · rw [hf]
          exact ⟨_, rfl⟩
      obtain ⟨a, ha⟩ := this
      rw [List.mapM_cons, ha]
      rfl

/-- So that it fails whenever there is something to list. -/
theorem C34_violated_header : ∃ s, ReachableFk s ∧ (∃ rows, s.selectUnmatched true = .ok rows ∧ rows.length = 2) ∧
    s.selectUnmatched false = .error (.nameError "attr_cols") := by
  refine ⟨stray, stray_reachable, ?_, ?_⟩
  · rcases h : stray.selectUnmatched true with e | rows
    · have : (stray.selectUnmatched true).toOption.isSome = true := by decide +kernel
      rw [h] at this
      cases this
    · have : (stray.selectUnmatched true).toOption.map List.length = some 2 := by decide +kernel
      rw [h] at this
      exact ⟨rows, rfl, by simpa [Except.toOption] using this⟩
  · rcases C34_list_no_header stray_reachable with h | h
    · exact absurd h (by decide +kernel)
    · exact h

end Toron.Space
