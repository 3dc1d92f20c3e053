/-
C131: disaggregation on the legacy class with versions of SQLite before 3.25 (`DataAccessLayerPre25` in `src/toron/_dal.py`).
-/
import Verif.Model.Legacy.OldDisaggregate
import Verif.Spec.LegacyOldDisaggregate
import Verif.Props.LegacySplit
import Verif.Lemmas.Legacy.Complete

namespace Toron.Legacy

open Toron.Selectors (PyStr Sel CaseMap Row)
open Toron.Space (IndexRec Attrs)

private theorem split_congr {n : Node} {F G : Fraction} {bits : List Bool} {srcs : List Source}
    (h : ∀ s ∈ srcs, ∀ x ∈ n.rowsFor bits s, F s (n.rowsFor bits s) x = G s (n.rowsFor bits s) x) :
    n.split F bits srcs = n.split G bits srcs := by
  unfold Node.split
  refine List.flatMap_congr fun s hs => List.map_congr_left fun x hx => ?_
  rw [h s hs x hx]

/-- The records that fit are those in the place. -/
private theorem fitting_eq {n : Node} (hi : Inv n) (h2 : Inv2 n) {s : Source} (hs : s.labels.length = n.cols.length) :
    n.fittingRecords (pattern s.labels) s = n.index.filter fun r => decide (IndexRec.inPlace s.labels r) := by
  unfold Node.fittingRecords
  refine List.filter_congr fun r hr => ?_
  rw [Bool.eq_iff_iff, fitsMask_iff (by simp [pattern]) ((hi.len r hr).trans hs.symm) (h2.filled r hr)]
  simp only [decide_eq_true_eq]
  exact ⟨fun h => h.2, fun h => ⟨rfl, h⟩⟩

private theorem mem_takers_iff {n : Node} {g i : Nat} {labels : List PyStr} : i ∈ (n.takers g labels).map (·.1) ↔
    ∃ r ∈ n.index, r.id = i ∧ IndexRec.inPlace labels r ∧ ∃ w ∈ n.weights, w.group = g ∧ w.index = r.id := by
  constructor
  · intro h
    obtain ⟨x, hx, rfl⟩ := List.mem_map.1 h
    obtain ⟨r, hr, he, hp, w, hw, h1, h2, _⟩ := mem_takers hx
    exact ⟨r, hr, he, hp, w, hw, h1, h2⟩
  · rintro ⟨r, hr, rfl, hp, w, hw, h1, h2⟩
    refine List.mem_map.2 ⟨(r.id, w.value), ?_, rfl⟩
    unfold Node.takers Node.indexRecords
    refine List.mem_flatMap.2 ⟨r, hr, ?_⟩
    rw [if_pos hp]
    exact List.mem_map.2 ⟨w, List.mem_filter.2 ⟨hw, by simp [h1, h2]⟩, rfl⟩

/-- If all records in the place that meet a condition have weights, and no others, then these are the takers. -/
private theorem takers_perm {n : Node} (hi : Inv n) {g : Nat} {labels : List PyStr} (P : IndexRec → Bool)
    (h : ∀ r ∈ n.index, IndexRec.inPlace labels r → (P r = true ↔ ∃ w ∈ n.weights, w.group = g ∧ w.index = r.id)) :
    ((n.takers g labels).map (·.1)).Perm
      (((n.index.filter fun r => decide (IndexRec.inPlace labels r)).filter P).map (·.id)) := by
  rw [List.perm_ext_iff_of_nodup (takers_nodup hi g labels)
    (hi.ids.sublist ((List.filter_sublist.trans List.filter_sublist).map _))]
  intro i
  rw [mem_takers_iff, List.mem_map]
  constructor
  · rintro ⟨r, hr, he, hp, hw⟩
    exact ⟨r, List.mem_filter.2 ⟨List.mem_filter.2 ⟨hr, by simpa using hp⟩, (h r hr hp).2 hw⟩, he⟩
  · rintro ⟨r, hr, he⟩
    obtain ⟨hr, hP⟩ := List.mem_filter.1 hr
    obtain ⟨hr, hp⟩ := List.mem_filter.1 hr
    have hp : IndexRec.inPlace labels r := by simpa using hp
    exact ⟨r, hr, he, hp, (h r hr hp).1 hP⟩

private theorem oldStatic_eq {n : Node} (hi : Inv n) (h2 : Inv2 n) {s : Source} (hs : s.labels.length = n.cols.length)
    (hd : n.Divisible s.weighting s.labels) (x : Nat × ℚ) :
    n.oldStaticFraction (pattern s.labels) s (n.takers s.weighting s.labels) x =
      staticFraction s (n.takers s.weighting s.labels) x := by
  unfold Node.oldStaticFraction staticFraction
  rcases hd with h | h
  · have h : ¬ weightSum (n.takers s.weighting s.labels) = 0 := h
    rw [if_neg h, if_neg h]
  · have hp := takers_perm hi (g := s.weighting) (labels := s.labels) (fun _ => true)
      fun r hr hp => ⟨fun _ => h r hr hp, fun _ => rfl⟩
    have hl := hp.length_eq
    rw [List.filter_true, List.length_map, List.length_map] at hl
    rw [fitting_eq hi h2 hs, ← hl]

private theorem sum_filterMap {α : Type} (l : List α) (f : α → Option ℚ) :
    (l.filterMap f).sum = (l.map fun x => (f x).getD 0).sum := by
  induction l with
  | nil => rfl
  | cons x l ih =>
    rw [List.filterMap_cons, List.map_cons, List.sum_cons]
    cases h : f x with
    | none => simpa using ih
    | some v => simpa using ih

private theorem earlier_zero {keys : List PyStr} {prev : List Piece} (h : ∀ p ∈ prev, p.index ≠ 0) (a : Attrs) :
    earlier keys prev a 0 = none := by
  unfold earlier
  cases keepKeys keys a with
  | none => rfl
  | some k =>
    have : (prev.filter fun p => p.index == 0 && keepKeys keys p.attrs == some k) = [] := by
      rw [List.filter_eq_nil_iff]
      intro p hp
      have := h p hp
      simp [this]
    simp only [this, if_true]

private theorem oldAdaptive_eq {n : Node} (hi : Inv n) (h2 : Inv2 n) (hw : WPos n) {s : Source}
    (hs : s.labels.length = n.cols.length) (hd : n.Divisible s.weighting s.labels) (hc : n.covers s.weighting)
    {keys : List PyStr} {prev : List Piece} (hprev : ∀ p ∈ prev, p.index ≠ 0) (x : Nat × ℚ) :
    n.oldAdaptiveFraction (pattern s.labels) keys prev s (n.takers s.weighting s.labels) x =
      adaptiveFraction keys prev s (n.takers s.weighting s.labels) x := by
  unfold Node.oldAdaptiveFraction adaptiveFraction
  dsimp only
  have hp := takers_perm hi (g := s.weighting) (labels := s.labels) (fun r => decide (r.id ≠ 0)) (by
    intro r hr _
    simp only [decide_eq_true_eq]
    constructor
    · exact hc r hr
    · rintro ⟨w, hwm, _, he⟩
      have := hw w hwm
      omega)
  have hsum : ((n.fittingRecords (pattern s.labels) s).filterMap fun r => earlier keys prev s.attrs r.id).sum =
      ((n.takers s.weighting s.labels).filterMap fun y => earlier keys prev s.attrs y.1).sum := by
    rw [sum_filterMap, sum_filterMap, fitting_eq hi h2 hs]
    have h := (hp.map fun i => (earlier keys prev s.attrs i).getD 0).sum_eq
    rw [List.map_map, List.map_map] at h
    refine Eq.trans ?_ h.symm
    generalize (n.index.filter fun r => decide (IndexRec.inPlace s.labels r)) = l
    induction l with
    | nil => rfl
    | cons r l ih =>
      rw [List.map_cons, List.sum_cons, ih, List.filter_cons]
      by_cases h0 : r.id = 0
      · rw [if_neg (by simp [h0]), h0, earlier_zero hprev]
        simp
      · rw [if_pos (by simp [h0])]
        simp
  rw [hsum, oldStatic_eq hi h2 hs hd]

private theorem source_of {cm : CaseMap} {n : Node} {qs : List (List PyStr × Attrs × ℚ)} {srcs : List Source}
    (hs : List.Forall₂ (fun (q : List PyStr × Attrs × ℚ) (s : Source) => s.labels = q.1 ∧
      s.attrs = q.2.1 ∧ s.value = q.2.2 ∧ n.weightingFor cm q.2.1 = .ok s.weighting) qs srcs) {s : Source} (hm : s ∈ srcs) :
    ∃ q ∈ qs, s.labels = q.1 ∧ n.weightingFor cm q.2.1 = .ok s.weighting := by
  induction hs with
  | nil => cases hm
  | cons h _ ih =>
    rcases List.mem_cons.1 hm with rfl | hm
    · exact ⟨_, List.mem_cons_self, h.1, h.2.2.2⟩
    · obtain ⟨q, hq, e⟩ := ih hm
      exact ⟨q, List.mem_cons_of_mem _ hq, e⟩

private theorem ok_bind {α β : Type} (x : α) (f : α → Except Err β) : (Except.ok x >>= f) = f x := rfl

private theorem error_bind {α β : Type} (e : Err) (f : α → Except Err β) : ((Except.error e : Except Err α) >>= f) = .error e := rfl

private theorem of_toOption {α : Type} {x : Except Err α} {a : α} (h : x.toOption = some a) : x = .ok a := by
  cases x with
  | error e => cases h
  | ok b =>
    injection h with h
    rw [h]

/-- **C131 (static), partial.** With a version of SQLite before 3.25, disaggregation by weights gives the same rows, or fails
with the same error, if the weights suffice for each quantity: those in its place do not add up to zero, or every record in
its place has one. -/
theorem C131_static_partial {n : Node} (hr : Reachable n) (cm : CaseMap) (lw aw : List (PyStr × PyStr))
    (h : ∀ q ∈ n.wanted aw, ∀ g, n.weightingFor cm q.2.1 = .ok g → n.levelOk q.1 → n.Divisible g q.1) :
    n.oldStaticDisaggregate cm lw aw = n.staticDisaggregate cm lw aw := by
  unfold Node.oldStaticDisaggregate Node.staticDisaggregate
  rcases hp : n.prepare cm aw with e | srcs
  · rw [error_bind, error_bind]
  obtain ⟨_, _, hs⟩ := prepare_ok hp
  rw [ok_bind, ok_bind]
  congr 2
  refine List.flatMap_congr fun st hst => split_congr fun s hsm x hx => ?_
  have hb : st.bits ∈ n.structure_ := List.mem_map_of_mem hst
  have hrow := rows_ok hr hs hb s hsm
  rw [hrow] at hx ⊢
  by_cases he : st.bits = pattern s.labels
  · rw [if_pos he, he]
    obtain ⟨q, hq, e1, e2⟩ := source_of hs hsm
    refine oldStatic_eq hr.inv hr.inv2 ?_ ?_ x
    · have := congrArg List.length he
      rw [hr.fresh.2 st hst] at this
      simpa [pattern] using this.symm
    · rw [e1]
      refine h q hq _ e2 ?_
      unfold Node.levelOk
      rw [← e1]
      rw [he] at hb
      exact hb
  · rw [if_neg he] at hx
    cases hx

/-- **C131 (adaptive), partial.** The same is true of adaptive disaggregation if moreover each weighting that is used has a
weight for every record but the undefined one. -/
theorem C131_adaptive_partial {n : Node} (hr : Reachable n) (cm : CaseMap) (keys : List PyStr) (lw aw : List (PyStr × PyStr))
    (h : ∀ q ∈ n.wanted aw, ∀ g, n.weightingFor cm q.2.1 = .ok g → n.levelOk q.1 → n.Divisible g q.1 ∧ n.covers g) :
    n.oldAdaptiveDisaggregate cm keys lw aw = n.adaptiveDisaggregate cm keys lw aw := by
  unfold Node.oldAdaptiveDisaggregate Node.adaptiveDisaggregate
  rcases hp : n.prepare cm aw with e | srcs
  · rw [error_bind, error_bind]
  obtain ⟨_, _, hs⟩ := prepare_ok hp
  rw [ok_bind, ok_bind]
  congr 2
  have hsub : ∀ b ∈ n.levels, b ∈ n.structure_ := by
    intro b hb
    have hperm : n.levels.Perm n.structure_ := by
      unfold Node.levels Node.structure_
      exact (sortedBy_perm _ _).map _
    exact hperm.mem_iff.1 hb
  have hnil : ∀ p ∈ ([] : List Piece), p.index ≠ 0 := fun p hp => by cases hp
  generalize n.levels = L at hsub
  generalize ([] : List Piece) = prev at hnil
  induction L generalizing prev with
  | nil => rfl
  | cons b L ih =>
    rw [List.foldl_cons, List.foldl_cons]
    have hb := hsub b List.mem_cons_self
    have hsplit : n.split (n.oldAdaptiveFraction b keys prev) b srcs = n.split (adaptiveFraction keys prev) b srcs := by
      refine split_congr fun s hsm x hx => ?_
      have hrow := rows_ok hr hs hb s hsm
      rw [hrow] at hx ⊢
      by_cases he : b = pattern s.labels
      · rw [if_pos he, he]
        obtain ⟨q, hq, e1, e2⟩ := source_of hs hsm
        have hlev : n.levelOk q.1 := by
          unfold Node.levelOk
          rw [← e1]
          have hb' := hb
          rw [he] at hb'
          exact hb'
        refine oldAdaptive_eq hr.inv hr.inv2 hr.wpos ?_ ?_ (h q hq _ e2 hlev).2 hnil x
        · obtain ⟨st, hst, hbe⟩ := List.mem_map.1 hb
          have := congrArg List.length (hbe.trans he)
          rw [hr.fresh.2 st hst] at this
          simpa [pattern] using this.symm
        · rw [e1]
          exact (h q hq _ e2 hlev).1
      · rw [if_neg he] at hx
        cases hx
    rw [hsplit]
    refine ih (fun c hc => hsub c (List.mem_cons_of_mem _ hc)) _ ?_
    intro p hp
    rcases List.mem_append.1 hp with hp | hp
    · unfold Node.split at hp
      obtain ⟨s, hsm, hp⟩ := List.mem_flatMap.1 hp
      rw [rows_ok hr hs hb s hsm] at hp
      obtain ⟨x, hx, rfl⟩ := List.mem_map.1 hp
      split at hx
      · obtain ⟨r, _, e, _, w, hwm, _, hwi, _⟩ := mem_takers hx
        have := hr.wpos w hwm
        show x.1 ≠ 0
        omega
      · cases hx
    · exact hnil p hp

/-- The conditions are met, and the quantity for the county is divided 3 : 4. -/
example : Reachable Demo.divided ∧ (Demo.divided.wanted []).length = 3 ∧
    (∀ q ∈ Demo.divided.wanted [], Demo.divided.Divisible 1 q.1) ∧
    (∀ q ∈ Demo.divided.wanted [], Demo.divided.weightingFor ⟨id, id⟩ q.2.1 = .ok 1) ∧ Demo.divided.covers 1 ∧
    ((Demo.divided.oldStaticDisaggregate ⟨id, id⟩ [] []).toOption.map fun out =>
      [amountOf out 1 [(['k'], ['v'])], amountOf out 2 [(['k'], ['v'])]]) = some [19, 17] :=
  ⟨⟨_, rfl⟩, by decide +kernel, by decide +kernel, by decide +kernel, by unfold Node.covers; decide +kernel,
    by decide +kernel⟩

namespace Demo

/-- Two places with weights that are zero, and a quantity without labels, which is for all of the node. -/
def zeros : Node :=
  Node.new.run [.addIndexColumns [['A']],
   .addIndexRecords [['A']] [[['x']], [['y']]],
   .addWeights [['A']] false [⟨[['x']], none, some 0⟩, ⟨[['y']], none, some 0⟩] ['w'] [['[', 'k', ']']],
   .addQuantities [⟨[(['A'], ['x'])], true, [(['k'], ['v'])], some 0⟩, ⟨[], true, [(['k'], ['v'])], some 12⟩]]

/-- A place is added after the first weighting, and has a weight only in the second. There are 10 units of one kind for the
new place and 5 of it for another, and 6 units of another kind for both. -/
def kinds : Node :=
  Node.new.run [.addIndexColumns [['A'], ['B']],
   .addIndexRecords [['A'], ['B']] [[['x'], ['1']]],
   .addWeights [['A'], ['B']] false [⟨[['x'], ['1']], none, some 1⟩] ['v'] [['[', 'k', ']']],
   .addIndexRecords [['A'], ['B']] [[['x'], ['2']]],
   .addWeights [['A'], ['B']] false [⟨[['x'], ['1']], none, some 1⟩, ⟨[['x'], ['2']], none, some 1⟩] ['w']
     [['[', 'm', ']']],
   .addPartitionDefinitions [{['A']}],
   .addQuantities [⟨[(['A'], ['x']), (['B'], ['1'])], true, [(['j'], ['c']), (['m'], ['v'])], some 5⟩,
     ⟨[(['A'], ['x']), (['B'], ['2'])], true, [(['j'], ['c']), (['m'], ['v'])], some 10⟩,
     ⟨[(['A'], ['x'])], true, [(['j'], ['c']), (['k'], ['v'])], some 6⟩]]

/-- The quantities of `kinds` with the weightings chosen for them. -/
def kindsSources : List Source :=
  [⟨[['x'], ['1']], [(['j'], ['c']), (['m'], ['v'])], 5, 2⟩, ⟨[['x'], ['2']], [(['j'], ['c']), (['m'], ['v'])], 10, 2⟩,
   ⟨[['x'], []], [(['j'], ['c']), (['k'], ['v'])], 6, 1⟩]

/-- What the first level of `kinds` gives. -/
def kindsFirst : List Piece := [⟨1, [(['j'], ['c']), (['m'], ['v'])], 5⟩, ⟨2, [(['j'], ['c']), (['m'], ['v'])], 10⟩]

end Demo

/-- **C131, violated.** A quantity without labels is for all of the node, and the undefined record counts as one of the
records in its place. With an old version of SQLite a part of such a quantity is lost if the weights are zero: 4 of 12 units
are missing, though the weighting is complete. -/
theorem C131_violated_zero : Reachable Demo.zeros ∧ Demo.zeros.covers 1 ∧
    (∀ g ∈ Demo.zeros.weightings, g.complete = true) ∧ ([[]], [(['k'], ['v'])], 12) ∈ Demo.zeros.wanted [] ∧
    ((Demo.zeros.staticDisaggregate ⟨id, id⟩ [] []).toOption.map fun out => totalOf out [(['k'], ['v'])]) = some 12 ∧
    ((Demo.zeros.oldStaticDisaggregate ⟨id, id⟩ [] []).toOption.map fun out => totalOf out [(['k'], ['v'])]) = some 8 :=
  ⟨⟨_, rfl⟩, by unfold Node.covers; decide +kernel, by decide +kernel, by decide +kernel, by decide +kernel,
    by decide +kernel⟩

/-- **C131, violated.** If a weighting has no weight for a record, which got a part of another quantity, then with an old
version of SQLite a part of the quantity is lost in adaptive disaggregation: 4 of 6 units are missing, though both weightings
are flagged complete and the weights are not zero. -/
theorem C131_violated_adaptive : Reachable Demo.kinds ∧ (∀ g ∈ Demo.kinds.weightings, g.complete = true) ∧
    ([['x'], []], [(['j'], ['c']), (['k'], ['v'])], 6) ∈ Demo.kinds.wanted [] ∧
    (∀ q ∈ Demo.kinds.wanted [], ∀ g ∈ [1, 2], Demo.kinds.weightingFor ⟨id, id⟩ q.2.1 = .ok g → Demo.kinds.Divisible g q.1) ∧
    ((Demo.kinds.adaptiveDisaggregate ⟨id, id⟩ [['j']] [] []).toOption.map fun out =>
      totalOf out [(['j'], ['c']), (['k'], ['v'])]) = some 6 ∧
    ((Demo.kinds.oldAdaptiveDisaggregate ⟨id, id⟩ [['j']] [] []).toOption.map fun out =>
      totalOf out [(['j'], ['c']), (['k'], ['v'])]) = some 2 := by
  have hp : Demo.kinds.prepare ⟨id, id⟩ [] = .ok Demo.kindsSources := by
    exact of_toOption (by decide +kernel)
  have hl : Demo.kinds.levels = [[true, true], [false, false], [true, false]] := by decide +kernel
  refine ⟨⟨_, rfl⟩, by decide +kernel, by decide +kernel, by decide +kernel, ?_, ?_⟩
  · unfold Node.adaptiveDisaggregate
    rw [hp, ok_bind, hl]
    have h1 : Demo.kinds.split (adaptiveFraction [['j']] []) [true, true] Demo.kindsSources = Demo.kindsFirst := by
      decide +kernel
    have h2 : Demo.kinds.split (adaptiveFraction [['j']] Demo.kindsFirst) [false, false] Demo.kindsSources = [] := by
      decide +kernel
    have h3 : Demo.kinds.split (adaptiveFraction [['j']] Demo.kindsFirst) [true, false] Demo.kindsSources =
        [⟨1, [(['j'], ['c']), (['k'], ['v'])], 6⟩] := by
      decide +kernel
    rw [List.foldl_cons, List.foldl_cons, List.foldl_cons, List.foldl_nil, h1, List.append_nil, h2, List.nil_append, h3]
    decide +kernel
  · unfold Node.oldAdaptiveDisaggregate
    rw [hp, ok_bind, hl]
    have h1 : Demo.kinds.split (Demo.kinds.oldAdaptiveFraction [true, true] [['j']] []) [true, true] Demo.kindsSources =
        Demo.kindsFirst := by
      decide +kernel
    have h2 : Demo.kinds.split (Demo.kinds.oldAdaptiveFraction [false, false] [['j']] Demo.kindsFirst) [false, false]
        Demo.kindsSources = [] := by
      decide +kernel
    have h3 : Demo.kinds.split (Demo.kinds.oldAdaptiveFraction [true, false] [['j']] Demo.kindsFirst) [true, false]
        Demo.kindsSources = [⟨1, [(['j'], ['c']), (['k'], ['v'])], 2⟩] := by
      decide +kernel
    rw [List.foldl_cons, List.foldl_cons, List.foldl_cons, List.foldl_nil, h1, List.append_nil, h2, List.nil_append, h3]
    decide +kernel

end Toron.Legacy
