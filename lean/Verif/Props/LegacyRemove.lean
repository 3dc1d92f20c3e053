/-
C80: removing index columns from a legacy node.
-/
import Verif.Lemmas.Legacy.Removal

namespace Toron.Legacy

open Toron.Selectors (PyStr)
open Toron.Space (IndexRec Attrs keepCols)

namespace Demo

/-- Three places in two counties, with a weight each. -/
def places : List Op :=
  [.addIndexColumns [['A'], ['B']],
   .addIndexRecords [['A'], ['B']] [[['x'], ['1']], [['x'], ['2']], [['y'], ['1']]],
   .addWeights [['A'], ['B']] false
     [⟨[['x'], ['1']], none, some 3⟩, ⟨[['x'], ['2']], none, some 4⟩, ⟨[['y'], ['1']], none, some 5⟩] ['w'] []]

/-- A row with a quantity of one kind. -/
def amount (a b : PyStr) (v : ℚ) : QuantRow := ⟨[(['A'], a), (['B'], b)], true, [(['k'], ['v'])], some v⟩

/-- With a quantity for each of the places of the first county. -/
def counted : Node :=
  Node.new.run (places ++ [.addQuantities [amount ['x'] ['1'] 10, amount ['x'] ['2'] 5]])

/-- The same, but the first quantity was given in two parts. -/
def countedTwice : Node :=
  Node.new.run (places ++ [.addQuantities [amount ['x'] ['1'] 10, amount ['x'] ['1'] 20, amount ['x'] ['2'] 5]])

end Demo

/-- **C80 (records).** After a successful removal the index records are those that have the smallest id among the records
with the same remaining labels, in the same order, with their ids and their remaining labels. -/
theorem C80_records {n n' : Node} {drop : List PyStr} {ps pg : Bool} (hr : Reachable n)
    (h : n.removeIndexColumns drop ps pg = .ok n') :
    n'.indexColumns = (n.indexColumns.filter fun c => decide (c ∉ drop)) ∧
    n'.indexRecords = (n.survivors drop).map fun r => ⟨r.id, n.remaining drop r.labels⟩ := by
  have hi := hr.inv
  have hR := removed hi h
  refine ⟨hR.cols, ?_⟩
  show n'.index = _
  rw [hR.index]
  unfold Node.survivors Node.remaining Node.indexRecords
  congr 1
  apply List.filter_congr
  intro r hm
  have h1 := not_goes_iff (keepCols n.cols drop) hi.recIds (i := r.id) (l := r.labels)
    (List.mem_map.2 ⟨r, hm, rfl⟩)
  rw [hR.recordMap_eq]
  by_cases hg : goes (mapOf n.recs (keepCols n.cols drop)) r.id = false
  · have h2 := h1.1 hg
    rw [hg]
    symm
    simp only [Bool.not_false, decide_eq_true_eq]
    intro x hx
    exact h2 (x.id, x.labels) (List.mem_map.2 ⟨x, hx, rfl⟩)
  · rw [Bool.not_eq_false] at hg
    rw [hg]
    symm
    simp only [Bool.not_true, decide_eq_false_iff_not]
    intro hall
    have := h1.2 (by
      intro x hx
      obtain ⟨y, hy, rfl⟩ := List.mem_map.1 hx
      exact hall y hy)
    rw [hg] at this
    cases this

/-- **C80 (weights).** A successful removal keeps, for each weighting and each combination of remaining labels, the total of
the weights. -/
theorem C80_weights {n n' : Node} {drop : List PyStr} {ps pg : Bool} (hr : Reachable n)
    (h : n.removeIndexColumns drop ps pg = .ok n') (labels : List PyStr) (weighting : PyStr) :
    total n'.weightListing (· = labels) weighting =
      total n.weightListing (fun l => n.remaining drop l = labels) weighting := by
  have hi := hr.inv
  have hR := removed hi h
  rw [weightListing_eq, weightListing_eq, hR.recs_eq, hR.groups, hR.amounts]
  refine total_merge (keepCols n.cols drop) hi.recIds ?_ ?_ hi.weightRefsOk (Or.inr ?_) (· = labels) weighting
  · rw [List.map_map]; exact hi.groupIds
  · rw [List.map_map]; exact hi.groupNames
  · rw [List.map_map]; exact hi.pairs

/-- **C80 (quantities), partial.** A successful removal keeps, for each set of attributes and each combination of remaining
labels, the total of the quantities, if either no records are merged or no two quantities have the same labels and
attributes. Without this condition it is not so (`C80_violated_duplicates`). -/
theorem C80_quantities_partial {n n' : Node} {drop : List PyStr} {ps pg : Bool} (hr : Reachable n)
    (h : n.removeIndexColumns drop ps pg = .ok n')
    (hd : (n.indexRecords.map fun r => n.remaining drop r.labels).Nodup ∨
      (n.rawQuantities.map fun q => (q.1, q.2.1)).Nodup)
    (labels : List PyStr) (attrs : Attrs) :
    total n'.rawQuantities (· = labels) attrs =
      total n.rawQuantities (fun l => n.remaining drop l = labels) attrs := by
  have hi := hr.inv
  have hR := removed hi h
  have hp : mapOf n.locRecs (keepCols n.cols drop) = [] ∨
      ((n.quants.map ofQuant).map fun r => (r.key, r.at_)).Nodup := by
    rcases hd with hd | hd
    · left
      rw [← hR.locationMap_eq]
      rcases hR.distinct_ with e | e
      · exact e
      · exact absurd hd e
    · right
      exact pairs_of_listing hi.quantRefsOk hi.locRecIds
        (by rw [List.map_map]; exact hi.attrIds) (by rw [← rawQuantities_eq]; exact hd)
  rw [rawQuantities_eq, rawQuantities_eq, hR.locRecs_eq, hR.attrs, hR.amounts']
  refine total_merge (keepCols n.cols drop) hi.locRecIds ?_ ?_ hi.quantRefsOk hp (· = labels) attrs
  · rw [List.map_map]; exact hi.attrIds
  · rw [List.map_map]; exact hi.attrs

/-- The conditions of the three theorems are met: removing the second column merges the two places of a county. -/
example : Reachable Demo.counted ∧ (Demo.counted.removeIndexColumns [['B']] false false).toBool = true ∧
    (Demo.counted.rawQuantities.map fun q => (q.1, q.2.1)).Nodup ∧
    (Demo.counted.survivors [['B']]).map (·.id) = [0, 1, 3] ∧
    total Demo.counted.rawQuantities (fun l => Demo.counted.remaining [['B']] l = [['x']]) [(['k'], ['v'])] = 15 ∧
    total Demo.counted.weightListing (fun l => Demo.counted.remaining [['B']] l = [['x']]) ['w'] = 7 :=
  ⟨⟨_, rfl⟩, by decide +kernel, by decide +kernel, by decide +kernel, by decide +kernel, by decide +kernel⟩

/-- **C80 (preserving).** A removal that has to preserve granularity only succeeds if no two records become equal, and then
nothing but the labels changes. -/
theorem C80_preserving {n n' : Node} {drop : List PyStr} {ps : Bool} (hr : Reachable n)
    (h : n.removeIndexColumns drop ps true = .ok n') :
    (n.indexRecords.map fun r => n.remaining drop r.labels).Nodup ∧
    n'.indexRecords = (n.indexRecords.map fun r => ⟨r.id, n.remaining drop r.labels⟩) ∧
    n'.weightListing = (n.weightListing.map fun w => (n.remaining drop w.1, w.2)) ∧
    n'.rawQuantities = n.rawQuantities.map fun q => (n.remaining drop q.1, q.2) := by
  have hi := hr.inv
  have hR := removed hi h
  have hn := preserving_nodup hi h
  have m1 : n.recordMap drop = [] := oldToNew_nil (by rw [List.map_map]; exact hn)
  have m2 : n.locationMap drop = [] := by
    rcases hR.distinct_ with e | e
    · exact e
    · exact absurd hn e
  refine ⟨hn, ?_, ?_, ?_⟩
  · show n'.index = _
    rw [hR.index, m1, filter_goes_nil]
    rfl
  · rw [hR.recordMap_eq] at m1
    rw [weightListing_eq, weightListing_eq, hR.recs_eq, hR.groups, hR.amounts, keptOf_nil m1, m1, mergeAmounts_nil,
      listing_map]
    rfl
  · rw [hR.locationMap_eq] at m2
    rw [rawQuantities_eq, rawQuantities_eq, hR.locRecs_eq, hR.attrs, hR.amounts', keptOf_nil m2, m2, mergeAmounts_nil,
      listing_map]
    rfl

example : (((Demo.counted.step (.addIndexColumns [['C']])).step
      (.addPartitionDefinitions [{['A']}, {['B']}])).removeIndexColumns [['C']] false true).toBool = true := by
  decide +kernel

/-- **C80, violated.** When a place has two quantities with the same attributes, each of them is set to the sum: the total of
the county was 35 and is 70 after removing the column that tells its places apart. -/
theorem C80_violated_duplicates : Reachable Demo.countedTwice ∧
    ∃ n', Demo.countedTwice.removeIndexColumns [['B']] false false = .ok n' ∧
      total Demo.countedTwice.rawQuantities (fun l => Demo.countedTwice.remaining [['B']] l = [['x']]) [(['k'], ['v'])] = 35 ∧
      total n'.rawQuantities (· = [['x']]) [(['k'], ['v'])] = 70 := by
  refine ⟨⟨_, rfl⟩, Demo.countedTwice.step (.removeIndexColumns [['B']] false false), ?_, by decide +kernel, by decide +kernel⟩
  decide +kernel

/-- **C80, violated.** A place whose remaining label is the dash is merged into the undefined record: after the removal no
record of the node says that there was a place `('-', '2')`, and a place with a weight makes the removal fail instead. -/
theorem C80_violated_undefined :
    (∃ n n', Reachable n ∧ n.removeIndexColumns [['B']] false false = .ok n' ∧
      (n.indexRecords.map (·.id)) = [0, 1, 2] ∧ (n'.indexRecords.map (·.id)) = [0, 1]) ∧
    ∃ n e, Reachable n ∧ n.removeIndexColumns [['B']] false false = .error e ∧ e = .integrityError "weight: CHECK" := by
  refine ⟨⟨Node.new.run [.addIndexColumns [['A'], ['B']], .addIndexRecords [['A'], ['B']] [[['x'], ['1']], [['-'], ['2']]]],
    (Node.new.run [.addIndexColumns [['A'], ['B']], .addIndexRecords [['A'], ['B']] [[['x'], ['1']], [['-'], ['2']]]]).step
      (.removeIndexColumns [['B']] false false), ⟨_, rfl⟩, by decide +kernel, by decide +kernel, by decide +kernel⟩,
    Node.new.run [.addIndexColumns [['A'], ['B']], .addIndexRecords [['A'], ['B']] [[['x'], ['1']], [['-'], ['2']]],
      .addWeights [['A'], ['B']] false [⟨[['-'], ['2']], none, some 1⟩] ['w'] []],
    .integrityError "weight: CHECK", ⟨_, rfl⟩, ?_, rfl⟩
  decide +kernel

/-- **C80, violated.** A removal that merges no records still fails when two locations become equal, although merging them
is what removing does to locations when records are merged as well. -/
theorem C80_violated_locations : ∃ n e, Reachable n ∧
    (n.indexRecords.map fun r => n.remaining [['B']] r.labels).Nodup ∧
    n.removeIndexColumns [['B']] false false = .error e ∧ e = .integrityError "UNIQUE" := by
  refine ⟨Node.new.run [.addIndexColumns [['A'], ['B']], .addIndexRecords [['A'], ['B']] [[['x'], ['1']], [['y'], ['1']]],
    .addQuantities [Demo.amount ['x'] ['1'] 1, Demo.amount ['x'] [] 2]], .integrityError "UNIQUE", ⟨_, rfl⟩,
    by decide +kernel, ?_, rfl⟩
  decide +kernel

/-- **C80, violated.** A column whose name needs quotes in SQL blocks the removal of every other column. -/
theorem C80_violated_names : ∃ n e, Reachable n ∧ n.indexColumns = [['A'], ['B'], ['n', ' ', '1']] ∧
    n.removeIndexColumns [['B']] false false = .error e ∧ e = .operationalError "syntax error" := by
  refine ⟨Node.new.run [.addIndexColumns [['A'], ['B'], ['n', ' ', '1']]], .operationalError "syntax error", ⟨_, rfl⟩,
    by decide +kernel, ?_, rfl⟩
  decide +kernel

end Toron.Legacy
