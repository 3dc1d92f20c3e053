/-
C81: what holds of a legacy node after every sequence of calls. C82: adding weights to a legacy node.
-/
import Verif.Lemmas.Legacy.Tidy
import Verif.Lemmas.Legacy.Weights
import Verif.Props.LegacyRemove

namespace Toron.Legacy

open Toron.Selectors (PyStr)
open Toron.Space (IndexRec Attrs bitsOf defOf asciiLower)
open Toron.Partitions Toron.Spec

/-- **C81 (records).** After every history the undefined record is the first one and has a dash in every column; every record
has one non-empty label for each column; ids and labels are different; column names differ by more than case. -/
theorem C81_records {n : Node} (hr : Reachable n) :
    (∃ rest, n.indexRecords = ⟨0, List.replicate n.indexColumns.length ['-']⟩ :: rest ∧ ∀ r ∈ rest, 0 < r.id) ∧
    (∀ r ∈ n.indexRecords, r.labels.length = n.indexColumns.length ∧ [] ∉ r.labels) ∧
    (n.indexRecords.map (·.id)).Nodup ∧ (n.indexRecords.map (·.labels)).Nodup ∧
    (n.indexColumns.map asciiLower).Nodup :=
  ⟨hr.inv2.first, fun r hm => ⟨hr.inv.len r hm, hr.inv2.filled r hm⟩, hr.inv.ids, hr.inv.labels, hr.inv2.names⟩

/-- **C81 (ids).** An id that a record had once and that no record has later is never given to a record again. -/
theorem C81_ids {a b c : List Op} {i : Nat} (h1 : i ∈ (Node.new.run a).indexRecords.map (·.id))
    (h2 : i ∉ (Node.new.run (a ++ b)).indexRecords.map (·.id)) :
    i ∉ (Node.new.run (a ++ b ++ c)).indexRecords.map (·.id) := by
  intro h3
  have e1 : Node.new.run (a ++ b ++ c) = (Node.new.run (a ++ b)).run c := by
    unfold Node.run; rw [List.foldl_append]
  have e2 : Node.new.run (a ++ b) = (Node.new.run a).run b := by
    unfold Node.run; rw [List.foldl_append]
  rw [e1] at h3
  have hab : Reachable (Node.new.run (a ++ b)) := ⟨_, rfl⟩
  have ha : Reachable (Node.new.run a) := ⟨_, rfl⟩
  rcases (run_ids _ hab.inv c).2 i h3 with h | h
  · exact h2 h
  · obtain ⟨r, hr, e⟩ := List.mem_map.1 h1
    have h4 := ha.inv.seq r hr
    have h5 := (run_ids _ ha.inv b).1
    rw [← e2] at h5
    rw [e] at h4
    omega

/-- **C81 (references).** Every weight belongs to an index record and a weighting, every quantity to a location and a set of
attributes, and no record has two weights in one weighting. -/
theorem C81_references {n : Node} (hr : Reachable n) :
    (∀ w ∈ n.weights, (∃ r ∈ n.indexRecords, r.id = w.index) ∧ ∃ g ∈ n.weightings, g.id = w.group) ∧
    (∀ q ∈ n.quants, (∃ l ∈ n.locs, l.id = q.loc) ∧ ∃ a ∈ n.attrs, a.id = q.ag) ∧
    (n.weights.map fun w => (w.group, w.index)).Nodup ∧
    n.weightListing.length = n.weights.length ∧ n.rawQuantities.length = n.quants.length := by
  have hi := hr.inv
  refine ⟨hi.weightRefs, hi.quantRefs, hi.pairs, ?_, ?_⟩
  · rw [weightListing_eq, listing_length hi.recIds (by rw [List.map_map]; exact hi.groupIds) hi.weightRefsOk,
      List.length_map]
  · rw [rawQuantities_eq, listing_length hi.locRecIds (by rw [List.map_map]; exact hi.attrIds) hi.quantRefsOk,
      List.length_map]

/-- **C81 (hash and granularity).** After every history the stored hash is that of the ids of the current records, and the
granularity stored for each level of the structure is that of the current records. -/
theorem C81_derived {n : Node} (hr : Reachable n) :
    (n.indexHash = if ((n.indexRecords.map (·.id)).filter fun i => decide (0 < i)) = [] then none
      else some ((n.indexRecords.map (·.id)).filter fun i => decide (0 < i))) ∧
    ∀ r ∈ n.structs, r.bits.length = n.indexColumns.length ∧
      r.gran = calculateGranularitySql false (n.projected (defOf n.indexColumns r.bits)) :=
  ⟨hr.inv2.hash, fun r hm => ⟨hr.fresh.2 r hm, hr.fresh.1 r hm⟩⟩

/-- Three records of which two are merged later, then another record: the history of the examples. -/
example : 2 ∈ (Node.new.run Demo.places).indexRecords.map (·.id) ∧
    2 ∉ (Node.new.run (Demo.places ++ [.removeIndexColumns [['B']] false false])).indexRecords.map (·.id) ∧
    (Node.new.run (Demo.places ++ [.removeIndexColumns [['B']] false false, .addIndexRecords [['A']] [[['z']]]])).indexRecords.map
      (·.id) = [0, 1, 3, 4] ∧
    (Node.new.run Demo.places).indexHash = some [1, 2, 3] :=
  ⟨by decide +kernel, by decide +kernel, by decide +kernel, by decide +kernel⟩

/-- **C81 (structure), partial.** After a history in which columns are named in normal form and never renamed, and partition
definitions are made of columns, the levels of the structure are exactly the unions of the partition definitions, and all
columns together are one of them. For other histories it is not so (the theorems `C81_violated…`). -/
theorem C81_structure_partial {n : Node} (hr : ReachableTidily n) (hc : n.indexColumns ≠ []) :
    (∀ bits, bits ∈ n.structure_ ↔
      ∃ s, IsUnionOf (fun d => ∃ defs, n.partDefs = some defs ∧ d ∈ defs) s ∧ bits = n.indexColumns.map fun c => decide (c ∈ s)) ∧
    List.replicate n.indexColumns.length true ∈ n.structure_ ∧ n.structure_.Nodup := by
  have hi := hr.inv
  have hp := hi.some_ hc
  obtain ⟨D, hD⟩ : ∃ D, n.partDefs = some D := by
    cases e : n.partDefs with
    | none => exact absurd e hp
    | some D => exact ⟨D, rfl⟩
  have e : n.defs = D := by unfold Node.defs; rw [hD]; rfl
  have hb := hi.bits hp
  rw [e] at hb
  have hu : ∀ s, IsUnionOf (fun d => ∃ defs, n.partDefs = some defs ∧ d ∈ defs) s ↔ s ∈ makeStructure D := by
    intro s
    rw [C01_structure_is_exactly_the_unions]
    have : (fun d => ∃ defs, n.partDefs = some defs ∧ d ∈ defs) = (· ∈ D) := by
      funext d
      rw [hD]
      simp
    rw [this]
  refine ⟨?_, ?_, ?_⟩
  · intro bits
    rw [hb, List.mem_map]
    constructor
    · rintro ⟨s, hs, rfl⟩
      exact ⟨s, (hu s).2 hs, rfl⟩
    · rintro ⟨s, hs, rfl⟩
      exact ⟨s, (hu s).1 hs, rfl⟩
  · rw [hb, List.mem_map]
    refine ⟨n.cols.toFinset, ?_, ?_⟩
    · rw [C01_structure_is_exactly_the_unions]
      have := hi.whole hc
      rwa [e] at this
    · unfold bitsOf Node.indexColumns
      rw [List.eq_replicate_iff]
      refine ⟨by simp, ?_⟩
      intro b hb
      obtain ⟨c, hc, rfl⟩ := List.mem_map.1 hb
      simpa using hc
  · rw [hb]
    refine List.Nodup.map_on ?_ (C01_structure_nodup D)
    intro s hs t ht est
    have hsub : ∀ s ∈ makeStructure D, s ⊆ n.cols.toFinset := by
      intro s hs x hx
      obtain ⟨T, hT, hm⟩ := (C01_structure_is_exactly_the_unions D s).1 hs
      obtain ⟨t, ht, hxt⟩ := (hm x).1 hx
      exact hi.sub t (by rw [e]; exact hT t ht) hxt
    ext x
    have key : ∀ c ∈ n.cols, (c ∈ s ↔ c ∈ t) := by
      intro c hc
      have := List.map_inj_left.1 est c hc
      simpa using this
    constructor
    · intro hx
      exact (key x (by simpa using hsub s hs hx)).1 hx
    · intro hx
      exact (key x (by simpa using hsub t ht hx)).2 hx

/-- A node with two columns, a partition definition and a removed column. -/
example : ReachableTidily (((Node.new.step (.addIndexColumns [['A'], ['B'], ['C']])).step
      (.addPartitionDefinitions [{['A']}, {['B'], ['C']}])).step (.removeIndexColumns [['C']] false true)) ∧
    (((Node.new.step (.addIndexColumns [['A'], ['B'], ['C']])).step
      (.addPartitionDefinitions [{['A']}, {['B'], ['C']}])).step (.removeIndexColumns [['C']] false true)).structure_ =
      [[false, false], [true, false], [false, true], [true, true]] := by
  refine ⟨.step (.step (.step .new ?_) ?_) trivial, by decide +kernel⟩
  · show ∀ c ∈ [['A'], ['B'], ['C']], normName c = .ok c
    decide +kernel
  · show ∀ d ∈ ([{['A']}, {['B'], ['C']}] : List (Finset PyStr)), d ⊆ _
    decide +kernel

/-- **C81, violated.** Renaming a column leaves its old name in the partition definitions, and then no column can be added any
more. -/
theorem C81_violated_rename : ∃ n, Reachable n ∧ n.indexColumns = [['X'], ['B']] ∧
    n.partDefs = some [{['A'], ['B']}] ∧ n.addIndexColumns [['C']] = .error (.integrityError "structure: UNIQUE") := by
  refine ⟨Node.new.run [.addIndexColumns [['A'], ['B']], .renameIndexColumns fun c => if c = ['A'] then ['X'] else c],
    ⟨_, rfl⟩, by decide +kernel, by decide +kernel, ?_⟩
  decide +kernel

/-- **C81, violated.** Partition definitions are accepted before there are columns, and then no column can be added any
more. -/
theorem C81_violated_early : ∃ n, Reachable n ∧ n.indexColumns = [] ∧
    n = Node.new.step (.addPartitionDefinitions [{['A']}]) ∧
    n.addIndexColumns [['B']] = .error (.integrityError "UNIQUE") ∧
    n.addIndexColumns [['A']] = .error (.integrityError "UNIQUE") := by
  refine ⟨Node.new.step (.addPartitionDefinitions [{['A']}]), ⟨[.addPartitionDefinitions [{['A']}]], rfl⟩,
    by decide +kernel, rfl, ?_, ?_⟩
  · decide +kernel
  · decide +kernel

/-- **C81, violated.** Names with surrounding blanks are accepted and normalized, but the structure is made from the names as
they were given: the columns are `A` and `B` and no level contains `B`. -/
theorem C81_violated_blanks : ∃ n, Node.new.addIndexColumns [['A'], [' ', 'B']] = .ok n ∧
    n.indexColumns = [['A'], ['B']] ∧ n.partDefs = some [{['A'], ['B']}] ∧
    n.structure_ = [[false, false], [true, false]] := by
  refine ⟨Node.new.step (.addIndexColumns [['A'], [' ', 'B']]), ?_, by decide +kernel, by decide +kernel, by decide +kernel⟩
  decide +kernel

/-- **C82 (weights).** Adding weights adds one weighting, and in it a weight for exactly those rows that match exactly one
record, on that record; weights that were there stay; the new weighting is flagged complete if and only if every record
has a weight in it; the first weighting becomes the default. -/
theorem C82_added {header : List PyStr} {hasId : Bool} {rows : List WeightRow} {name : PyStr} {sel : List PyStr}
    {n n' : Node} (hr : Reachable n) (h : n.addWeights header hasId rows name sel = .ok n') :
    n'.indexRecords = n.indexRecords ∧
    ∃ g : Weighting, n'.weightings = n.weightings ++ [g] ∧ g.name = name ∧ g.selectors = sel ∧
      (∀ x ∈ n.weightings, x.id ≠ g.id ∧ x.name ≠ name) ∧
      (n'.weights.map fun x => (x.group, x.index, x.value)) = (n.weights.map fun x => (x.group, x.index, x.value)) ++
        ((n.weightsOf header rows).map fun p => (g.id, p.1, p.2)) ∧
      (g.complete = true ↔ n'.covers g.id) ∧
      n'.default = if n.weightings = [] then some name else n.default := by
  obtain ⟨h1, h2, h3, h4⟩ := addWeights_ok hr.inv2 h
  have hi' := addWeights_inv hr.inv h
  have hfresh : ∀ x ∈ n.weightings, x.id ≠ Space.nextId (n.weightings.map (·.id)) := by
    intro x hx e
    refine Space.nextId_not_mem (n.weightings.map (·.id)) ?_
    rw [← e]
    exact List.mem_map.2 ⟨x, hx, rfl⟩
  refine ⟨h1, _, h3, rfl, rfl, ?_, h2, ?_, h4⟩
  · intro x hx
    refine ⟨hfresh x hx, ?_⟩
    have := hi'.groupNames
    rw [h3, List.map_append, List.nodup_append] at this
    exact this.2.2 x.name (List.mem_map.2 ⟨x, hx, rfl⟩) name (by simp)
  · refine complete_iff hi' ?_
    intro w hw hg
    have hm : (w.group, w.index, w.value) ∈ n'.weights.map fun x => (x.group, x.index, x.value) :=
      List.mem_map.2 ⟨w, hw, rfl⟩
    rw [h2] at hm
    rcases List.mem_append.1 hm with hm | hm
    · obtain ⟨x, hx, e⟩ := List.mem_map.1 hm
      injection e with e1 _
      obtain ⟨_, g, hgm, eg⟩ := hr.inv.weightRefs x hx
      exact absurd (eg.trans (e1.trans hg)) (hfresh g hgm)
    · obtain ⟨p, hp, e⟩ := List.mem_map.1 hm
      injection e with _ e
      injection e with e _
      unfold Node.weightsOf at hp
      obtain ⟨row, _, hrow⟩ := List.mem_filterMap.1 hp
      split at hrow
      · rename_i v r hv hl
        injection hrow with hrow
        have hrm : r ∈ n.recordsLike (n.cells header row.labels) row.id := by rw [hl]; simp
        unfold Node.recordsLike at hrm
        have := (List.mem_filter.1 hrm).2
        simp only [decide_eq_true_eq] at this
        rw [← e, ← hrow]
        exact Nat.pos_of_ne_zero this.1
      · cases hrow

/-- The conditions are met: a row for a whole county matches two records and is left out. -/
example : ((Node.new.run Demo.places).addWeights [['A'], ['Z']] false
      [⟨[['y'], ['q']], none, some 2⟩, ⟨[['x'], ['q']], none, some 9⟩] ['v'] []).toBool = true ∧
    (Node.new.run Demo.places).weightsOf [['A'], ['Z']]
      [⟨[['y'], ['q']], none, some 2⟩, ⟨[['x'], ['q']], none, some 9⟩] = [(3, 2)] := by
  constructor <;> decide +kernel

/-- **C82, violated.** The flag is not touched when records are added later: a weighting is still flagged complete although a
record has no weight in it. -/
theorem C82_violated_stale : ∃ n, Reachable n ∧ ∃ g ∈ n.weightings, g.complete = true ∧ ¬ n.covers g.id := by
  refine ⟨Node.new.run (Demo.places ++ [.addIndexRecords [['A'], ['B']] [[['z'], ['1']]]]), ⟨_, rfl⟩,
    ⟨1, ['w'], [], true⟩, by decide +kernel, rfl, ?_⟩
  intro h
  have := h ⟨4, [['z'], ['1']]⟩ (by decide +kernel) (by decide)
  revert this
  decide +kernel

end Toron.Legacy
