/-
C113: how the legacy mapper makes links between two nodes out of a table.
-/
import Verif.Lemmas.Legacy.Relations
import Verif.Props.LegacyEdges
import Verif.Props.LegacyRemove

namespace Toron.Legacy

open Toron.Selectors (PyStr)
open Toron.Space (IndexRec)

private theorem ok_of {α : Type} {e : Except Err α} {a : α} (h : e.toOption = some a) : e = .ok a := by
  cases e with
  | error e => cases h
  | ok x => cases h; rfl

namespace MapDemo

/-- Three places in two counties, with weights; labels of the first column alone are allowed. -/
def node : Node := Node.new.run (Demo.places ++ [.addPartitionDefinitions [{['A']}]])

theorem node_reachable : Reachable node := ⟨_, rfl⟩

/-- The same with a second weighting. -/
def two : Node := Node.new.run (Demo.places ++ [.addPartitionDefinitions [{['A']}],
  .addWeights [['A'], ['B']] false [⟨[['x'], ['1']], none, some 1⟩, ⟨[['x'], ['2']], none, some 0⟩] ['v'] []])

theorem two_reachable : Reachable two := ⟨_, rfl⟩

/-- Two places with the weight zero. -/
def zero : Node := Node.new.run
  [.addIndexColumns [['A'], ['B']], .addPartitionDefinitions [{['A']}],
   .addIndexRecords [['A'], ['B']] [[['x'], ['1']], [['x'], ['2']]],
   .addWeights [['A'], ['B']] false [⟨[['x'], ['1']], none, some 0⟩, ⟨[['x'], ['2']], none, some 0⟩] ['w'] []]

theorem zero_reachable : Reachable zero := ⟨_, rfl⟩

def header : List PyStr := [['A'], ['B']]

def args (overlap : Bool) (weighting : Option PyStr := none) : MatchArgs := ⟨fun _ _ => true, 5, weighting, overlap⟩

/-- A place, a county with two places, a county with one place, and a place that does not exist. -/
def rows : List (Nat × List PyStr) := [(1, [['x'], ['1']]), (2, [['x'], []]), (3, [['y'], []]), (4, [['z'], []])]

/-- A table between two nodes with these places. -/
def edge : Edge where
  name := ['p']
  leftKeys := header
  rightKeys := header
  rows := [⟨1, [['x'], ['1']], [['x'], ['1']], 10⟩, ⟨2, [['x'], ['2']], [['x'], []], 7⟩, ⟨3, [['x'], []], [['y'], ['1']], 14⟩,
    ⟨4, [['y'], ['1']], [['z'], []], 100⟩]
  toLeft := true
  toRight := true
  selectors := []

def left : Linked := ⟨['l'], node, Links.new (node.index.map (·.id))⟩
def right : Linked := ⟨['r'], node, Links.new (node.index.map (·.id))⟩

end MapDemo

/-! ### Matching -/

/-- **C113** A row whose labels fit exactly one record is matched with this record, with all of its value. -/
theorem C113_single {n : Node} (hr : Reachable n) {a : MatchArgs} {header : List PyStr} {rows : List (Nat × List PyStr)}
    {found : List Found} (hn : (rows.map (·.1)).Nodup) (h : n.findMatches a header rows = .ok found) {run : Nat}
    {labels : List PyStr} (hm : (run, labels) ∈ rows) {r : IndexRec} (hf : n.fitting header labels = [r]) :
    partsOf found run = [(r.id, 1)] := by
  have := found_run hn h hm
  rw [(fit_exact hr).2 ⟨r, hf, rfl⟩] at this
  exact partsOf_exact this

/-- **C113** A row whose labels fit no record is matched with no record. -/
theorem C113_none {n : Node} (hr : Reachable n) {a : MatchArgs} {header : List PyStr} {rows : List (Nat × List PyStr)}
    {found : List Found} (hn : (rows.map (·.1)).Nodup) (h : n.findMatches a header rows = .ok found) {run : Nat}
    {labels : List PyStr} (hm : (run, labels) ∈ rows) (hf : n.fitting header labels = []) : partsOf found run = [] := by
  rw [partsOf_eq, List.map_eq_nil_iff, List.filter_eq_nil_iff]
  intro m hmf hrun
  have hrun : m.run = run := by simpa using hrun
  obtain ⟨l, hl, h1 | ⟨w, k, all, _, _, h1, _⟩⟩ := found_ok h m hmf
  · rw [hrun] at hl
    rw [run_unique hn hl hm] at h1
    obtain ⟨r, hr', _⟩ := (fit_exact hr).1 h1.2.2
    rw [hf] at hr'
    cases hr'
  · rw [hrun] at hl
    rw [run_unique hn hl hm] at h1
    have := (fit_ambiguous hr).1 h1
    rw [hf] at this
    simp at this
    omega

/-- **C113** A row whose labels fit several records is only matched with some of them if their columns are a level of the
structure and the records are no more than the limit. No part is negative. -/
theorem C113_ambiguous {n : Node} (hr : Reachable n) {a : MatchArgs} {header : List PyStr} {rows : List (Nat × List PyStr)}
    {found : List Found} (hn : (rows.map (·.1)).Nodup) (h : n.findMatches a header rows = .ok found) {run : Nat}
    {labels : List PyStr} (hm : (run, labels) ∈ rows) (hf : 2 ≤ (n.fitting header labels).length)
    (hp : partsOf found run ≠ []) :
    n.columnsUsed header labels ∈ n.structs.map (·.bits) ∧ ((n.fitting header labels).length : ℚ) ≤ a.limit ∧
      ∀ p ∈ partsOf found run, p.1 ∈ (n.fitting header labels).map (·.id) ∧ 0 ≤ p.2 := by
  have key : ∀ m ∈ found, m.run = run → ∃ w k all, m.weight = some w ∧ 0 ≤ w ∧
      n.fit a.limit (whereOf header labels) = .ambiguous k ∧
      n.weightRows a.weighting (whereOf header labels) = .ok all ∧ (m.index, some w) ∈ all := by
    intro m hmf hrun
    obtain ⟨l, hl, h1 | ⟨w, k, all, h2, h3, h1, _, h5, h6⟩⟩ := found_ok h m hmf
    · rw [hrun] at hl
      rw [run_unique hn hl hm] at h1
      obtain ⟨r, hr', _⟩ := (fit_exact hr).1 h1.2.2
      rw [hr'] at hf
      simp at hf
    · rw [hrun] at hl
      rw [run_unique hn hl hm] at h1 h5
      exact ⟨w, k, all, h2, h3, h1, h5, h6⟩
  have hw := partsOf_weights (found := found) (run := run) fun m hmf hrun => by
    obtain ⟨w, _, _, hw, _⟩ := key m hmf hrun
    exact ⟨w, hw⟩
  have hnn : ∀ m ∈ found.filter (fun m => m.run == run), 0 ≤ m.weight.getD 0 := by
    intro m hmf
    obtain ⟨w, _, _, hw, h0, _⟩ := key m (List.mem_filter.1 hmf).1 (by simpa using (List.mem_filter.1 hmf).2)
    rw [hw]
    exact h0
  obtain ⟨p, hpm⟩ := List.exists_mem_of_ne_nil _ hp
  have hfit : ∃ k, n.fit a.limit (whereOf header labels) = .ambiguous k := by
    rw [partsOf_eq] at hpm
    obtain ⟨m, hmf, _⟩ := List.mem_map.1 hpm
    obtain ⟨_, k, _, _, _, hk, _⟩ := key m (List.mem_filter.1 hmf).1 (by simpa using (List.mem_filter.1 hmf).2)
    exact ⟨k, hk⟩
  obtain ⟨k, hk⟩ := hfit
  obtain ⟨e, _, hlim, hstr⟩ := (fit_ambiguous hr).1 hk
  refine ⟨hstr, by rw [e]; exact hlim, ?_⟩
  intro p hpm
  rw [hw] at hpm
  obtain ⟨m, hmf, rfl⟩ := List.mem_map.1 hpm
  obtain ⟨w, _, all, _, _, _, hall, hin⟩ := key m (List.mem_filter.1 hmf).1 (by simpa using (List.mem_filter.1 hmf).2)
  obtain ⟨⟨r, hr1, hr2⟩, _⟩ := mem_weightRows hr hall hin
  refine ⟨List.mem_map.2 ⟨r, hr1, hr2⟩, ?_⟩
  dsimp only
  split_ifs
  · exact zero_le_one
  · refine div_nonneg (hnn m hmf) (List.sum_nonneg ?_)
    intro x hx
    obtain ⟨m', hm', rfl⟩ := List.mem_map.1 hx
    exact hnn m' hm'

/-- **C113, partial** If no weight is zero, the parts of a row that is matched with any records add up to one. With weights of
zero it is not so (`C113_violated_zero`). -/
theorem C113_whole_partial {n : Node} (hr : Reachable n) {a : MatchArgs} {header : List PyStr} {rows : List (Nat × List PyStr)}
    {found : List Found} (hn : (rows.map (·.1)).Nodup) (h : n.findMatches a header rows = .ok found) {run : Nat}
    {labels : List PyStr} (hm : (run, labels) ∈ rows) (hz : ∀ w ∈ n.weights, w.value ≠ 0) (hp : partsOf found run ≠ []) :
    ((partsOf found run).map (·.2)).sum = 1 := by
  by_cases hx : ∃ i, n.fit a.limit (whereOf header labels) = .exact i
  · obtain ⟨i, hi⟩ := hx
    have := found_run hn h hm
    rw [hi] at this
    rw [partsOf_exact this]
    simp
  · have key : ∀ m ∈ found, m.run = run → ∃ w, m.weight = some w ∧ 0 < w := by
      intro m hmf hrun
      obtain ⟨l, hl, h1 | ⟨w, k, all, h2, h3, h1, _, h5, h6⟩⟩ := found_ok h m hmf
      · rw [hrun] at hl
        rw [run_unique hn hl hm] at h1
        exact absurd ⟨_, h1.2.2⟩ hx
      · obtain ⟨_, x, hx1, _, hx2⟩ := mem_weightRows hr h5 h6
        exact ⟨w, h2, lt_of_le_of_ne h3 fun e => hz x hx1 (hx2.trans e.symm)⟩
    rw [partsOf_weights fun m hmf hrun => (key m hmf hrun).imp fun _ hw => hw.1, List.map_map]
    refine sum_div_eq_one (f := fun m => m.weight.getD 0) (ne_of_gt ?_)
    apply List.sum_pos
    · intro x hx
      obtain ⟨m, hmf, rfl⟩ := List.mem_map.1 hx
      obtain ⟨w, hw, h0⟩ := key m (List.mem_filter.1 hmf).1 (by simpa using (List.mem_filter.1 hmf).2)
      rw [hw]
      exact h0
    · intro e
      apply hp
      rw [partsOf_eq, List.map_eq_nil_iff]
      exact List.map_eq_nil_iff.1 e

private theorem weights_one {n : Node} (hr : Reachable n) {g : Weighting} (hg : n.weightings = [g]) (i : Nat) :
    (n.weights.filter fun w => w.index == i) = [] ∨
      ∃ x, (n.weights.filter fun w => w.index == i) = [x] ∧ n.weightIn g.id i = x.value := by
  have hgr : ∀ w ∈ n.weights, w.group = g.id := by
    intro w hw
    obtain ⟨_, g', hg', e⟩ := hr.inv.weightRefs w hw
    rw [hg, List.mem_singleton] at hg'
    rw [← e, hg']
  have hin : n.weightIn g.id i = ((n.weights.filter fun w => w.index == i).map (·.value)).sum := by
    unfold Node.weightIn
    congr 2
    apply List.filter_congr
    intro w hw
    rw [Bool.eq_iff_iff]
    simp [hgr w hw]
  rw [hin]
  rcases hx : n.weights.filter fun w => w.index == i with _ | ⟨x, _ | ⟨y, ys⟩⟩
  · exact .inl hx
  · exact .inr ⟨x, hx, by rw [hx]; simp⟩
  · have hxm : x ∈ n.weights.filter fun w => w.index == i := by rw [hx]; simp
    have hym : y ∈ n.weights.filter fun w => w.index == i := by rw [hx]; simp
    have hs : ((n.weights.filter fun w => w.index == i).map fun w => (w.group, w.index)).Nodup :=
      hr.inv.pairs.sublist (List.filter_sublist.map _)
    rw [hx] at hs
    rw [List.mem_filter] at hxm hym
    have h1 : x.index = i := by simpa using hxm.2
    have h2 : y.index = i := by simpa using hym.2
    simp [hgr x hxm.1, hgr y hym.1, h1, h2] at hs

private theorem weightRows_one {n : Node} (hr : Reachable n) {g : Weighting} (hg : n.weightings = [g]) {name : Option PyStr}
    {header labels : List PyStr} {all : List (Nat × Option ℚ)} (h : n.weightRows name (whereOf header labels) = .ok all) :
    ∃ f : IndexRec → Option ℚ, (∀ r w, f r = some w → w = n.weightIn g.id r.id) ∧
      all = (n.fitting header labels).map fun r => (r.id, f r) := by
  unfold Node.weightRows at h
  cases hname : name.or n.default with
  | none => rw [hname] at h; cases h
  | some nm =>
    rw [hname] at h
    simp only at h
    split at h
    · injection h with h
      refine ⟨fun r => if (n.weights.filter fun w => w.index == r.id) = [] then none else some (n.weightIn g.id r.id), ?_, ?_⟩
      · intro r w e
        dsimp only at e
        split_ifs at e
        injection e with e
        exact e.symm
      · rw [← h, recordsWhere_eq hr, List.map_eq_flatMap]
        congr 1
        funext r
        dsimp only
        rcases weights_one hr hg r.id with e | ⟨x, e, hx⟩
        · rw [e, if_pos rfl]
        · rw [e, hx, if_neg (by simp)]
          rfl
    · cases h

/-- **C113, partial** On a node with one weighting, a row whose labels fit several records is divided among the records it is
matched with in proportion to their weights; if matches may overlap these are all records that fit. With more weightings it is
not so, even if one of them is named (`C113_violated_weights`). -/
theorem C113_parts_partial {n : Node} (hr : Reachable n) {a : MatchArgs} {header : List PyStr} {rows : List (Nat × List PyStr)}
    {found : List Found} (hn : (rows.map (·.1)).Nodup) (h : n.findMatches a header rows = .ok found) {run : Nat}
    {labels : List PyStr} (hm : (run, labels) ∈ rows) (hf : 2 ≤ (n.fitting header labels).length)
    (hp : partsOf found run ≠ []) {g : Weighting} (hg : n.weightings = [g]) :
    ∃ matched : List IndexRec, matched.Sublist (n.fitting header labels) ∧
      (a.overlap = true → matched = n.fitting header labels) ∧
      ((matched.map fun r => n.weightIn g.id r.id).sum ≠ 0 →
        partsOf found run = matched.map fun r =>
          (r.id, n.weightIn g.id r.id / (matched.map fun r => n.weightIn g.id r.id).sum)) := by
  obtain ⟨h1, h2, _⟩ := C113_ambiguous hr hn h hm hf hp
  have hk := (fit_ambiguous hr (limit := a.limit)).2 ⟨rfl, hf, h2, h1⟩
  rcases found_ambiguous hn h hm hk with he | ⟨all, hall, p, hov, hsome, heq⟩
  · exact absurd (by rw [partsOf_eq, he]; rfl) hp
  obtain ⟨f, hw, rfl⟩ := weightRows_one hr hg hall
  refine ⟨(n.fitting header labels).filter fun r => p r.id, List.filter_sublist, ?_, ?_⟩
  · intro ho
    rw [List.filter_eq_self]
    intro r _
    exact hov ho r.id
  · intro hs
    rw [List.filter_map] at heq hsome
    have hval : ∀ r ∈ (n.fitting header labels).filter (fun r => p r.id), f r = some (n.weightIn g.id r.id) := by
      intro r hr'
      obtain ⟨w, hw', _⟩ := hsome (r.id, f r) (List.mem_map.2 ⟨r, hr', rfl⟩)
      have hw' : f r = some w := hw'
      rw [hw', hw r w hw']
    have hq : found.filter (fun m => m.run == run) = ((n.fitting header labels).filter fun r => p r.id).map fun r =>
        (⟨run, r.id, some (n.weightIn g.id r.id), some (n.levelOf (whereOf header labels))⟩ : Found) := by
      rw [heq, List.map_map]
      apply List.map_congr_left
      intro r hr'
      simp [hval r hr']
    rw [partsOf_weights, hq]
    · simp only [List.map_map, Function.comp_def, Option.getD_some]
      apply List.map_congr_left
      intro r _
      rw [if_neg hs]
    · intro m hmf hrun
      have : m ∈ found.filter fun m => m.run == run := List.mem_filter.2 ⟨hmf, by simpa using hrun⟩
      rw [hq] at this
      obtain ⟨r, _, rfl⟩ := List.mem_map.1 this
      exact ⟨_, rfl⟩

/-- The rows of the example: all of the first and the third, 3/7 and 4/7 of the second, and nothing of the last. -/
example : (MapDemo.node.findMatches (MapDemo.args true) MapDemo.header MapDemo.rows).toOption.map
      (fun f => MapDemo.rows.map fun r => partsOf f r.1) = some [[(1, 1)], [(1, 3 / 7), (2, 4 / 7)], [(3, 1)], []] ∧
    MapDemo.rows.map (fun r => (MapDemo.node.fitting MapDemo.header r.2).map (·.id)) = [[1], [1, 2], [3], []] ∧
    (MapDemo.rows.map (·.1)).Nodup ∧ (∀ w ∈ MapDemo.node.weights, w.value ≠ 0) ∧ MapDemo.node.weightings.length = 1 :=
  ⟨by decide +kernel, by decide +kernel, by decide, by decide +kernel, by decide +kernel⟩

/-! ### Relations -/

/-- **C113** The relations between two records add up to the sum over all rows of the table of the value times the parts of the
row that belong to the records. -/
theorem C113_pairs (rows : List TableRow) (src dst : List Found) (source index : Nat) :
    relationTotal (relations rows src dst) source index =
      (rows.map fun r => r.value * (partOf src r.run source * partOf dst r.run index)).sum :=
  relationTotal_eq rows src dst source index

/-- **C113, partial** If no weight is zero, the values of all relations add up to the values of the rows that are matched on both
sides. -/
theorem C113_conserves_partial {left right : Node} (hl : Reachable left) (hr : Reachable right) {e : Edge} {a : MatchArgs}
    {fl fr : List Found} (hn : (e.rows.map (·.run)).Nodup) (h : e.found a left right = .ok (fl, fr))
    (h1 : ∀ w ∈ left.weights, w.value ≠ 0) (h2 : ∀ w ∈ right.weights, w.value ≠ 0) :
    ((relations e.rows fl fr).map (·.2.2)).sum =
      ((e.rows.filter fun r => decide (partsOf fl r.run ≠ [] ∧ partsOf fr r.run ≠ [])).map (·.value)).sum := by
  unfold Edge.found at h
  obtain ⟨l, hfl, h⟩ := Toron.MappingCsv.bindE_ok.1 h
  obtain ⟨r, hfr, h⟩ := Toron.MappingCsv.bindE_ok.1 h
  cases h
  rw [relations_total, filter_map_sum]
  congr 1
  apply List.map_congr_left
  intro x hx
  have hl1 : partsOf fl x.run ≠ [] → ((partsOf fl x.run).map (·.2)).sum = 1 :=
    C113_whole_partial hl (by rw [List.map_map]; exact hn) hfl (List.mem_map.2 ⟨x, hx, rfl⟩) h1
  have hr1 : partsOf fr x.run ≠ [] → ((partsOf fr x.run).map (·.2)).sum = 1 :=
    C113_whole_partial hr (by rw [List.map_map]; exact hn) hfr (List.mem_map.2 ⟨x, hx, rfl⟩) h2
  by_cases e1 : partsOf fl x.run = []
  · simp [e1]
  · by_cases e2 : partsOf fr x.run = []
    · simp [e2]
    · rw [hl1 e1, hr1 e2]
      simp [e1, e2]

/-! ### Links -/

private theorem found_of {e : Edge} {a : MatchArgs} {left right : Node} {fl fr : List Found}
    (h : e.found a left right = .ok (fl, fr)) :
    left.findMatches a e.leftKeys (e.rows.map fun r => (r.run, r.left)) = .ok fl ∧
      right.findMatches a e.rightKeys (e.rows.map fun r => (r.run, r.right)) = .ok fr := by
  unfold Edge.found at h
  obtain ⟨l, hfl, h⟩ := Toron.MappingCsv.bindE_ok.1 h
  obtain ⟨r, hfr, h⟩ := Toron.MappingCsv.bindE_ok.1 h
  cases h
  exact ⟨hfl, hfr⟩

private theorem found_index {n : Node} (hr : Reachable n) {a : MatchArgs} {header : List PyStr} {rows : List (Nat × List PyStr)}
    {found : List Found} (h : n.findMatches a header rows = .ok found) :
    ∀ m ∈ found, m.index ∈ n.index.map (·.id) ∧ 0 ≤ proportionIn found m := by
  have hw : ∀ m ∈ found, 0 ≤ m.weight.getD 0 := by
    intro m hm
    obtain ⟨l, hl, ⟨e, _⟩ | ⟨w, _, _, e, h0, _⟩⟩ := found_ok h m hm
    · rw [e]; exact le_refl _
    · rw [e]; exact h0
  intro m hm
  have hfit : ∀ labels, ∀ r ∈ n.fitting header labels, r.id ∈ n.index.map (·.id) := fun labels r hr' =>
    List.mem_map_of_mem (List.mem_filter.1 hr').1
  constructor
  · obtain ⟨l, hl, ⟨_, _, e⟩ | ⟨w, _, all, _, _, _, _, h5, h6⟩⟩ := found_ok h m hm
    · obtain ⟨r, e1, e2⟩ := (fit_exact hr).1 e
      rw [← e2]
      exact hfit l r (by rw [e1]; simp)
    · obtain ⟨⟨r, h7, h8⟩, _⟩ := mem_weightRows hr h5 h6
      rw [← h8]
      exact hfit l r h7
  · unfold proportionIn
    rcases hmw : m.weight with _ | w
    · exact zero_le_one
    · have h0 := hw m hm
      rw [hmw] at h0
      dsimp only
      split_ifs
      · exact zero_le_one
      · refine div_nonneg h0 (List.sum_nonneg ?_)
        intro x hx
        obtain ⟨m', hm', rfl⟩ := List.mem_map.1 hx
        exact hw m' (List.mem_filter.1 hm').1

private theorem relations_ok {rows : List TableRow} {src dst : List Found} (hv : ∀ r ∈ rows, 0 ≤ r.value)
    (hs : ∀ m ∈ src, 0 ≤ proportionIn src m) (hd : ∀ m ∈ dst, 0 ≤ proportionIn dst m) :
    ∀ g ∈ relations rows src dst, 0 ≤ g.2.2 ∧ ∃ m ∈ dst, m.index = g.2.1 := by
  intro g hg
  unfold relations at hg
  obtain ⟨k, hk, rfl⟩ := List.mem_map.1 hg
  rw [mem_sortedBy, List.mem_dedup] at hk
  refine ⟨List.sum_nonneg ?_, ?_⟩
  · intro x hx
    obtain ⟨p, hp, rfl⟩ := List.mem_map.1 hx
    have hp := (List.mem_filter.1 hp).1
    unfold relationPieces at hp
    obtain ⟨r, hr, hp⟩ := List.mem_flatMap.1 hp
    obtain ⟨a, ha, hp⟩ := List.mem_flatMap.1 hp
    obtain ⟨b, hb, rfl⟩ := List.mem_map.1 hp
    exact mul_nonneg (hv r hr) (mul_nonneg (hs a (List.mem_filter.1 ha).1) (hd b (List.mem_filter.1 hb).1))
  · obtain ⟨b, hb, e, _⟩ := mem_pieces hk
    exact ⟨b, hb, e⟩

/-- **C113** If the rows could be matched, no value is negative, neither node has a link of this name from the other one and no
transaction is open, the links are added. -/
theorem C113_succeeds {left right : Linked} (hl : Reachable left.node) (hr : Reachable right.node) (hll : left.links.Reachable)
    (hrl : right.links.Reachable) (il : left.links.index = left.node.index.map (·.id))
    (ir : right.links.index = right.node.index.map (·.id)) {e : Edge} {a : MatchArgs} {fl fr : List Found}
    (h : e.found a left.node right.node = .ok (fl, fr)) (hv : ∀ r ∈ e.rows, 0 ≤ r.value)
    (sl : left.links.stuck = false) (sr : right.links.stuck = false) (nl : left.links.find right.uid e.name = none)
    (nr : right.links.find left.uid e.name = none) : (e.add a left right).2.2 = .ok () := by
  obtain ⟨h1, h2⟩ := found_of h
  have i1 := found_index hl h1
  have i2 := found_index hr h2
  have a1 : (left.links.add right.uid e.name (relations e.rows fr fl) e.selectors none).2 = .ok () := by
    rw [C111_add hll]
    refine ⟨sl, nl, ?_, ?_⟩
    · exact fun g hg => (relations_ok hv (fun m hm => (i2 m hm).2) (fun m hm => (i1 m hm).2) g hg).1
    · intro g hg
      obtain ⟨m, hm, e⟩ := (relations_ok hv (fun m hm => (i2 m hm).2) (fun m hm => (i1 m hm).2) g hg).2
      rw [il, ← e]
      exact (i1 m hm).1
  have a2 : (right.links.add left.uid e.name (relations e.rows fl fr) e.selectors none).2 = .ok () := by
    rw [C111_add hrl]
    refine ⟨sr, nr, ?_, ?_⟩
    · exact fun g hg => (relations_ok hv (fun m hm => (i1 m hm).2) (fun m hm => (i2 m hm).2) g hg).1
    · intro g hg
      obtain ⟨m, hm, e⟩ := (relations_ok hv (fun m hm => (i1 m hm).2) (fun m hm => (i2 m hm).2) g hg).2
      rw [ir, ← e]
      exact (i2 m hm).1
  unfold Edge.add
  rw [h]
  dsimp only
  cases e.toLeft <;> cases e.toRight <;> simp [a1, a2]

/-- **C113, partial** If matches must not overlap, the value that a new link has for a pair of records is the sum over all rows of
the value times the parts that belong to the records. With overlapping matches it is not so (`C113_violated_levels`). -/
theorem C113_stored_partial {left right : Linked} (hll : left.links.Reachable) (hrl : right.links.Reachable) {e : Edge}
    {a : MatchArgs} (ho : a.overlap = false) {fl fr : List Found} (h : e.found a left.node right.node = .ok (fl, fr))
    (hok : (e.add a left right).2.2 = .ok ()) :
    (e.toLeft = true → ∃ x, (e.add a left right).1.links.find right.uid e.name = some x ∧ x.selectors = e.selectors ∧
      ∀ s i, ¬ (s = 0 ∧ i = 0) → ((e.add a left right).1.links.valueOf x.id s i).getD 0 =
        (e.rows.map fun r => r.value * (partOf fr r.run s * partOf fl r.run i)).sum) ∧
    (e.toRight = true → ∃ x, (e.add a left right).2.1.links.find left.uid e.name = some x ∧ x.selectors = e.selectors ∧
      ∀ s i, ¬ (s = 0 ∧ i = 0) → ((e.add a left right).2.1.links.valueOf x.id s i).getD 0 =
        (e.rows.map fun r => r.value * (partOf fl r.run s * partOf fr r.run i)).sum) := by
  obtain ⟨h1, h2⟩ := found_of h
  have k1 := relations_keys (rows := e.rows) (src := fr) (found_level ho h1)
  have k2 := relations_keys (rows := e.rows) (src := fl) (found_level ho h2)
  unfold Edge.add at hok ⊢
  rw [h] at hok ⊢
  dsimp only at hok ⊢
  constructor
  · intro hto
    rw [hto] at hok ⊢
    simp only [if_true] at hok ⊢
    rcases ha : (left.links.add right.uid e.name (relations e.rows fr fl) e.selectors none).2 with err | u
    · rw [ha] at hok; cases hok
    · rw [ha] at hok
      dsimp only at hok ⊢
      obtain ⟨x, x1, x2, _, x3, _⟩ := C111_values hll ha
      refine ⟨x, x1, x2, fun s i hsi => ?_⟩
      rw [x3, if_neg hsi, filter_key_length k1, relationTotal_eq]
  · intro hto
    rw [hto] at hok ⊢
    simp only [if_true] at hok ⊢
    rcases ha : (if e.toLeft = true then left.links.add right.uid e.name (relations e.rows fr fl) e.selectors none
      else (left.links, .ok ())).2 with err | u
    · rw [ha] at hok; cases hok
    · rw [ha] at hok
      dsimp only at hok ⊢
      obtain ⟨x, x1, x2, _, x3, _⟩ := C111_values hrl hok
      refine ⟨x, x1, x2, fun s i hsi => ?_⟩
      rw [x3, if_neg hsi, filter_key_length k2, relationTotal_eq]

/-- **C113** If the rows cannot be matched, neither node is changed. -/
theorem C113_failed {left right : Linked} {e : Edge} {a : MatchArgs} {err : Err}
    (h : e.found a left.node right.node = .error err) : e.add a left right = (left, right, .error err) := by
  unfold Edge.add
  rw [h]

/-- The values of a link for some pairs of records. -/
private def MapDemo.values (l : Links) (other name : PyStr) (pairs : List (Nat × Nat)) : Option (List (Option ℚ)) :=
  (l.find other name).map fun x => pairs.map fun p => l.valueOf x.id p.1 p.2

/-- The table of the example, which does not overlap on the left: what the rows are divided into, and what is stored. The last
row does not fit the right node and is left out; the second one is only matched with the record that is left. -/
example : ((MapDemo.edge.found (MapDemo.args false) MapDemo.node MapDemo.node).toOption.map fun f =>
      (MapDemo.edge.rows.map (fun r => partsOf f.1 r.run), MapDemo.edge.rows.map fun r => partsOf f.2 r.run)) =
      some ([[(1, 1)], [(2, 1)], [], [(3, 1)]], [[(1, 1)], [(2, 1)], [(3, 1)], []]) ∧
    (MapDemo.edge.add (MapDemo.args false) MapDemo.left MapDemo.right).2.2.toBool = true ∧
    MapDemo.values (MapDemo.edge.add (MapDemo.args false) MapDemo.left MapDemo.right).2.1.links ['l'] ['p']
      [(0, 0), (1, 1), (2, 2), (2, 1), (3, 3)] = some [some 0, some 10, some 7, none, none] ∧
    MapDemo.left.links.Reachable ∧ MapDemo.left.links.index = MapDemo.left.node.index.map (·.id) ∧
    (MapDemo.edge.rows.map (·.run)).Nodup ∧ (∀ r ∈ MapDemo.edge.rows, 0 ≤ r.value) :=
  ⟨by decide +kernel, by decide +kernel, by decide +kernel, ⟨_, [], MapDemo.node_reachable.inv.ids, by decide +kernel, rfl⟩, rfl,
    by decide, by decide +kernel⟩

/-- A limit below one cannot be matched. -/
example : (MapDemo.edge.found ⟨fun _ _ => true, 0, none, true⟩ MapDemo.node MapDemo.node).toBool = false := by decide +kernel

/-! ### Violations -/

/-- **C113 violated** With two weightings, a row is not divided by the weighting that is named: the weights of all weightings are
used. Here the named weighting gives the first record everything, but it gets 4/8 and the other one 4/8. -/
theorem C113_violated_weights : ∃ n : Node, Reachable n ∧ ∃ (header labels : List PyStr) (g : Weighting) (found : List Found),
    g ∈ n.weightings ∧ g.name = ['v'] ∧ (n.fitting header labels).map (·.id) = [1, 2] ∧ n.weightIn g.id 1 = 1 ∧
    n.weightIn g.id 2 = 0 ∧ n.findMatches (MapDemo.args true (some ['v'])) header [(1, labels)] = .ok found ∧
    partOf found 1 1 = 1 / 2 ∧ partOf found 1 2 = 1 / 2 := by
  refine ⟨MapDemo.two, MapDemo.two_reachable, MapDemo.header, [['x'], []], ⟨2, ['v'], [], false⟩,
    [⟨1, 1, some 3, some [true, false]⟩, ⟨1, 1, some 1, some [true, false]⟩, ⟨1, 2, some 4, some [true, false]⟩,
      ⟨1, 2, some 0, some [true, false]⟩], by decide +kernel, rfl, by decide +kernel, by decide +kernel, by decide +kernel, ?_,
    by decide +kernel, by decide +kernel⟩
  exact ok_of (by decide +kernel)

/-- **C113 violated** If the weights of all records that fit are zero, each of them gets all of the row: its value is doubled. -/
theorem C113_violated_zero : ∃ n : Node, Reachable n ∧ ∃ (header labels : List PyStr) (found : List Found),
    n.findMatches (MapDemo.args true) header [(1, labels)] = .ok found ∧ partsOf found 1 = [(1, 1), (2, 1)] ∧
    ((relations [⟨1, labels, labels, 5⟩] [⟨1, 1, none, none⟩] found).map (·.2.2)).sum = 10 := by
  refine ⟨MapDemo.zero, MapDemo.zero_reachable, MapDemo.header, [['x'], []],
    [⟨1, 1, some 0, some [true, false]⟩, ⟨1, 2, some 0, some [true, false]⟩], ?_, by decide +kernel, by decide +kernel⟩
  exact ok_of (by decide +kernel)

/-- **C113 violated** Without overlapping, a row that fits several records is lost without an error if all of them are matched
with other rows. -/
theorem C113_violated_swallowed : ∃ n : Node, Reachable n ∧ (∀ w ∈ n.weights, w.value ≠ 0) ∧
    ∃ (header : List PyStr) (rows : List (Nat × List PyStr)) (found : List Found),
    n.findMatches (MapDemo.args false) header rows = .ok found ∧ (3, [['x'], []]) ∈ rows ∧
    n.columnsUsed header [['x'], []] ∈ n.structs.map (·.bits) ∧ (n.fitting header [['x'], []]).length = 2 ∧
    partsOf found 3 = [] := by
  refine ⟨MapDemo.node, MapDemo.node_reachable, by decide +kernel, MapDemo.header,
    [(1, [['x'], ['1']]), (2, [['x'], ['2']]), (3, [['x'], []])], [⟨1, 1, none, none⟩, ⟨2, 2, none, none⟩], ?_, by simp,
    by decide +kernel, by decide +kernel, by decide +kernel⟩
  exact ok_of (by decide +kernel)

/-- A table in which a place is named by itself and by its county. -/
private def MapDemo.overlapping : Edge :=
  { MapDemo.edge with rows := [⟨1, [['x'], ['1']], [['x'], ['1']], 10⟩, ⟨2, [['x'], ['1']], [['x'], []], 7⟩], toLeft := false }

/-- **C113 violated** If matches may overlap, only the value of one level is stored for a pair of records: of 10 and 3 only one is
left. -/
theorem C113_violated_levels : ∃ (left right : Linked) (e : Edge) (fl fr : List Found), Reachable left.node ∧
    Reachable right.node ∧ right.links.Reachable ∧ e.found (MapDemo.args true) left.node right.node = .ok (fl, fr) ∧
    (e.add (MapDemo.args true) left right).2.2 = .ok () ∧
    (e.rows.map fun r => r.value * (partOf fl r.run 1 * partOf fr r.run 1)).sum = 13 ∧
    ∃ x, (e.add (MapDemo.args true) left right).2.1.links.find left.uid e.name = some x ∧
      (e.add (MapDemo.args true) left right).2.1.links.valueOf x.id 1 1 = some 3 := by
  refine ⟨MapDemo.left, MapDemo.right, MapDemo.overlapping, [⟨1, 1, none, none⟩, ⟨2, 1, none, none⟩],
    [⟨1, 1, none, none⟩, ⟨2, 1, some 3, some [true, false]⟩, ⟨2, 2, some 4, some [true, false]⟩], MapDemo.node_reachable,
    MapDemo.node_reachable, ⟨_, [], MapDemo.node_reachable.inv.ids, by decide +kernel, rfl⟩,
    ok_of (by decide +kernel), ok_of (by decide +kernel), by decide +kernel,
    ⟨1, ['p'], ['l'], [], false, true⟩, by decide +kernel, by decide +kernel⟩

/-- **C113 violated** If the second link cannot be added, the first one stays: the call fails and one node is changed. -/
theorem C113_violated_half : ∃ (left right : Linked) (e : Edge), Reachable left.node ∧ Reachable right.node ∧
    left.links.Reachable ∧ right.links.Reachable ∧ (e.add (MapDemo.args false) left right).2.2.toBool = false ∧
    left.links.find right.uid e.name = none ∧
    ((e.add (MapDemo.args false) left right).1.links.find right.uid e.name).isSome = true := by
  refine ⟨MapDemo.left, { MapDemo.right with links := (MapDemo.right.links.run [.add ['l'] ['p'] [(1, 1, 1)] [] none]) },
    MapDemo.edge, MapDemo.node_reachable, MapDemo.node_reachable,
    ⟨_, [], MapDemo.node_reachable.inv.ids, by decide +kernel, rfl⟩,
    ⟨_, _, MapDemo.node_reachable.inv.ids, by decide +kernel, rfl⟩, by decide +kernel, by decide +kernel, by decide +kernel⟩

end Toron.Legacy
