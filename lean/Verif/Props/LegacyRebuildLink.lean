/-
C127: a link of a legacy node is made again after columns were removed.
-/
import Verif.Spec.RebuildLink
import Verif.Props.LegacyLinkRoundtrip

namespace Toron.Legacy

open Toron.Selectors (PyStr)
open Toron.Space (IndexRec)

theorem rebuilt_runs (index : List IndexRec) (rels : List Kept) : ((rebuiltRows index rels).map (·.run)).Nodup := by
  unfold rebuiltRows
  rw [List.map_map]
  have : ((definedRows index rels).zipIdx 1).map ((fun r : TableRow => r.run) ∘ fun p : (Nat × LinkRow) × Nat =>
      (⟨p.2, [], p.1.2.labels.map fun l => l.getD [], p.1.2.value.getD 0⟩ : TableRow)) =
      ((definedRows index rels).zipIdx 1).map Prod.snd := rfl
  rw [this, List.zipIdx_map_snd]
  exact List.nodup_range'

theorem filter_single {α β : Type} [DecidableEq β] {f : α → β} {l : List α} (hn : (l.map f).Nodup) {x : α} (hx : x ∈ l) :
    (l.filter fun y => f y == f x) = [x] := by
  induction l with
  | nil => cases hx
  | cons a l ih =>
    rw [List.map_cons, List.nodup_cons] at hn
    rcases List.mem_cons.1 hx with rfl | hx
    · rw [List.filter_cons_of_pos (by simp), List.filter_eq_nil_iff.2]
      intro y hy he
      exact hn.1 (List.mem_map.2 ⟨y, hy, by simpa using he⟩)
    · rw [List.filter_cons_of_neg, ih hn.2 hx]
      intro he
      exact hn.1 (List.mem_map.2 ⟨x, hx, (by simpa using he : f a = f x).symm⟩)

theorem zipIdx_runs {α : Type} (l : List α) : ((l.zipIdx 1).map (·.2)).Nodup := by
  have : (l.zipIdx 1).map (fun p => p.2) = (l.zipIdx 1).map Prod.snd := rfl
  rw [this, List.zipIdx_map_snd]
  exact List.nodup_range'

theorem parts_assigned {index : List IndexRec} {rels : List Kept} {p : (Nat × LinkRow) × Nat}
    (hp : p ∈ (definedRows index rels).zipIdx 1) : partsOf (assigned index rels) p.2 = [(p.1.1, 1)] := by
  rw [partsOf_eq]
  have h : (assigned index rels).filter (fun m => m.run == p.2) = [⟨p.2, p.1.1, none, none⟩] := by
    have hm : (⟨p.2, p.1.1, none, none⟩ : Found) ∈ assigned index rels := List.mem_map.2 ⟨p, hp, rfl⟩
    refine filter_single (f := fun m : Found => m.run) ?_ hm
    unfold assigned
    rw [List.map_map]
    exact zipIdx_runs _
  rw [h]
  rfl

theorem partOf_assigned {index : List IndexRec} {rels : List Kept} {p : (Nat × LinkRow) × Nat}
    (hp : p ∈ (definedRows index rels).zipIdx 1) (j : Nat) :
    partOf (assigned index rels) p.2 j = if p.1.1 = j then 1 else 0 := by
  unfold partOf
  rw [parts_assigned hp]
  by_cases h : p.1.1 = j <;> simp [h]

theorem mem_defined {index : List IndexRec} {rels : List Kept} {o : Nat} {x : LinkRow} :
    (o, x) ∈ definedRows index rels ↔ x ∈ reconstructed index rels ∧ x.other = some o := by
  unfold definedRows
  rw [List.mem_filterMap]
  constructor
  · rintro ⟨y, hy, he⟩
    cases ho : y.other with
    | none => rw [ho] at he; cases he
    | some o' =>
      rw [ho, Option.map_some, Option.some_inj, Prod.mk.injEq] at he
      rw [← he.2, ← he.1]
      exact ⟨hy, ho⟩
  · rintro ⟨hx, ho⟩
    exact ⟨x, hx, by rw [ho]; rfl⟩

theorem defined_nodup (index : List IndexRec) (rels : List Kept) : ((definedRows index rels).map (·.2)).Nodup := by
  have h : (reconstructed index rels).Nodup := List.Nodup.of_map _ (C121_once index rels)
  have e : (definedRows index rels).map (·.2) = (reconstructed index rels).filter fun x => x.other.isSome := by
    unfold definedRows
    generalize reconstructed index rels = l
    induction l with
    | nil => rfl
    | cons x l ih =>
      cases ho : x.other with
      | none =>
        rw [List.filterMap_cons_none (by rw [ho]; rfl), List.filter_cons_of_neg (by rw [ho]; simp), ih]
      | some o =>
        rw [List.filterMap_cons_some (by rw [ho]; rfl), List.filter_cons_of_pos (by rw [ho]; rfl), List.map_cons, ih]
  rw [e]
  exact h.filter _

/-- Sums over the rows with a record of the other node. -/
theorem defined_sum (index : List IndexRec) (rels : List Kept) (g : LinkRow → ℚ) (j : Nat) :
    (((definedRows index rels).zipIdx 1).map fun p => if p.1.1 = j then g p.1.2 else 0).sum =
      (((reconstructed index rels).filter fun x => x.other = some j).map g).sum := by
  have e : ((definedRows index rels).zipIdx 1).map (fun p => if p.1.1 = j then g p.1.2 else 0) =
      (definedRows index rels).map fun q => if q.1 = j then g q.2 else 0 := by
    have : ((definedRows index rels).zipIdx 1).map (fun p => if p.1.1 = j then g p.1.2 else 0) =
        (((definedRows index rels).zipIdx 1).map Prod.fst).map fun q => if q.1 = j then g q.2 else 0 := by
      rw [List.map_map]
      rfl
    rw [this, List.zipIdx_map_fst]
  rw [e]
  unfold definedRows
  generalize reconstructed index rels = l
  induction l with
  | nil => rfl
  | cons x l ih =>
    cases ho : x.other with
    | none =>
      rw [List.filterMap_cons_none (by rw [ho]; rfl), List.filter_cons_of_neg (by rw [ho]; simp), ih]
    | some o =>
      rw [List.filterMap_cons_some (by rw [ho]; rfl), List.map_cons, List.sum_cons, ih]
      by_cases h : o = j
      · rw [if_pos h, List.filter_cons_of_pos (by rw [ho, h]; simp), List.map_cons, List.sum_cons]
      · rw [if_neg h, List.filter_cons_of_neg (by rw [ho]; simp [h]), zero_add]

/-- A row has been placed. -/
def KeptRow (index : List IndexRec) (rels : List Kept) (dst : List Found) (x : LinkRow) : Prop :=
  ∃ p ∈ (definedRows index rels).zipIdx 1, p.1.2 = x ∧ partsOf dst p.2 ≠ []

theorem keptRow_iff {index : List IndexRec} {rels : List Kept} (dst : List Found) {p : (Nat × LinkRow) × Nat}
    (hp : p ∈ (definedRows index rels).zipIdx 1) : KeptRow index rels dst p.1.2 ↔ partsOf dst p.2 ≠ [] := by
  constructor
  · rintro ⟨q, hq, he, h⟩
    have hn : (((definedRows index rels).zipIdx 1).map (·.1.2)).Nodup := by
      have : ((definedRows index rels).zipIdx 1).map (fun p => p.1.2) =
          (((definedRows index rels).zipIdx 1).map Prod.fst).map (·.2) := by
        rw [List.map_map]
        rfl
      rw [this, List.zipIdx_map_fst]
      exact defined_nodup _ _
    have : q = p := List.inj_on_of_nodup_map hn hq hp he
    rw [← this]
    exact h
  · exact fun h => ⟨p, hp, rfl, h⟩

open Classical in
/-- **C127, partial.** A link that is made again shows the same rows as before, except for rows that are left out (`kept` says which
are not). For every record of the other node, the rows that are shown are those that were kept, with the labels with which they come
back, and the value is the sum of their values. A row that fits just one record is kept; one that fits none, or more than 12, or several
although its columns are no category, is left out. No weight may be zero. What is missing: all rows should be kept, see
`C127_violated_limit`, and the call should not fail, see `C127_violated_name`. -/
theorem C127_rows_partial {n : Node} (hr : Reachable n) {before : List PyStr → List PyStr → Bool} {link : Nat} {name : PyStr}
    {rels rels' : List Kept} (hz : ∀ w ∈ n.weights, w.value ≠ 0) (h : n.rebuildLink before link name rels = .ok rels') :
    ∃ kept : LinkRow → Prop,
      (∀ x ∈ reconstructed n.index rels, x.other ≠ none → (n.fitting n.cols x.filled).length = 1 → kept x) ∧
      (∀ x, kept x → n.Placeable x) ∧
      (∀ j ≠ 0, ∀ given v, ⟨some j, v, given⟩ ∈ reconstructed n.index rels' ↔
        (∃ x ∈ reconstructed n.index rels, x.other = some j ∧ kept x ∧ n.labelsAgain x = given) ∧
          v = some (((reconstructed n.index rels).filter fun x => x.other = some j ∧ kept x ∧ n.labelsAgain x = given).map
            fun x => x.value.getD 0).sum) ∧
      (∀ j ≠ 0, shownTotal (reconstructed n.index rels') j =
        shownTotal ((reconstructed n.index rels).filter fun x => kept x) j) := by
  unfold Node.rebuildLink at h
  cases hf : n.findMatches ⟨before, 12, some name, false⟩ n.cols ((rebuiltRows n.index rels).map fun r => (r.run, r.right)) with
  | error e => rw [hf] at h; cases h
  | ok dst =>
  rw [hf] at h
  have h : Except.ok (storedRelations link (rebuiltRows n.index rels) (assigned n.index rels) dst) = Except.ok rels' := h
  cases h
  have hn := rebuilt_runs n.index rels
  have hn' : (((rebuiltRows n.index rels).map fun r => (r.run, r.right)).map (·.1)).Nodup := by rw [List.map_map]; exact hn
  have hrow : ∀ p ∈ (definedRows n.index rels).zipIdx 1, (p.2, p.1.2.filled) ∈ (rebuiltRows n.index rels).map fun r => (r.run, r.right) := by
    intro p hp
    refine List.mem_map.2 ⟨_, List.mem_map.2 ⟨p, hp, rfl⟩, rfl⟩
  have hin : ∀ x ∈ reconstructed n.index rels, ∀ o, x.other = some o → ∃ p ∈ (definedRows n.index rels).zipIdx 1, p.1 = (o, x) := by
    intro x hx o ho
    have : (o, x) ∈ ((definedRows n.index rels).zipIdx 1).map Prod.fst := by
      rw [List.zipIdx_map_fst]
      exact mem_defined.2 ⟨hx, ho⟩
    obtain ⟨p, hp, he⟩ := List.mem_map.1 this
    exact ⟨p, hp, he⟩
  have hout : ∀ p ∈ (definedRows n.index rels).zipIdx 1, p.1.2 ∈ reconstructed n.index rels ∧ p.1.2.other = some p.1.1 := by
    intro p hp
    have : p.1 ∈ ((definedRows n.index rels).zipIdx 1).map Prod.fst := List.mem_map_of_mem hp
    rw [List.zipIdx_map_fst] at this
    exact mem_defined.1 this
  refine ⟨KeptRow n.index rels dst, ?_, ?_, ?_, ?_⟩
  · intro x hx ho h1
    obtain ⟨o, ho⟩ := Option.ne_none_iff_exists'.1 ho
    obtain ⟨p, hp, he⟩ := hin x hx o ho
    obtain ⟨r, hf1⟩ := List.length_eq_one_iff.1 h1
    refine ⟨p, hp, by rw [he], ?_⟩
    have := hrow p hp
    rw [he] at this
    rw [C113_single hr hn' hf this hf1]
    simp
  · rintro x ⟨p, hp, rfl, hk⟩
    unfold Node.Placeable
    have hne : n.fitting n.cols p.1.2.filled ≠ [] := fun e => hk (C113_none hr hn' hf (hrow p hp) e)
    have hpos := List.length_pos_iff.2 hne
    by_cases h2 : 2 ≤ (n.fitting n.cols p.1.2.filled).length
    · obtain ⟨a1, a2, -⟩ := C113_ambiguous hr hn' hf (hrow p hp) h2 hk
      have a2 : ((n.fitting n.cols p.1.2.filled).length : ℚ) ≤ 12 := a2
      exact Or.inr ⟨h2, by exact_mod_cast a2, a1⟩
    · exact Or.inl (by omega)
  · intro j hj given v
    have hex : (∃ v, ⟨some j, v, given⟩ ∈ reconstructed n.index (storedRelations link (rebuiltRows n.index rels) (assigned n.index rels) dst)) ↔
        ∃ x ∈ reconstructed n.index rels, x.other = some j ∧ KeptRow n.index rels dst x ∧ n.labelsAgain x = given := by
      rw [C123_rows hr hn hf link hj]
      constructor
      · rintro ⟨y, hy, h1, h2, h3⟩
        obtain ⟨p, hp, rfl⟩ := List.mem_map.1 hy
        rw [parts_assigned hp] at h2
        have h2 : j = p.1.1 := by simpa using h2
        obtain ⟨a1, a2⟩ := hout p hp
        exact ⟨p.1.2, a1, by rw [a2, h2], (keptRow_iff dst hp).2 h3, h1⟩
      · rintro ⟨x, hx, ho, hk, hl⟩
        obtain ⟨p, hp, he⟩ := hin x hx j ho
        have hk' := (keptRow_iff dst hp).1 (by rw [he]; exact hk)
        refine ⟨_, List.mem_map.2 ⟨p, hp, rfl⟩, ?_, ?_, hk'⟩
        · rw [he]
          exact hl
        · rw [parts_assigned hp, he]
          simp
    have hval : ∀ v, ⟨some j, v, given⟩ ∈ reconstructed n.index (storedRelations link (rebuiltRows n.index rels) (assigned n.index rels) dst) →
        v = some (((reconstructed n.index rels).filter fun x => x.other = some j ∧ KeptRow n.index rels dst x ∧ n.labelsAgain x = given).map
            fun x => x.value.getD 0).sum := by
      intro v hv
      rw [C123_value_partial hr rfl hn hf hz hj hv, Option.some_inj, filter_map_sum]
      unfold rebuiltRows
      rw [List.map_map]
      have : ((reconstructed n.index rels).filter fun x => decide (x.other = some j ∧ KeptRow n.index rels dst x ∧ n.labelsAgain x = given)) =
          ((reconstructed n.index rels).filter fun x => x.other = some j).filter fun x => decide (KeptRow n.index rels dst x ∧ n.labelsAgain x = given) := by
        rw [List.filter_filter]
        apply List.filter_congr
        intro x _
        simp only [Bool.decide_and]
        rw [Bool.and_comm (decide (x.other = some j))]
      rw [this, filter_map_sum, ← defined_sum]
      congr 1
      apply List.map_congr_left
      intro p hp
      simp only [Function.comp_apply]
      rw [partOf_assigned hp]
      have hk := keptRow_iff dst hp
      by_cases hj' : p.1.1 = j
      · rw [if_pos hj', if_pos hj', mul_one]
        apply if_congr _ rfl rfl
        rw [decide_eq_true_iff, decide_eq_true_iff, hk]
        exact and_comm
      · rw [if_neg hj', if_neg hj', mul_zero]
        split_ifs <;> rfl
    constructor
    · intro hv
      exact ⟨hex.1 ⟨v, hv⟩, hval v hv⟩
    · rintro ⟨h1, rfl⟩
      obtain ⟨v, hv⟩ := hex.2 h1
      rw [← hval v hv]
      exact hv
  · intro j hj
    have hsw := stored_wellFormed hr (a := ⟨before, 12, some name, false⟩) rfl (src := assigned n.index rels) hn hf link
    have h1 : shownTotal (reconstructed n.index (storedRelations link (rebuiltRows n.index rels) (assigned n.index rels) dst)) j =
        totalFrom (storedRelations link (rebuiltRows n.index rels) (assigned n.index rels) dst) j := C121_total hsw j
    rw [h1]
    unfold totalFrom storedRelations
    rw [List.filter_append, List.map_append, List.sum_append, List.filter_filter]
    have h0 : ([⟨link, 0, 0, 0, none⟩] : List Kept).filter (fun m => decide (m.source = j)) = [] := by
      rw [List.filter_eq_nil_iff]
      intro m hm
      rw [List.mem_singleton] at hm
      subst hm
      simpa using Ne.symm hj
    rw [h0, List.map_nil, List.sum_nil, add_zero, kept_sum link _ _ _ (fun k => decide (k.1 = j))]
    · unfold shownTotal
      rw [List.filter_filter]
      have hfl : ((reconstructed n.index rels).filter fun x => decide (x.other = some j) && decide (KeptRow n.index rels dst x)) =
          ((reconstructed n.index rels).filter fun x => x.other = some j).filter fun x => decide (KeptRow n.index rels dst x) := by
        rw [List.filter_filter]
        apply List.filter_congr
        intro x _
        exact Bool.and_comm _ _
      rw [hfl, filter_map_sum, ← defined_sum]
      unfold rebuiltRows
      rw [List.map_map]
      congr 1
      apply List.map_congr_left
      intro p hp
      simp only [Function.comp_apply]
      have hsrc : (assigned n.index rels).filter (fun m => m.run == p.2) = [⟨p.2, p.1.1, none, none⟩] := by
        have hm : (⟨p.2, p.1.1, none, none⟩ : Found) ∈ assigned n.index rels := List.mem_map.2 ⟨p, hp, rfl⟩
        refine filter_single (f := fun m : Found => m.run) ?_ hm
        unfold assigned
        rw [List.map_map]
        exact zipIdx_runs _
      rw [hsrc, List.map_singleton, List.sum_singleton]
      by_cases hj' : p.1.1 = j
      · rw [if_pos hj']
        simp only [hj', decide_true, if_true]
        have hone : proportionIn (assigned n.index rels) ⟨p.2, j, none, none⟩ = 1 := rfl
        simp only [hone, one_mul]
        by_cases hk : KeptRow n.index rels dst p.1.2
        · rw [if_pos (decide_eq_true hk)]
          have := C113_whole_partial hr hn' hf (hrow p hp) hz ((keptRow_iff dst hp).1 hk)
          rw [partsOf_eq, List.map_map] at this
          rw [List.sum_map_mul_left]
          have e : ((dst.filter fun b => b.run == p.2).map fun b => proportionIn dst b).sum = 1 := this
          rw [e, mul_one]
        · rw [if_neg (by simpa using hk)]
          have hnil : partsOf dst p.2 = [] := by
            by_contra hne
            exact hk ((keptRow_iff dst hp).2 hne)
          rw [partsOf_eq, List.map_eq_nil_iff] at hnil
          rw [hnil]
          rfl
      · rw [if_neg hj']
        simp only [hj', decide_false, Bool.false_eq_true, if_false]
        simp
    · intro s i l v
      by_cases hs : s = j
      · have : s ≠ 0 := hs ▸ hj
        simp [this]
      · simp [hs]

namespace MapDemo

/-- A link to the county `x` (divided by the weights 3 and 4), and to the place in the county `y`. -/
def kept : List Kept := [⟨1, 5, 1, 3, some [128]⟩, ⟨1, 5, 2, 4, some [128]⟩, ⟨1, 6, 3, 2, none⟩, ⟨1, 0, 0, 0, none⟩]

/-- A county with 13 places. -/
def places : List PyStr := ['a', 'b', 'c', 'd', 'e', 'f', 'g', 'h', 'i', 'j', 'k', 'l', 'm'].map fun c => [c]

/-- A node with 13 places in one county, each with the weight 1. -/
def large : Node := Node.new.run
  [.addIndexColumns [['A'], ['B']], .addPartitionDefinitions [{['A']}],
   .addIndexRecords [['A'], ['B']] (places.map fun p => [['x'], p]),
   .addWeights [['A'], ['B']] false (places.map fun p => ⟨[['x'], p], none, some 1⟩) ['w'] []]

/-- A link to the county with 13 places. -/
def keptLarge : List Kept := (List.range' 1 13).map (fun i => ⟨1, 5, i, 1, some [128]⟩) ++ [⟨1, 0, 0, 0, none⟩]

end MapDemo

/-- The hypotheses of `C127_rows_partial` can be met: the link is called like the weighting. The row of the county fits two records and
the row of the place one. -/
example : Reachable MapDemo.node ∧ (∀ w ∈ MapDemo.node.weights, w.value ≠ 0) ∧
    (MapDemo.node.rebuildLink (fun _ _ => true) 1 ['w'] MapDemo.kept).toBool = true ∧
    ⟨some 5, some 7, [some ['x'], none]⟩ ∈ reconstructed MapDemo.node.index MapDemo.kept ∧
    ⟨some 6, some 2, [some ['y'], some ['1']]⟩ ∈ reconstructed MapDemo.node.index MapDemo.kept ∧
    (MapDemo.node.fitting MapDemo.node.cols [['x'], []]).length = 2 ∧
    (MapDemo.node.fitting MapDemo.node.cols [['y'], ['1']]).length = 1 :=
  ⟨MapDemo.node_reachable, by decide +kernel, by decide +kernel, by decide +kernel, by decide +kernel, by decide +kernel,
    by decide +kernel⟩

/-- **C127, violated.** A link can only be made again if there is a weighting that is called like the link: otherwise the removal of
the columns fails, although the link was made with another weighting that is still there. -/
theorem C127_violated_name : Reachable MapDemo.node ∧ MapDemo.node.weightings.map (·.name) = [['w']] ∧
    WellFormed MapDemo.node.index MapDemo.kept ∧
    (MapDemo.node.rebuildLink (fun _ _ => true) 1 ['w'] MapDemo.kept).toBool = true ∧
    ∃ tag, MapDemo.node.rebuildLink (fun _ _ => true) 1 ['p'] MapDemo.kept = .error (.keyError tag) := by
  refine ⟨MapDemo.node_reachable, by decide +kernel,
    ⟨MapDemo.node_reachable.inv.ids, MapDemo.node_reachable.inv.labels, by decide, by decide +kernel⟩, by decide +kernel, "name", ?_⟩
  have h : (match MapDemo.node.rebuildLink (fun _ _ => true) 1 ['p'] MapDemo.kept with
      | .error e => some e
      | .ok _ => none) = some (.keyError "name") := by decide +kernel
  generalize MapDemo.node.rebuildLink (fun _ _ => true) 1 ['p'] MapDemo.kept = x at h
  cases x with
  | error e =>
    have h : some e = some (.keyError "name") := h
    rw [Option.some_inj.1 h]
  | ok y => cases h

/-- **C127, violated.** A row that fits more than 12 records is lost without an error: nothing is left of the total of the record of
the other node. -/
theorem C127_violated_limit : Reachable MapDemo.large ∧ (∀ w ∈ MapDemo.large.weights, w.value ≠ 0) ∧
    WellFormed MapDemo.large.index MapDemo.keptLarge ∧ shownTotal (reconstructed MapDemo.large.index MapDemo.keptLarge) 5 = 13 ∧
    ∃ rels', MapDemo.large.rebuildLink (fun _ _ => true) 1 ['w'] MapDemo.keptLarge = .ok rels' ∧
      shownTotal (reconstructed MapDemo.large.index rels') 5 = 0 := by
  have hr : Reachable MapDemo.large := ⟨_, rfl⟩
  refine ⟨hr, by decide +kernel, ⟨hr.inv.ids, hr.inv.labels, by decide, by decide +kernel⟩, by decide +kernel, ?_⟩
  have h : (match MapDemo.large.rebuildLink (fun _ _ => true) 1 ['w'] MapDemo.keptLarge with
      | .error _ => none
      | .ok y => some (shownTotal (reconstructed MapDemo.large.index y) 5)) = some 0 := by decide +kernel
  generalize MapDemo.large.rebuildLink (fun _ _ => true) 1 ['w'] MapDemo.keptLarge = x at h
  cases x with
  | error e => cases h
  | ok y => exact ⟨y, rfl, Option.some_inj.1 h⟩

end Toron.Legacy
