/-
C95: loading in parts, again, and in another order.
-/
import Verif.Props.StorePolicies
import Verif.Lemmas.PolicyAfter
import Verif.Lemmas.Store.Frames
import Verif.Lemmas.Store.DoesOps

namespace Toron.Space

open Toron.Selectors (PyStr)

/-! ### Weights -/

private theorem weights_table {s : Store} (hr : Reachable s) {name : PyStr} (hg : ∃ g ∈ s.wgroups, g.name = name) :
    ∃ old : Nat → Option ℚ, ∀ i, s.WeightIs name i (old i) := by
  obtain ⟨g, hg, rfl⟩ := hg
  exact ⟨fun i => s.weightOf g.id i, fun i => (weightIs_iff hr.weightInv hg).2 rfl⟩

private theorem weights_frame {s : Store} {name : PyStr} (hg : ∃ g ∈ s.wgroups, g.name = name) (hr : Reachable s) {p : Policy}
    (hp : p ≠ .other) (rows : List WeightRow) :
    (∃ g ∈ (step (.insertWeights name p rows) s).1.wgroups, g.name = name) ∧
    ∀ rows' i, (step (.insertWeights name p rows) s).1.weightsFor rows' i = s.weightsFor rows' i := by
  obtain ⟨g, hg, rfl⟩ := hg
  rcases insertWeights_spec (insertWeights_group hr.weightInv hg) hr.weightInv hr.indexInv hg hr.fkOk hp rows with
    ⟨-, ws, gs, hs, hgs, -, -⟩ | ⟨-, e, hs⟩
  · rw [hs]
    refine ⟨?_, fun _ _ => rfl⟩
    have : (g.id, g.name) ∈ gs.map fun g => (g.id, g.name) := by
      rw [hgs]
      exact List.mem_map_of_mem (f := fun g : WGroup => (g.id, g.name)) hg
    obtain ⟨x, hx, e⟩ := List.mem_map.1 this
    exact ⟨x, hx, congrArg Prod.snd e⟩
  · rw [hs]
    exact ⟨⟨g, hg, rfl⟩, fun _ _ => rfl⟩

private theorem weightsFor_append (s : Store) (a b : List WeightRow) (i : Nat) :
    s.weightsFor (a ++ b) i = s.weightsFor a i ++ s.weightsFor b i := by
  unfold Store.weightsFor
  rw [List.filter_append, List.filterMap_append]

private theorem weightsFor_perm {s : Store} {a b : List WeightRow} (h : a.Perm b) (i : Nat) :
    (s.weightsFor a i).Perm (s.weightsFor b i) := (h.filter _).filterMap _

private theorem hasWeight_eq {s t : Store} {name : PyStr} {i : Nat} {v : Option ℚ} (h1 : s.WeightIs name i v)
    (h2 : t.WeightIs name i v) (x : ℚ) : s.HasWeight name i x ↔ t.HasWeight name i x := (h1 x).symm.trans (h2 x)

/-- Weights loaded in two parts: both calls succeed exactly if one call with all the rows succeeds, and then the same
weights are stored. -/
theorem C95_weights_parts {s : Store} (hr : Reachable s) {name : PyStr} (hg : ∃ g ∈ s.wgroups, g.name = name) {p : Policy}
    (hp : p ≠ .other) (rows1 rows2 : List WeightRow) :
    ((step (.insertWeights name p (rows1 ++ rows2)) s).2 = .ok () ↔
      (step (.insertWeights name p rows1) s).2 = .ok () ∧
      (step (.insertWeights name p rows2) (step (.insertWeights name p rows1) s).1).2 = .ok ()) ∧
    ((step (.insertWeights name p (rows1 ++ rows2)) s).2 = .ok () →
      ∀ n i x, (step (.insertWeights name p rows2) (step (.insertWeights name p rows1) s).1).1.HasWeight n i x ↔
        (step (.insertWeights name p (rows1 ++ rows2)) s).1.HasWeight n i x) := by
  obtain ⟨old, hold⟩ := weights_table hr hg
  obtain ⟨a1, b1⟩ := C32_weights hr hg hp (rows1 ++ rows2) hold
  obtain ⟨a2, b2⟩ := C32_weights hr hg hp rows1 hold
  obtain ⟨hg', hfor⟩ := weights_frame hg hr hp rows1
  have hr' := hr.step (.insertWeights name p rows1)
  by_cases h1 : ∀ i, (∀ v ∈ s.weightsFor rows1 i, 0 ≤ v) ∧ p.Allows (old i) (s.weightsFor rows1 i)
  · obtain ⟨c1, c2, c3⟩ := a2 h1
    obtain ⟨a3, b3⟩ := C32_weights hr' hg' hp rows2 c2
    simp only [hfor, weightsFor_append, Policy.allows_parts, Policy.after_parts] at a1 b1 a3 b3
    by_cases h2 : ∀ i, (∀ v ∈ s.weightsFor rows2 i, 0 ≤ v) ∧
        p.Allows (p.after (old i) (s.weightsFor rows1 i)) (s.weightsFor rows2 i)
    · obtain ⟨d1, d2, d3⟩ := a3 h2
      obtain ⟨e1, e2, e3⟩ := a1 fun i => ⟨fun v hv => (List.mem_append.1 hv).elim ((h1 i).1 v) ((h2 i).1 v),
        (h1 i).2, (h2 i).2⟩
      refine ⟨⟨fun _ => ⟨c1, d1⟩, fun _ => e1⟩, fun _ n i x => ?_⟩
      by_cases hn : n = name
      · subst hn
        exact hasWeight_eq (d2 i) (e2 i) x
      · rw [d3 n hn, c3 n hn, e3 n hn]
    · have e1 := (b1 fun h => h2 fun i => ⟨fun v hv => (h i).1 v (List.mem_append_right _ hv), (h i).2.2⟩).1
      exact ⟨⟨fun h => absurd h e1, fun h => absurd h.2 (b3 h2).1⟩, fun h => absurd h e1⟩
  · simp only [weightsFor_append, Policy.allows_parts] at b1
    have e1 := (b1 fun h => h1 fun i => ⟨fun v hv => (h i).1 v (List.mem_append_left _ hv), (h i).2.1⟩).1
    exact ⟨⟨fun h => absurd h e1, fun h => absurd h.1 (b2 h1).1⟩, fun h => absurd h e1⟩

/-- The same weights loaded again. With `ignore` and `replace` nothing changes; with `sum` what was loaded counts twice;
with `abort` the second call fails, without effect, if any row has a number for a record. -/
theorem C95_weights_again {s : Store} (hr : Reachable s) {name : PyStr} (hg : ∃ g ∈ s.wgroups, g.name = name) {p : Policy}
    (hp : p ≠ .other) (rows : List WeightRow) {old : Nat → Option ℚ} (hold : ∀ i, s.WeightIs name i (old i))
    (h : (step (.insertWeights name p rows) s).2 = .ok ()) :
    (p = .ignore ∨ p = .replace →
      (step (.insertWeights name p rows) (step (.insertWeights name p rows) s).1).2 = .ok () ∧
      ∀ n i x, (step (.insertWeights name p rows) (step (.insertWeights name p rows) s).1).1.HasWeight n i x ↔
        (step (.insertWeights name p rows) s).1.HasWeight n i x) ∧
    (p = .sum →
      (step (.insertWeights name p rows) (step (.insertWeights name p rows) s).1).2 = .ok () ∧
      ∀ i, s.weightsFor rows i ≠ [] →
        (step (.insertWeights name p rows) (step (.insertWeights name p rows) s).1).1.WeightIs name i
          (some ((old i).getD 0 + 2 * (s.weightsFor rows i).sum))) ∧
    (p = .abort → (∃ i, s.weightsFor rows i ≠ []) →
      (step (.insertWeights name p rows) (step (.insertWeights name p rows) s).1).2 ≠ .ok () ∧
      (step (.insertWeights name p rows) (step (.insertWeights name p rows) s).1).1 =
        (step (.insertWeights name p rows) s).1) := by
  obtain ⟨a2, b2⟩ := C32_weights hr hg hp rows hold
  obtain ⟨hg', hfor⟩ := weights_frame hg hr hp rows
  have hr' := hr.step (.insertWeights name p rows)
  have h1 : ∀ i, (∀ v ∈ s.weightsFor rows i, 0 ≤ v) ∧ p.Allows (old i) (s.weightsFor rows i) := by
    by_contra hc
    exact (b2 hc).1 h
  obtain ⟨-, c2, c3⟩ := a2 h1
  obtain ⟨a3, b3⟩ := C32_weights hr' hg' hp rows c2
  simp only [hfor] at a3 b3
  refine ⟨fun hq => ?_, fun hq => ?_, fun hq hne => ?_⟩
  · obtain ⟨d1, d2, d3⟩ := a3 fun i => ⟨(h1 i).1, Policy.allows_free (by rcases hq with rfl | rfl <;> simp) _ _⟩
    refine ⟨d1, fun n i x => ?_⟩
    by_cases hn : n = name
    · subst hn
      have := d2 i
      rw [Policy.after_again (by rcases hq with rfl | rfl <;> simp)] at this
      exact hasWeight_eq this (c2 i) x
    · rw [d3 n hn]
  · subst hq
    obtain ⟨d1, d2, d3⟩ := a3 fun i => ⟨(h1 i).1, Policy.allows_free (by simp) _ _⟩
    refine ⟨d1, fun i hi => ?_⟩
    have := d2 i
    rw [← Policy.after_parts] at this
    simp only [Policy.after, List.append_eq_nil_iff, hi, and_false, false_and, if_false, List.sum_append] at this
    rwa [two_mul]
  · subst hq
    obtain ⟨i, hi⟩ := hne
    refine b3 fun hc => ?_
    have := (hc i).2 rfl
    have hl : 0 < (s.weightsFor rows i).length := List.length_pos_iff.2 hi
    have : (Policy.abort.after (old i) (s.weightsFor rows i)).toList.length = 0 := by
      rw [List.length_append] at this
      omega
    rcases ho : old i with _ | o
    · rw [ho] at this
      rcases hx : s.weightsFor rows i with _ | ⟨x, xs⟩
      · exact hi hx
      · rw [hx] at this
        simp [Policy.after] at this
    · rw [ho] at this
      simp [Policy.after] at this

/-- The order of the rows does not matter with `sum`, nor if every record gets at most one number. -/
theorem C95_weights_order {s : Store} (hr : Reachable s) {name : PyStr} (hg : ∃ g ∈ s.wgroups, g.name = name) {p : Policy}
    (hp : p ≠ .other) {rows rows' : List WeightRow} (hperm : rows.Perm rows')
    (hone : p = .sum ∨ ∀ i, (s.weightsFor rows i).length ≤ 1) :
    ((step (.insertWeights name p rows) s).2 = .ok () ↔ (step (.insertWeights name p rows') s).2 = .ok ()) ∧
    ∀ n i x, (step (.insertWeights name p rows) s).1.HasWeight n i x ↔
      (step (.insertWeights name p rows') s).1.HasWeight n i x := by
  obtain ⟨old, hold⟩ := weights_table hr hg
  obtain ⟨a1, b1⟩ := C32_weights hr hg hp rows hold
  obtain ⟨a2, b2⟩ := C32_weights hr hg hp rows' hold
  have hiff : (∀ i, (∀ v ∈ s.weightsFor rows i, 0 ≤ v) ∧ p.Allows (old i) (s.weightsFor rows i)) ↔
      ∀ i, (∀ v ∈ s.weightsFor rows' i, 0 ≤ v) ∧ p.Allows (old i) (s.weightsFor rows' i) := by
    refine forall_congr' fun i => and_congr ?_ (Policy.allows_perm (weightsFor_perm hperm i))
    exact forall_congr' fun v => by rw [(weightsFor_perm hperm i).mem_iff]
  by_cases h1 : ∀ i, (∀ v ∈ s.weightsFor rows i, 0 ≤ v) ∧ p.Allows (old i) (s.weightsFor rows i)
  · obtain ⟨c1, c2, c3⟩ := a1 h1
    obtain ⟨d1, d2, d3⟩ := a2 (hiff.1 h1)
    refine ⟨⟨fun _ => d1, fun _ => c1⟩, fun n i x => ?_⟩
    by_cases hn : n = name
    · subst hn
      have := d2 i
      rw [← Policy.after_perm (weightsFor_perm hperm i) (hone.imp id fun h => h i)] at this
      exact hasWeight_eq (c2 i) this x
    · rw [c3 n hn, d3 n hn]
  · obtain ⟨c1, c2⟩ := b1 h1
    obtain ⟨d1, d2⟩ := b2 (fun h => h1 (hiff.2 h))
    rw [c2, d2]
    exact ⟨⟨fun h => absurd h c1, fun h => absurd h d1⟩, fun _ _ _ => Iff.rfl⟩

/-! ### Quantities -/

private theorem quants_frame {s : Store} {al ap : Bool} {p : Policy} (rows : List QuantRow) :
    let t := (step (.insertQuantities2 al ap p rows) s).1
    t.cols = s.cols ∧ t.index = s.index ∧ t.structs = s.structs ∧ t.regAttrs = s.regAttrs ∧ t.domain = s.domain := by
  have h : Steps _ s (step (.insertQuantities2 al ap p rows) s).1 := runTx_steps (insertQuantities2_does al ap p rows) s
  exact ⟨h.cols_eq (by decide), h.index_eq (by decide), h.structs_eq (by decide), h.regAttrs_eq (by decide),
    h.domain_eq (by decide)⟩

private theorem accepts_congr {s t : Store} (h : t.cols = s.cols ∧ t.index = s.index ∧ t.structs = s.structs ∧
    t.regAttrs = s.regAttrs ∧ t.domain = s.domain) (al ap : Bool) (row : QuantRow) :
    t.Accepts al ap row ↔ s.Accepts al ap row := by
  obtain ⟨h1, h2, h3, h4, h5⟩ := h
  unfold Store.Accepts Store.rowAttrs Store.getDomain
  rw [h1, h2, h3, h4, h5]

private theorem quantitiesFor_congr {s t : Store} (h : t.regAttrs = s.regAttrs) (rows : List QuantRow) (l : List PyStr)
    (a : Attrs) : t.quantitiesFor rows l a = s.quantitiesFor rows l a := by
  unfold Store.quantitiesFor Store.rowAttrs
  rw [h]

private theorem quantitiesFor_append (s : Store) (x y : List QuantRow) (l : List PyStr) (a : Attrs) :
    s.quantitiesFor (x ++ y) l a = s.quantitiesFor x l a ++ s.quantitiesFor y l a := by
  unfold Store.quantitiesFor
  rw [List.filter_append, List.map_append]

private theorem quantitiesFor_perm {s : Store} {x y : List QuantRow} (h : x.Perm y) (l : List PyStr) (a : Attrs) :
    (s.quantitiesFor x l a).Perm (s.quantitiesFor y l a) := (h.filter _).map _

private theorem hasQuantity_eq {s t : Store} {l : List PyStr} {a : Attrs} {v : Option ℚ} (h1 : s.QuantityIs l a v)
    (h2 : t.QuantityIs l a v) (x : ℚ) : s.HasQuantity l a x ↔ t.HasQuantity l a x := (h1 x).symm.trans (h2 x)

/-- Quantities loaded in two parts: both calls succeed exactly if one call with all the rows succeeds, and then the same
quantities are stored. -/
theorem C95_quantities_parts {s : Store} (hr : ReachableFk s) (hat : s.regAttrs.getD [] ≠ [])
    (hne : [] ∉ s.regAttrs.getD []) {al ap : Bool} {p : Policy} (hp : p ≠ .other) (rows1 rows2 : List QuantRow) :
    ((step (.insertQuantities2 al ap p (rows1 ++ rows2)) s).2 = .ok () ↔
      (step (.insertQuantities2 al ap p rows1) s).2 = .ok () ∧
      (step (.insertQuantities2 al ap p rows2) (step (.insertQuantities2 al ap p rows1) s).1).2 = .ok ()) ∧
    ((step (.insertQuantities2 al ap p (rows1 ++ rows2)) s).2 = .ok () →
      ∀ l a x, (step (.insertQuantities2 al ap p rows2) (step (.insertQuantities2 al ap p rows1) s).1).1.HasQuantity l a x ↔
        (step (.insertQuantities2 al ap p (rows1 ++ rows2)) s).1.HasQuantity l a x) := by
  obtain ⟨old, hold⟩ := C32_quantities_table hr.reachable
  obtain ⟨a1, b1⟩ := C32_quantities hr.reachable (C32_anchored hr) hat hne (al := al) (ap := ap) hp (rows1 ++ rows2) hold
  obtain ⟨a2, b2⟩ := C32_quantities hr.reachable (C32_anchored hr) hat hne (al := al) (ap := ap) hp rows1 hold
  have hf := quants_frame (s := s) (al := al) (ap := ap) (p := p) rows1
  have hr' := hr.step (.insertQuantities2 al ap p rows1) (by simp)
  by_cases h1 : (∀ row ∈ rows1, s.Accepts al ap row) ∧ ∀ l a, p.Allows (old l a) (s.quantitiesFor rows1 l a)
  · obtain ⟨c1, c2⟩ := a2 h1
    obtain ⟨a3, b3⟩ := C32_quantities hr'.reachable (C32_anchored hr') (by rw [hf.2.2.2.1]; exact hat)
      (by rw [hf.2.2.2.1]; exact hne) (al := al) (ap := ap) hp rows2 c2
    simp only [accepts_congr hf, quantitiesFor_congr hf.2.2.2.1] at a3 b3
    simp only [quantitiesFor_append, Policy.allows_parts, Policy.after_parts] at a1 b1
    by_cases h2 : (∀ row ∈ rows2, s.Accepts al ap row) ∧
        ∀ l a, p.Allows (p.after (old l a) (s.quantitiesFor rows1 l a)) (s.quantitiesFor rows2 l a)
    · obtain ⟨d1, d2⟩ := a3 h2
      obtain ⟨e1, e2⟩ := a1 ⟨fun row hrow => (List.mem_append.1 hrow).elim (h1.1 row) (h2.1 row),
        fun l a => ⟨h1.2 l a, h2.2 l a⟩⟩
      exact ⟨⟨fun _ => ⟨c1, d1⟩, fun _ => e1⟩, fun _ l a x => hasQuantity_eq (d2 l a) (e2 l a) x⟩
    · have e1 := (b1 fun h => h2 ⟨fun row hrow => h.1 row (List.mem_append_right _ hrow), fun l a => (h.2 l a).2⟩).1
      exact ⟨⟨fun h => absurd h e1, fun h => absurd h.2 (b3 h2).1⟩, fun h => absurd h e1⟩
  · simp only [quantitiesFor_append, Policy.allows_parts] at b1
    have e1 := (b1 fun h => h1 ⟨fun row hrow => h.1 row (List.mem_append_left _ hrow), fun l a => (h.2 l a).1⟩).1
    exact ⟨⟨fun h => absurd h e1, fun h => absurd h.1 (b2 h1).1⟩, fun h => absurd h e1⟩

/-- The same quantities loaded again. With `ignore` and `replace` nothing changes; with `sum` what was loaded counts twice;
with `abort` the second call fails, without effect, if any row has attributes. -/
theorem C95_quantities_again {s : Store} (hr : ReachableFk s) (hat : s.regAttrs.getD [] ≠ [])
    (hne : [] ∉ s.regAttrs.getD []) {al ap : Bool} {p : Policy} (hp : p ≠ .other) (rows : List QuantRow)
    {old : List PyStr → Attrs → Option ℚ} (hold : ∀ l a, s.QuantityIs l a (old l a))
    (h : (step (.insertQuantities2 al ap p rows) s).2 = .ok ()) :
    (p = .ignore ∨ p = .replace →
      (step (.insertQuantities2 al ap p rows) (step (.insertQuantities2 al ap p rows) s).1).2 = .ok () ∧
      ∀ l a x, (step (.insertQuantities2 al ap p rows) (step (.insertQuantities2 al ap p rows) s).1).1.HasQuantity l a x ↔
        (step (.insertQuantities2 al ap p rows) s).1.HasQuantity l a x) ∧
    (p = .sum →
      (step (.insertQuantities2 al ap p rows) (step (.insertQuantities2 al ap p rows) s).1).2 = .ok () ∧
      ∀ l a, s.quantitiesFor rows l a ≠ [] →
        (step (.insertQuantities2 al ap p rows) (step (.insertQuantities2 al ap p rows) s).1).1.QuantityIs l a
          (some ((old l a).getD 0 + 2 * (s.quantitiesFor rows l a).sum))) ∧
    (p = .abort → (∃ row ∈ rows, s.rowAttrs row ≠ []) →
      (step (.insertQuantities2 al ap p rows) (step (.insertQuantities2 al ap p rows) s).1).2 ≠ .ok () ∧
      (step (.insertQuantities2 al ap p rows) (step (.insertQuantities2 al ap p rows) s).1).1 =
        (step (.insertQuantities2 al ap p rows) s).1) := by
  obtain ⟨a2, b2⟩ := C32_quantities hr.reachable (C32_anchored hr) hat hne (al := al) (ap := ap) hp rows hold
  have hf := quants_frame (s := s) (al := al) (ap := ap) (p := p) rows
  have hr' := hr.step (.insertQuantities2 al ap p rows) (by simp)
  have h1 : (∀ row ∈ rows, s.Accepts al ap row) ∧ ∀ l a, p.Allows (old l a) (s.quantitiesFor rows l a) := by
    by_contra hc
    exact (b2 hc).1 h
  obtain ⟨-, c2⟩ := a2 h1
  obtain ⟨a3, b3⟩ := C32_quantities hr'.reachable (C32_anchored hr') (by rw [hf.2.2.2.1]; exact hat)
    (by rw [hf.2.2.2.1]; exact hne) (al := al) (ap := ap) hp rows c2
  simp only [accepts_congr hf, quantitiesFor_congr hf.2.2.2.1] at a3 b3
  refine ⟨fun hq => ?_, fun hq => ?_, fun hq hex => ?_⟩
  · obtain ⟨d1, d2⟩ := a3 ⟨h1.1, fun l a => Policy.allows_free (by rcases hq with rfl | rfl <;> simp) _ _⟩
    refine ⟨d1, fun l a x => ?_⟩
    have := d2 l a
    rw [Policy.after_again (by rcases hq with rfl | rfl <;> simp)] at this
    exact hasQuantity_eq this (c2 l a) x
  · subst hq
    obtain ⟨d1, d2⟩ := a3 ⟨h1.1, fun l a => Policy.allows_free (by simp) _ _⟩
    refine ⟨d1, fun l a hi => ?_⟩
    have := d2 l a
    rw [← Policy.after_parts] at this
    simp only [Policy.after, List.append_eq_nil_iff, hi, and_false, false_and, if_false, List.sum_append] at this
    rwa [two_mul]
  · subst hq
    obtain ⟨row, hrow, hra⟩ := hex
    have hi : s.quantitiesFor rows row.labels (s.rowAttrs row) ≠ [] := by
      unfold Store.quantitiesFor
      rw [Ne, List.map_eq_nil_iff, List.filter_eq_nil_iff]
      intro hx
      exact hx row hrow (by simp [hra])
    generalize s.rowAttrs row = a at hi
    generalize row.labels = l at hi
    refine b3 fun hc => ?_
    have := hc.2 l a rfl
    have hl : 0 < (s.quantitiesFor rows l a).length := List.length_pos_iff.2 hi
    have : (Policy.abort.after (old l a) (s.quantitiesFor rows l a)).toList.length = 0 := by
      rw [List.length_append] at this
      omega
    rcases ho : old l a with _ | o
    · rw [ho] at this
      rcases hx : s.quantitiesFor rows l a with _ | ⟨x, xs⟩
      · exact hi hx
      · rw [hx] at this
        simp [Policy.after] at this
    · rw [ho] at this
      simp [Policy.after] at this

/-- The order of the rows does not matter with `sum`, nor if there is at most one row for the same labels and attributes. -/
theorem C95_quantities_order {s : Store} (hr : ReachableFk s) (hat : s.regAttrs.getD [] ≠ [])
    (hne : [] ∉ s.regAttrs.getD []) {al ap : Bool} {p : Policy} (hp : p ≠ .other) {rows rows' : List QuantRow}
    (hperm : rows.Perm rows') (hone : p = .sum ∨ ∀ l a, (s.quantitiesFor rows l a).length ≤ 1) :
    ((step (.insertQuantities2 al ap p rows) s).2 = .ok () ↔ (step (.insertQuantities2 al ap p rows') s).2 = .ok ()) ∧
    ∀ l a x, (step (.insertQuantities2 al ap p rows) s).1.HasQuantity l a x ↔
      (step (.insertQuantities2 al ap p rows') s).1.HasQuantity l a x := by
  obtain ⟨old, hold⟩ := C32_quantities_table hr.reachable
  obtain ⟨a1, b1⟩ := C32_quantities hr.reachable (C32_anchored hr) hat hne (al := al) (ap := ap) hp rows hold
  obtain ⟨a2, b2⟩ := C32_quantities hr.reachable (C32_anchored hr) hat hne (al := al) (ap := ap) hp rows' hold
  have hiff : ((∀ row ∈ rows, s.Accepts al ap row) ∧ ∀ l a, p.Allows (old l a) (s.quantitiesFor rows l a)) ↔
      ((∀ row ∈ rows', s.Accepts al ap row) ∧ ∀ l a, p.Allows (old l a) (s.quantitiesFor rows' l a)) := by
    refine and_congr (forall_congr' fun row => by rw [hperm.mem_iff]) ?_
    exact forall_congr' fun l => forall_congr' fun a => Policy.allows_perm (quantitiesFor_perm hperm l a)
  by_cases h1 : (∀ row ∈ rows, s.Accepts al ap row) ∧ ∀ l a, p.Allows (old l a) (s.quantitiesFor rows l a)
  · obtain ⟨c1, c2⟩ := a1 h1
    obtain ⟨d1, d2⟩ := a2 (hiff.1 h1)
    refine ⟨⟨fun _ => d1, fun _ => c1⟩, fun l a x => ?_⟩
    have := d2 l a
    rw [← Policy.after_perm (quantitiesFor_perm hperm l a) (hone.imp id fun h => h l a)] at this
    exact hasQuantity_eq (c2 l a) this x
  · obtain ⟨c1, c2⟩ := b1 h1
    obtain ⟨d1, d2⟩ := b2 (fun h => h1 (hiff.2 h))
    rw [c2, d2]
    exact ⟨⟨fun h => absurd h c1, fun h => absurd h d1⟩, fun _ _ _ => Iff.rfl⟩

/-! Non-vacuity -/

example : Reachable Demo.store ∧ (∃ g ∈ Demo.store.wgroups, g.name = Demo.wname) ∧
    (step (.insertWeights Demo.wname .sum [⟨none, [Demo.lx, Demo.l1], some 4⟩, ⟨none, [Demo.lx, Demo.l1], some 5⟩])
      Demo.store).2 = .ok () ∧
    Demo.store.weightsFor [⟨none, [Demo.lx, Demo.l1], some 4⟩, ⟨none, [Demo.lx, Demo.l1], some 5⟩] 1 = [4, 5] :=
  ⟨Demo.reachable, by decide +kernel, by decide +kernel, by decide +kernel⟩

example : ReachableFk Demo.store ∧ Demo.store.regAttrs.getD [] ≠ [] ∧ [] ∉ Demo.store.regAttrs.getD [] ∧
    (step (.insertQuantities2 false false .replace [⟨none, [Demo.lx, []], [(['c'], ['m'])], 4⟩]) Demo.store).2 = .ok () ∧
    Demo.store.quantitiesFor [⟨none, [Demo.lx, []], [(['c'], ['m'])], 4⟩] [Demo.lx, []] [(['c'], ['m'])] = [4] :=
  ⟨Demo.reachableFk, by decide +kernel, by decide +kernel, by decide +kernel, by decide +kernel⟩

end Toron.Space
