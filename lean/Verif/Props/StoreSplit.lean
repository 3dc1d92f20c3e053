/-
C54: reading splits each quantity over all its records by the most specific weight group.
-/
import Verif.Lemmas.Store.Split
import Verif.Demo

namespace Toron.Space

open Toron.Selectors (PyStr Sel CaseMap getGreatestUniqueSpecificity asciiCase)
open Toron.Selectors.Spec
open Toron.Mapper (granGe_iff structs_pos structsSorted_pairwise)

/-! ### The group that applies -/

/-- At most one weight group applies. -/
theorem C54_group_unique {s : Store} (hr : Reachable s) {cm : CaseMap} {a : Attrs} {g g' : WGroup}
    (h : s.Applies cm a g) (h' : s.Applies cm a g') : g = g' := by
  rcases h with ⟨sp, hal, hmax⟩ | ⟨hno, hg, hd⟩
  · rcases h' with ⟨sp', hal', hmax'⟩ | ⟨hno', _⟩
    · have h1 := hmax g' sp' hal'
      have h2 := hmax' g sp hal
      have : sp = sp' := by
        unfold SpecLE at h1 h2
        apply Prod.ext <;> omega
      subst this
      exact hal'.2 g hal.1
    · exact absurd hal (hno' _ _)
  · rcases h' with ⟨sp', hal', _⟩ | ⟨_, hg', hd'⟩
    · exact absurd hal' (hno _ _)
    · rw [hd] at hd'
      exact List.inj_on_of_nodup_map hr.weightInv.gids hg hg' (by simpa using hd')

/-- A group applies if there is a default group and the selectors are those a user can write. -/
theorem C54_group_exists {s : Store} (hr : Reachable s) (cm : CaseMap) (a : Attrs)
    (hwf : ∀ g ∈ s.wgroups, ∀ x ∈ g.selectors, x.WF) {d : WGroup} (hd : d ∈ s.wgroups)
    (hdef : s.defaultWG = some (some d.id)) : ∃ g, s.Applies cm a g := by
  have : s.getDefaultWG = .ok d := by
    unfold Store.getDefaultWG
    rw [hdef]
    have : s.wgroups.find? (fun g => g.id == d.id) = some d := by
      rcases hx : s.wgroups.find? (fun g => g.id == d.id) with _ | x
      · exact absurd (List.find?_eq_none.1 hx d hd) (by simp)
      · have h1 := List.mem_of_find?_eq_some hx
        have h2 : x.id = d.id := by simpa using List.find?_some hx
        rw [hx, List.inj_on_of_nodup_map hr.weightInv.gids h1 hd h2]
    simp only [this]
  obtain ⟨g, _, _, h⟩ := applies_of (cm := cm) (a := a) hr.weightInv hwf this
  exact ⟨g, h⟩

/-! ### Reading -/

theorem share_list {items : List ReadItem} {P : ReadItem → Share → Prop}
    (h : ∀ x ∈ items, ∃ b : Share, x.rows = b.rows ∧ b.quant = x.quant ∧ P x b) :
    ∃ shares : List Share, items.flatMap (·.rows) = shares.flatMap Share.rows ∧
      shares.map (·.quant) = items.map (·.quant) ∧ ∀ b ∈ shares, ∃ x ∈ items, P x b := by
  induction items with
  | nil => exact ⟨[], rfl, rfl, by simp⟩
  | cons x xs ih =>
    obtain ⟨b, hb1, hb2, hb3⟩ := h x (by simp)
    obtain ⟨bs, h1, h2, h3⟩ := ih fun y hy => h y (by simp [hy])
    refine ⟨b :: bs, ?_, ?_, ?_⟩
    · rw [List.flatMap_cons, List.flatMap_cons, hb1, h1]
    · rw [List.map_cons, List.map_cons, hb2, h2]
    · intro c hc
      rcases List.mem_cons.1 hc with rfl | hc
      · exact ⟨x, by simp, hb3⟩
      · obtain ⟨y, hy, hp⟩ := h3 c hc
        exact ⟨y, by simp [hy], hp⟩

theorem split_of_item {s : Store} (hr : Reachable s) {cm : CaseMap} {quantize finest : Bool} {dflt : WGroup}
    (hwf : ∀ g ∈ s.wgroups, ∀ x ∈ g.selectors, x.WF) (hd : s.getDefaultWG = .ok dflt) {l : LocRec} {q : Quant}
    {rows : List (Nat × Attrs × ℚ)} (hl : l ∈ s.locs) (hql : q.loc = l.id)
    (h : s.disaggOne cm dflt.id finest quantize l q = .ok rows) :
    ∃ b : Share, rows = b.rows ∧ b.quant = q ∧ (∃ a, s.getAttrs q.ag = .ok a ∧ b.attrs = s.withDomain a) ∧
      (s.Split cm quantize b ∨ (finest = true ∧ ∃ i is, s.matchingIds l.labels = i :: is ∧ b.parts = [(i, q.value)] ∧
        (is = [] → s.Split cm quantize b))) := by
  obtain ⟨i, is, a, hm, ha, hcase⟩ := disaggOne_cases h
  rcases hcase with ⟨hf, rfl⟩ | ⟨_, group, parts, parts', hg, hdis, hq, rfl⟩
  · refine ⟨⟨q, s.withDomain a, [(i, q.value)]⟩, rfl, rfl, ⟨a, ha, rfl⟩, .inr ⟨hf, i, is, hm, rfl, ?_⟩⟩
    rintro rfl
    obtain ⟨g, _, _, hap⟩ := applies_of (cm := cm) (a := s.withDomain a) hr.weightInv hwf hd
    refine ⟨g, hap, ?_⟩
    have hsp : s.SplitBy g ⟨q, s.withDomain a, [(i, q.value)]⟩ := splitBy_one hr hl hql hm
    cases quantize
    · exact hsp
    · exact ⟨_, hsp, rounded_self_one⟩
  · obtain ⟨g, _, hg', hap⟩ := applies_of (cm := cm) (a := s.withDomain a) hr.weightInv hwf hd
    rw [hg] at hg'
    cases hg'
    rw [← hm] at hdis
    have hsp : s.SplitBy g ⟨q, s.withDomain a, parts⟩ := splitBy_of hr hl hql (by simp [hm]) hdis
    refine ⟨⟨q, s.withDomain a, parts'⟩, rfl, rfl, ⟨a, ha, rfl⟩, .inl ⟨g, hap, ?_⟩⟩
    cases quantize
    · cases hq
      exact hsp
    · exact ⟨_, hsp, rounded_of hdis (fun i w h => weightOf_nonneg hr.weightInv h) hsp.sum hq⟩

theorem split_or_one_attrs {s : Store} (hr : Reachable s) {cm : CaseMap} {sels : List Sel} {quantize : Bool}
    (hwf : ∀ g ∈ s.wgroups, ∀ x ∈ g.selectors, x.WF) {rows : List (Nat × Attrs × ℚ)}
    (h : s.call cm sels quantize = .ok rows) :
    ∃ shares : List Share, rows = shares.flatMap Share.rows ∧ (shares.map (·.quant)).Nodup ∧
      (∀ q, q ∈ shares.map (·.quant) ↔ q ∈ s.quants ∧ s.Counted q ∧ s.Selected cm sels q) ∧
      ∀ b ∈ shares, (∃ a, s.getAttrs b.quant.ag = .ok a ∧ b.attrs = s.withDomain a) ∧
        (s.Split cm quantize b ∨ (s.AtFinest b.quant ∧ s.GivenToOne b)) := by
  obtain ⟨dflt, first, rest, hd, _, hst, items, rfl, hitems, hnd, hmem⟩ := call_items hr h
  obtain ⟨shares, h1, h2, h3⟩ := share_list (items := items)
    (P := fun x b => (∃ a, s.getAttrs b.quant.ag = .ok a ∧ b.attrs = s.withDomain a) ∧
      (s.Split cm quantize b ∨ (s.AtFinest b.quant ∧ s.GivenToOne b))) (by
      intro x hx
      obtain ⟨hs1, hl, hb, hq, hql, hone⟩ := hitems x hx
      obtain ⟨b, hb1, hb2, hba, hb3⟩ := split_of_item hr hwf hd hl hql hone
      refine ⟨b, hb1, hb2, by rw [hb2]; exact hba, ?_⟩
      rcases hb3 with hb3 | ⟨hf, i, is, hm, hp, _⟩
      · exact .inl hb3
      · refine .inr ⟨⟨x.loc, hl, ?_, x.str, hs1, hb.symm, fun st' hst' => ?_⟩, ⟨i, ?_, x.loc, hl, ?_, ?_⟩⟩
        · rw [hb2, hql]
        · have hpos := structs_pos hr
          have hperm : s.structsSorted.Perm s.structs := sortedBy_perm _ _
          have hfirst : first ∈ s.structs := hperm.mem_iff.1 (by simp [hst])
          rw [granGe_iff (hpos _ hs1) (hpos _ hst'), granEq_key (hpos _ hs1) (hpos _ hfirst) hf]
          rcases List.mem_cons.1 (hst ▸ hperm.mem_iff.2 hst' : st' ∈ first :: rest) with rfl | hw'
          · exact le_refl _
          · have hp := structsSorted_pairwise hr
            rw [hst, List.pairwise_cons] at hp
            exact (granGe_iff (hpos _ hfirst) (hpos _ hst')).1 (hp.1 st' hw')
        · rw [hb2]
          exact hp
        · rw [hb2, hql]
        · exact (mem_matchingIds hr.indexInv hr.colInv (hr.quantInv.locLens _ hl)).1 (by simp [hm]))
  refine ⟨shares, h1, ?_, ?_, ?_⟩
  · rw [h2]; exact hnd
  · rw [h2]; exact hmem
  · intro b hb
    obtain ⟨_, _, hp⟩ := h3 b hb
    exact hp

/-- A successful read consists of one share for every quantity to be read. Each is split over exactly the
records that match it, by the weight group that applies to its attributes; or the quantity is given to one of
these records, and then the stored granularity of its combination is the greatest. -/
theorem C54_split_or_one {s : Store} (hr : Reachable s) {cm : CaseMap} {sels : List Sel} {quantize : Bool}
    (hwf : ∀ g ∈ s.wgroups, ∀ x ∈ g.selectors, x.WF) {rows : List (Nat × Attrs × ℚ)}
    (h : s.call cm sels quantize = .ok rows) :
    ∃ shares : List Share, rows = shares.flatMap Share.rows ∧ (shares.map (·.quant)).Nodup ∧
      (∀ q, q ∈ shares.map (·.quant) ↔ q ∈ s.quants ∧ s.Counted q ∧ s.Selected cm sels q) ∧
      ∀ b ∈ shares, s.Split cm quantize b ∨ (s.AtFinest b.quant ∧ s.GivenToOne b) := by
  obtain ⟨shares, h1, h2, h3, h4⟩ := split_or_one_attrs hr hwf h
  exact ⟨shares, h1, h2, h3, fun b hb => (h4 b hb).2⟩

/-- In histories without dropped columns and without replacing labels while inserting, and if no record but the
undefined one has the label `-`, every quantity is split over exactly the records that match it, by the weight
group that applies to its attributes. Missing: the other histories, for which this is false of the code, see
`C54_violated_stale` and `C54_violated_dash`. -/
theorem C54_split_partial {s : Store} (hr : ReachableFresh s) {cm : CaseMap} {sels : List Sel} {quantize : Bool}
    (hwf : ∀ g ∈ s.wgroups, ∀ x ∈ g.selectors, x.WF) (hdash : ∀ r ∈ s.index, r.id ≠ 0 → ['-'] ∉ r.labels)
    {rows : List (Nat × Attrs × ℚ)} (h : s.call cm sels quantize = .ok rows) :
    ∃ shares : List Share, rows = shares.flatMap Share.rows ∧ (shares.map (·.quant)).Nodup ∧
      (∀ q, q ∈ shares.map (·.quant) ↔ q ∈ s.quants ∧ s.Counted q ∧ s.Selected cm sels q) ∧
      ∀ b ∈ shares, s.Split cm quantize b := by
  have hreach := hr.keeping.reachable
  obtain ⟨dflt, first, rest, hd, _, hst, items, rfl, hitems, hnd, hmem⟩ := call_items hreach h
  obtain ⟨shares, h1, h2, h3⟩ := share_list (items := items) (P := fun x b => s.Split cm quantize b) (by
      intro x hx
      obtain ⟨hs1, hl, hb, hq, hql, hone⟩ := hitems x hx
      obtain ⟨b, hb1, hb2, _, hb3⟩ := split_of_item hreach hwf hd hl hql hone
      refine ⟨b, hb1, hb2, ?_⟩
      rcases hb3 with hb3 | ⟨hf, i, is, hm, hp, hsp⟩
      · exact hb3
      · have := finest_one hr hs1 hst hf hdash hl hb hm
        rw [hm] at this
        exact hsp (by simpa using this))
  refine ⟨shares, h1, ?_, ?_, ?_⟩
  · rw [h2]; exact hnd
  · rw [h2]; exact hmem
  · intro b hb
    obtain ⟨_, _, hp⟩ := h3 b hb
    exact hp

/-- The history of `Demo` meets the hypotheses; there are two shares, one over two records. -/
example : ReachableFresh Demo.store ∧ (∀ g ∈ Demo.store.wgroups, ∀ x ∈ g.selectors, x.WF) ∧
    (∀ r ∈ Demo.store.index, r.id ≠ 0 → ['-'] ∉ r.labels) ∧
    ∃ rows, Demo.store.call asciiCase [] false = .ok rows ∧ rows.length = 3 := by
  refine ⟨⟨['u'], Demo.ops, by decide, rfl⟩, ?_, ?_, ?_⟩
  · have hg : Demo.store.wgroups.map (fun g => g.selectors.length) = [0] := by decide +kernel
    intro g h x hx
    have := List.mem_map_of_mem (f := fun g : WGroup => g.selectors.length) h
    rw [hg, List.mem_singleton] at this
    rw [List.length_eq_zero_iff.1 this] at hx
    cases hx
  · rw [Demo.index_eq]
    decide
  · rcases h : Demo.store.call asciiCase [] false with e | rows
    · have := Demo.read_eq
      rw [h] at this
      exact absurd this (by simp [Except.toOption])
    · have := Demo.read_eq
      rw [h] at this
      refine ⟨rows, rfl, ?_⟩
      rw [Option.some.inj this]
      rfl

/-! ### Where the code does not do this -/

/-- A record that matches a quantity to be read and has no row. -/
theorem not_split {s : Store} {cm : CaseMap} {sels : List Sel} {rows : List (Nat × Attrs × ℚ)} (q : Quant)
    (hq : q ∈ s.quants) (hc : s.Counted q) (hsel : s.Selected cm sels q) (hli : (s.locs.map (·.id)).Nodup)
    {l : LocRec} (hl : l ∈ s.locs) (hlq : l.id = q.loc) {r : IndexRec} (hr : r ∈ s.index)
    (hm : labelsMatch l.labels r.labels) (hno : r.id ∉ rows.map (·.1)) :
    ¬ ∃ shares : List Share, rows = shares.flatMap Share.rows ∧ (shares.map (·.quant)).Nodup ∧
      (∀ q, q ∈ shares.map (·.quant) ↔ q ∈ s.quants ∧ s.Counted q ∧ s.Selected cm sels q) ∧
      ∀ b ∈ shares, s.Split cm false b := by
  rintro ⟨shares, rfl, _, hmem, hsp⟩
  obtain ⟨b, hb, rfl⟩ := List.mem_map.1 ((hmem q).2 ⟨hq, hc, hsel⟩)
  obtain ⟨g, _, hs⟩ := hsp b hb
  obtain ⟨l', hl', hli', hrec⟩ := hs.records
  have : l' = l := List.inj_on_of_nodup_map hli hl' hl (hli'.trans hlq.symm)
  subst this
  obtain ⟨p, hp, hpi⟩ := List.mem_map.1 ((hrec r.id).2 ⟨r, hr, rfl, hm⟩)
  apply hno
  rw [List.mem_map]
  exact ⟨(p.1, b.attrs, p.2), List.mem_flatMap.2 ⟨b, hb, List.mem_map.2 ⟨p, hp, rfl⟩⟩, hpi⟩

/-- Record 1 has the label `-` in column A. -/
def dashOps : List Op :=
  [.addIndexColumns [['A'], ['B']],
   .addPartitionDef {['A']},
   .addWeightGroup ['w'] [] false none,
   .insertIndex none [['w']] .abort .abort
     [⟨none, some [['-'], ['x']], [some 3]⟩, ⟨none, some [['y'], ['x']], [some 1]⟩],
   .setRegisteredAttributes [['c']],
   .insertQuantities2 false false .abort [⟨none, [['-'], []], [(['c'], ['m'])], 100⟩]]

/-- Record 2 got the label of record 1 in column A by replacing labels. -/
def replacedOps : List Op :=
  [.addIndexColumns [['A'], ['B']],
   .addPartitionDef {['A']},
   .addWeightGroup ['w'] [] false none,
   .insertIndex none [['w']] .abort .abort
     [⟨none, some [['x'], ['1']], [some 3]⟩, ⟨none, some [['y'], ['1']], [some 1]⟩],
   .insertIndex none [] .replace .abort [⟨some 2, some [['x'], ['2']], []⟩],
   .setRegisteredAttributes [['c']],
   .insertQuantities2 false false .abort [⟨none, [['x'], []], [(['c'], ['m'])], 100⟩]]

/-- The same read, in a form that can be computed. -/
theorem call_of_toOption {s : Store} {cm : CaseMap} {rows : List (Nat × Attrs × ℚ)}
    (h : (s.call cm [] false).toOption = some rows) : s.call cm [] false = .ok rows := by
  rcases hc : s.call cm [] false with e | r
  · rw [hc] at h; cases h
  · rw [hc] at h; cases h; rfl

theorem wf_of_lengths {s : Store} (h : s.wgroups.map (fun g => g.selectors.length) = [0]) :
    ∀ g ∈ s.wgroups, ∀ x ∈ g.selectors, x.WF := by
  intro g hg x hx
  have := List.mem_map_of_mem (f := fun g : WGroup => g.selectors.length) hg
  rw [h, List.mem_singleton] at this
  rw [List.length_eq_zero_iff.1 this] at hx
  cases hx

/-- If a record has the label `-`, a quantity with this label goes to the undefined record as a whole, although
the other record matches it and has the weight 3. -/
theorem C54_violated_dash : ∃ s, ReachableFresh s ∧ (∀ g ∈ s.wgroups, ∀ x ∈ g.selectors, x.WF) ∧
    ∃ rows, s.call asciiCase [] false = .ok rows ∧
    rows.map (fun r => (r.1, r.2.2)) = [(0, 100)] ∧
    ¬ ∃ shares : List Share, rows = shares.flatMap Share.rows ∧ (shares.map (·.quant)).Nodup ∧
      (∀ q, q ∈ shares.map (·.quant) ↔ q ∈ s.quants ∧ s.Counted q ∧ s.Selected asciiCase [] q) ∧
      ∀ b ∈ shares, s.Split asciiCase false b := by
  have hfresh : ReachableFresh (run dashOps (Store.new ['u'])) := ⟨['u'], dashOps, by decide, rfl⟩
  have hw : (run dashOps (Store.new ['u'])).wgroups.map (fun g => g.selectors.length) = [0] := by decide +kernel
  have hc : ((run dashOps (Store.new ['u'])).call asciiCase [] false).toOption =
      some [(0, [(['c'], ['m'])], 100)] := by decide +kernel
  have hq : ⟨1, 1, 1, 100⟩ ∈ (run dashOps (Store.new ['u'])).quants := by decide +kernel
  have hl : ⟨1, [['-'], []]⟩ ∈ (run dashOps (Store.new ['u'])).locs := by decide +kernel
  have hs : [true, false] ∈ (run dashOps (Store.new ['u'])).structs.map (·.bits) := by decide +kernel
  have hi : ⟨1, [['-'], ['x']]⟩ ∈ (run dashOps (Store.new ['u'])).index := by decide +kernel
  generalize run dashOps (Store.new ['u']) = s at *
  obtain ⟨st, hst, hsb⟩ := List.mem_map.1 hs
  refine ⟨s, hfresh, wf_of_lengths hw, _, call_of_toOption hc, rfl, ?_⟩
  exact not_split ⟨1, 1, 1, 100⟩ hq ⟨_, hl, rfl, st, hst, by rw [hsb]; rfl⟩ (.inl rfl)
    hfresh.keeping.reachable.quantInv.locIds hl rfl hi (by simp [labelsMatch]) (by simp)

/-- After labels were replaced while inserting, a quantity goes to the first of two matching records as a whole,
although the weights are 3 and 1. -/
theorem C54_violated_stale : ∃ s, Reachable s ∧ (∀ g ∈ s.wgroups, ∀ x ∈ g.selectors, x.WF) ∧
    (∀ r ∈ s.index, r.id ≠ 0 → ['-'] ∉ r.labels) ∧
    ∃ rows, s.call asciiCase [] false = .ok rows ∧
    rows.map (fun r => (r.1, r.2.2)) = [(1, 100)] ∧
    ¬ ∃ shares : List Share, rows = shares.flatMap Share.rows ∧ (shares.map (·.quant)).Nodup ∧
      (∀ q, q ∈ shares.map (·.quant) ↔ q ∈ s.quants ∧ s.Counted q ∧ s.Selected asciiCase [] q) ∧
      ∀ b ∈ shares, s.Split asciiCase false b := by
  have hreach : Reachable (run replacedOps (Store.new ['u'])) := ⟨['u'], replacedOps, rfl⟩
  have hw : (run replacedOps (Store.new ['u'])).wgroups.map (fun g => g.selectors.length) = [0] := by decide +kernel
  have hc : ((run replacedOps (Store.new ['u'])).call asciiCase [] false).toOption =
      some [(1, [(['c'], ['m'])], 100)] := by decide +kernel
  have hq : ⟨1, 1, 1, 100⟩ ∈ (run replacedOps (Store.new ['u'])).quants := by decide +kernel
  have hl : ⟨1, [['x'], []]⟩ ∈ (run replacedOps (Store.new ['u'])).locs := by decide +kernel
  have hs : [true, false] ∈ (run replacedOps (Store.new ['u'])).structs.map (·.bits) := by decide +kernel
  have hi : ⟨2, [['x'], ['2']]⟩ ∈ (run replacedOps (Store.new ['u'])).index := by decide +kernel
  have hdash : ∀ r ∈ (run replacedOps (Store.new ['u'])).index, r.id ≠ 0 → ['-'] ∉ r.labels := by decide +kernel
  generalize run replacedOps (Store.new ['u']) = s at *
  obtain ⟨st, hst, hsb⟩ := List.mem_map.1 hs
  refine ⟨s, hreach, wf_of_lengths hw, hdash, _, call_of_toOption hc, rfl, ?_⟩
  exact not_split ⟨1, 1, 1, 100⟩ hq ⟨_, hl, rfl, st, hst, by rw [hsb]; rfl⟩ (.inl rfl)
    hreach.quantInv.locIds hl rfl hi (by simp [labelsMatch]) (by simp)

end Toron.Space
