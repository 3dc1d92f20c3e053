/-
C24: deleting index records.
-/
import Verif.Lemmas.Store.Delete
import Verif.Demo

namespace Toron.Space

open Toron.Selectors (PyStr Sel)

/-- A successful deletion removes exactly the chosen records and never the undefined one. -/
theorem C24_chosen_records {s : Store} (h : Reachable s) (t : Target (Nat × List PyStr))
    (hok : (step (.deleteIndex t) s).2 = .ok ()) :
    (step (.deleteIndex t) s).1.index = (s.index.filter fun r => !s.chosen t r) ∧
      ∀ r ∈ s.index, s.chosen t r = true → r.id ≠ 0 := by
  obtain ⟨D, hd, hsub, hD⟩ := deleteIndex_deleted h.delInv (step_ok rfl hok)
  constructor
  · rw [hd.index]
    apply List.filter_congr
    intro r hr
    rw [Bool.eq_iff_iff]
    simp [hD r hr]
  · intro r hr hc h0
    exact hd.zero (h0 ▸ (hD r hr).2 hc) r hr h0

/-- After a successful deletion no weight and no mapping refers to a deleted record; the weights of the
other records are unchanged, and so are their mappings up to the proportions. -/
theorem C24_no_dangling {s : Store} (h : Reachable s) (t : Target (Nat × List PyStr))
    (hok : (step (.deleteIndex t) s).2 = .ok ()) :
    let s' := (step (.deleteIndex t) s).1
    let gone := fun i => decide (i ∈ s.ids ∧ i ∉ s'.ids)
    s'.weights = (s.weights.filter fun w => !gone w.index) ∧
    s'.maps.map Mapping.bare = (s.maps.filter fun m => !gone m.index).map Mapping.bare := by
  obtain ⟨D, hd, hsub, hD⟩ := deleteIndex_deleted h.delInv (step_ok rfl hok)
  intro s' gone
  have hg : ∀ i, decide (i ∉ D) = !gone i := by
    intro i
    have : i ∈ D ↔ (i ∈ s.ids ∧ i ∉ s'.ids) := by
      have hids : s'.ids = s.ids.filter (fun i => decide (i ∉ D)) := by
        show s'.index.map _ = _
        rw [hd.index]
        unfold Store.ids
        rw [List.filter_map]
        rfl
      rw [hids, List.mem_filter]
      constructor
      · exact fun hi => ⟨hsub i hi, by simp [hi]⟩
      · rintro ⟨h1, h2⟩
        by_contra hc
        exact h2 ⟨h1, by simpa using hc⟩
    rw [Bool.eq_iff_iff]
    simp [gone, this]
  refine ⟨?_, ?_⟩
  · rw [hd.weights]
    exact List.filter_congr fun w _ => hg w.index
  · rw [hd.maps]
    congr 1
    exact List.filter_congr fun w _ => hg w.index

/-- A record one of whose mappings does not name every column makes the whole call fail, and nothing
changes. -/
theorem C24_ambiguous {s : Store} (h : Reachable s) (t : Target (Nat × List PyStr)) (r : IndexRec)
    (hr : r ∈ s.index) (hc : s.chosen t r = true) (m : Mapping) (hm : m ∈ s.maps) (hi : m.index = r.id)
    (hl : m.level ≠ fullLevel s.cols.length) :
    (∃ e, (step (.deleteIndex t) s).2 = .error e) ∧ (step (.deleteIndex t) s).1 = s := by
  have hne : ∃ e, (step (.deleteIndex t) s).2 = .error e := by
    cases hok : (step (.deleteIndex t) s).2 with
    | error e => exact ⟨e, rfl⟩
    | ok u =>
      obtain ⟨D, hd, hsub, hD⟩ := deleteIndex_deleted h.delInv (step_ok rfl hok)
      exact absurd (hd.levels m hm (hi ▸ (hD r hr).2 hc)) hl
  obtain ⟨e, he⟩ := hne
  refine ⟨⟨e, he⟩, ?_⟩
  rw [step_of_body rfl] at he ⊢
  exact runTx_error he

/-- Mappings from a source record from which no deleted record was reached are unchanged, with their
proportions. Missing for the full claim: mappings of other links from the same source record, see
`C24_other_links_violated`. -/
theorem C24_other_links_partial {s : Store} (h : Reachable s) (t : Target (Nat × List PyStr))
    (hok : (step (.deleteIndex t) s).2 = .ok ()) (m : Mapping) (hm : m ∈ s.maps)
    (hk : m.index ∈ (step (.deleteIndex t) s).1.ids)
    (hne : ∀ m0 ∈ s.maps, m0.index ∉ (step (.deleteIndex t) s).1.ids → m0.other ≠ m.other) :
    m ∈ (step (.deleteIndex t) s).1.maps := by
  obtain ⟨D, hd, hsub, hD⟩ := deleteIndex_deleted h.delInv (step_ok rfl hok)
  have hids : ∀ i ∈ (step (.deleteIndex t) s).1.ids, i ∉ D := by
    intro i hi
    obtain ⟨r, hr, rfl⟩ := List.mem_map.1 hi
    rw [hd.index] at hr
    simpa using (List.mem_filter.1 hr).2
  exact hd.keep m hm (hids _ hk) fun m0 h0 h0D => hne m0 h0 fun hc => hids _ hc h0D

/-- Deleting record 3 of the demonstration dataspace. -/
example : (step (.deleteIndex (.criteria [(Demo.colA, Demo.ly)])) Demo.store).2 = .ok () ∧
    (step (.deleteIndex (.criteria [(Demo.colA, Demo.ly)])) Demo.store).1.ids = [0, 1, 2] ∧
    (∃ m ∈ Demo.store.maps, m.index ∈ (step (.deleteIndex (.criteria [(Demo.colA, Demo.ly)])) Demo.store).1.ids ∧
      ∀ m0 ∈ Demo.store.maps, m0.index ∉ (step (.deleteIndex (.criteria [(Demo.colA, Demo.ly)])) Demo.store).1.ids →
        m0.other ≠ m.other) := by
  decide +kernel

/-- A history with a mapping that names only the first column. -/
def Demo.opsAmbiguous : List Op :=
  Demo.ops ++ [.insertMappings2 Demo.other none [⟨3, 5, 3, [], some [0x80#8]⟩]]

example : let s := run Demo.opsAmbiguous (Store.new ['u'])
    ∃ r ∈ s.index, s.chosen (.rows [(3, [Demo.ly, Demo.l1])]) r = true ∧
      ∃ m ∈ s.maps, m.index = r.id ∧ m.level ≠ fullLevel s.cols.length := by
  decide +kernel

/-- Two links. In the second all values from source record 1 are zero, so the proportions are equal shares;
then records 1 and 2 are merged, which makes the shares 2/3 and 1/3. Record 4 is reached by the first
link only. -/
def Demo.opsTwoLinks : List Op :=
  [.addIndexColumns [Demo.colA],
   .insertIndex none [] .abort .abort
     [⟨none, some [['a']], []⟩, ⟨none, some [['b']], []⟩, ⟨none, some [['c']], []⟩, ⟨none, some [['d']], []⟩],
   .addLink Demo.other ['k'] none [] none none false,
   .addLink Demo.other ['l'] none [] none none false,
   .insertMappings2 Demo.other (some ['k']) [⟨1, 10, 4, [], some [0x80#8]⟩],
   .insertMappings2 Demo.other (some ['l'])
     [⟨1, 0, 1, [], some [0x80#8]⟩, ⟨1, 0, 2, [], some [0x80#8]⟩, ⟨1, 0, 3, [], some [0x80#8]⟩],
   .updateIndex true [(1, [['b']])]]

/-- Deleting a record that is reached by one link only changes the proportions of another link. -/
theorem C24_other_links_violated :
    ∃ s, Reachable s ∧ ∃ t, (step (.deleteIndex t) s).2 = .ok () ∧
      ∃ l ∈ s.links, (∀ m ∈ s.maps, m.link = l.id → m.index ∈ (step (.deleteIndex t) s).1.ids) ∧
        ∃ m ∈ s.maps, m.link = l.id ∧ m ∉ (step (.deleteIndex t) s).1.maps := by
  refine ⟨run Demo.opsTwoLinks (Store.new ['u']), ⟨_, _, rfl⟩, .rows [(4, [['d']])], ?_⟩
  decide +kernel

end Toron.Space
