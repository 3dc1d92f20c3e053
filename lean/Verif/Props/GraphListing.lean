/-
C84: the listing of a mapping with labels (`get_mapping` in `src/toron/graph.py`).
-/
import Verif.Spec.GraphListing
import Verif.Props.Graph

namespace Toron.Space

open Toron.Selectors (PyStr)

private theorem sideCells_some (s : Store) (i : Int) : ShowsId s i (s.sideCells (some i)) := by
  unfold Store.sideCells
  refine ⟨s.domainVals.map .text, _, rfl, ?_, ?_⟩
  · unfold Store.domainVals
    rcases s.domain with _ | _ | ⟨c, d⟩
    · exact .inl ⟨rfl, .inl rfl⟩
    · exact .inl ⟨rfl, .inr rfl⟩
    · exact .inr ⟨c :: d, by simp, rfl, rfl⟩
  · rcases h : s.index.find? (fun r => (r.id : Int) == i) with _ | r
    · right
      rw [List.find?_eq_none] at h
      have hn : s.index.find? (fun r => (r.id : Int) == i) = none := List.find?_eq_none.2 h
      rw [hn]
      refine ⟨fun r hr he => h r hr (by simpa using he), by simp, ?_⟩
      intro c hc
      obtain ⟨_, _, rfl⟩ := List.mem_map.1 hc
      rfl
    · refine .inl ⟨r, List.mem_of_find?_eq_some h, by simpa using List.find?_some h, ?_⟩
      rw [h]

private theorem sideCells_none (s : Store) : ShowsNothing s (s.sideCells none) := by
  unfold Store.sideCells
  refine ⟨?_, ?_⟩
  · intro c hc
    simp only [List.cons_append, List.mem_cons, List.mem_append, List.mem_map] at hc
    rcases hc with rfl | ⟨_, _, rfl⟩ | ⟨_, _, rfl⟩ <;> rfl
  · unfold Store.domainVals
    rcases s.domain with _ | _ | ⟨c, d⟩ <;> simp <;> omega

/-- C84, what is listed. Below the header there are: a row for the two undefined records; for each mapping of the link a
row with the source record, the value, the target record and the ambiguous fields of its level (C51); a row for each
other record of the target that has no mapping, with nothing on the side of the source; and a row for each other record
of the source that has no mapping, with nothing on the side of the target. Each record is shown with its id, the domain
and its labels. -/
theorem C84_rows {src trg : Store} (hs : Reachable src) (hf : ReachableUnflagged trg) (hh : ReachableHashed trg)
    {name : PyStr} {rows : List (List MapCell)} (h : getMapping src trg (some name) true = .ok rows) :
    ∃ l ∈ trg.links, l.other = src.uid ∧ l.name = name ∧
    ∃ (head undef : List MapCell) (mapped open' closed : List (List MapCell)) (ut us : List Nat),
      rows = head :: undef :: mapped ++ open' ++ closed ∧
      RowOf (ShowsId src 0) (ShowsId trg 0) (.number 0) .none undef ∧
      List.Forall₂ (fun m row => RowOf (ShowsId src m.other) (ShowsId trg m.index) (.number m.value)
          (match Text.ambiguousText (some m.level) trg.cols with | some t => .text t | none => .none) row)
        (trg.maps.filter fun m => decide (m.link = l.id)) mapped ∧
      List.Forall₂ (fun i row => RowOf (ShowsNothing src) (ShowsId trg (i : Nat)) .none .none row) ut open' ∧
      List.Forall₂ (fun i row => RowOf (ShowsId src (i : Nat)) (ShowsNothing trg) .none .none row) us closed ∧
      ut.Nodup ∧ (∀ i, i ∈ ut ↔ i ∈ trg.ids ∧ i ≠ 0 ∧ ¬ trg.mapsToRecord l.id i) ∧
      us.Nodup ∧ (∀ i, i ∈ us ↔ i ∈ src.ids ∧ i ≠ 0 ∧ ¬ trg.mapsFromSource l.id i) := by
  unfold getMapping at h
  simp only [Bind.bind, Except.bind, Pure.pure, Except.pure] at h
  split at h
  · cases h
  rename_i els hels
  cases h
  obtain ⟨l, hl, ho, hn, ut, us, rfl, h1, h2, h3, h4⟩ := C41_elements hs hf hh hels
  refine ⟨l, hl, ho, hn, mappingHeader src trg name,
    mappingRow src trg ⟨some 0, some 0, none, some 0⟩,
    (trg.maps.filter fun m => decide (m.link = l.id)).map fun m =>
      mappingRow src trg ⟨some m.other, some m.index, some m.level, some m.value⟩,
    ut.map fun i => mappingRow src trg ⟨none, some i, none, none⟩,
    us.map fun i : Nat => mappingRow src trg ⟨some (i : Int), none, none, none⟩, ut, us, ?_, ?_, ?_, ?_, ?_, h1, h2, h3, h4⟩
  · rw [if_pos trivial]
    simp only [List.map_append, List.map_cons, List.map_nil, List.singleton_append, List.cons_append, List.map_map,
      List.append_assoc]
    rfl
  · exact ⟨_, _, sideCells_some src 0, sideCells_some trg 0, rfl⟩
  · rw [List.forall₂_map_right_iff, List.forall₂_same]
    exact fun m _ => ⟨_, _, sideCells_some src m.other, sideCells_some trg m.index, rfl⟩
  · rw [List.forall₂_map_right_iff, List.forall₂_same]
    exact fun i _ => ⟨_, _, sideCells_none src, sideCells_some trg i, rfl⟩
  · rw [List.forall₂_map_right_iff, List.forall₂_same]
    exact fun i _ => ⟨_, _, sideCells_some src i, sideCells_none trg, rfl⟩

/-- C84, columns. The header names the columns of both sides in the order of the fields, and every row has a field for
each name. -/
theorem C84_columns {src trg : Store} (hs : Reachable src) (ht : Reachable trg) {name : PyStr}
    {rows : List (List MapCell)} (h : getMapping src trg (some name) true = .ok rows) :
    ∃ ds dt : List PyStr, (ds = ["domain".toList] ↔ ∃ t, t ≠ [] ∧ src.domain = some t) ∧ (ds = [] ∨ ds = ["domain".toList]) ∧
      (dt = ["domain".toList] ↔ ∃ t, t ≠ [] ∧ trg.domain = some t) ∧ (dt = [] ∨ dt = ["domain".toList]) ∧
      rows.head? = some ((["index_id".toList] ++ ds ++ src.cols ++ [name] ++ ["index_id".toList] ++ dt ++ trg.cols ++
        ["ambiguous_fields".toList]).map .text) ∧
      ∀ row ∈ rows, row.length = ds.length + src.cols.length + dt.length + trg.cols.length + 4 := by
  have hdom : ∀ s : Store, ∃ d : List PyStr, (s.domainVals.map fun _ => "domain".toList) = d ∧
      (d = ["domain".toList] ↔ ∃ t, t ≠ [] ∧ s.domain = some t) ∧ (d = [] ∨ d = ["domain".toList]) ∧
      d.length = s.domainVals.length := by
    intro s
    refine ⟨_, rfl, ?_, ?_, by simp⟩
    · unfold Store.domainVals
      rcases s.domain with _ | _ | ⟨c, d⟩ <;> simp
    · unfold Store.domainVals
      rcases s.domain with _ | _ | ⟨c, d⟩ <;> simp
  obtain ⟨ds, hds, h1, h2, h3⟩ := hdom src
  obtain ⟨dt, hdt, h4, h5, h6⟩ := hdom trg
  unfold getMapping at h
  simp only [Bind.bind, Except.bind, Pure.pure, Except.pure] at h
  split at h
  · cases h
  rename_i els hels
  cases h
  refine ⟨ds, dt, h1, h2, h4, h5, ?_, ?_⟩
  · rw [if_pos trivial, List.singleton_append, List.head?_cons]
    unfold mappingHeader
    simp only [← hds, ← hdt, List.map_append, List.map_map, List.map_cons, List.map_nil]
    rfl
  · have hside : ∀ {s : Store}, Reachable s → ∀ i, (s.sideCells i).length = 1 + s.domainVals.length + s.cols.length := by
      intro s hr i
      unfold Store.sideCells
      rcases i with _ | i
      · simp; omega
      · dsimp only
        rcases hf : s.index.find? (fun r => (r.id : Int) == i) with _ | r
        · rw [hf]
          simp; omega
        · rw [hf]
          have := hr.indexInv.lens r (List.mem_of_find?_eq_some hf)
          simp [this]; omega
    intro row hrow
    rw [if_pos trivial, List.singleton_append, List.mem_cons] at hrow
    rcases hrow with rfl | hrow
    · unfold mappingHeader
      simp only [List.length_append, List.length_map, List.length_cons, List.length_nil, h3, h6]
      omega
    · obtain ⟨e, _, rfl⟩ := List.mem_map.1 hrow
      unfold mappingRow
      simp only [List.length_append, List.length_cons, List.length_nil, hside hs, hside ht, h3, h6]
      omega

/-- Without the header the rows are the same. -/
theorem C84_header (src trg : Store) (name : PyStr) :
    (getMapping src trg (some name) false).toOption = (getMapping src trg (some name) true).toOption.map List.tail := by
  unfold getMapping
  rcases h : trg.mappingElements src name with e | els <;>
    simp [h, Bind.bind, Except.bind, Pure.pure, Except.pure, Except.toOption]

/-- The name of the link may be left out, but then the call always fails, even if there is only one link between the
dataspaces and it is the default. -/
theorem C84_violated_name : ∃ src trg, Reachable src ∧ Reachable trg ∧
    (∃ l, trg.links = [l] ∧ l.other = src.uid ∧ l.isDefault = true) ∧
    ∀ header, (getMapping src trg none header).toBool = false := by
  refine ⟨Demo.src, Demo.store, Demo.src_reachable, Demo.reachable, ?_, fun _ => rfl⟩
  rcases h : Demo.store.links with _ | ⟨l, _ | ⟨l', ls⟩⟩
  · exact absurd h (by decide +kernel)
  · have h1 : ∀ l ∈ Demo.store.links, l.other = Demo.src.uid ∧ l.isDefault = true := by decide +kernel
    rw [h] at h1
    exact ⟨l, rfl, h1 l (by simp)⟩
  · have : Demo.store.links.length = 1 := by decide +kernel
    rw [h] at this
    simp at this

example : (getMapping Demo.src Demo.store' (some ['l']) true).toOption.map List.length = some 6 := by decide +kernel

end Toron.Space
