/-
C60: deleting and reclassifying mappings (`delete_mappings`, `reify_mappings` in `src/toron/space.py`).
-/
import Verif.Spec.MapEdit
import Verif.Lemmas.Store.MapOps
import Verif.Props.BitFlags
import Verif.Props.StoreSelect
import Verif.Demo

namespace Toron.Space

open Toron.Selectors (PyStr)
open Toron.Spec

theorem coveredBy_iff {cols : List PyStr} {cs : List (PyStr × PyStr)} {level : List Byte} :
    coveredBy cols cs level = true ↔ UsesOnly cols cs level := by
  have h := BitFlags.C08_or_eq_left_iff_subset (BitFlags.ofBits (cols.map fun c => decide (c ∈ cs.map (·.1))))
    (BitFlags.ofBytes level) (.bits _)
  have he : coveredBy cols cs level = ((BitFlags.ofBits (cols.map fun c => decide (c ∈ cs.map (·.1)))).or
    (BitFlags.ofBytes level)).eq (BitFlags.ofBits (cols.map fun c => decide (c ∈ cs.map (·.1)))) := rfl
  rw [he, h]
  unfold UsesOnly
  apply forall_congr'
  intro i
  have h1 : bitAt (BitFlags.ofBytes level).toBits i = bitAt (bytesToBitstream level) i := by
    simp [BitFlags.toBits, BitFlags.ofBytes, bitAt_bytesToBitstream, byteBit_rstrip]
  rw [h1, bitAt_toBits_ofBits]
  apply imp_congr_right
  intro _
  unfold bitAt
  rw [List.getD_eq_getElem?_getD, List.getElem?_map]
  rcases hc : cols[i]? with _ | c
  · simp
  · simp

theorem mem_chosen {s : Store} (hr : Reachable s) {link : Nat} {cs : List (PyStr × PyStr)}
    (hk : ∀ c v, (c, v) ∈ cs → c ∈ s.cols) {m : Mapping} :
    m ∈ ((s.filterByLabel cs).flatMap fun r =>
      s.maps.filter fun m => m.link == link && m.index == r.id && coveredBy s.cols cs m.level) ↔
      m ∈ s.maps ∧ Means s link cs m := by
  rw [List.mem_flatMap]
  unfold Means
  constructor
  · rintro ⟨r, h1, h2⟩
    rw [List.mem_filter] at h2
    simp only [Bool.and_eq_true, beq_iff_eq, coveredBy_iff] at h2
    have := (mem_filterByLabel hr hk true r).1 h1
    exact ⟨h2.1, h2.2.1.1, ⟨r, this.1, h2.2.1.2.symm, this.2.1⟩, h2.2.2⟩
  · rintro ⟨h1, h2, ⟨r, h3, h4, h5⟩, h6⟩
    refine ⟨r, (mem_filterByLabel hr hk true r).2 ⟨h3, h5, .inl rfl⟩, List.mem_filter.2 ⟨h1, ?_⟩⟩
    simp only [Bool.and_eq_true, beq_iff_eq, coveredBy_iff]
    exact ⟨⟨h2, h4.symm⟩, h6⟩

open Classical in
/-- Deleting by criteria removes exactly the mappings they mean; what the others say, apart from the proportions,
stays as it is. -/
theorem C60_delete {s s' : Store} (hr : Reachable s) {ref : PyStr} {name : Option PyStr} {colsOk : Bool}
    {cs : List (PyStr × PyStr)} (hk : ∀ c v, (c, v) ∈ cs → c ∈ s.cols)
    (h : deleteMappings ref name colsOk (.criteria cs) s = .ok ((), s')) :
    ∃ l, getLink s.links ref name = .ok l ∧
      s'.maps.map Mapping.content = (s.maps.filter fun m => ¬ Means s l.id cs m).map Mapping.content := by
  have hi := hr.mapInv
  unfold deleteMappings at h
  simp only [bind_ok, get_ok, liftE_ok] at h
  obtain ⟨_, _, he, l, _, ⟨l, hl, he2⟩, h⟩ := h
  cases he
  cases he2
  refine ⟨l, hl, ?_⟩
  rw [ite_ok] at h
  obtain ⟨_, h⟩ | ⟨_, h⟩ := h
  · exact absurd h (by simp [throw_ok])
  rw [bind_ok] at h
  obtain ⟨b, t, h1, h2⟩ := h
  have hK := (deleteMappingTarget_does l.id colsOk (.criteria cs)).steps _ _ _ h1
  have hm : t.maps = s.maps.filter fun m => ¬ Means s l.id cs m := by
    unfold deleteMappingTarget at h1
    simp only [bind_ok, get_ok, pure_ok] at h1
    obtain ⟨_, _, he, _, u, h3, h4⟩ := h1
    cases he
    cases h4
    rw [forM_mappingDelete h3]
    apply List.filter_congr
    intro m hm
    rw [Bool.eq_iff_iff, decide_eq_true_eq, decide_eq_true_eq, not_iff_not]
    constructor
    · intro h5
      obtain ⟨x, hx, he⟩ := List.mem_map.1 h5
      have hx' := (mem_chosen hr hk).1 hx
      rw [← eq_of_id hi.ids hx'.1 hm he]
      exact hx'.2
    · exact fun h5 => List.mem_map_of_mem ((mem_chosen hr hk).2 ⟨hm, h5⟩)
  rw [← hm]
  rw [whenM_ok] at h2
  obtain ⟨_, h2⟩ | ⟨_, rfl⟩ := h2
  · rw [refreshLink_ok (hi.steps hK).ids h2]
    exact refreshMaps_map Mapping.content (fun _ _ => rfl) t.maps fun k o => k == l.id && decide (0 ≤ o)
  · rfl

theorem runAuto_updates {ms : List Mapping} {lv : List Byte} {s : Store}
    (h : (runAuto (ms.map fun m => mappingUpdate { m with level := lv }) s).2 = .ok ()) :
    (runAuto (ms.map fun m => mappingUpdate { m with level := lv }) s).1 =
      { s with maps := ms.foldl (fun acc m => upd Mapping.id { m with level := lv } acc) s.maps } := by
  induction ms generalizing s with
  | nil => rfl
  | cons m ms ih =>
    rw [List.map_cons, runAuto] at h ⊢
    rcases hr : runTx (mappingUpdate { m with level := lv }) s with ⟨t, r⟩
    rw [hr] at h
    rcases r with e | u
    · cases h
    · dsimp only at h ⊢
      rw [ih h, List.foldl_cons]
      have h1 := (runTx_ok (m := mappingUpdate { m with level := lv }) (s := s) (a := u) (by rw [hr])).1
      rw [hr] at h1
      have h2 : t = _ := mappingUpdate_ok h1
      rw [h2]

open Classical in
/-- Reclassifying makes exactly the mappings that the criteria mean (all of the link without criteria) exact, and
changes nothing else. -/
theorem C60_reify {s : Store} (hr : Reachable s) {ref : PyStr} {name : Option PyStr} {cs : List (PyStr × PyStr)}
    (hk : ∀ c v, (c, v) ∈ cs → c ∈ s.cols) (h : (reifyMappings ref name cs s).2 = .ok ()) :
    ∃ l, getLink s.links ref name = .ok l ∧ (reifyMappings ref name cs s).1 =
      { s with maps := s.maps.map fun m =>
        if m.link = l.id ∧ (cs = [] ∨ Means s l.id cs m) then { m with level := fullLevel s.cols.length } else m } := by
  have hi := hr.mapInv
  unfold reifyMappings at h ⊢
  rcases hl : getLink s.links ref name with e | l
  · rw [hl] at h; cases h
  rw [hl] at h
  refine ⟨l, rfl, ?_⟩
  dsimp only at h ⊢
  unfold reifySteps at h ⊢
  rw [runAuto_updates h]
  have hmem : ∀ m, m ∈ (if cs = [] then s.maps.filter fun m => m.link == l.id
      else (s.filterByLabel cs).flatMap fun r =>
        s.maps.filter fun m => m.link == l.id && m.index == r.id && coveredBy s.cols cs m.level) ↔
      m ∈ s.maps ∧ m.link = l.id ∧ (cs = [] ∨ Means s l.id cs m) := by
    intro m
    by_cases hc : cs = []
    · rw [if_pos hc, List.mem_filter]
      simp [hc]
    · rw [if_neg hc, mem_chosen hr hk]
      simp only [hc, false_or]
      exact ⟨fun h => ⟨h.1, h.2.1, h.2⟩, fun h => ⟨h.1, h.2.2⟩⟩
  have hnd := foldl_upd hi.ids (ls := (if cs = [] then s.maps.filter fun m => m.link == l.id
      else (s.filterByLabel cs).flatMap fun r =>
        s.maps.filter fun m => m.link == l.id && m.index == r.id && coveredBy s.cols cs m.level).filter
      fun m => !(m.other == 0 && m.index == 0) && m.level != fullLevel s.cols.length)
    (g := fun m => { m with level := fullLevel s.cols.length })
    (fun x hx => ((hmem x).1 (List.mem_of_mem_filter hx)).1) (fun _ _ => rfl)
  rw [hnd]
  congr 1
  apply List.map_congr_left
  intro m hm
  by_cases hs : m.link = l.id ∧ (cs = [] ∨ Means s l.id cs m)
  · rw [if_pos hs]
    by_cases hlv : m.level = fullLevel s.cols.length
    · have : ({ m with level := fullLevel s.cols.length } : Mapping) = m := by rw [← hlv]
      rw [this, ite_self]
    · rw [if_pos]
      refine List.mem_map_of_mem (List.mem_filter.2 ⟨(hmem m).2 ⟨hm, hs⟩, ?_⟩)
      have hch := hi.checks m hm
      unfold mappingCheck at hch
      simp only [Bool.and_eq_true] at hch
      rw [Bool.and_eq_true]
      exact ⟨hch.2, by simpa using hlv⟩
  · rw [if_neg hs, if_neg]
    intro hx
    obtain ⟨x, hx, he⟩ := List.mem_map.1 hx
    have hx' := (hmem x).1 (List.mem_of_mem_filter hx)
    rw [eq_of_id hi.ids hx'.1 hm he] at hx'
    exact hs hx'.2

/-- The demonstration dataspace with one more mapping, which uses only column A. -/
def coarseOps : List Op :=
  Demo.ops ++ [.insertMappings2 Demo.other none [⟨3, 5, 3, [], some [0x80#8]⟩]]

def coarse : Store := run coarseOps (Store.new ['u'])

theorem coarse_reachable : Reachable coarse := ⟨['u'], coarseOps, rfl⟩

/-- Asking for the labels A = y means the mapping that uses only column A, not the exact one of the same
record. -/
example : (coarse.maps.map fun m => (m.id, m.index, m.level)) =
      [(1, 1, [0xC0#8]), (2, 2, [0xC0#8]), (3, 3, [0xC0#8]), (4, 3, [0x80#8])] ∧
    ((step (.deleteMappings Demo.other none true (.criteria [(Demo.colA, Demo.ly)])) coarse).1.maps.map (·.id)) =
      [1, 2, 3] := by
  constructor <;> decide +kernel

example : (deleteMappings Demo.other none true (.criteria [(Demo.colA, Demo.ly)]) coarse).toOption.isSome = true ∧
    ∀ c v, (c, v) ∈ [(Demo.colA, Demo.ly)] → c ∈ coarse.cols := by
  constructor
  · decide +kernel
  · intro c v h
    have hc : coarse.cols = [Demo.colA, Demo.colB] := by decide +kernel
    cases List.mem_singleton.1 h
    rw [hc]
    exact List.mem_cons_self ..

example : (reifyMappings Demo.other none [(Demo.colA, Demo.ly)] coarse).2.toOption = some () ∧
    ((reifyMappings Demo.other none [(Demo.colA, Demo.ly)] coarse).1.maps.map fun m => (m.id, m.level)) =
      [(1, [0xC0#8]), (2, [0xC0#8]), (3, [0xC0#8]), (4, [0xC0#8])] := by
  constructor <;> decide +kernel

end Toron.Space
