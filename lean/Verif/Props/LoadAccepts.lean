/-
C68, continued: which tables of mapping data can be matched.
-/
import Verif.Props.LoadMapping
import Verif.Props.StoreGranularity

namespace Toron.LoadMapping

open Toron.Selectors (PyStr)
open Toron.Space
open Toron.Mapper
open Toron.MappingCsv (Table Numbers valuePosition)

/-- The dataspace has a default weight group. -/
def HasDefault (s : Store) : Prop := ∃ i, s.defaultWG = some (some i) ∧ ∃ g ∈ s.wgroups, g.id = i

/-- The dataspace has a record other than the undefined one. -/
def HasRecord (s : Store) : Prop := ∃ r ∈ s.index, r.id ≠ 0

theorem getDefaultWG_iff {s : Store} : (∃ g, s.getDefaultWG = .ok g) ↔ HasDefault s := by
  unfold Store.getDefaultWG HasDefault
  rcases s.defaultWG with _ | _ | i
  · exact ⟨fun ⟨_, h⟩ => (nomatch h), fun ⟨_, h, _⟩ => (nomatch h)⟩
  · exact ⟨fun ⟨_, h⟩ => (nomatch h), fun ⟨_, h, _⟩ => (nomatch h)⟩
  · dsimp only
    rcases hf : s.wgroups.find? (fun g => g.id == i) with _ | g
    · rw [hf]
      refine ⟨fun ⟨_, h⟩ => (nomatch h), ?_⟩
      rintro ⟨j, hj, g, hg, rfl⟩
      cases hj
      exact absurd (beq_self_eq_true g.id) (by simpa using List.find?_eq_none.1 hf g hg)
    · rw [hf]
      refine ⟨fun _ => ⟨i, rfl, g, List.mem_of_find?_eq_some hf, ?_⟩, fun _ => ⟨g, rfl⟩⟩
      simpa using List.find?_some hf

/-- Every combination of columns that names a column has a granularity if there is a record. -/
theorem gran_some {s : Store} (hr : ReachableFresh s) (hrec : HasRecord s) {st : StructRec} (hst : st ∈ s.structs)
    (hb : (BitFlags.ofBits st.bits).bytes ≠ []) : st.gran.isSome = true := by
  obtain ⟨d, _, hbits, hg⟩ := C49_current_partial hr st hst
  have hd : d ≠ ∅ := by
    rintro rfl
    refine hb (bytes_nil_iff.2 ?_)
    rw [hbits, List.any_eq_false]
    intro b hbm
    obtain ⟨c, _, rfl⟩ := List.mem_map.1 hbm
    simp
  have hl : s.labelsIn d ≠ [] := by
    obtain ⟨r, hr1, hr0⟩ := hrec
    unfold Store.labelsIn
    intro h
    rw [List.map_eq_nil_iff, List.filter_eq_nil_iff] at h
    exact h r hr1 (by simpa using hr0)
  unfold Store.trueGranularity at hg
  rw [if_neg (not_or.2 ⟨hd, hl⟩)] at hg
  rcases hgr : st.gran with _ | g
  · rw [hgr] at hg; cases hg
  · rfl

theorem orderedPairs_accepts {s : Store} (hr : ReachableFresh s) (hrec : HasRecord s) (cols : List PyStr)
    (inputs : List (List Byte)) : ∃ ps, orderedPairs s cols inputs = .ok ps := by
  unfold orderedPairs
  dsimp only
  rw [if_neg]
  · exact ⟨_, rfl⟩
  · rintro ⟨_, h⟩
    obtain ⟨p, hp, hb⟩ := List.any_eq_true.1 h
    obtain ⟨h1, h2⟩ := Bool.and_eq_true_iff.1 hb
    obtain ⟨a, _, rfl⟩ := List.mem_map.1 hp
    dsimp only at h1
    unfold pairKey at h2
    dsimp only at h2
    split at h1
    · rename_i hk
      rw [if_pos hk, Option.bind_some] at h2
      unfold levelGran at hk h2
      split at hk
      · cases hk
      · rename_i hne
        rw [if_neg hne] at h2
        rcases hf : s.structs.find? fun st => (BitFlags.ofBits st.bits).bytes == nodeLevel s cols a with _ | st
        · rw [hf] at hk; cases hk
        · rw [hf] at h2
          have he : (BitFlags.ofBits st.bits).bytes = nodeLevel s cols a := by simpa using List.find?_some hf
          have := gran_some hr hrec (List.mem_of_find?_eq_some hf) (by rw [he]; exact hne)
          rcases hgr : st.gran with _ | g
          · rw [hgr] at this; cases this
          · rw [Option.map_some, hgr] at h2; cases h2
    · cases h1

theorem matchOld_accepts {s : Store} (hr : ReachableFresh s) (hrec : HasRecord s) (hd : HasDefault s) (limit : Nat)
    (allow : Bool) (cols : List PyStr) (rows : List (Nat × Side)) : ∃ ms, matchOld s limit allow cols rows = .ok ms := by
  obtain ⟨g, hg⟩ := getDefaultWG_iff.2 hd
  obtain ⟨ps, hps⟩ := orderedPairs_accepts hr hrec cols (distinct (rows.map fun r => r.2.level))
  unfold matchOld
  rw [hg, hps]
  exact ⟨_, rfl⟩

/-- A table can be matched with two dataspaces that have records exactly if it has a column for the link, the domains
in its rows are those of the dataspaces, and both dataspaces have a default weight group. Labels that the dataspaces do
not have and combinations of columns that they do not know are no errors. -/
theorem C68_accepts {edge : PyStr → Option PyStr} {N : Numbers} {s1 s2 : Store} {link : PyStr} {limit : Nat} {allow : Bool}
    {t : Table} (hr1 : ReachableFresh s1) (hr2 : ReachableFresh s2) (hrec1 : HasRecord s1) (hrec2 : HasRecord s2)
    (hrect : Rectangular t) :
    (∃ m, matchData edge N s1 s2 link limit allow t = .ok m) ↔
      HasDefault s1 ∧ HasDefault s2 ∧ ∃ v, valuePosition edge link t.header = some v ∧
        ∀ row ∈ t.rows, DomainOk s1.getDomain (t.header.take v) (row.take v) ∧
          DomainOk s2.getDomain (t.header.drop (v + 1)) (row.drop (v + 1)) := by
  constructor
  · rintro ⟨m, h⟩
    obtain ⟨v, hv, hdom, _, _, hm1, hm2⟩ := C68_rows hrect h
    obtain ⟨g1, _, hg1, _⟩ := matchOld_ok hm1
    obtain ⟨g2, _, hg2, _⟩ := matchOld_ok hm2
    exact ⟨getDefaultWG_iff.1 ⟨_, hg1⟩, getDefaultWG_iff.1 ⟨_, hg2⟩, v, hv, hdom⟩
  · rintro ⟨hd1, hd2, v, hv, hdom⟩
    obtain ⟨hlt, hsplit⟩ := valuePosition_erased s1.getDomain s2.getDomain hv
    obtain ⟨rows, hrows⟩ := (readRows_iff (N := N) (d1 := s1.getDomain) (d2 := s2.getDomain) hlt hrect (n := 0)).2.2 hdom
    obtain ⟨m1, hm1⟩ := matchOld_accepts hr1 hrec1 hd1 limit allow (columnsOf s1.getDomain (t.header.take v))
      (rows.map fun r => (r.run, r.node1))
    obtain ⟨m2, hm2⟩ := matchOld_accepts hr2 hrec2 hd2 limit allow (columnsOf s2.getDomain (t.header.drop (v + 1)))
      (rows.map fun r => (r.run, r.node2))
    unfold matchData
    rw [hv]
    dsimp only
    rw [hsplit]
    simp only [bind, Except.bind]
    rw [hrows]
    dsimp only
    rw [hm1]
    dsimp only
    rw [hm2]
    exact ⟨_, rfl⟩

/-- The hypotheses can be met. -/
example : ReachableFresh Space.Demo.store ∧ HasRecord Space.Demo.store ∧ HasDefault Space.Demo.store := by
  refine ⟨⟨['u'], Space.Demo.ops, by decide, rfl⟩, by unfold HasRecord; decide +kernel, 1, by decide +kernel, by decide +kernel⟩

end Toron.LoadMapping
