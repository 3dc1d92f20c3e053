/-
C66: the header of a written index, and the cells in which codes are replaced when a table is read.
-/
import Verif.Props.IndexCsv

namespace Toron.IndexCsv

open Toron.Selectors (PyStr)
open Toron.Space
open Toron.IndexCode (isCode toId toCode)
open Toron.MappingCsv (Table codePosition)

private theorem default_first (d : Option Nat) (l : List WGroup) (h : ∃ g ∈ l, some g.id = d) :
    ∃ g rest, sortedBy (groupLe d) l = g :: rest ∧ some g.id = d := by
  induction l with
  | nil =>
    obtain ⟨g, hg, _⟩ := h
    cases hg
  | cons x l ih =>
    rw [sortedBy]
    by_cases hx : some x.id = d
    · rcases hs : sortedBy (groupLe d) l with _ | ⟨y, ys⟩
      · exact ⟨x, [], rfl, hx⟩
      · rw [insertBy]
        by_cases hle : groupLe d x y = true
        · rw [if_pos hle]
          exact ⟨x, _, rfl, hx⟩
        · rw [if_neg hle]
          refine ⟨y, _, rfl, ?_⟩
          by_contra hy
          apply hle
          unfold groupLe
          simp [hx, hy]
    · obtain ⟨y, ys, hs, hy⟩ := ih (by
        obtain ⟨g, hg, e⟩ := h
        rcases List.mem_cons.1 hg with rfl | hg
        · exact absurd e hx
        · exact ⟨g, hg, e⟩)
      rw [hs, insertBy, if_neg (by unfold groupLe; simp [hx, hy])]
      exact ⟨y, _, rfl, hy⟩

/-- **C66 (header).** The header of a written index has a name without blanks for the codes, then the label columns in their
order, then the names of all weight groups, that of the default group before the others. -/
theorem C66_header {F : Floats} {uid : List Byte} {s : Store} {t : Table} (h : writeIndex F uid s = .ok t) :
    ∃ first names, t.header = first :: s.cols ++ names ∧ ' ' ∉ first ∧ names.Perm (s.wgroups.map (·.name)) ∧
      ((∃ g ∈ s.wgroups, s.defaultWG.join = some g.id) →
        ∃ g ∈ s.wgroups, s.defaultWG.join = some g.id ∧ names.head? = some g.name) := by
  unfold writeIndex writeRecords at h
  rcases hm : s.index.mapM (writeRow F uid s) with e | rows
  · rw [hm] at h
    cases h
  rw [hm] at h
  injection h with h
  subst h
  refine ⟨_, _, rfl, ?_, (sortedBy_perm _ _).map _, ?_⟩
  · unfold codeHeader
    intro hb
    rcases List.mem_append.1 hb with hb | hb
    · split at hb
      · cases hb
      · rcases List.mem_append.1 hb with hb | hb
        · obtain ⟨c, _, hc⟩ := List.mem_map.1 hb
          split at hc
          · cases hc
          · rename_i hne
            exact hne hc
        · simp at hb
    · revert hb
      decide
  · rintro ⟨g, hg, e⟩
    obtain ⟨y, ys, hs, hy⟩ := default_first s.defaultWG.join s.wgroups ⟨g, hg, e.symm⟩
    refine ⟨y, ?_, hy.symm, ?_⟩
    · exact (sortedBy_perm (groupLe s.defaultWG.join) s.wgroups).mem_iff.1 (by rw [hs]; exact List.mem_cons_self)
    · unfold sortedGroups
      rw [hs]
      rfl

/-- **C66 (codes).** When a table is read, there is one column in which codes are replaced by the numbers they stand for, empty
cells excepted, if there is a column of codes at all; all other cells are read as they are. -/
theorem C66_codes {uid : List Byte} {t : Table} {header : List PyStr} {rows : List (List Cell)}
    (h : remap uid t = .ok (header, rows)) :
    (header = t.header ∧ rows = t.rows.map fun row => row.map .text) ∨
    ∃ p, codePosition uid (t.header :: t.rows.take 9) = .ok (some p) ∧ (∀ j, j ≠ p → header[j]? = t.header[j]?) ∧
      List.Forall₂ (fun (row : List PyStr) (cells : List Cell) =>
        (∀ j, j ≠ p → cells[j]? = (row[j]?).map Cell.text) ∧
        ∃ c, row[p]? = some c ∧ (c = [] → cells[p]? = some (.text c)) ∧
          (c ≠ [] → ∃ i, toId c uid = .ok i ∧ cells[p]? = some (.id i))) t.rows rows := by
  unfold remap at h
  rcases hp : codePosition uid (t.header :: t.rows.take 9) with e | q
  · rw [hp] at h
    cases h
  rw [hp] at h
  rcases q with _ | p
  · left
    replace h : (if idName ∈ t.header then _ else Except.ok (t.header, t.rows.map fun row => row.map Cell.text)) =
      Except.ok (header, rows) := h
    split at h
    · cases h
    · injection h with h
      injection h with h1 h2
      exact ⟨h1.symm, h2.symm⟩
  · right
    refine ⟨p, rfl, ?_⟩
    rcases hm : t.rows.mapM (remapRow uid p) with e | rs
    · replace h : (t.rows.mapM (remapRow uid p) >>= fun rows => Except.ok (t.header.set p idName, rows)) =
        Except.ok (header, rows) := h
      rw [hm] at h
      cases h
    replace h : (t.rows.mapM (remapRow uid p) >>= fun rows => Except.ok (t.header.set p idName, rows)) =
      Except.ok (header, rows) := h
    rw [hm] at h
    injection h with h
    injection h with h1 h2
    subst h1 h2
    refine ⟨fun j hj => List.getElem?_set_ne (Ne.symm hj), ?_⟩
    refine (MappingCsv.mapM_forall₂.1 hm).imp fun row cells hc => ?_
    unfold remapRow at hc
    cases hr : row[p]? with
    | none =>
      rw [hr] at hc
      cases hc
    | some c =>
      rw [hr] at hc
      dsimp only at hc
      by_cases h0 : c = []
      · rw [if_pos h0] at hc
        injection hc with hc
        subst hc
        refine ⟨fun j _ => List.getElem?_map, c, rfl, fun _ => ?_, fun hne => absurd h0 hne⟩
        rw [List.getElem?_map, hr]
        rfl
      · rw [if_neg h0] at hc
        rcases hi : toId c uid with e | i
        · rw [hi] at hc
          cases hc
        rw [hi] at hc
        injection hc with hc
        subst hc
        refine ⟨fun j hj => ?_, c, rfl, fun h => absurd h h0, fun _ => ⟨i, hi, ?_⟩⟩
        · rw [List.getElem?_set_ne (Ne.symm hj), List.getElem?_map]
        · have hlt : p < (row.map Cell.text).length := by
            rw [List.length_map]
            exact (List.getElem?_eq_some_iff.1 hr).1
          rw [List.getElem?_set_self hlt]

/-- The conditions are met: a table with codes is written and read. -/
example : (writeIndex Demo.floats Demo.uid Space.Demo.store).toBool = true ∧ Space.Demo.store.wgroups ≠ [] ∧
    (remap Demo.uid Demo.part).toBool = true := by
  decide +kernel

end Toron.IndexCsv
