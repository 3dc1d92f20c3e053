/-
Loading rows of index data, one after the other.
-/
import Verif.Lemmas.Store.IndexLoad
import Verif.Spec.IndexTurn

namespace Toron.Space

open Toron.Selectors (PyStr)

theorem recordsNext_eq {groups : List WGroup} {pl pw : Policy} {c c' : Counts} {row : IndexRow} {s s' : Store}
    (hi : IndexInv s) (hw : WeightInv s) (h : insertIndexRow groups pl pw c row s = .ok (c', s')) :
    recordsNext pl (s.index, s.seq) row = (s'.index, s'.seq) := by
  obtain ⟨h1, h2, -⟩ := insertIndexRow_index hi hw h
  rw [h1, h2]
  unfold recordsNext
  by_cases hc : row.Counts
  · rw [if_pos hc]
    rcases hid : row.idv with _ | i
    · have hg : ∀ i, rowGiven row i = [] := fun i => if_neg fun h => by rw [hid] at h; exact (nomatch h.2)
      rw [map_self fun r _ => relabel_nil (hg _)]
      dsimp only
      by_cases hm : row.labels.getD [] ∈ s.index.map (·.labels)
      · have hn : rowNew s row = [] := if_neg fun h => h.2.2 hm
        rw [if_pos hm, hn, List.append_nil]; rfl
      · have hn : rowNew s row = [⟨s.seq + 1, row.labels.getD []⟩] := if_pos ⟨hc, hid, hm⟩
        rw [if_neg hm, hn]; rfl
    · have hn : rowNew s row = [] := if_neg fun h => by rw [hid] at h; exact (nomatch h.2.1)
      rw [hn, List.append_nil]
      dsimp only
      rw [Prod.mk.injEq]
      refine ⟨List.map_congr_left fun r _ => ?_, rfl⟩
      unfold relabel labelsAfter rowGiven
      by_cases hp : pl = .replace
      · rw [if_pos hp]
        by_cases he : r.id = i
        · rw [if_pos ⟨he, hp⟩, if_pos ⟨hc, by rw [hid, he]⟩]
          cases row.labels <;> rfl
        · rw [if_neg fun h => he h.1, if_neg fun h => he (by rw [hid] at h; exact (Option.some.inj h.2).symm)]; rfl
      · rw [if_neg fun h => hp h.2, if_neg hp]
  · rw [if_neg hc]
    have hn : rowNew s row = [] := if_neg fun h => hc h.1
    have hg : ∀ i, rowGiven row i = [] := fun i => if_neg fun h => hc h.1
    rw [hn, List.append_nil, map_self fun r _ => relabel_nil (hg _)]; rfl

theorem recordsAll_eq {groups : List WGroup} {pl pw : Policy} {rows : List IndexRow} : ∀ {c c' : Counts} {s s' : Store}
    (_ : IndexInv s) (_ : WeightInv s) (_ : rows.foldlM (insertIndexRow groups pl pw) c s = .ok (c', s')),
    rows.foldl (recordsNext pl) (s.index, s.seq) = (s'.index, s'.seq) := by
  induction rows with
  | nil => intro c c' s s' _ _ h; cases h; rfl
  | cons row rows ih =>
    intro c c' s s' hi hw h
    obtain ⟨d, t, h1, h2⟩ := foldlM_cons_ok.1 h
    obtain ⟨hit, hwt⟩ := insertIndexRow_inv hi hw h1
    rw [List.foldl_cons, recordsNext_eq hi hw h1]
    exact ih hit hwt h2

/-- The cells for the group `g` and the record `i`. -/
def cellsInTurn (p : Policy) (groups : List WGroup) (g i : Nat) : List IndexRec × Nat → List IndexRow → List ℚ
  | _, [] => []
  | t, row :: rows =>
    (if row.aboutNow (recordsNext p t row).1 i then cellsFor g (groups.zip row.ws) else []) ++
      cellsInTurn p groups g i (recordsNext p t row) rows

theorem insertIndexRows_turn {groups : List WGroup} {pl pw : Policy} {rows : List IndexRow} :
    ∀ {c c' : Counts} {s s' : Store} (_ : IndexInv s) (_ : WeightInv s)
    (_ : rows.foldlM (insertIndexRow groups pl pw) c s = .ok (c', s')),
    s'.wgroups = s.wgroups ∧ (∀ g, cellsInTurn pl groups g 0 (s.index, s.seq) rows = []) ∧
    ∀ g i, pw.Allows (s.weightOf g i) (cellsInTurn pl groups g i (s.index, s.seq) rows) ∧
      s'.weightOf g i = pw.after (s.weightOf g i) (cellsInTurn pl groups g i (s.index, s.seq) rows) := by
  induction rows with
  | nil =>
    intro c c' s s' _ _ h
    cases h
    exact ⟨rfl, fun _ => rfl, fun g i => ⟨Policy.allows_nil _ _, (Policy.after_nil _ _).symm⟩⟩
  | cons row rows ih =>
    intro c c' s s' hi hw h
    obtain ⟨d, t, h1, h2⟩ := foldlM_cons_ok.1 h
    obtain ⟨hit, hwt⟩ := insertIndexRow_inv hi hw h1
    obtain ⟨b1, b2, b3⟩ := ih hit hwt h2
    have hn := recordsNext_eq hi hw h1
    unfold cellsInTurn
    rw [hn]
    obtain ⟨hc, rfl⟩ | ⟨hc, i, c1, u, h3, hu, hseq, g1, -, g3, g4, g5⟩ := insertIndexRow_cases hw h1
    · have hno : ∀ i, ¬ row.aboutNow t.index i := fun i h => hc h.1
      simp only [hno, if_false, List.nil_append]
      exact ⟨b1, b2, b3⟩
    · have about : ∀ i', row.aboutNow t.index i' ↔ i' = i := by
        intro i'
        unfold IndexRow.aboutNow
        rw [and_iff_right hc]
        have found : row.idv = none → (⟨i, row.labels.getD []⟩ : IndexRec) ∈ u.index →
            (row.idv = some i' ∨ row.idv = none ∧ (⟨i', row.labels.getD []⟩ : IndexRec) ∈ t.index ↔ i' = i) := by
          intro hn hm
          rw [← hu] at hm
          constructor
          · rintro (h | ⟨_, h⟩)
            · rw [hn] at h; cases h
            · exact congrArg IndexRec.id (List.inj_on_of_nodup_map hit.labels h hm rfl)
          · rintro rfl
            exact .inr ⟨hn, hm⟩
        have named : row.idv = some i →
            (row.idv = some i' ∨ row.idv = none ∧ (⟨i', row.labels.getD []⟩ : IndexRec) ∈ t.index ↔ i' = i) := by
          intro hn
          rw [hn]
          constructor
          · rintro (h | ⟨h, _⟩)
            · exact (Option.some.inj h).symm
            · cases h
          · rintro rfl; exact .inl rfl
        obtain ⟨hid, -⟩ | ⟨hid, -⟩ | ⟨hid, -, rfl, rfl⟩ | ⟨hid, rfl, hm⟩ := insertIndexRecord_cases h3
        · exact named hid
        · exact named hid
        · exact found hid (List.mem_append_right _ (List.mem_singleton.2 rfl))
        · exact found hid hm
      refine ⟨b1.trans g1, fun g => ?_, fun g i' => ?_⟩
      · rw [b2 g, List.append_nil]
        split
        · rename_i hab
          unfold cellsFor
          rw [List.filterMap_eq_nil_iff]
          exact fun x hx => g3 ((about 0).1 hab).symm x (List.mem_filter.1 hx).1
        · rfl
      · obtain ⟨b4, b5⟩ := b3 g i'
        by_cases he : i' = i
        · subst he
          rw [if_pos ((about i').2 rfl), Policy.allows_append, ← Policy.after_append]
          rw [g5, if_pos rfl] at b4 b5
          exact ⟨⟨g4 g, b4⟩, b5⟩
        · rw [if_neg fun h => he ((about i').1 h), List.nil_append]
          rw [g5, if_neg he] at b4 b5
          exact ⟨b4, b5⟩

theorem cellsInTurn_eq {s : Store} (hw : WeightInv s) {groups : List WGroup} (hg : ∀ g ∈ groups, g ∈ s.wgroups) {g : WGroup}
    (hm : g ∈ s.wgroups) (p : Policy) (i : Nat) : ∀ (t : List IndexRec × Nat) (rows : List IndexRow),
    cellsInTurn p groups g.id i t rows = numbersInTurn p (groups.map (·.name)) g.name i t rows
  | _, [] => rfl
  | t, row :: rows => by
    unfold cellsInTurn numbersInTurn
    rw [cellsInTurn_eq hw hg hm p i _ rows, cellsFor_eq hw hg hm row]

end Toron.Space
