/-
C95: loading index data in parts and again.
-/
import Verif.Props.StoreIndexLoad
import Verif.Props.StoreIndexTurn
import Verif.Lemmas.PolicyAfter
import Verif.Lemmas.Store.Texts

namespace Toron.Space

open Toron.Selectors (PyStr)

private theorem insertIndex_turn {s : Store} (hr : Reachable s) {weights : Option (List PyStr)} {wcols : List PyStr}
    {pl pw : Policy} {rows : List IndexRow} (h : (step (.insertIndex weights wcols pl pw rows) s).2 = .ok ()) :
    ((step (.insertIndex weights wcols pl pw rows) s).1.index, (step (.insertIndex weights wcols pl pw rows) s).1.seq) =
      rows.foldl (recordsNext pl) (s.index, s.seq) := by
  have h' := step_ok (op := .insertIndex weights wcols pl pw rows) rfl h
  obtain ⟨groups, c, t, u, h1, h2, h3, -, h5⟩ := insertIndex_parts h'
  rw [recordsAll_eq hr.indexInv hr.weightInv h1]
  have hu : Steps [.hash, .structs, .pdefs, .lUpd] t u := by
    rw [whenM_ok] at h2
    obtain ⟨_, h2⟩ | ⟨_, rfl⟩ := h2
    · exact afterNewRecords_does.steps _ _ _ h2
    · exact Steps.refl _
  have hs : Steps [.wgUpd] u (step (.insertIndex weights wcols pl pw rows) s).1 := by
    rw [whenM_ok] at h3
    obtain ⟨_, h3⟩ | ⟨_, h3⟩ := h3
    · exact recomputeComplete_does.steps _ _ _ h3
    · rw [h3]; exact Steps.refl _
  have key : ∀ {K : List Kind} {a b : Store}, (∀ k ∈ K, k ∉ [Kind.idxAdd, .idxUpd, .idxDel, .colAdd, .colDrop]) →
      Steps K a b → b.seq = a.seq := by
    intro K a b hK hst
    refine Steps.relation (R := fun a b => b.seq = a.seq) (fun _ => rfl) (fun _ _ _ h1 h2 => h2.trans h1)
      (fun k hk a b hp => ?_) hst
    have hk' := hK k hk
    cases hp <;> first | rfl | (exfalso; revert hk'; decide)
  rw [(hs.index_eq (by decide)).trans (hu.index_eq (by decide)), (key (by decide) hs).trans (key (by decide) hu)]

private theorem numbersInTurn_append (p : Policy) (columns : List PyStr) (n : PyStr) (i : Nat) (rows1 rows2 : List IndexRow) :
    ∀ t, numbersInTurn p columns n i t (rows1 ++ rows2) = numbersInTurn p columns n i t rows1 ++
      numbersInTurn p columns n i (rows1.foldl (recordsNext p) t) rows2 := by
  induction rows1 with
  | nil => intro t; rfl
  | cons row rows ih =>
    intro t
    rw [List.cons_append, numbersInTurn, numbersInTurn, ih, List.append_assoc, List.foldl_cons]

private theorem weight_some {s : Store} (hr : Reachable s) {name : PyStr} (hg : ∃ g ∈ s.wgroups, g.name = name) (i : Nat) :
    ∃ v, s.WeightIs name i v := by
  obtain ⟨g, hg, rfl⟩ := hg
  exact ⟨s.weightOf g.id i, (weightIs_iff hr.weightInv hg).2 rfl⟩

private theorem group_stays {s : Store} (hr : Reachable s) {weights : Option (List PyStr)} {wcols : List PyStr} {pl pw : Policy}
    {rows : List IndexRow} (h : (step (.insertIndex weights wcols pl pw rows) s).2 = .ok ()) {name : PyStr}
    (hg : ∃ g ∈ s.wgroups, g.name = name) : ∃ g ∈ (step (.insertIndex weights wcols pl pw rows) s).1.wgroups, g.name = name := by
  have hk := insertIndex_keepsW weights wcols pl pw rows s () _
    (by simpa [wtexts, Function.comp_def] using hr.weightInv.gids) (step_ok (op := .insertIndex weights wcols pl pw rows) rfl h)
  obtain ⟨g, hg, rfl⟩ := hg
  have : (g.id, g.name, g.selectors) ∈ wtexts (step (.insertIndex weights wcols pl pw rows) s).1 := by
    rw [hk]
    exact List.mem_map_of_mem (f := fun g : WGroup => (g.id, g.name, g.selectors)) hg
  obtain ⟨x, hx, e⟩ := List.mem_map.1 this
  exact ⟨x, hx, congrArg (fun y => y.2.1) e⟩

/-- Index data loaded in two parts gives the same records, with the same ids, and the same weights as loaded at once, if the
calls succeed. -/
theorem C95_index_parts {s : Store} (hr : Reachable s) {weights : Option (List PyStr)} {wcols : List PyStr} {pl pw : Policy}
    {rows1 rows2 : List IndexRow} (h1 : (step (.insertIndex weights wcols pl pw rows1) s).2 = .ok ())
    (h2 : (step (.insertIndex weights wcols pl pw rows2) (step (.insertIndex weights wcols pl pw rows1) s).1).2 = .ok ())
    (h12 : (step (.insertIndex weights wcols pl pw (rows1 ++ rows2)) s).2 = .ok ()) :
    (step (.insertIndex weights wcols pl pw rows2) (step (.insertIndex weights wcols pl pw rows1) s).1).1.index =
      (step (.insertIndex weights wcols pl pw (rows1 ++ rows2)) s).1.index ∧
    ∀ name, (∃ g ∈ s.wgroups, g.name = name) → ∀ i x,
      (step (.insertIndex weights wcols pl pw rows2) (step (.insertIndex weights wcols pl pw rows1) s).1).1.HasWeight name i x ↔
        (step (.insertIndex weights wcols pl pw (rows1 ++ rows2)) s).1.HasWeight name i x := by
  have hr1 := hr.step (.insertIndex weights wcols pl pw rows1)
  have t1 := insertIndex_turn hr h1
  have t2 := insertIndex_turn hr1 h2
  have t12 := insertIndex_turn hr h12
  rw [t1] at t2
  rw [List.foldl_append] at t12
  refine ⟨congrArg Prod.fst (t2.trans t12.symm), fun name hg i x => ?_⟩
  obtain ⟨v, hv⟩ := weight_some hr hg i
  obtain ⟨-, w1, -⟩ := C65_weights hr h1 hg hv
  obtain ⟨-, w2, -⟩ := C65_weights hr1 h2 (group_stays hr h1 hg) w1
  obtain ⟨-, w12, -⟩ := C65_weights hr h12 hg hv
  rw [t1, ← Policy.after_parts, ← numbersInTurn_append] at w2
  exact (w2 x).symm.trans (w12 x)

/-! ### Again -/

private theorem recordsNext_known {pl : Policy} {t : List IndexRec × Nat} {row : IndexRow}
    (hpl : pl ≠ .replace ∨ row.idv = none)
    (h : row.Counts → row.idv = none → row.labels.getD [] ∈ t.1.map (·.labels)) : recordsNext pl t row = t := by
  unfold recordsNext
  by_cases hc : row.Counts
  · rw [if_pos hc]
    rcases hi : row.idv with _ | i
    · dsimp only
      rw [if_pos (h hc hi)]
    · have hp : pl ≠ .replace := hpl.resolve_right (by rw [hi]; simp)
      simp [hp]
  · rw [if_neg hc]

private theorem records_known {pl : Policy} {rows : List IndexRow} : ∀ {t : List IndexRec × Nat},
    (pl ≠ .replace ∨ ∀ row ∈ rows, row.idv = none) →
    (∀ row ∈ rows, row.Counts → row.idv = none → row.labels.getD [] ∈ t.1.map (·.labels)) →
    rows.foldl (recordsNext pl) t = t := by
  induction rows with
  | nil => intros; rfl
  | cons row rows ih =>
    intro t hpl h
    rw [List.foldl_cons, recordsNext_known (hpl.imp id fun h => h row (by simp)) (h row (by simp))]
    exact ih (hpl.imp id fun h x hx => h x (by simp [hx])) fun x hx => h x (by simp [hx])

private theorem recordsNext_sub {pl : Policy} {t : List IndexRec × Nat} {row : IndexRow}
    (hpl : pl ≠ .replace ∨ row.idv = none) : ∀ l ∈ t.1.map (·.labels), l ∈ (recordsNext pl t row).1.map (·.labels) := by
  intro l hl
  by_cases h : row.Counts → row.idv = none → row.labels.getD [] ∈ t.1.map (·.labels)
  · rwa [recordsNext_known hpl h]
  · push Not at h
    obtain ⟨hc, hi, hn⟩ := h
    unfold recordsNext
    rw [if_pos hc, hi]
    dsimp only
    rw [if_neg hn, List.map_append]
    exact List.mem_append_left _ hl

private theorem records_sub {pl : Policy} {rows : List IndexRow} : ∀ {t : List IndexRec × Nat},
    (pl ≠ .replace ∨ ∀ row ∈ rows, row.idv = none) →
    (∀ l ∈ t.1.map (·.labels), l ∈ (rows.foldl (recordsNext pl) t).1.map (·.labels)) ∧
    ∀ row ∈ rows, row.Counts → row.idv = none → row.labels.getD [] ∈ (rows.foldl (recordsNext pl) t).1.map (·.labels) := by
  induction rows with
  | nil => intro t _; exact ⟨fun _ h => h, fun _ h => (by cases h)⟩
  | cons row rows ih =>
    intro t hpl
    have hp1 : pl ≠ .replace ∨ row.idv = none := hpl.imp id fun h => h row (by simp)
    obtain ⟨a, b⟩ := ih (t := recordsNext pl t row) (hpl.imp id fun h x hx => h x (by simp [hx]))
    rw [List.foldl_cons]
    refine ⟨fun l hl => a l (recordsNext_sub hp1 l hl), fun x hx hc hi => ?_⟩
    rcases List.mem_cons.1 hx with rfl | hx
    · refine a _ ?_
      by_cases hm : x.labels.getD [] ∈ t.1.map (·.labels)
      · exact recordsNext_sub hp1 _ hm
      · unfold recordsNext
        rw [if_pos hc, hi]
        dsimp only
        rw [if_neg hm]
        simp
    · exact b x hx hc hi

/-- The same index data loaded again, when rows with ids do not change labels or all rows have ids: no record changes, none is
added, and with every policy for weights but `sum` the weights stay as well. -/
theorem C95_index_again_partial {s : Store} (hr : Reachable s) {weights : Option (List PyStr)} {wcols : List PyStr} {pl pw : Policy}
    {rows : List IndexRow} (hst : pl ≠ .replace ∨ (∀ row ∈ rows, row.idv ≠ none) ∨ ∀ row ∈ rows, row.idv = none)
    (h1 : (step (.insertIndex weights wcols pl pw rows) s).2 = .ok ())
    (h2 : (step (.insertIndex weights wcols pl pw rows) (step (.insertIndex weights wcols pl pw rows) s).1).2 = .ok ()) :
    (step (.insertIndex weights wcols pl pw rows) (step (.insertIndex weights wcols pl pw rows) s).1).1.index =
      (step (.insertIndex weights wcols pl pw rows) s).1.index ∧
    (pw ≠ .sum → ∀ name, (∃ g ∈ s.wgroups, g.name = name) → ∀ i x,
      (step (.insertIndex weights wcols pl pw rows) (step (.insertIndex weights wcols pl pw rows) s).1).1.HasWeight name i x ↔
        (step (.insertIndex weights wcols pl pw rows) s).1.HasWeight name i x) := by
  have hr1 := hr.step (.insertIndex weights wcols pl pw rows)
  have hidx : (step (.insertIndex weights wcols pl pw rows) (step (.insertIndex weights wcols pl pw rows) s).1).1.index =
      (step (.insertIndex weights wcols pl pw rows) s).1.index := by
    by_cases hids : ∀ row ∈ rows, row.idv ≠ none
    · have hnone : (rows.filter fun row => decide (row.Counts ∧ row.idv = none)) = [] := by
        rw [List.filter_eq_nil_iff]
        intro row hrow
        simp [hids row hrow]
      obtain ⟨⟨new, e1, -, n1⟩, -⟩ := C65_records hr h1
      obtain ⟨⟨new', e2, -, n2⟩, -⟩ := C65_records hr1 h2
      rw [hnone] at n1 n2
      have hn1 : new = [] := by simpa using n1
      have hn2 : new' = [] := by simpa using n2
      rw [e2, hn2, e1, hn1, List.append_nil, List.append_nil, List.map_map]
      apply List.map_congr_left
      intro r _
      simp only [Function.comp, labelsAfter]
      by_cases hp : pl = .replace
      · simp only [hp, if_true]
        cases (labelsGiven rows r.id).getLast? <;> rfl
      · simp only [hp, if_false]
    · have hpl : pl ≠ .replace ∨ ∀ row ∈ rows, row.idv = none := by
        rcases hst with h | h | h
        · exact .inl h
        · exact absurd h hids
        · exact .inr h
      have t1 := insertIndex_turn hr h1
      have t2 := insertIndex_turn hr1 h2
      have hsub := (records_sub (t := (s.index, s.seq)) hpl).2
      rw [t1, records_known hpl hsub, ← t1] at t2
      exact congrArg Prod.fst t2
  refine ⟨hidx, fun hp name hg i x => ?_⟩
  obtain ⟨v, hv⟩ := weight_some hr hg i
  obtain ⟨-, w1, -⟩ := C65_weights_final hr hst h1 hg hv
  obtain ⟨-, w2, -⟩ := C65_weights_final hr1 hst h2 (group_stays hr h1 hg) w1
  have he : (step (.insertIndex weights wcols pl pw rows) (step (.insertIndex weights wcols pl pw rows) s).1).1.weightsGiven
        (weightColumns weights wcols) name rows i =
      (step (.insertIndex weights wcols pl pw rows) s).1.weightsGiven (weightColumns weights wcols) name rows i := by
    unfold Store.weightsGiven
    refine congrArg _ (List.filter_congr fun row _ => decide_eq_decide.2 ?_)
    unfold Store.About
    rw [hidx]
  rw [he, Policy.after_again hp] at w2
  exact (w2 x).symm.trans (w1 x)

/-- A load in which a row names a record by its labels and a later row gives it other labels by its id makes another record
when it is repeated. -/
theorem C95_index_again_violated : ∃ s, Reachable s ∧ ∃ rows,
    (step (.insertIndex none [] .replace .ignore rows) s).2 = .ok () ∧
    (step (.insertIndex none [] .replace .ignore rows) (step (.insertIndex none [] .replace .ignore rows) s).1).2 = .ok () ∧
    (step (.insertIndex none [] .replace .ignore rows) s).1.index.length = 4 ∧
    (step (.insertIndex none [] .replace .ignore rows)
      (step (.insertIndex none [] .replace .ignore rows) s).1).1.index.length = 5 :=
  ⟨Demo.store, Demo.reachable, [⟨none, some [Demo.lx, Demo.l1], []⟩, ⟨some 1, some [['z'], ['1']], []⟩], by decide +kernel,
    by decide +kernel, by decide +kernel, by decide +kernel⟩

/-! Non-vacuity -/

example : (step (.insertIndex none [Demo.wname] .abort .replace [⟨none, some [Demo.ly, Demo.l2], [some 4]⟩]) Demo.store).2 = .ok () ∧
    (step (.insertIndex none [Demo.wname] .abort .replace [⟨none, some [Demo.ly, Demo.l2], [some 4]⟩])
      (step (.insertIndex none [Demo.wname] .abort .replace [⟨none, some [Demo.ly, Demo.l2], [some 4]⟩]) Demo.store).1).2 =
        .ok () ∧
    (step (.insertIndex none [Demo.wname] .abort .replace ([⟨none, some [Demo.ly, Demo.l2], [some 4]⟩] ++
      [⟨none, some [Demo.ly, Demo.l2], [some 4]⟩])) Demo.store).2 = .ok () ∧
    (step (.insertIndex none [Demo.wname] .abort .replace [⟨none, some [Demo.ly, Demo.l2], [some 4]⟩]) Demo.store).1.index.length =
      Demo.store.index.length + 1 := by
  decide +kernel

end Toron.Space
