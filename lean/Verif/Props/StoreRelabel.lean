/-
C78: correcting the labels of index records.
-/
import Verif.Lemmas.Store.RelabelRun
import Verif.Demo

namespace Toron.Space

open Toron.Selectors (PyStr)

private theorem length_filter_le {α β : Type} {l : List α} {p : α → Bool} {f : α → β} (hnd : (l.map f).Nodup) (b : β)
    (hp : ∀ x ∈ l, p x = true → f x = b) : (l.filter p).length ≤ 1 := by
  have h1 : ((l.filter p).map f).Nodup := hnd.sublist (List.filter_sublist.map f)
  match hl : l.filter p with
  | [] => simp
  | [x] => simp
  | x :: y :: r =>
    rw [hl] at h1
    have hx := List.mem_filter.1 (hl ▸ List.mem_cons_self : x ∈ l.filter p)
    have hy := List.mem_filter.1 (hl ▸ (by simp) : y ∈ l.filter p)
    simp only [List.map_cons, List.nodup_cons, List.mem_cons, not_or] at h1
    exact absurd ((hp x hx.1 hx.2).trans (hp y hy.1 hy.2).symm) h1.1.1

/-- **C78** If labels are corrected (each record at most once, and never to the labels that it has already), then the
records have the labels that they should have, and the weights and mappings of records that were merged are with the
record they were merged into: one weight per group with the sum of the weights, one mapping per source record and level
with the sums of the values and of the proportions. -/
theorem C78_exact_partial {s : Store} (hr : Reachable s) (merge : Bool) (rows : List (Nat × List PyStr))
    (hok : (step (.updateIndex merge rows) s).2 = .ok ()) (hnd : (rows.map (·.1)).Nodup)
    (hown : ∀ row ∈ rows, ∀ r ∈ s.index, r.id = row.1 → r.labels ≠ row.2) :
    let s' := (step (.updateIndex merge rows) s).1
    ∃ into, Relabelled.rows merge rows ⟨s.index, []⟩ = some ⟨s'.index, into⟩ ∧
      (∀ g j, s'.weightsIn g (· == j) = putW (s.weightsIn g fun i => ends into i == j)) ∧
      ∀ k j, s'.mapsIn k (· == j) = putM (s.mapsIn k fun i => ends into i == j) := by
  intro s'
  obtain ⟨into, h1, h2⟩ := updateIndex_spec hr.weightInv hr.mapInv hnd hown (step_ok rfl hok)
  have hr' : Reachable s' := hr.step _
  refine ⟨into, h1, fun g j => (h2.1 g (· == j)).putW ?_, fun k j => (h2.2 k (· == j)).putM ?_⟩
  · unfold Store.weightsIn
    rw [List.length_map]
    refine length_filter_le hr'.weightInv.pairs (g, j) fun w _ h => ?_
    simp only [Bool.and_eq_true, beq_iff_eq] at h
    rw [h.1, h.2]
  · unfold Store.mapsIn
    rw [List.length_map]
    refine length_filter_le hr'.mapInv.keys (k.1, k.2.1, j, k.2.2) fun m _ h => ?_
    simp only [Bool.and_eq_true, beq_iff_eq, decide_eq_true_eq] at h
    rw [h.1.1, h.1.2.1, h.1.2.2, h.2]

/-- **C78** Corrections that should be possible are accepted, if every label column has a name that needs no quotes. -/
theorem C78_succeeds_partial {s : Store} (hr : ReachableTidy s) (merge : Bool) (rows : List (Nat × List PyStr))
    (hbare : ∀ c ∈ s.cols, bareOk c = true) (hothers : ∀ m ∈ s.maps, 0 ≤ m.other)
    (hlen : ∀ row ∈ rows, row.2.length = s.cols.length) (hnd : (rows.map (·.1)).Nodup)
    (hown : ∀ row ∈ rows, ∀ r ∈ s.index, r.id = row.1 → r.labels ≠ row.2) {t : Relabelled}
    (ht : Relabelled.rows merge rows ⟨s.index, []⟩ = some t) : (step (.updateIndex merge rows) s).2 = .ok () := by
  have h := hr.reachable
  obtain ⟨s', h1, h2⟩ := updateIndex_run ⟨h.indexInv, h.weightInv, h.mapInv, hr.propInv.ok, hothers, h.refs, hbare⟩
    h.linkInv hlen hnd hown h.fkOk ht
  rw [step_of_body rfl]
  unfold runTx
  rw [h1]
  dsimp only
  rw [if_pos h2]

/-- **C78** Corrections that should not be possible are refused, and nothing is changed. -/
theorem C78_refused {s : Store} (hr : Reachable s) (merge : Bool) (rows : List (Nat × List PyStr))
    (hnd : (rows.map (·.1)).Nodup) (hown : ∀ row ∈ rows, ∀ r ∈ s.index, r.id = row.1 → r.labels ≠ row.2)
    (ht : Relabelled.rows merge rows ⟨s.index, []⟩ = none) :
    (step (.updateIndex merge rows) s).2 ≠ .ok () ∧ (step (.updateIndex merge rows) s).1 = s := by
  have hne : (step (.updateIndex merge rows) s).2 ≠ .ok () := by
    intro hok
    obtain ⟨into, h1, _⟩ := C78_exact_partial hr merge rows hok hnd hown
    rw [ht] at h1
    cases h1
  refine ⟨hne, ?_⟩
  rw [step_of_body rfl] at hne ⊢
  cases h : (runTx (updateIndex merge rows) s).2 with
  | ok a => exact absurd h hne
  | error e => exact runTx_error h

/-- Rows that are used in the examples: record 1 gets new labels, record 3 the labels of record 2. -/
def Demo.corrections : List (Nat × List PyStr) := [(1, [['z'], ['1']]), (3, [Demo.lx, Demo.l2]), (7, [Demo.lx, Demo.l1])]

example : (∀ c ∈ Demo.store.cols, bareOk c = true) ∧ (∀ m ∈ Demo.store.maps, 0 ≤ m.other) ∧
    (∀ row ∈ Demo.corrections, row.2.length = Demo.store.cols.length) ∧ (Demo.corrections.map (·.1)).Nodup ∧
    (∀ row ∈ Demo.corrections, ∀ r ∈ Demo.store.index, r.id = row.1 → r.labels ≠ row.2) ∧
    Relabelled.rows true Demo.corrections ⟨Demo.store.index, []⟩ =
      some ⟨[⟨0, [['-'], ['-']]⟩, ⟨1, [['z'], ['1']]⟩, ⟨3, [Demo.lx, Demo.l2]⟩], [(2, 3)]⟩ ∧
    Relabelled.rows false Demo.corrections ⟨Demo.store.index, []⟩ = none := by decide +kernel

example : (step (.updateIndex true Demo.corrections) Demo.store).1.weightsIn 1 (· == 3) = [6] := by decide +kernel

/-- **C78** (violated) If a label column has a name that needs quotes, labels cannot be corrected at all. -/
theorem C78_violated_name :
    ∃ s, Reachable s ∧ s.index = [⟨0, [['-']]⟩, ⟨1, [Demo.lx]⟩] ∧
      Relabelled.rows false [(1, [Demo.ly])] ⟨s.index, []⟩ = some ⟨[⟨0, [['-']]⟩, ⟨1, [Demo.ly]⟩], []⟩ ∧
      (step (.updateIndex false [(1, [Demo.ly])]) s).2 ≠ .ok () := by
  refine ⟨run [.addIndexColumns [['a', ' ', 'b']], .insertIndex none [] .abort .abort [⟨none, some [Demo.lx], []⟩]]
    (Store.new ['u']), ⟨_, _, rfl⟩, ?_⟩
  decide +kernel

end Toron.Space
