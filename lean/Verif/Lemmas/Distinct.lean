/-
Lists without repetition and sums by key.
-/
import Verif.Model.Granularity
import Mathlib.Data.List.Nodup
import Mathlib.Data.List.Perm.Basic
import Mathlib.Algebra.BigOperators.Group.List.Basic
import Mathlib.Algebra.BigOperators.Group.List.Lemmas
import Mathlib.Algebra.Order.Ring.Rat

namespace Toron

variable {α κ : Type} [DecidableEq κ]

@[simp] theorem mem_distinct {l : List κ} {x : κ} : x ∈ distinct l ↔ x ∈ l := by
  induction l with
  | nil => simp [distinct]
  | cons y ys ih =>
    simp only [distinct, List.mem_cons, List.mem_filter, ih, decide_eq_true_eq]
    by_cases h : x = y <;> simp [h]

theorem nodup_distinct (l : List κ) : (distinct l).Nodup := by
  induction l with
  | nil => simp [distinct]
  | cons y ys ih =>
    rw [distinct, List.nodup_cons]
    exact ⟨by simp, ih.filter _⟩

theorem distinct_eq_nil {l : List κ} : distinct l = [] ↔ l = [] := by
  cases l <;> simp [distinct]

/-- Filtering by pairwise different keys, one after the other, is a rearrangement of one filter. -/
theorem flatMap_filter_perm {l : List α} {key : α → κ} {ks : List κ} (hnd : ks.Nodup) :
    (ks.flatMap fun k => l.filter fun x => decide (key x = k)).Perm
      (l.filter fun x => decide (key x ∈ ks)) := by
  induction ks with
  | nil => simp
  | cons k ks ih =>
    rw [List.nodup_cons] at hnd
    rw [List.flatMap_cons]
    refine ((ih hnd.2).append_left _).trans ?_
    have hsplit := (List.filter_append_perm (fun x => decide (key x = k))
      (l.filter fun x => decide (key x ∈ k :: ks)))
    refine List.Perm.trans ?_ hsplit
    rw [List.filter_filter, List.filter_filter]
    apply List.Perm.of_eq
    congr 1
    · apply List.filter_congr
      intro x _
      by_cases hx : key x = k <;> simp [hx]
    · apply List.filter_congr
      intro x _
      by_cases hx : key x = k
      · simp [hx, hnd.1]
      · simp [hx]

/-- The sum over keys of the sums per key is the sum. -/
theorem sum_by_key (f : α → ℚ) (key : α → κ) (l : List α) {ks : List κ} (hnd : ks.Nodup) :
    (ks.map fun k => ((l.filter fun x => decide (key x = k)).map f).sum).sum =
      ((l.filter fun x => decide (key x ∈ ks)).map f).sum := by
  rw [← ((flatMap_filter_perm hnd (l := l) (key := key)).map f).sum_eq]
  clear hnd
  induction ks with
  | nil => simp
  | cons k ks ih => simp [List.flatMap_cons, ih]

theorem filter_distinct (l : List κ) (k : κ) :
    (distinct l).filter (fun x => decide (x = k)) = if k ∈ l then [k] else [] := by
  have hnd := nodup_distinct l
  have hmem : k ∈ distinct l ↔ k ∈ l := mem_distinct
  generalize distinct l = d at *
  rw [← if_congr hmem rfl rfl]
  clear hmem
  induction d with
  | nil => simp
  | cons x xs ih =>
    rw [List.nodup_cons] at hnd
    rw [List.filter_cons, ih hnd.2]
    by_cases hx : x = k
    · subst hx
      simp [hnd.1]
    · have : k ≠ x := fun h => hx h.symm
      simp [hx, this]

end Toron
