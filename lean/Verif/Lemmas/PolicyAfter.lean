/-
Loading in parts, again, and in another order: one cell.
-/
import Verif.Spec.Policies
import Mathlib.Algebra.BigOperators.Group.List.Basic
import Mathlib.Tactic.Ring
import Mathlib.Algebra.Order.Ring.Rat

namespace Toron.Space

theorem Policy.after_parts (p : Policy) (old : Option ℚ) (xs ys : List ℚ) :
    p.after old (xs ++ ys) = p.after (p.after old xs) ys := by
  cases p
  case sum =>
    rcases old with _ | o
    · rcases xs with _ | ⟨x, xs⟩
      · simp [Policy.after]
      · simp [Policy.after, add_assoc]
    · simp [Policy.after, add_assoc]
  case replace =>
    rcases List.eq_nil_or_concat ys with rfl | ⟨ys', y, rfl⟩
    · simp [Policy.after]
    · simp [Policy.after]
  all_goals
    rcases old with _ | o
    · rcases xs with _ | ⟨x, xs⟩
      · simp [Policy.after]
      · simp [Policy.after]
    · simp [Policy.after]

theorem Policy.allows_parts (p : Policy) (old : Option ℚ) (xs ys : List ℚ) :
    p.Allows old (xs ++ ys) ↔ p.Allows old xs ∧ p.Allows (p.after old xs) ys := by
  unfold Policy.Allows
  by_cases hp : p = .abort
  · subst hp
    simp only [forall_const]
    rcases old with _ | o
    · rcases xs with _ | ⟨x, xs⟩
      · simp [Policy.after]
      · simp [Policy.after]
    · rcases xs with _ | ⟨x, xs⟩
      · simp [Policy.after]
      · simp [Policy.after]
  · simp [hp]

theorem Policy.after_again {p : Policy} (hp : p ≠ .sum) (old : Option ℚ) (xs : List ℚ) :
    p.after (p.after old xs) xs = p.after old xs := by
  cases p
  case sum => exact absurd rfl hp
  case replace =>
    rcases List.eq_nil_or_concat xs with rfl | ⟨ys', y, rfl⟩
    · simp [Policy.after]
    · simp [Policy.after]
  all_goals
    rcases old with _ | o
    · rcases xs with _ | ⟨x, xs⟩
      · simp [Policy.after]
      · simp [Policy.after]
    · simp [Policy.after]

theorem Policy.after_perm {p : Policy} {old : Option ℚ} {xs ys : List ℚ} (h : xs.Perm ys)
    (hp : p = .sum ∨ xs.length ≤ 1) : p.after old xs = p.after old ys := by
  rcases hp with rfl | hl
  · have h0 : xs = [] ↔ ys = [] := ⟨fun e => by subst e; exact h.symm.eq_nil, fun e => by subst e; exact h.eq_nil⟩
    simp only [Policy.after, h.sum_eq, h0]
  · rcases xs with _ | ⟨x, _ | ⟨_, _⟩⟩
    · rw [h.symm.eq_nil]
    · rw [List.perm_singleton.1 h.symm]
    · simp at hl

theorem Policy.allows_perm {p : Policy} {old : Option ℚ} {xs ys : List ℚ} (h : xs.Perm ys) :
    p.Allows old xs ↔ p.Allows old ys := by
  unfold Policy.Allows
  simp only [List.length_append, h.length_eq]

theorem Policy.allows_free {p : Policy} (hp : p ≠ .abort) (old : Option ℚ) (xs : List ℚ) : p.Allows old xs :=
  fun h => absurd h hp

end Toron.Space
