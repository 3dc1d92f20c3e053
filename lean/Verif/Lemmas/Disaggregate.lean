import Verif.Model.Disaggregate
import Verif.Spec.Sums
import Mathlib.Tactic.Linarith
import Mathlib.Tactic.Ring
import Mathlib.Tactic.FieldSimp
import Mathlib.Tactic.Positivity
import Mathlib.Algebra.Order.BigOperators.Group.List
import Mathlib.Algebra.BigOperators.Ring.List
import Mathlib.Algebra.Order.Field.Basic

namespace Toron
open Toron.Spec

theorem groupWeight_ok (weight : Nat → Option ℚ) (ids : List Nat) (g : ℚ)
    (h : groupWeight weight ids = .ok g) :
    g = (ids.map fun i => (weight i).getD 0).sum ∧ ∀ i ∈ ids, i ≠ 0 → (weight i).isSome := by
  induction ids generalizing g with
  | nil => simp [groupWeight] at h; simp [h]
  | cons i is ih =>
    unfold groupWeight at h
    cases hw : weight i with
    | some w =>
      rw [hw] at h
      simp only at h
      cases hg : groupWeight weight is with
      | error e => rw [hg] at h; simp [Except.map] at h
      | ok g' =>
        rw [hg] at h
        simp only [Except.map, Except.ok.injEq] at h
        obtain ⟨h1, h2⟩ := ih g' hg
        refine ⟨by simp [← h, h1, hw], ?_⟩
        intro j hj hj0
        rcases List.mem_cons.1 hj with rfl | hj
        · simp [hw]
        · exact h2 j hj hj0
    | none =>
      rw [hw] at h
      simp only at h
      split at h
      · simp at h
      · rename_i hi
        obtain ⟨h1, h2⟩ := ih g h
        refine ⟨by simp [h1, hw], ?_⟩
        intro j hj hj0
        rcases List.mem_cons.1 hj with rfl | hj
        · exact absurd hj0 hi
        · exact h2 j hj hj0

theorem groupWeight_exists (weight : Nat → Option ℚ) (ids : List Nat)
    (hw : ∀ i ∈ ids, i ≠ 0 → (weight i).isSome) : ∃ g, groupWeight weight ids = .ok g := by
  induction ids with
  | nil => exact ⟨0, rfl⟩
  | cons i is ih =>
    obtain ⟨g, hg⟩ := ih (fun j hj => hw j (by simp [hj]))
    unfold groupWeight
    cases hwi : weight i with
    | some w => exact ⟨w + g, by simp [hg, Except.map]⟩
    | none =>
      by_cases hi : i = 0
      · exact ⟨g, by simp [hi, hg]⟩
      · have := hw i (by simp) hi
        rw [hwi] at this; simp at this

theorem groupWeight_error (weight : Nat → Option ℚ) (ids : List Nat) (i : Nat) (hi : i ∈ ids)
    (h0 : i ≠ 0) (hw : weight i = none) : ∃ t, groupWeight weight ids = .error (.keyError t) := by
  induction ids with
  | nil => simp at hi
  | cons j js ih =>
    unfold groupWeight
    rcases List.mem_cons.1 hi with rfl | hi
    · rw [hw]; exact ⟨_, by simp [h0]; rfl⟩
    · obtain ⟨t, ht⟩ := ih hi
      cases weight j with
      | some w => exact ⟨t, by simp [ht, Except.map]⟩
      | none =>
        by_cases hj : j = 0
        · exact ⟨t, by simp [hj, ht]⟩
        · exact ⟨_, by simp [hj]; rfl⟩

/-- Unfolding of a successful run. -/
theorem disagg_ok (value : ℚ) (ids : List Nat) (weight : Nat → Option ℚ) (parts : List (Nat × ℚ))
    (h : disaggregateValue value ids weight = .ok parts) :
    (∀ i ∈ ids, i ≠ 0 → (weight i).isSome) ∧
    (((ids.map fun i => (weight i).getD 0).sum ≠ 0 ∧
        parts = ids.map fun i =>
          (i, value * ((weight i).getD 0 / (ids.map fun i => (weight i).getD 0).sum))) ∨
      ((ids.map fun i => (weight i).getD 0).sum = 0 ∧ 1 < ids.length ∧ 0 ∉ ids ∧
        parts = ids.map fun i => (i, value * (1 / (ids.length : ℚ)))) ∨
      ((ids.map fun i => (weight i).getD 0).sum = 0 ∧ 1 < ids.length ∧ 0 ∈ ids ∧
        parts = ids.map fun i =>
          if i = 0 then (i, 0) else (i, value * (1 / ((ids.length : ℚ) - 1)))) ∨
      ((ids.map fun i => (weight i).getD 0).sum = 0 ∧ ∃ i, ids = [i] ∧ parts = [(i, value)])) := by
  unfold disaggregateValue at h
  cases hg : groupWeight weight ids with
  | error e => rw [hg] at h; cases h
  | ok g =>
    rw [hg] at h
    obtain ⟨hg1, hg2⟩ := groupWeight_ok weight ids g hg
    refine ⟨hg2, ?_⟩
    rw [← hg1]
    simp only [Bind.bind, Except.bind] at h
    split at h
    · rename_i hne
      left
      simp only [Except.ok.injEq] at h
      refine ⟨hne, ?_⟩
      rw [← h]
      apply List.map_congr_left
      intro i _
      cases weight i <;> simp
    · rename_i hne
      have hg0 : g = 0 := by simpa using hne
      right
      split at h
      · rename_i hlen
        split at h
        · rename_i h0
          left
          simp only [Except.ok.injEq] at h
          exact ⟨hg0, hlen, h0, h.symm⟩
        · rename_i h0
          right; left
          simp only [Except.ok.injEq] at h
          exact ⟨hg0, hlen, not_not.1 h0, h.symm⟩
      · right; right
        split at h
        · simp only [Except.ok.injEq] at h
          exact ⟨hg0, _, rfl, h.symm⟩
        · cases h

theorem total_map {α : Type} (l : List α) (k : α → Nat) (f : α → ℚ) :
    total (l.map fun i => (k i, f i)) = (l.map f).sum := by
  simp only [total, List.map_map]; rfl

theorem sum_const {α : Type} (l : List α) (c : ℚ) : (l.map fun _ => c).sum = l.length * c := by
  induction l with
  | nil => simp
  | cons a l ih => simp only [List.map_cons, List.sum_cons, ih, List.length_cons]; push_cast; ring

theorem sum_ite_zero (l : List Nat) (c : ℚ) (hnd : l.Nodup) :
    (l.map fun i => if i = 0 then 0 else c).sum = (l.length - if 0 ∈ l then 1 else 0) * c := by
  induction l with
  | nil => simp
  | cons a l ih =>
    rw [List.nodup_cons] at hnd
    simp only [List.map_cons, List.sum_cons, ih hnd.2, List.length_cons]
    by_cases ha : a = 0
    · subst ha
      rw [if_pos rfl, if_neg hnd.1, if_pos (by simp)]; push_cast; ring
    · by_cases h0 : 0 ∈ l
      · rw [if_neg ha, if_pos h0, if_pos (by simp [h0])]; push_cast; ring
      · rw [if_neg ha, if_neg h0, if_neg (by simp [h0]; exact fun h => ha h.symm)]; push_cast; ring

theorem disagg_total (value : ℚ) (ids : List Nat) (weight : Nat → Option ℚ)
    (parts : List (Nat × ℚ)) (h : disaggregateValue value ids weight = .ok parts)
    (hnd : ids.Nodup) : total parts = value ∧ parts.map (·.1) = ids := by
  obtain ⟨_, h | h | h | h⟩ := disagg_ok value ids weight parts h
  · obtain ⟨hg, rfl⟩ := h
    constructor
    · rw [total_map, List.sum_map_mul_left]
      have : (ids.map fun i => (weight i).getD 0 / (ids.map fun i => (weight i).getD 0).sum).sum = 1 := by
        simp only [div_eq_mul_inv]
        rw [List.sum_map_mul_right, mul_inv_cancel₀ hg]
      rw [this, mul_one]
    · rw [List.map_map]; exact List.map_id _
  · obtain ⟨_, hlen, _, rfl⟩ := h
    constructor
    · rw [total_map, sum_const]
      have : (ids.length : ℚ) ≠ 0 := by
        have : ids.length ≠ 0 := by omega
        exact_mod_cast this
      field_simp
    · rw [List.map_map]; exact List.map_id _
  · obtain ⟨_, hlen, h0, rfl⟩ := h
    have e : (ids.map fun i => if i = 0 then ((i, 0) : Nat × ℚ) else (i, value * (1 / ((ids.length : ℚ) - 1))))
        = ids.map fun i => (i, if i = 0 then 0 else value * (1 / ((ids.length : ℚ) - 1))) := by
      apply List.map_congr_left; intro i _; split <;> rfl
    rw [e]
    constructor
    · rw [total_map, sum_ite_zero _ _ hnd, if_pos h0]
      have : (ids.length : ℚ) - 1 ≠ 0 := by
        have : (1 : ℚ) < ids.length := by exact_mod_cast hlen
        linarith
      field_simp
    · rw [List.map_map]; exact List.map_id _
  · obtain ⟨_, i, rfl, rfl⟩ := h
    simp [total]

theorem disagg_conserves (value : ℚ) (ids : List Nat) (weight : Nat → Option ℚ)
    (hne : ids ≠ []) (hnd : ids.Nodup) (hw : ∀ i ∈ ids, i ≠ 0 → (weight i).isSome) :
    ∃ parts, disaggregateValue value ids weight = .ok parts ∧
      total parts = value ∧ parts.map (·.1) = ids := by
  have : ∃ parts, disaggregateValue value ids weight = .ok parts := by
    obtain ⟨g, hg⟩ := groupWeight_exists weight ids hw
    unfold disaggregateValue
    rw [hg]
    simp only [Bind.bind, Except.bind]
    split
    · exact ⟨_, rfl⟩
    · split
      · split
        · exact ⟨_, rfl⟩
        · exact ⟨_, rfl⟩
      · rename_i hlen
        match ids, hne, hlen with
        | [i], _, _ => exact ⟨_, rfl⟩
        | i :: j :: k, _, hlen => simp at hlen
  obtain ⟨parts, hp⟩ := this
  exact ⟨parts, hp, disagg_total value ids weight parts hp hnd⟩

theorem disagg_proportional (value : ℚ) (ids : List Nat) (weight : Nat → Option ℚ)
    (parts : List (Nat × ℚ)) (h : disaggregateValue value ids weight = .ok parts)
    (hgw : ((ids.map fun i => (weight i).getD 0).sum) ≠ 0) :
    ∀ i x, (i, x) ∈ parts →
      x * (ids.map fun i => (weight i).getD 0).sum = value * (weight i).getD 0 := by
  obtain ⟨_, h | h | h | h⟩ := disagg_ok value ids weight parts h
  · obtain ⟨hg, rfl⟩ := h
    intro i x hx
    obtain ⟨j, _, hj⟩ := List.mem_map.1 hx
    simp only [Prod.mk.injEq] at hj
    obtain ⟨rfl, rfl⟩ := hj
    field_simp
  · exact absurd h.1 hgw
  · exact absurd h.1 hgw
  · exact absurd h.1 hgw

theorem disagg_even (value : ℚ) (ids : List Nat) (weight : Nat → Option ℚ)
    (parts : List (Nat × ℚ)) (h : disaggregateValue value ids weight = .ok parts)
    (hzero : ∀ i ∈ ids, (weight i).getD 0 = 0) :
    ∀ i x j y, i ≠ 0 → j ≠ 0 → (i, x) ∈ parts → (j, y) ∈ parts → x = y := by
  have hg : (ids.map fun i => (weight i).getD 0).sum = 0 := by
    rw [List.map_congr_left hzero, sum_const]; ring
  obtain ⟨_, h | h | h | h⟩ := disagg_ok value ids weight parts h
  · exact absurd hg h.1
  · obtain ⟨_, _, _, rfl⟩ := h
    intro i x j y _ _ hi hj
    obtain ⟨i', _, hi'⟩ := List.mem_map.1 hi
    obtain ⟨j', _, hj'⟩ := List.mem_map.1 hj
    simp only [Prod.mk.injEq] at hi' hj'
    rw [← hi'.2, ← hj'.2]
  · obtain ⟨_, _, _, rfl⟩ := h
    intro i x j y h1 h2 hi hj
    obtain ⟨i', _, hi'⟩ := List.mem_map.1 hi
    obtain ⟨j', _, hj'⟩ := List.mem_map.1 hj
    split at hi'
    · rename_i h0; simp only [Prod.mk.injEq] at hi'; exact absurd (hi'.1 ▸ h0) h1
    · split at hj'
      · rename_i h0; simp only [Prod.mk.injEq] at hj'; exact absurd (hj'.1 ▸ h0) h2
      · simp only [Prod.mk.injEq] at hi' hj'
        rw [← hi'.2, ← hj'.2]
  · obtain ⟨_, k, rfl, rfl⟩ := h
    intro i x j y _ _ hi hj
    simp only [List.mem_singleton, Prod.mk.injEq] at hi hj
    rw [hi.2, hj.2]

theorem disagg_undefined (value : ℚ) (ids : List Nat) (weight : Nat → Option ℚ)
    (parts : List (Nat × ℚ)) (h : disaggregateValue value ids weight = .ok parts)
    (h0 : weight 0 = none) (hother : ∃ i ∈ ids, i ≠ 0) :
    ∀ x, (0, x) ∈ parts → x = 0 := by
  obtain ⟨_, h | h | h | h⟩ := disagg_ok value ids weight parts h
  · obtain ⟨_, rfl⟩ := h
    intro x hx
    obtain ⟨j, _, hj⟩ := List.mem_map.1 hx
    simp only [Prod.mk.injEq] at hj
    rw [← hj.2, hj.1, h0]; simp
  · obtain ⟨_, _, hn, rfl⟩ := h
    intro x hx
    obtain ⟨j, hjm, hj⟩ := List.mem_map.1 hx
    simp only [Prod.mk.injEq] at hj
    exact absurd (hj.1 ▸ hjm) hn
  · obtain ⟨_, _, _, rfl⟩ := h
    intro x hx
    obtain ⟨j, _, hj⟩ := List.mem_map.1 hx
    split at hj
    · simp only [Prod.mk.injEq] at hj; exact hj.2.symm
    · rename_i hne; simp only [Prod.mk.injEq] at hj; exact absurd hj.1 hne
  · obtain ⟨_, k, rfl, rfl⟩ := h
    intro x hx
    obtain ⟨i, hi, hi0⟩ := hother
    simp only [List.mem_singleton] at hi
    simp only [List.mem_singleton, Prod.mk.injEq] at hx
    exact absurd (hi.trans hx.1.symm) hi0

theorem disagg_nonneg (value : ℚ) (ids : List Nat) (weight : Nat → Option ℚ)
    (parts : List (Nat × ℚ)) (h : disaggregateValue value ids weight = .ok parts)
    (hv : 0 ≤ value) (hw : ∀ i w, weight i = some w → 0 ≤ w) :
    ∀ p ∈ parts, 0 ≤ p.2 := by
  have hwd : ∀ i, 0 ≤ (weight i).getD 0 := by
    intro i
    cases hi : weight i with
    | none => simp
    | some w => simpa using hw i w hi
  obtain ⟨_, h | h | h | h⟩ := disagg_ok value ids weight parts h
  · obtain ⟨_, rfl⟩ := h
    intro p hp
    obtain ⟨j, _, rfl⟩ := List.mem_map.1 hp
    have : 0 ≤ (ids.map fun i => (weight i).getD 0).sum := by
      apply List.sum_nonneg
      intro x hx
      obtain ⟨y, _, rfl⟩ := List.mem_map.1 hx
      exact hwd y
    exact mul_nonneg hv (div_nonneg (hwd j) this)
  · obtain ⟨_, _, _, rfl⟩ := h
    intro p hp
    obtain ⟨j, _, rfl⟩ := List.mem_map.1 hp
    positivity
  · obtain ⟨_, hlen, _, rfl⟩ := h
    intro p hp
    obtain ⟨j, _, rfl⟩ := List.mem_map.1 hp
    split
    · exact le_refl _
    · have : (1 : ℚ) < ids.length := by exact_mod_cast hlen
      apply mul_nonneg hv
      apply div_nonneg zero_le_one
      linarith
  · obtain ⟨_, k, rfl, rfl⟩ := h
    intro p hp
    simp only [List.mem_singleton] at hp
    rw [hp]; exact hv

end Toron
