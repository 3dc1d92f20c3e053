/-
Property theorems about splitting one quantity (C13).
-/
import Verif.Lemmas.Disaggregate

namespace Toron
open Toron.Spec

/-- C13: if every matched record other than the undefined one has a weight, splitting succeeds, the
parts add up to the quantity, and every matched record gets exactly one part. -/
theorem C13_split_conserves (value : ℚ) (ids : List Nat) (weight : Nat → Option ℚ)
    (hne : ids ≠ []) (hnd : ids.Nodup) (hw : ∀ i ∈ ids, i ≠ 0 → (weight i).isSome) :
    ∃ parts, disaggregateValue value ids weight = .ok parts ∧
      total parts = value ∧ parts.map (·.1) = ids :=
  disagg_conserves value ids weight hne hnd hw

/-- C13: a missing weight of a defined record is an error (`KeyError`), not a silent loss. -/
theorem C13_missing_weight_is_error (value : ℚ) (ids : List Nat) (weight : Nat → Option ℚ)
    (i : Nat) (hi : i ∈ ids) (h0 : i ≠ 0) (hw : weight i = none) :
    ∃ t, disaggregateValue value ids weight = .error (.keyError t) := by
  obtain ⟨t, ht⟩ := groupWeight_error weight ids i hi h0 hw
  exact ⟨t, by simp only [disaggregateValue, ht]; rfl⟩

/-- C13: no matching record at all is an error (`RuntimeError`). -/
theorem C13_no_records_is_error (value : ℚ) (weight : Nat → Option ℚ) :
    ∃ t, disaggregateValue value [] weight = .error (.runtimeError t) :=
  ⟨_, rfl⟩

/-- C13: with a non-zero sum of weights each part is proportional to the weight. (`gw` is the sum of
the weights of the matched records.) -/
theorem C13_split_proportional (value : ℚ) (ids : List Nat) (weight : Nat → Option ℚ)
    (parts : List (Nat × ℚ)) (h : disaggregateValue value ids weight = .ok parts)
    (hgw : ((ids.map fun i => (weight i).getD 0).sum) ≠ 0) :
    ∀ i x, (i, x) ∈ parts →
      x * (ids.map fun i => (weight i).getD 0).sum = value * (weight i).getD 0 :=
  disagg_proportional value ids weight parts h hgw

/-- C13: if all weights are zero, all defined records get the same part. -/
theorem C13_split_even (value : ℚ) (ids : List Nat) (weight : Nat → Option ℚ)
    (parts : List (Nat × ℚ)) (h : disaggregateValue value ids weight = .ok parts)
    (hzero : ∀ i ∈ ids, (weight i).getD 0 = 0) :
    ∀ i x j y, i ≠ 0 → j ≠ 0 → (i, x) ∈ parts → (j, y) ∈ parts → x = y :=
  disagg_even value ids weight parts h hzero

/-- C13: the undefined record receives nothing when any other record matches. -/
theorem C13_undefined_gets_nothing (value : ℚ) (ids : List Nat) (weight : Nat → Option ℚ)
    (parts : List (Nat × ℚ)) (h : disaggregateValue value ids weight = .ok parts)
    (h0 : weight 0 = none) (hother : ∃ i ∈ ids, i ≠ 0) :
    ∀ x, (0, x) ∈ parts → x = 0 :=
  disagg_undefined value ids weight parts h h0 hother

/-- C13: non-negative weights split a non-negative quantity into non-negative parts. -/
theorem C13_split_nonneg (value : ℚ) (ids : List Nat) (weight : Nat → Option ℚ)
    (parts : List (Nat × ℚ)) (h : disaggregateValue value ids weight = .ok parts)
    (hv : 0 ≤ value) (hw : ∀ i w, weight i = some w → 0 ≤ w) :
    ∀ p ∈ parts, 0 ≤ p.2 :=
  disagg_nonneg value ids weight parts h hv hw

-- a case with the undefined record, unequal and zero weights
example : disaggregateValue 10 [0, 1, 2, 3] (fun i => if i = 0 then none else some (i - 1 : ℕ)) =
    .ok [(0, 0), (1, 0), (2, 10/3), (3, 20/3)] := by decide +kernel
example : ([0, 1, 2, 3] : List Nat) ≠ [] ∧ ([0, 1, 2, 3] : List Nat).Nodup ∧
    ∀ i ∈ [0, 1, 2, 3], i ≠ 0 →
      ((fun i => if i = 0 then none else some ((i - 1 : ℕ) : ℚ)) i).isSome := by decide
-- all weights zero, with the undefined record
example : disaggregateValue 10 [0, 1, 2] (fun i => if i = 0 then none else some 0) =
    .ok [(0, 0), (1, 5), (2, 5)] := by decide +kernel

end Toron
