/-
Property theorems about rounding to whole numbers (C11, C12).
-/
import Verif.Lemmas.Quantize

namespace Toron
open Toron.Spec

/-- C11 (partial). Full claim: for any items whose sum is the requested total, rounding succeeds,
preserves the total, gives each record one value that differs by less than one, and all values are
whole except at most one.
Proved: the claim for items that all have the same sign (all `≥ 0`, `s = 1`, or all `≤ 0`,
`s = -1`). Missing: items of mixed signs, for which the claim is false of the code, see
`C11_mixed_signs_violated` and `C11_mixed_signs_error`. -/
theorem C11_quantize_preserves_total_partial (items : List (Nat × ℚ)) (s : ℚ)
    (hs : s = 1 ∨ s = -1) (hitems : ∀ it ∈ items, 0 ≤ s * it.2) :
    ∃ out, quantizeValues items (total items) = .ok out ∧
      -- the total is preserved
      total out = total items ∧
      -- each record has one value, which differs by less than one from its input
      (∃ items', items'.Perm items ∧
        List.Forall₂ (fun it o => it.1 = o.1 ∧ |o.2 - it.2| < 1) items' out) ∧
      -- all values are whole except at most one ...
      (out.filter fun o => decide (fracPart o.2 ≠ 0)).length ≤ 1 ∧
      -- ... and all of them if the total is whole
      (fracPart (total items) = 0 → ∀ o ∈ out, fracPart o.2 = 0) :=
  quantize_same_sign items s hs hitems

-- the hypotheses are met by the docstring example, and the result is the documented one
example : ∀ it ∈ [(1, (10.6875 : ℚ)), (2, 20.5625), (3, 30.75)], 0 ≤ (1 : ℚ) * it.2 := by
  simp; norm_num

example : quantizeValues [(1, 10.6875), (2, 20.5625), (3, 30.75)] 62 =
    .ok [(3, 31), (1, 11), (2, 20)] := by decide +kernel

/-- C11, violated by the code for mixed signs: the items add up to the requested total 0.3 but the
output adds up to 2.3 (the increment takes the sign of the total, not of the remainder). -/
theorem C11_mixed_signs_violated :
    total [(1, -0.9), (2, -0.9), (3, (2.1 : ℚ))] = 0.3 ∧
    (quantizeValues [(1, -0.9), (2, -0.9), (3, 2.1)] 0.3).map total = .ok 2.3 := by
  decide +kernel

/-- C11, violated by the code when the total differs from the sum: the remainder may exceed the
number of items, and then the generator dies with `RuntimeError`. -/
theorem C11_mixed_signs_error :
    quantizeValues [(1, 0.5)] 2.5 = .error (.runtimeError "generator raised StopIteration") := by
  decide +kernel

/-- C12: the result does not depend on the order of the records. -/
theorem C12_quantize_order_independent (items items' : List (Nat × ℚ)) (tot : ℚ)
    (hp : items.Perm items') (hid : (items.map (·.1)).Nodup) (h64 : ∀ it ∈ items, it.1 < 2 ^ 64) :
    quantizeValues items tot = quantizeValues items' tot := by
  have hsort : sortedBy qKeyLe (items.map mkQItem) = sortedBy qKeyLe (items'.map mkQItem) := by
    apply sortedBy_congr qKeyLe qKeyLe_trans qKeyLe_total _ _ (hp.map _)
    intro a ha b hb h1 h2
    obtain ⟨x, hx, rfl⟩ := List.mem_map.1 ha
    obtain ⟨y, hy, rfl⟩ := List.mem_map.1 hb
    simp only [qKeyLe, Bool.or_eq_true, decide_eq_true_eq, Bool.and_eq_true] at h1 h2
    have hsm : splitmix64 x.1 = splitmix64 y.1 := by
      rcases h1 with h1 | ⟨h1, h1'⟩ <;> rcases h2 with h2 | ⟨h2, h2'⟩
      · exact absurd h1 (not_lt.2 h2.le)
      · rw [h2] at h1; exact absurd h1 (lt_irrefl _)
      · rw [h1] at h2; exact absurd h2 (lt_irrefl _)
      · exact le_antisymm h1' h2'
    have hxy := splitmix64_inj x.1 y.1 (h64 x hx) (h64 y hy) hsm
    have : x = y := List.inj_on_of_nodup_map hid hx hy hxy
    rw [this]
  have hsum : ((items.map mkQItem).map fun x => (x.whole : ℚ)).sum =
      ((items'.map mkQItem).map fun x => (x.whole : ℚ)).sum := ((hp.map _).map _).sum_eq
  unfold quantizeValues
  simp only [hsort, hsum]

-- two orders of a list with a tie between records 1 and 2
example : [(1, (0.5 : ℚ)), (2, 0.5), (3, 0.25)].Perm [(3, 0.25), (2, 0.5), (1, 0.5)] ∧
    quantizeValues [(1, 0.5), (2, 0.5), (3, 0.25)] 1.25 =
      quantizeValues [(3, 0.25), (2, 0.5), (1, 0.5)] 1.25 := by
  decide +kernel

end Toron
