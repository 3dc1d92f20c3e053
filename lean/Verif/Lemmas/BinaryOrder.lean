/-
Lemmas: rounding to 53 bits keeps the order of numbers.
-/
import Verif.Lemmas.BinaryTranslate
import Verif.Lemmas.Fair

namespace Toron.Binary
open Toron.Spec

theorem roundEven_bounds (q : ℚ) : ⌊q⌋ ≤ roundEven q ∧ roundEven q ≤ ⌊q⌋ + 1 := by
  unfold roundEven
  split_ifs <;> constructor <;> omega

theorem roundEven_mono {p q : ℚ} (h : p ≤ q) : roundEven p ≤ roundEven q := by
  have hf : ⌊p⌋ ≤ ⌊q⌋ := Int.floor_le_floor h
  rcases hf.lt_or_eq with hlt | heq
  · have := (roundEven_bounds p).2
    have := (roundEven_bounds q).1
    omega
  · have hcast : ((⌊p⌋ : ℤ) : ℚ) = ⌊q⌋ := by rw [heq]
    by_cases h1 : p - ⌊p⌋ < 1 / 2
    · have e : roundEven p = ⌊p⌋ := by unfold roundEven; rw [if_pos h1]
      rw [e, heq]
      exact (roundEven_bounds q).1
    · by_cases h2 : 1 / 2 < q - ⌊q⌋
      · have e : roundEven q = ⌊q⌋ + 1 := by
          unfold roundEven
          rw [if_neg (by linarith), if_pos h2]
        rw [e, ← heq]
        exact (roundEven_bounds p).2
      · have e : p = q := by linarith
        rw [e]

theorem lt_log {x : ℚ} (hx : x ≠ 0) : |x| < (2 : ℚ) ^ (Int.log 2 |x| + 1) := by
  have := Int.lt_zpow_succ_log_self (b := 2) (by norm_num) |x|
  simpa using this

theorem scale_pos (k : ℤ) : (0 : ℚ) < 2 ^ k := zpow_pos (by norm_num) _

theorem two_zpow_sub (k : ℤ) (n : ℕ) : (2 : ℚ) ^ k / 2 ^ (k - n) = 2 ^ n := by
  rw [div_eq_iff (scale_pos _).ne', ← zpow_natCast, ← zpow_add₀ (by norm_num)]
  congr 1
  ring

/-- The result is in the same binade, or the power of two at its end. -/
theorem fl_binade {x : ℚ} (hx : 0 < x) : (2 : ℚ) ^ (Int.log 2 |x|) ≤ fl x ∧ fl x ≤ 2 ^ (Int.log 2 |x| + 1) := by
  have hp := scale_pos (Int.log 2 |x| - 52)
  have h1 := log_le hx.ne'
  have h2 := lt_log hx.ne'
  have habs : |x| = x := abs_of_pos hx
  unfold fl
  rw [if_neg hx.ne']
  set L := Int.log 2 |x| with hL
  rw [habs] at h1 h2
  have e1 : (2 : ℚ) ^ L / 2 ^ (L - 52) = ((2 ^ 52 : ℤ) : ℚ) := by
    have := two_zpow_sub L 52
    push_cast at this ⊢
    exact this
  have e2 : (2 : ℚ) ^ (L + 1) / 2 ^ (L - 52) = ((2 ^ 53 : ℤ) : ℚ) := by
    have := two_zpow_sub (L + 1) 53
    have e : L + 1 - ((53 : ℕ) : ℤ) = L - 52 := by push_cast; ring
    rw [e] at this
    push_cast
    exact this
  constructor
  · have h3 : ((2 ^ 52 : ℤ) : ℚ) ≤ x / 2 ^ (L - 52) := by
      rw [← e1]
      exact div_le_div_of_nonneg_right h1 hp.le
    have h4 := roundEven_mono h3
    rw [roundEven_int] at h4
    have h5 : ((2 ^ 52 : ℤ) : ℚ) ≤ roundEven (x / 2 ^ (L - 52)) := by exact_mod_cast h4
    rw [← e1] at h5
    rw [div_le_iff₀ hp] at h5
    exact h5
  · have h3 : x / 2 ^ (L - 52) ≤ ((2 ^ 53 : ℤ) : ℚ) := by
      rw [← e2]
      exact div_le_div_of_nonneg_right h2.le hp.le
    have h4 := roundEven_mono h3
    rw [roundEven_int] at h4
    have h5 : (roundEven (x / 2 ^ (L - 52)) : ℚ) ≤ ((2 ^ 53 : ℤ) : ℚ) := by exact_mod_cast h4
    rw [← e2] at h5
    rw [le_div_iff₀ hp] at h5
    exact h5

theorem roundEven_neg (q : ℚ) : roundEven (-q) = -roundEven q := by
  by_cases hz : (⌊q⌋ : ℚ) = q
  · rw [← hz]
    have := roundEven_int (-⌊q⌋)
    push_cast at this
    rw [this, roundEven_int]
  have h1 := Int.floor_le q
  have h2 := Int.lt_floor_add_one q
  have hlt : (⌊q⌋ : ℚ) < q := lt_of_le_of_ne h1 hz
  have hf : ⌊-q⌋ = -⌊q⌋ - 1 := by
    rw [Int.floor_eq_iff]
    push_cast
    constructor <;> linarith
  unfold roundEven
  rw [hf]
  push_cast
  by_cases a : q - ⌊q⌋ < 1 / 2
  · rw [if_pos a, if_neg (by linarith), if_pos (by linarith)]
    ring
  · by_cases b : 1 / 2 < q - ⌊q⌋
    · rw [if_neg a, if_pos b, if_pos (by linarith)]
      ring
    · rw [if_neg a, if_neg b, if_neg (by linarith), if_neg (by linarith)]
      by_cases c : ⌊q⌋ % 2 = 0
      · rw [if_pos c, if_neg (by omega)]
        ring
      · rw [if_neg c, if_pos (by omega)]
        ring

theorem fl_neg (x : ℚ) : fl (-x) = -fl x := by
  unfold fl
  by_cases h : x = 0
  · rw [if_pos h, if_pos (by rw [h, neg_zero]), neg_zero]
  · rw [if_neg h, if_neg (by rw [neg_eq_zero]; exact h), abs_neg, neg_div, roundEven_neg]
    push_cast
    ring

theorem fl_mono_pos {x y : ℚ} (hx : 0 < x) (h : x ≤ y) : fl x ≤ fl y := by
  have hy : 0 < y := hx.trans_le h
  have hlog : Int.log 2 |x| ≤ Int.log 2 |y| :=
    Int.log_mono_right (abs_pos.2 hx.ne') (by rw [abs_of_pos hx, abs_of_pos hy]; exact h)
  rcases hlog.lt_or_eq with hlt | heq
  · have h1 := (fl_binade hx).2
    have h2 := (fl_binade hy).1
    have h3 : (2 : ℚ) ^ (Int.log 2 |x| + 1) ≤ 2 ^ (Int.log 2 |y|) := zpow_le_zpow_right₀ (by norm_num) (by omega)
    exact h1.trans (h3.trans h2)
  · unfold fl
    rw [if_neg hx.ne', if_neg hy.ne', ← heq]
    have hp := scale_pos (Int.log 2 |x| - 52)
    have := roundEven_mono (div_le_div_of_nonneg_right h hp.le)
    exact mul_le_mul_of_nonneg_right (by exact_mod_cast this) hp.le

/-- Rounding to 53 bits keeps the order. -/
theorem fl_mono {x y : ℚ} (h : x ≤ y) : fl x ≤ fl y := by
  rcases lt_or_ge 0 x with hx | hx
  · exact fl_mono_pos hx h
  · have h1 : fl x ≤ 0 := by
      have := fl_nonneg (x := -x) (by linarith)
      rw [fl_neg] at this
      linarith
    rcases lt_or_ge y 0 with hy | hy
    · have := fl_mono_pos (x := -y) (y := -x) (by linarith) (by linarith)
      rw [fl_neg, fl_neg] at this
      linarith
    · exact h1.trans (fl_nonneg hy)

/-- Rounding with a whole total that the items miss by less than one adds a bonus to the whole parts. -/
theorem bonus_near {s : ℤ} (hs : s = 1 ∨ s = -1) {items : List (Nat × ℚ)} (h : ∀ it ∈ items, 0 ≤ (s : ℚ) * it.2)
    {z : ℤ} (hnear : |total items - z| < 1) {out : List (Nat × ℚ)} (hq : Toron.quantizeValues items z = .ok out) :
    ∃ l, Bonus (sortedBy qKeyLe (items.map mkQItem)) s out l := by
  obtain ⟨h0, -⟩ := remainder_near hs items h hnear
  have hrem : (z : ℚ) - ((items.map mkQItem).map fun x => (x.whole : ℚ)).sum = ((z - wholes items : ℤ) : ℚ) := by
    rw [sum_wholes]; push_cast; ring
  have hinc : (z - wholes items).natAbs ≠ 0 → increment (z : ℚ) = s := by
    intro hne
    have h1 := sign_wholes hs items h
    unfold increment
    rcases hs with rfl | rfl
    · rw [if_neg]
      · norm_num
      · have : 0 ≤ z := by omega
        have : (0 : ℚ) ≤ z := by exact_mod_cast this
        linarith
    · rw [if_pos]
      · norm_num
      · have : z < 0 := by omega
        exact_mod_cast this
  unfold Toron.quantizeValues at hq
  dsimp only at hq
  rw [hrem, wholePart_int, if_neg (by rw [fracPart_int]; simp)] at hq
  injection hq with hq
  have hfirst : ((sortedBy qKeyLe (items.map mkQItem)).take (z - wholes items).natAbs).map
        (fun x => (x.id, (x.whole : ℚ) + increment (z : ℚ))) =
      ((sortedBy qKeyLe (items.map mkQItem)).take (z - wholes items).natAbs).map fun x => (x.id, (x.whole : ℚ) + s) := by
    by_cases hn0 : (z - wholes items).natAbs = 0
    · rw [hn0]; rfl
    · rw [hinc hn0]
  rw [hfirst] at hq
  obtain ⟨l, hl⟩ := bonus_whole (sortedBy qKeyLe (items.map mkQItem)) s (z - wholes items).natAbs
  rw [hq] at hl
  exact ⟨l, hl⟩

end Toron.Binary
