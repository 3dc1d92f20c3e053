/-
Lemmas about arithmetic with 53 significant bits.
-/
import Verif.Model.Binary
import Verif.Lemmas.Quantize
import Verif.Lemmas.Disaggregate
import Mathlib.Tactic.Positivity
import Mathlib.Tactic.FieldSimp
import Mathlib.Algebra.Order.Ring.Pow

namespace Toron.Binary
open Toron.Spec

/-! ### Rounding -/

theorem roundEven_error (q : ℚ) : |(roundEven q : ℚ) - q| ≤ 1 / 2 := by
  have h1 := Int.floor_le q
  have h2 := Int.lt_floor_add_one q
  unfold roundEven
  rw [abs_le]
  split_ifs <;> push_cast <;> constructor <;> linarith

theorem roundEven_int (z : ℤ) : roundEven (z : ℚ) = z := by
  unfold roundEven
  rw [Int.floor_intCast, if_pos (by norm_num)]

/-- Half a unit in the last place. -/
def u : ℚ := 1 / 2 ^ 53

theorem u_pos : 0 < u := by unfold u; positivity

theorem fl_zero : fl 0 = 0 := by unfold fl; rw [if_pos rfl]

theorem log_le {x : ℚ} (hx : x ≠ 0) : (2 : ℚ) ^ (Int.log 2 |x|) ≤ |x| := by
  have := Int.zpow_log_le_self (b := 2) (r := |x|) (by norm_num) (abs_pos.2 hx)
  simpa using this

theorem fl_error (x : ℚ) : |fl x - x| ≤ u * |x| := by
  by_cases hx : x = 0
  · subst hx; rw [fl_zero]; simp
  unfold fl
  rw [if_neg hx]
  have hL := log_le hx
  generalize Int.log 2 |x| = L at hL ⊢
  have hP : (2 : ℚ) ^ (L - 52) = 2 ^ L / 2 ^ 52 := by
    rw [zpow_sub₀ (by norm_num)]
    norm_num
  have hpos : (0 : ℚ) < 2 ^ (L - 52) := zpow_pos (by norm_num) _
  generalize (2 : ℚ) ^ (L - 52) = P at hP hpos ⊢
  have he := roundEven_error (x / P)
  have : (roundEven (x / P) : ℚ) * P - x = ((roundEven (x / P) : ℚ) - x / P) * P := by
    field_simp
  rw [this, abs_mul, abs_of_pos hpos]
  have h2 : |(roundEven (x / P) : ℚ) - x / P| * P ≤ 1 / 2 * P := mul_le_mul_of_nonneg_right he hpos.le
  refine h2.trans ?_
  rw [hP]
  unfold u
  have h3 : (2 : ℚ) ^ L / 2 ^ 52 ≤ |x| / 2 ^ 52 := div_le_div_of_nonneg_right hL (by positivity)
  have h4 : (1 : ℚ) / 2 ^ 53 * |x| = 1 / 2 * (|x| / 2 ^ 52) := by ring
  rw [h4]
  exact mul_le_mul_of_nonneg_left h3 (by norm_num)

theorem fl_int {z : ℤ} (hz : |z| < 2 ^ 53) : fl (z : ℚ) = z := by
  by_cases h0 : z = 0
  · subst h0; simpa using fl_zero
  have hx : (z : ℚ) ≠ 0 := by exact_mod_cast h0
  unfold fl
  rw [if_neg hx]
  have hL := log_le hx
  generalize Int.log 2 |(z : ℚ)| = L at hL ⊢
  have hlt : L < 53 := by
    have h1 : (2 : ℚ) ^ L < 2 ^ (53 : ℤ) := by
      refine lt_of_le_of_lt hL ?_
      have : (|z| : ℚ) < 2 ^ 53 := by exact_mod_cast hz
      simpa using this
    exact (zpow_lt_zpow_iff_right₀ (by norm_num)).1 h1
  obtain ⟨k, hk⟩ : ∃ k : ℕ, L - 52 = -(k : ℤ) := ⟨(52 - L).toNat, by omega⟩
  rw [hk, zpow_neg, zpow_natCast]
  have : (z : ℚ) / (2 ^ k)⁻¹ = ((z * 2 ^ k : ℤ) : ℚ) := by push_cast; field_simp
  rw [this, roundEven_int]
  push_cast
  field_simp

/-! ### Numbers that differ by the rounding of `k` operations -/

/-- `x` is `y` times a factor between `(1 - u) ^ k` and its inverse. -/
def Near (k : ℕ) (x y : ℚ) : Prop := ∃ t, (1 - u) ^ k ≤ t ∧ t * (1 - u) ^ k ≤ 1 ∧ x = t * y

theorem one_u : 0 < 1 - u ∧ 1 - u ≤ 1 := by
  have := u_pos
  constructor
  · unfold u; norm_num
  · linarith

theorem pow_u (k : ℕ) : 0 < (1 - u) ^ k ∧ (1 - u) ^ k ≤ 1 :=
  ⟨pow_pos one_u.1 k, pow_le_one₀ one_u.1.le one_u.2⟩

theorem Near.pos {k : ℕ} {x y : ℚ} (h : Near k x y) : ∃ t, 0 < t ∧ x = t * y := by
  obtain ⟨t, h1, _, h3⟩ := h
  exact ⟨t, (pow_u k).1.trans_le h1, h3⟩

theorem near_refl (k : ℕ) (x : ℚ) : Near k x x :=
  ⟨1, (pow_u k).2, by rw [one_mul]; exact (pow_u k).2, by rw [one_mul]⟩

theorem Near.mono {k l : ℕ} {x y : ℚ} (h : Near k x y) (hkl : k ≤ l) : Near l x y := by
  obtain ⟨t, h1, h2, h3⟩ := h
  have hle : (1 - u) ^ l ≤ (1 - u) ^ k := pow_le_pow_of_le_one one_u.1.le one_u.2 hkl
  have ht : 0 < t := (pow_u k).1.trans_le h1
  exact ⟨t, hle.trans h1, (mul_le_mul_of_nonneg_left hle ht.le).trans h2, h3⟩

theorem Near.trans {k l : ℕ} {x y z : ℚ} (h : Near k x y) (h' : Near l y z) : Near (k + l) x z := by
  obtain ⟨t, h1, h2, h3⟩ := h
  obtain ⟨t', h1', h2', h3'⟩ := h'
  have ht : 0 < t := (pow_u k).1.trans_le h1
  have ht' : 0 < t' := (pow_u l).1.trans_le h1'
  refine ⟨t * t', ?_, ?_, by rw [h3, h3']; ring⟩
  · rw [pow_add]
    exact mul_le_mul h1 h1' (pow_u l).1.le ht.le
  · rw [pow_add, show t * t' * ((1 - u) ^ k * (1 - u) ^ l) = (t * (1 - u) ^ k) * (t' * (1 - u) ^ l) by ring]
    exact mul_le_one₀ h2 (mul_nonneg ht'.le (pow_u l).1.le) h2'

theorem near_fl (x : ℚ) : Near 1 (fl x) x := by
  by_cases hx : x = 0
  · subst hx; rw [fl_zero]; exact near_refl 1 0
  have he := fl_error x
  have habs := abs_pos.2 hx
  have ht : |fl x / x - 1| ≤ u := by
    have : fl x / x - 1 = (fl x - x) / x := by field_simp
    rw [this, abs_div, div_le_iff₀ habs]
    exact he
  rw [abs_le] at ht
  have hu := u_pos
  refine ⟨fl x / x, by rw [pow_one]; linarith, ?_, by field_simp⟩
  rw [pow_one]
  have h1 : fl x / x ≤ 1 + u := by linarith
  have h2 := mul_le_mul_of_nonneg_right h1 one_u.1.le
  nlinarith

theorem Near.mul_left {k : ℕ} {x y : ℚ} (h : Near k x y) (c : ℚ) : Near k (c * x) (c * y) := by
  obtain ⟨t, h1, h2, h3⟩ := h
  exact ⟨t, h1, h2, by rw [h3]; ring⟩

theorem Near.div {k : ℕ} {x y : ℚ} (h : Near k x y) (c : ℚ) : Near k (c / x) (c / y) := by
  obtain ⟨t, h1, h2, h3⟩ := h
  have ht : 0 < t := (pow_u k).1.trans_le h1
  refine ⟨t⁻¹, ?_, ?_, by rw [h3]; field_simp⟩
  · rw [le_inv_comm₀ (pow_u k).1 ht, ← one_div, le_div_iff₀ (pow_u k).1]
    exact h2
  · rw [inv_mul_le_iff₀ ht, mul_one]
    exact h1

theorem Near.add {k : ℕ} {x y x' y' : ℚ} (h : Near k x y) (h' : Near k x' y') (hy : 0 ≤ y) (hy' : 0 ≤ y') :
    Near k (x + x') (y + y') := by
  obtain ⟨t, h1, h2, h3⟩ := h
  obtain ⟨t', h1', h2', h3'⟩ := h'
  by_cases h0 : y + y' = 0
  · have e : y = 0 := by linarith
    have e' : y' = 0 := by linarith
    rw [h3, h3', e, e']
    simpa using near_refl k 0
  have hpos : 0 < y + y' := lt_of_le_of_ne (by linarith) (Ne.symm h0)
  have hk := (pow_u k).1
  refine ⟨(x + x') / (y + y'), ?_, ?_, by field_simp⟩
  · rw [le_div_iff₀ hpos, h3, h3']
    nlinarith [mul_le_mul_of_nonneg_right h1 hy, mul_le_mul_of_nonneg_right h1' hy']
  · rw [div_mul_eq_mul_div, div_le_iff₀ hpos, h3, h3']
    nlinarith [mul_le_mul_of_nonneg_right h2 hy, mul_le_mul_of_nonneg_right h2' hy']

theorem Near.abs_sub {k : ℕ} {x y : ℚ} (h : Near k x y) (hk : k ≤ 2 ^ 52) : |x - y| ≤ k / 2 ^ 52 * |y| := by
  obtain ⟨t, h1, h2, h3⟩ := h
  have hb : 1 - k * u ≤ (1 - u) ^ k := by
    have := one_add_mul_le_pow (a := -u) (by have := one_u.1; linarith) k
    have e : (1 : ℚ) + -u = 1 - u := by ring
    rw [e] at this
    linarith
  have hy : (k : ℚ) * u ≤ 1 / 2 := by
    have : (k : ℚ) ≤ 2 ^ 52 := by exact_mod_cast hk
    unfold u
    linarith
  have hku : 0 ≤ (k : ℚ) * u := mul_nonneg (Nat.cast_nonneg k) u_pos.le
  have he : (k : ℚ) / 2 ^ 52 = 2 * (k * u) := by unfold u; ring
  rw [he]
  have ht : |t - 1| ≤ 2 * (k * u) := by
    rw [abs_le]
    constructor
    · linarith
    · have hpos : 0 < t := (pow_u k).1.trans_le h1
      have h4 : t * (1 - k * u) ≤ 1 := (mul_le_mul_of_nonneg_left hb hpos.le).trans h2
      have h5 : t ≤ 2 := by nlinarith
      nlinarith
  have : x - y = (t - 1) * y := by rw [h3]; ring
  rw [this, abs_mul]
  exact mul_le_mul_of_nonneg_right ht (abs_nonneg y)

/-! ### Splitting -/

theorem groupWeight_near (weight : Nat → Option ℚ) (hw : ∀ i w, weight i = some w → 0 ≤ w) (ids : List Nat) :
    ∀ acc, 0 ≤ acc →
      (∃ g g', Toron.groupWeight weight ids = .ok g ∧ groupWeight weight acc ids = .ok g' ∧
        Near ids.length g' (acc + g) ∧ 0 ≤ g) ∨
      ∃ e, Toron.groupWeight weight ids = .error e ∧ groupWeight weight acc ids = .error e := by
  induction ids with
  | nil =>
    intro acc _
    exact .inl ⟨0, acc, rfl, rfl, by rw [add_zero]; exact near_refl _ _, le_refl _⟩
  | cons i ids ih =>
    intro acc hacc
    unfold Toron.groupWeight groupWeight
    cases hwi : weight i with
    | none =>
      dsimp only
      by_cases h0 : i ≠ 0
      · rw [if_pos h0, if_pos h0]
        exact .inr ⟨_, rfl, rfl⟩
      · rw [if_neg h0, if_neg h0]
        rcases ih acc hacc with ⟨g, g', h1, h2, h3, h4⟩ | ⟨e, h1, h2⟩
        · exact .inl ⟨g, g', h1, h2, h3.mono (by simp), h4⟩
        · exact .inr ⟨e, h1, h2⟩
    | some w =>
      dsimp only
      have hw0 := hw i w hwi
      obtain ⟨t, ht, hteq⟩ := (near_fl (acc + w)).pos
      have hnn : 0 ≤ fl (acc + w) := by rw [hteq]; exact mul_nonneg ht.le (by linarith)
      rcases ih (fl (acc + w)) hnn with ⟨g, g', h1, h2, h3, h4⟩ | ⟨e, h1, h2⟩
      · refine .inl ⟨w + g, g', by rw [h1]; rfl, h2, ?_, by linarith⟩
        have h5 : Near 1 (fl (acc + w) + g) (acc + w + g) :=
          (near_fl (acc + w)).add (near_refl 1 g) (by linarith) h4
        rw [← add_assoc]
        exact h3.trans h5
      · exact .inr ⟨e, by rw [h1]; rfl, h2⟩

/-- The parts computed with rounding and the exact ones. -/
theorem disagg_near (value : ℚ) (ids : List Nat) (weight : Nat → Option ℚ)
    (hw : ∀ i w, weight i = some w → 0 ≤ w) :
    (∃ out parts, disaggregateValue value ids weight = .ok out ∧ Toron.disaggregateValue value ids weight = .ok parts ∧
      List.Forall₂ (fun o p => o.1 = p.1 ∧ Near (ids.length + 2) o.2 p.2) out parts ∧
      ∀ p ∈ parts, ∃ a, 0 ≤ a ∧ p.2 = value * a) ∨
    ∃ e, disaggregateValue value ids weight = .error e ∧ Toron.disaggregateValue value ids weight = .error e := by
  unfold disaggregateValue Toron.disaggregateValue
  rcases groupWeight_near weight hw ids 0 (le_refl 0) with ⟨g, g', h1, h2, h3, h4⟩ | ⟨e, h1, h2⟩
  swap
  · right
    rw [h1, h2]
    exact ⟨e, rfl, rfl⟩
  rw [h1, h2]
  rw [zero_add] at h3
  obtain ⟨t, ht, hteq⟩ := h3.pos
  have hiff : g' = 0 ↔ g = 0 := by
    rw [hteq, mul_eq_zero]
    exact ⟨fun h => h.resolve_left ht.ne', .inr⟩
  change (∃ out parts, (if g' ≠ 0 then _ else _) = _ ∧ (if g ≠ 0 then _ else _) = _ ∧ _) ∨
    ∃ e, (if g' ≠ 0 then _ else _) = _ ∧ (if g ≠ 0 then _ else _) = _
  by_cases hg : g = 0
  · have c1 : ¬ g' ≠ 0 := not_not.2 (hiff.2 hg)
    have c2 : ¬ g ≠ 0 := not_not.2 hg
    rw [if_neg c1, if_neg c2]
    by_cases hl : ids.length > 1
    · rw [if_pos hl, if_pos hl]
      by_cases h0 : 0 ∉ ids
      · rw [if_pos h0, if_pos h0]
        refine .inl ⟨_, _, rfl, rfl, forall₂_map_same _ _ _ _ fun i _ => ⟨rfl, ?_⟩, ?_⟩
        · have := (near_fl (value * fl (1 / (ids.length : ℚ)))).trans ((near_fl (1 / (ids.length : ℚ))).mul_left value)
          exact this.mono (by omega)
        · intro p hp
          obtain ⟨i, _, rfl⟩ := List.mem_map.1 hp
          exact ⟨1 / (ids.length : ℚ), by positivity, rfl⟩
      · rw [if_neg h0, if_neg h0]
        refine .inl ⟨_, _, rfl, rfl, forall₂_map_same _ _ _ _ fun i _ => ?_, ?_⟩
        · by_cases hi : i = 0
          · rw [if_pos hi, if_pos hi]
            exact ⟨rfl, near_refl _ _⟩
          · rw [if_neg hi, if_neg hi]
            refine ⟨rfl, ?_⟩
            have := (near_fl (value * fl (1 / ((ids.length : ℚ) - 1)))).trans
              ((near_fl (1 / ((ids.length : ℚ) - 1))).mul_left value)
            exact this.mono (by omega)
        · intro p hp
          obtain ⟨i, _, rfl⟩ := List.mem_map.1 hp
          by_cases hi : i = 0
          · rw [if_pos hi]
            exact ⟨0, le_refl _, by simp⟩
          · rw [if_neg hi]
            refine ⟨1 / ((ids.length : ℚ) - 1), ?_, rfl⟩
            have : (1 : ℚ) < ids.length := by exact_mod_cast hl
            exact div_nonneg (by norm_num) (by linarith)
    · rw [if_neg hl, if_neg hl]
      match ids with
      | [] => exact .inr ⟨_, rfl, rfl⟩
      | [i] =>
        refine .inl ⟨_, _, rfl, rfl, .cons ⟨rfl, near_refl _ _⟩ .nil, ?_⟩
        intro p hp
        simp only [List.mem_singleton] at hp
        rw [hp]
        exact ⟨1, by norm_num, by simp⟩
      | _ :: _ :: _ => exact .inr ⟨_, rfl, rfl⟩
  · have c1 : g' ≠ 0 := fun h => hg (hiff.1 h)
    have c2 : g ≠ 0 := hg
    rw [if_pos c1, if_pos c2]
    refine .inl ⟨_, _, rfl, rfl, forall₂_map_same _ _ _ _ fun i _ => ?_, ?_⟩
    · cases hwi : weight i with
      | none => exact ⟨rfl, near_refl _ _⟩
      | some w =>
        refine ⟨rfl, ?_⟩
        have h5 := (near_fl (w / g')).trans (h3.div w)
        have h6 := (near_fl (value * fl (w / g'))).trans (h5.mul_left value)
        exact h6.mono (by omega)
    · intro p hp
      obtain ⟨i, _, rfl⟩ := List.mem_map.1 hp
      cases hwi : weight i with
      | none => exact ⟨0, le_refl _, by simp⟩
      | some w => exact ⟨w / g, div_nonneg (hw i w hwi) h4, rfl⟩

end Toron.Binary
