/-
Property theorems about the fairness of rounded parts (C108).
-/
import Verif.Lemmas.Fair
import Verif.Lemmas.BinaryTranslate
import Verif.Lemmas.Disaggregate

namespace Toron
open Toron.Spec

/-- The share of each record: one factor for all quantities. -/
theorem disagg_share (ids : List Nat) (weight : Nat → Option ℚ) (hw : ∀ i w, weight i = some w → 0 ≤ w) :
    ∃ r : Nat → ℚ, (∀ value parts, disaggregateValue value ids weight = .ok parts →
        parts = ids.map fun i => (i, value * r i)) ∧
      (∀ i, i ∈ ids → 0 ≤ r i) ∧
      ((ids.map fun i => (weight i).getD 0).sum ≠ 0 →
        ∀ i, r i = (weight i).getD 0 / (ids.map fun i => (weight i).getD 0).sum) ∧
      (∀ i j, i ∈ ids → j ∈ ids → (weight i).getD 0 < (weight j).getD 0 → r i < r j) ∧
      (∀ i j, i ≠ 0 → j ≠ 0 → (weight i).getD 0 = (weight j).getD 0 → r i = r j) := by
  have hwd : ∀ i, 0 ≤ (weight i).getD 0 := by
    intro i
    cases hi : weight i with
    | none => simp
    | some w => simpa using hw i w hi
  set W := (ids.map fun i => (weight i).getD 0).sum with hW
  have hWnn : 0 ≤ W := by
    rw [hW]
    apply List.sum_nonneg
    intro x hx
    obtain ⟨y, _, rfl⟩ := List.mem_map.1 hx
    exact hwd y
  have hWge : ∀ j ∈ ids, (weight j).getD 0 ≤ W := by
    intro j hj
    rw [hW]
    refine List.single_le_sum ?_ _ (List.mem_map_of_mem hj)
    intro x hx
    obtain ⟨y, _, rfl⟩ := List.mem_map.1 hx
    exact hwd y
  by_cases hW0 : W = 0
  · have hnolt : ∀ i j, i ∈ ids → j ∈ ids → ¬ (weight i).getD 0 < (weight j).getD 0 := by
      intro i j _ hj hlt
      have := hwd i
      have := hWge j hj
      linarith
    by_cases hlen : 1 < ids.length
    · have hlen' : (1 : ℚ) < ids.length := by exact_mod_cast hlen
      by_cases h0 : 0 ∈ ids
      · refine ⟨fun i => if i = 0 then 0 else 1 / ((ids.length : ℚ) - 1), ?_, ?_, fun h => absurd hW0 h,
          fun i j hi hj h => absurd h (hnolt i j hi hj), ?_⟩
        · intro value parts h
          obtain ⟨_, h | h | h | h⟩ := disagg_ok value ids weight parts h
          · exact absurd hW0 h.1
          · exact absurd h0 h.2.2.1
          · rw [h.2.2.2]
            refine List.map_congr_left fun i _ => ?_
            dsimp only
            by_cases hi : i = 0
            · rw [if_pos hi, if_pos hi, mul_zero]
            · rw [if_neg hi, if_neg hi]
          · obtain ⟨_, k, hk, _⟩ := h
            rw [hk] at hlen
            simp at hlen
        · intro i _
          dsimp only
          split
          · exact le_refl _
          · exact div_nonneg zero_le_one (by linarith)
        · intro i j hi hj _
          dsimp only
          rw [if_neg hi, if_neg hj]
      · refine ⟨fun i => 1 / (ids.length : ℚ), ?_, ?_, fun h => absurd hW0 h,
          fun i j hi hj h => absurd h (hnolt i j hi hj), fun _ _ _ _ _ => rfl⟩
        · intro value parts h
          obtain ⟨_, h | h | h | h⟩ := disagg_ok value ids weight parts h
          · exact absurd hW0 h.1
          · exact h.2.2.2
          · exact absurd h.2.2.1 h0
          · obtain ⟨_, k, hk, _⟩ := h
            rw [hk] at hlen
            simp at hlen
        · intro i _
          positivity
    · refine ⟨fun _ => 1, ?_, fun _ _ => zero_le_one, fun h => absurd hW0 h,
        fun i j hi hj h => absurd h (hnolt i j hi hj), fun _ _ _ _ _ => rfl⟩
      intro value parts h
      obtain ⟨_, h | h | h | h⟩ := disagg_ok value ids weight parts h
      · exact absurd hW0 h.1
      · exact absurd h.2.1 hlen
      · exact absurd h.2.1 hlen
      · obtain ⟨_, k, hk, hp⟩ := h
        rw [hk, hp, List.map_singleton, mul_one]
  · have hpos : 0 < W := lt_of_le_of_ne hWnn (Ne.symm hW0)
    refine ⟨fun i => (weight i).getD 0 / W, ?_, ?_, fun _ _ => rfl, ?_, ?_⟩
    · intro value parts h
      obtain ⟨_, h | h | h | h⟩ := disagg_ok value ids weight parts h
      · exact h.2
      · exact absurd h.1 hW0
      · exact absurd h.1 hW0
      · exact absurd h.1 hW0
    · intro i _
      exact div_nonneg (hwd i) hWnn
    · intro i j _ _ h
      exact div_lt_div_of_pos_right h hpos
    · intro i j _ _ h
      dsimp only
      rw [h]

/-- C108: rounding keeps the order of the parts. Of two parts of the same sign, the larger one does not end up
smaller than the other, and every part ends up at one of the two whole numbers around it, or in between. If the
total is whole, a part that is already whole stays as it is. -/
theorem C108_round (items : List (Nat × ℚ)) (hnd : (items.map (·.1)).Nodup) (out : List (Nat × ℚ))
    (hsign : (∀ it ∈ items, 0 ≤ it.2) ∨ ∀ it ∈ items, it.2 ≤ 0)
    (h : quantizeValues items (total items) = .ok out) :
    (∀ i x j y a b, (i, x) ∈ items → (j, y) ∈ items → (i, a) ∈ out → (j, b) ∈ out → |x| < |y| → |a| ≤ |b|) ∧
    (∀ i x a, (i, x) ∈ items → (i, a) ∈ out → ((⌊|x|⌋ : ℤ) : ℚ) ≤ |a| ∧ |a| ≤ ⌊|x|⌋ + 1) ∧
    (fracPart (total items) = 0 → ∀ i x a, (i, x) ∈ items → (i, a) ∈ out → fracPart x = 0 → a = x) := by
  have hwhole : ∀ s : ℚ, (s = 1 ∨ s = -1) → (∀ it ∈ items, 0 ≤ s * it.2) →
      fracPart (total items) = 0 → ∀ i x a, (i, x) ∈ items → (i, a) ∈ out → fracPart x = 0 → a = x := by
    intro s hs hsg ht i x a hx ha hfx
    obtain ⟨out', h1, -, ⟨items', hperm, hf⟩, -, h3⟩ := quantize_same_sign items s hs hsg
    rw [h] at h1
    injection h1 with h1
    have hfa := h3 ht (i, a) (h1 ▸ ha)
    obtain ⟨it, hit, he⟩ := Binary.forall₂_mem_right hf (i, a) (h1 ▸ ha)
    have hit' : it = (i, x) := List.inj_on_of_nodup_map hnd (hperm.mem_iff.1 hit) hx he.1
    have h4 := he.2
    rw [hit'] at h4
    have ea := whole_add_frac a
    have ex := whole_add_frac x
    rw [hfa, add_zero] at ea
    rw [hfx, add_zero] at ex
    have h5 : |((wholePart a - wholePart x : ℤ) : ℚ)| < 1 := by
      push_cast
      rw [ea, ex]
      exact h4
    have h6 : |wholePart a - wholePart x| < 1 := by exact_mod_cast h5
    have h7 : wholePart a = wholePart x := by
      have := Int.abs_lt_one_iff.1 h6
      omega
    rw [← ea, ← ex, h7]
  rcases hsign with hp | hn
  · have hs : ∀ it ∈ items, 0 ≤ ((1 : ℤ) : ℚ) * it.2 := fun it hit => by simpa using hp it hit
    obtain ⟨l, hl⟩ := quantize_bonus (.inl rfl) hs h
    obtain ⟨h1, h2⟩ := bonus_order hnd (.inl rfl) hs hl
    exact ⟨h1, h2, hwhole 1 (.inl rfl) fun it hit => by simpa using hp it hit⟩
  · have hs : ∀ it ∈ items, 0 ≤ ((-1 : ℤ) : ℚ) * it.2 := fun it hit => by
      have := hn it hit
      push_cast
      linarith
    obtain ⟨l, hl⟩ := quantize_bonus (.inr rfl) hs h
    obtain ⟨h1, h2⟩ := bonus_order hnd (.inr rfl) hs hl
    exact ⟨h1, h2, hwhole (-1) (.inr rfl) fun it hit => by have := hn it hit; linarith⟩

example : quantizeValues [(1, 2.6), (2, 2.7), (3, 2.7)] (total [(1, 2.6), (2, 2.7), (3, (2.7 : ℚ))]) =
    .ok [(3, 3), (2, 3), (1, 2)] ∧ ∀ it ∈ [(1, 2.6), (2, 2.7), (3, (2.7 : ℚ))], 0 ≤ it.2 := by
  constructor
  · decide +kernel
  · decide +kernel

/-- C108: a quantity that is split by weights and rounded is divided fairly. A record with the larger weight
gets at least as much as one with the smaller weight, two records with the same weight differ by one at the
most, every record gets one of the two whole numbers around its exact share, or something in between, and
nobody gets a part of the opposite sign. -/
theorem C108_split (value : ℚ) (ids : List Nat) (hnd : ids.Nodup) (weight : Nat → Option ℚ)
    (hw : ∀ i w, weight i = some w → 0 ≤ w) (parts out : List (Nat × ℚ))
    (hd : disaggregateValue value ids weight = .ok parts) (hq : quantizeValues parts value = .ok out) :
    (∀ i j a b, (i, a) ∈ out → (j, b) ∈ out → (weight i).getD 0 < (weight j).getD 0 → |a| ≤ |b|) ∧
    (∀ i j a b, i ≠ 0 → j ≠ 0 → (i, a) ∈ out → (j, b) ∈ out → (weight i).getD 0 = (weight j).getD 0 → |a - b| ≤ 1) ∧
    (∀ i x a, (i, x) ∈ parts → (i, a) ∈ out → ((⌊|x|⌋ : ℤ) : ℚ) ≤ |a| ∧ |a| ≤ ⌊|x|⌋ + 1) ∧
    (0 ≤ value → ∀ o ∈ out, 0 ≤ o.2) ∧ (value ≤ 0 → ∀ o ∈ out, o.2 ≤ 0) := by
  obtain ⟨htot, hids⟩ := disagg_total value ids weight parts hd hnd
  obtain ⟨r, hr, hr0, -, hrlt, hreq⟩ := disagg_share ids weight hw
  have hparts := hr value parts hd
  rw [← htot] at hq
  have hsignp : 0 ≤ value → ∀ it ∈ parts, 0 ≤ it.2 := by
    intro hv it hit
    rw [hparts] at hit
    obtain ⟨i, hi, rfl⟩ := List.mem_map.1 hit
    exact mul_nonneg hv (hr0 i hi)
  have hsignn : value ≤ 0 → ∀ it ∈ parts, it.2 ≤ 0 := by
    intro hv it hit
    rw [hparts] at hit
    obtain ⟨i, hi, rfl⟩ := List.mem_map.1 hit
    exact mul_nonpos_of_nonpos_of_nonneg hv (hr0 i hi)
  have hsign : (∀ it ∈ parts, 0 ≤ it.2) ∨ ∀ it ∈ parts, it.2 ≤ 0 := (le_total 0 value).imp hsignp hsignn
  obtain ⟨hord, hquota, -⟩ := C108_round parts (by rw [hids]; exact hnd) out hsign hq
  have hposout : 0 ≤ value → ∀ o ∈ out, 0 ≤ o.2 := fun hv o ho => by
    have := quantize_sign parts 1 (.inl rfl) (fun it hit => by simpa using hsignp hv it hit) hq o ho
    linarith
  have hnegout : value ≤ 0 → ∀ o ∈ out, o.2 ≤ 0 := fun hv o ho => by
    have := quantize_sign parts (-1) (.inr rfl) (fun it hit => by have := hsignn hv it hit; linarith) hq o ho
    linarith
  -- every record of the result is one of the parts
  have hmem : ∀ i a, (i, a) ∈ out → i ∈ ids ∧ (i, value * r i) ∈ parts := by
    intro i a ha
    have h1 : ∃ x, (i, x) ∈ parts := by
      rcases le_total 0 value with hv | hv
      · obtain ⟨out', h1, -, ⟨items', hperm, hf⟩, -⟩ := quantize_same_sign parts 1 (.inl rfl)
          (fun it hit => by simpa using hsignp hv it hit)
        rw [hq] at h1
        injection h1 with h1
        rw [h1] at ha
        obtain ⟨it, hit, he⟩ := Binary.forall₂_mem_right hf _ ha
        have h2 : it.1 = i := he.1
        exact ⟨it.2, by rw [← h2]; exact hperm.mem_iff.1 hit⟩
      · obtain ⟨out', h1, -, ⟨items', hperm, hf⟩, -⟩ := quantize_same_sign parts (-1) (.inr rfl)
          (fun it hit => by have := hsignn hv it hit; linarith)
        rw [hq] at h1
        injection h1 with h1
        rw [h1] at ha
        obtain ⟨it, hit, he⟩ := Binary.forall₂_mem_right hf _ ha
        have h2 : it.1 = i := he.1
        exact ⟨it.2, by rw [← h2]; exact hperm.mem_iff.1 hit⟩
    obtain ⟨x, hx⟩ := h1
    rw [hparts] at hx
    obtain ⟨k, hk, he⟩ := List.mem_map.1 hx
    injection he with h2 _
    rw [h2] at hk
    exact ⟨hk, by rw [hparts]; exact List.mem_map_of_mem (f := fun i => (i, value * r i)) hk⟩
  refine ⟨?_, ?_, hquota, hposout, hnegout⟩
  · intro i j a b ha hb hlt
    obtain ⟨hi, hpi⟩ := hmem i a ha
    obtain ⟨hj, hpj⟩ := hmem j b hb
    by_cases hv : value = 0
    · have h1 := hposout (by rw [hv]) _ ha
      have h2 := hnegout (by rw [hv]) _ ha
      have : a = 0 := le_antisymm h2 h1
      rw [this, abs_zero]
      exact abs_nonneg b
    · refine hord i _ j _ a b hpi hpj ha hb ?_
      rw [abs_mul, abs_mul, abs_of_nonneg (hr0 i hi), abs_of_nonneg (hr0 j hj)]
      exact mul_lt_mul_of_pos_left (hrlt i j hi hj hlt) (abs_pos.2 hv)
  · intro i j a b hi0 hj0 ha hb heq
    obtain ⟨hi, hpi⟩ := hmem i a ha
    obtain ⟨hj, hpj⟩ := hmem j b hb
    have h1 := hquota i _ a hpi ha
    have h2 := hquota j _ b hpj hb
    rw [hreq i j hi0 hj0 heq] at h1
    rcases le_total 0 value with hv | hv
    · have ha0 := hposout hv _ ha
      have hb0 := hposout hv _ hb
      rw [abs_of_nonneg (a := a) ha0] at h1
      rw [abs_of_nonneg (a := b) hb0] at h2
      rw [abs_le]
      constructor <;> linarith
    · have ha0 := hnegout hv _ ha
      have hb0 := hnegout hv _ hb
      rw [abs_of_nonpos (a := a) ha0] at h1
      rw [abs_of_nonpos (a := b) hb0] at h2
      rw [abs_le]
      constructor <;> linarith

/-- Three records of weight 6, 6 and 2. -/
def Fair.weight (i : Nat) : Option ℚ := if i = 0 then none else if i = 3 then some 2 else some 6

example : [1, 2, 3].Nodup ∧ (∀ i w, Fair.weight i = some w → 0 ≤ w) ∧
    ((disaggregateValue (-10) [1, 2, 3] Fair.weight).bind (quantizeValues · (-10))).toOption =
      some [(3, -2), (1, -4), (2, -4)] := by
  refine ⟨by decide, ?_, by decide +kernel⟩
  intro i w h
  unfold Fair.weight at h
  split at h
  · cases h
  · split at h <;> injection h with h <;> rw [← h] <;> norm_num

/-- C108: without rounding, a larger quantity gives every record at least as much. -/
theorem C108_more_gives_more (value value' : ℚ) (ids : List Nat) (weight : Nat → Option ℚ)
    (hw : ∀ i w, weight i = some w → 0 ≤ w) (parts parts' : List (Nat × ℚ)) (hv : value ≤ value')
    (hd : disaggregateValue value ids weight = .ok parts) (hd' : disaggregateValue value' ids weight = .ok parts') :
    List.Forall₂ (fun p p' => p.1 = p'.1 ∧ p.2 ≤ p'.2) parts parts' := by
  obtain ⟨r, hr, hr0, -⟩ := disagg_share ids weight hw
  rw [hr value parts hd, hr value' parts' hd']
  rw [List.forall₂_map_left_iff, List.forall₂_map_right_iff, List.forall₂_same]
  intro i hi
  exact ⟨rfl, mul_le_mul_of_nonneg_right hv (hr0 i hi)⟩

/-- C108, violated by the code: with rounding, a larger quantity can give a record less. Three records have the
weights 6, 6 and 2. A quantity of 10 gives the third record 2, a quantity of 11 gives it 1. -/
theorem C108_violated_more_gives_less :
    ((disaggregateValue 10 [1, 2, 3] Fair.weight).bind (quantizeValues · 10)).toOption = some [(3, 2), (1, 4), (2, 4)] ∧
    ((disaggregateValue 11 [1, 2, 3] Fair.weight).bind (quantizeValues · 11)).toOption = some [(1, 5), (2, 5), (3, 1)] := by
  decide +kernel

end Toron
