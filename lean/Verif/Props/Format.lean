/-
C74: how granularities are shown.
-/
import Verif.Lemmas.SortDefs
import Mathlib.Tactic.IntervalCases

namespace Toron.Format

open Toron.Selectors (PyStr)

/-- **C74** Equal granularities are shown by equal texts and different ones by different texts; a missing one is told
apart from all numbers. -/
theorem C74_distinct {vs : List (Option ℚ)} {out : List PyStr} (h : formatGranularity vs = .ok out) :
    out.length = vs.length ∧
      ∀ (i j : Nat) u v a b, vs[i]? = some u → vs[j]? = some v → out[i]? = some a → out[j]? = some b → (a = b ↔ u = v) := by
  obtain ⟨p, w, _, _, ht, _, rfl, _⟩ := formatGranularity_ok h
  refine ⟨List.length_map .., ?_⟩
  intro i j u v a b hu hv ha hb
  rw [List.getElem?_map, hu] at ha
  rw [List.getElem?_map, hv] at hb
  cases ha
  cases hb
  rw [rjust_cell_inj]
  exact ⟨ht u (List.mem_append_left _ (List.mem_of_getElem? hu)) v (List.mem_append_left _ (List.mem_of_getElem? hv)),
    fun h => by rw [h]⟩

/-- **C74** The text of a granularity is a number that differs from it by at most half a unit of the last decimal place.
All texts have the same width, and all numbers the same number of decimal places, from 3 to 17. A missing granularity
is shown as `None`. -/
theorem C74_value {vs : List (Option ℚ)} {out : List PyStr} (h : formatGranularity vs = .ok out) :
    ∃ p w, 3 ≤ p ∧ p ≤ 17 ∧ (∀ t ∈ out, t.length = w) ∧
      ∀ (i : Nat) v t, vs[i]? = some v → out[i]? = some t → match v with
        | some q => (decimals t).length = p ∧ |value t - q| ≤ 1 / 2 / 10 ^ p
        | none => t.dropWhile (· == ' ') = "None".toList := by
  obtain ⟨p, w, h3, h17, _, _, rfl, hw⟩ := formatGranularity_ok h
  refine ⟨p, w, h3, h17, ?_, ?_⟩
  · intro t ht
    obtain ⟨v, hv, rfl⟩ := List.mem_map.1 ht
    exact rjust_length (hw v hv)
  · intro i v t hv ht
    rw [List.getElem?_map, hv] at ht
    cases ht
    cases v with
    | none => exact dropWhile_rjust (by decide)
    | some q => exact ⟨decimals_fixed (by omega) q, value_close (by omega) q⟩

/-- **C74** A granularity in the middle between two numbers with that many places is shown as the one of which the last
digit is even. -/
theorem C74_ties {vs : List (Option ℚ)} {out : List PyStr} (h : formatGranularity vs = .ok out) {i : Nat} {q : ℚ}
    {t : PyStr} (hi : vs[i]? = some (some q)) (ht : out[i]? = some t)
    (hq : |value t - q| = 1 / 2 / 10 ^ (decimals t).length) : Even (digitsValue (decimals t)) := by
  obtain ⟨p, w, h3, _, _, _, rfl, _⟩ := formatGranularity_ok h
  rw [List.getElem?_map, hi] at ht
  cases ht
  dsimp only [cell] at hq ⊢
  rw [decimals_fixed (by omega)] at hq
  exact Nat.even_iff.2 (value_tie (by omega) hq)

example : ((formatGranularity [some (25 / 10000), some (35 / 10000)]).toOption.map fun l => l.map String.ofList) =
    some ["0.002", "0.004"] := by decide +kernel

/-- **C74** The texts are ordered like the granularities, and no granularity but zero is shown as zero. -/
theorem C74_order {vs : List (Option ℚ)} {out : List PyStr} (h : formatGranularity vs = .ok out) {i j : Nat} {q r : ℚ}
    {a b : PyStr} (hi : vs[i]? = some (some q)) (hj : vs[j]? = some (some r)) (ha : out[i]? = some a)
    (hb : out[j]? = some b) : (q ≤ r → value a ≤ value b) ∧ (0 ≤ q → (value a = 0 ↔ q = 0)) := by
  obtain ⟨p, w, h3, _, ht, _, rfl, _⟩ := formatGranularity_ok h
  rw [List.getElem?_map, hi] at ha
  rw [List.getElem?_map, hj] at hb
  cases ha
  cases hb
  refine ⟨fun hqr => value_mono (by omega) hqr, fun hq => ?_⟩
  have hpos : (10 : ℚ) ^ p ≠ 0 := by positivity
  dsimp only [cell]
  rw [value_fixed (by omega), if_neg (not_lt.2 hq), one_mul]
  constructor
  · intro h0
    have hu : units p q = 0 := by
      rw [div_eq_zero_iff] at h0
      rcases h0 with h0 | h0
      · exact_mod_cast h0
      · exact absurd h0 hpos
    have hu0 : units p 0 = 0 := by
      unfold units
      rw [abs_zero, zero_mul]
      decide +kernel
    have := ht (some q) (List.mem_append_left _ (List.mem_of_getElem? hi)) (some 0) (by simp)
      ((fixed_inj (by omega)).2 ⟨⟨fun h => absurd hq (not_le.2 h), fun h => absurd h (by decide)⟩, by rw [hu, hu0]⟩)
    exact Option.some.inj this
  · rintro rfl
    have hu0 : units p 0 = 0 := by
      unfold units
      rw [abs_zero, zero_mul]
      decide +kernel
    rw [hu0]
    simp

/-- **C74** As few decimal places as possible, but at least three, are shown: with fewer, two different granularities, or
zero and another one, would get the same text. -/
theorem C74_fewest {vs : List (Option ℚ)} {out : List PyStr} (h : formatGranularity vs = .ok out) {i : Nat} {q : ℚ}
    {t : PyStr} (hi : vs[i]? = some (some q)) (ht : out[i]? = some t) (p : Nat) (h3 : 3 ≤ p)
    (hp : p < (decimals t).length) :
    ∃ a b : ℚ, a ≠ b ∧ some a ∈ vs ++ [some 0] ∧ some b ∈ vs ++ [some 0] ∧ fixed p a = fixed p b := by
  obtain ⟨p', w, h3', _, _, hmin, rfl, _⟩ := formatGranularity_ok h
  rw [List.getElem?_map, hi] at ht
  cases ht
  dsimp only [cell] at hp
  rw [decimals_fixed (by omega)] at hp
  have := hmin p h3 hp
  unfold Tells at this
  simp only [not_forall] at this
  obtain ⟨u, hu, v, hv, he, hne⟩ := this
  cases u with
  | none =>
    cases v with
    | none => exact absurd rfl hne
    | some b => exact absurd he (cell_none_ne p b)
  | some a =>
    cases v with
    | none => exact absurd he.symm (cell_none_ne p a)
    | some b => exact ⟨a, b, fun hab => hne (by rw [hab]), hu, hv, he⟩

/-- **C74** Granularities can be shown if they differ from each other, and from zero, by more than `10⁻¹⁷`. -/
theorem C74_succeeds_partial {vs : List (Option ℚ)}
    (h : ∀ a b : ℚ, some a ∈ vs ++ [some 0] → some b ∈ vs ++ [some 0] → a ≠ b → 1 / 10 ^ 17 < |a - b|) :
    ∃ out, formatGranularity vs = .ok out := by
  have ht : Tells vs 17 := by
    intro u hu v hv he
    cases u with
    | none =>
      cases v with
      | none => rfl
      | some b => exact absurd he (cell_none_ne 17 b)
    | some a =>
      cases v with
      | none => exact absurd he.symm (cell_none_ne 17 a)
      | some b =>
        by_cases hab : a = b
        · rw [hab]
        · exact absurd he (fixed_apart (by decide) (h a b hu hv hab))
  cases hf : formatGranularity vs with
  | ok out => exact ⟨out, rfl⟩
  | error e =>
    exfalso
    have : formatGranularity vs = .error (.valueError "cannot find a unique representation") := by
      unfold formatGranularity at hf ⊢
      split at hf
      · cases hf
      · rfl
    exact formatGranularity_error.2 this 17 (by decide) (by decide) ht

/-- **C74** (violated) A granularity that is closer than that to zero makes the function fail. -/
theorem C74_violated_close : ∃ q : ℚ, 0 < q ∧ ∀ vs, some q ∈ vs →
    formatGranularity vs = .error (.valueError "cannot find a unique representation") := by
  refine ⟨1 / 10 ^ 18, by decide +kernel, fun vs hq => formatGranularity_error.1 fun p h3 h17 ht => ?_⟩
  have := ht (some (1 / 10 ^ 18)) (List.mem_append_left _ hq) (some 0) (by simp)
    ((fixed_inj (by omega)).2 ⟨by decide +kernel, ?_⟩)
  · exact absurd (Option.some.inj this) (by decide +kernel)
  · interval_cases p <;> decide +kernel

/-- The values of the example in the documentation. -/
def demoVals : List (Option ℚ) :=
  [some (12650378635397704 / 10 ^ 15), some (12650325958503286 / 10 ^ 15), some (8297246124988996 / 10 ^ 15), none,
    some (5303016085958896 / 10 ^ 15), some (5303016085958896 / 10 ^ 15)]

example : ((formatGranularity demoVals).toOption.map fun l => l.map String.ofList) =
    some ["12.6504", "12.6503", " 8.2972", "   None", " 5.3030", " 5.3030"] := by decide +kernel

/-! ### The order of partition definitions -/

/-- **C75** The definitions that are shown are the given ones, and the whole space if it is not among them; labels are in
the given order in each of them. The first label in which two of them differ belongs to the one that is shown first. -/
theorem C75_sorted {defs : List (Finset PyStr)} {labels : List PyStr} (hn : labels.Nodup)
    (hd : ∀ d ∈ defs, ∀ x ∈ d, x ∈ labels) :
    ∃ out, sortDefinitions defs labels = .ok out ∧ (∀ c ∈ out, c.Sublist labels) ∧
      (out.map List.toFinset).Perm
        (if labels ≠ [] ∧ labels.toFinset ∉ defs then defs ++ [labels.toFinset] else defs) ∧
      out.Pairwise fun a b => ∀ pre x post, labels = pre ++ x :: post → (∀ y ∈ pre, y ∈ a ↔ y ∈ b) → x ∈ b → x ∈ a := by
  refine ⟨_, sortDefinitions_ok hn hd, ?_, ?_, ?_⟩
  · intro c hc
    obtain ⟨d, _, rfl⟩ := List.mem_map.1 hc
    exact List.filter_sublist
  · rw [List.map_map]
    have h1 : (sorted defs labels).map (List.toFinset ∘ fun d => labels.filter fun x => decide (x ∈ d)) =
        sorted defs labels := by
      conv_rhs => rw [← List.map_id (sorted defs labels)]
      refine List.map_congr_left fun d h => ?_
      rw [(sorted_perm defs labels).mem_iff] at h
      exact filter_toFinset (withWhole_known hd d h)
    rw [h1]
    have h2 : (if labels ≠ [] ∧ labels.toFinset ∉ defs then defs ++ [labels.toFinset] else defs) =
        withWhole defs labels := by
      unfold withWhole
      simp only [ne_eq, List.toFinset_eq_empty_iff]
    rw [h2]
    exact sorted_perm _ _
  · rw [List.pairwise_map]
    refine (sorted_pairwise defs labels).imp fun {a b} h pre x post hl hpre hx => ?_
    have hx' : x ∈ labels := by rw [hl]; simp
    simp only [List.mem_filter, decide_eq_true_eq] at hx ⊢
    refine ⟨hx', keyLe_before h pre x post hl (fun y hy => ?_) hx.2⟩
    have hy' : y ∈ labels := by rw [hl]; simp [hy]
    have := hpre y hy
    simp only [List.mem_filter, decide_eq_true_eq, hy', true_and] at this
    exact this

example : ((sortDefinitions [{['s'], ['t']}, {['c'], ['s']}] [['s'], ['c'], ['t']]).toOption =
    some [[['s'], ['c'], ['t']], [['s'], ['c']], [['s'], ['t']]]) := by decide +kernel

end Toron.Format
