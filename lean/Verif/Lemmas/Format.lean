/-
Lemmas about the layout of granularities and partition definitions.
-/
import Verif.Model.Format
import Verif.Spec.Format
import Verif.Lemmas.IndexCode
import Verif.Lemmas.Distinct
import Verif.Lemmas.Py
import Mathlib.Tactic.Linarith
import Mathlib.Tactic.Positivity
import Mathlib.Tactic.FieldSimp
import Mathlib.Tactic.Ring

namespace Toron.Format

open Toron.Selectors (PyStr)
open Toron.IndexCode (decDigits digitChar mem_decDigits length_decDigits decDigits_ne_nil)

/-! ### Rounding -/

theorem halfEven_spec (q : ℚ) : |(halfEven q : ℚ) - q| ≤ 1 / 2 := by
  have h1 := Int.floor_le q
  have h2 := Int.lt_floor_add_one q
  unfold halfEven
  rw [abs_le]
  split
  · constructor <;> linarith
  · split
    · push_cast
      constructor <;> linarith
    · have : q - ⌊q⌋ = 1 / 2 := by linarith
      split
      · constructor <;> linarith
      · push_cast
        constructor <;> linarith

theorem halfEven_mono {a b : ℚ} (h : a ≤ b) : halfEven a ≤ halfEven b := by
  have hf := Int.floor_le_floor h
  rcases lt_or_eq_of_le hf with hlt | heq
  · have ha : halfEven a ≤ ⌊a⌋ + 1 := by
      unfold halfEven
      split
      · omega
      · split
        · omega
        · split <;> omega
    have hb : ⌊b⌋ ≤ halfEven b := by
      unfold halfEven
      split
      · omega
      · split
        · omega
        · split <;> omega
    omega
  · unfold halfEven
    rw [heq]
    by_cases h1 : a - ⌊b⌋ < 1 / 2
    · rw [if_pos h1]
      split
      · omega
      · split
        · omega
        · split <;> omega
    · rw [if_neg h1, if_neg (by linarith : ¬ b - ⌊b⌋ < 1 / 2)]
      by_cases h2 : 1 / 2 < a - ⌊b⌋
      · rw [if_pos h2, if_pos (by linarith)]
      · rw [if_neg h2]
        by_cases h3 : 1 / 2 < b - ⌊b⌋
        · rw [if_pos h3]
          split <;> omega
        · rw [if_neg h3]

theorem halfEven_nonneg {q : ℚ} (h : 0 ≤ q) : 0 ≤ halfEven q := by
  have := halfEven_mono h
  rwa [show halfEven 0 = 0 by decide +kernel] at this

theorem units_cast (p : Nat) (q : ℚ) : (units p q : ℤ) = halfEven (|q| * 10 ^ p) := by
  unfold units
  exact Int.toNat_of_nonneg (halfEven_nonneg (by positivity))

theorem units_spec (p : Nat) (q : ℚ) : |(units p q : ℚ) - |q| * 10 ^ p| ≤ 1 / 2 := by
  have h : (units p q : ℚ) = ((units p q : ℤ) : ℚ) := by push_cast; rfl
  rw [h, units_cast]
  exact halfEven_spec _

/-- What is half a unit off is rounded to an even number of units. -/
theorem halfEven_tie {q : ℚ} (h : |(halfEven q : ℚ) - q| = 1 / 2) : halfEven q % 2 = 0 := by
  have h1 := Int.floor_le q
  have h2 := Int.lt_floor_add_one q
  unfold halfEven at h ⊢
  split at h
  · rename_i h3
    rw [abs_of_nonpos (by linarith)] at h
    linarith
  · rename_i h3
    rw [if_neg h3]
    split at h
    · rename_i h4
      push_cast at h
      rw [abs_of_nonneg (by linarith)] at h
      linarith
    · rename_i h4
      rw [if_neg h4]
      split
      · assumption
      · omega

theorem units_tie {p : Nat} {q : ℚ} (h : |(units p q : ℚ) - |q| * 10 ^ p| = 1 / 2) : units p q % 2 = 0 := by
  have h0 : (units p q : ℚ) = ((units p q : ℤ) : ℚ) := by push_cast; rfl
  rw [h0, units_cast] at h
  have := halfEven_tie h
  rw [← units_cast] at this
  omega

theorem units_mono {p : Nat} {a b : ℚ} (h : |a| ≤ |b|) : units p a ≤ units p b := by
  have : (units p a : ℤ) ≤ units p b := by
    rw [units_cast, units_cast]
    exact halfEven_mono (mul_le_mul_of_nonneg_right h (by positivity))
  exact_mod_cast this

/-! ### Digits -/

theorem digitsValue_snoc (t : PyStr) (c : Char) :
    digitsValue (t ++ [c]) = 10 * digitsValue t + (c.toNat - '0'.toNat) := by
  unfold digitsValue
  rw [List.foldl_append]
  rfl

theorem digitChar_toNat : ∀ d < 10, (digitChar d).toNat - '0'.toNat = d := by decide

theorem digitChar_plain : ∀ d < 10, digitChar d ≠ '.' ∧ digitChar d ≠ '-' ∧ digitChar d ≠ ' ' ∧ digitChar d ≠ 'N' := by decide

theorem digitsValue_dec (n : Nat) : digitsValue (decDigits n) = n := by
  induction n using Nat.strong_induction_on with
  | _ n ih =>
    rw [decDigits]
    split
    · rename_i h
      have := digitsValue_snoc [] (digitChar n)
      rw [List.nil_append] at this
      rw [this, digitChar_toNat n h]
      simp [digitsValue]
    · rename_i h
      rw [digitsValue_snoc, ih (n / 10) (by omega), digitChar_toNat _ (Nat.mod_lt _ (by decide))]
      omega

theorem digitsValue_zeros (k : Nat) (t : PyStr) : digitsValue (List.replicate k '0' ++ t) = digitsValue t := by
  have h : digitsValue (List.replicate k '0') = 0 := by
    induction k with
    | zero => rfl
    | succ k ih => rw [List.replicate_succ', digitsValue_snoc, ih]; rfl
  unfold digitsValue at h ⊢
  rw [List.foldl_append, h]

theorem plain_zfill {p n : Nat} {c : Char} (h : c ∈ zfill p (decDigits n)) :
    c ≠ '.' ∧ c ≠ '-' ∧ c ≠ ' ' ∧ c ≠ 'N' := by
  unfold zfill at h
  rcases List.mem_append.1 h with h | h
  · rw [(List.mem_replicate.1 h).2]
    decide
  · obtain ⟨d, hd, rfl⟩ := mem_decDigits h
    exact digitChar_plain d hd

theorem plain_dec {n : Nat} {c : Char} (h : c ∈ decDigits n) : c ≠ '.' ∧ c ≠ '-' ∧ c ≠ ' ' ∧ c ≠ 'N' := by
  obtain ⟨d, hd, rfl⟩ := mem_decDigits h
  exact digitChar_plain d hd

theorem zfill_length {p n : Nat} (hp : 0 < p) (h : n < 10 ^ p) : (zfill p (decDigits n)).length = p := by
  unfold zfill
  obtain ⟨k, rfl⟩ : ∃ k, p = k + 1 := ⟨p - 1, by omega⟩
  have := length_decDigits n k h
  rw [List.length_append, List.length_replicate]
  omega

/-- The text without its sign. -/
def body (p n : Nat) : PyStr := decDigits (n / 10 ^ p) ++ '.' :: zfill p (decDigits (n % 10 ^ p))

theorem takeWhile_plain {a b : PyStr} (h : ∀ c ∈ a, c ≠ '.') : (a ++ '.' :: b).takeWhile (· != '.') = a := by
  rw [List.takeWhile_append_of_pos (fun c hc => by simpa using h c hc)]
  simp

theorem dropWhile_plain {a b : PyStr} (h : ∀ c ∈ a, c ≠ '.') : (a ++ '.' :: b).dropWhile (· != '.') = '.' :: b := by
  rw [List.dropWhile_append_of_pos (fun c hc => by simpa using h c hc)]
  simp

theorem decimals_body {p n : Nat} : decimals (body p n) = zfill p (decDigits (n % 10 ^ p)) := by
  unfold decimals body
  rw [dropWhile_plain fun c hc => (plain_dec hc).1]
  rfl

theorem unsignedValue_body {p n : Nat} (hp : 0 < p) : unsignedValue (body p n) = n / 10 ^ p := by
  have hpos : 0 < 10 ^ p := by positivity
  unfold unsignedValue
  rw [decimals_body, zfill_length hp (Nat.mod_lt _ hpos)]
  unfold wholeDigits body
  rw [takeWhile_plain fun c hc => (plain_dec hc).1, digitsValue_dec]
  unfold zfill
  rw [digitsValue_zeros, digitsValue_dec]
  have h := Nat.div_add_mod n (10 ^ p)
  have hq : ((10 : ℚ) ^ p) * ((n / 10 ^ p : Nat) : ℚ) + ((n % 10 ^ p : Nat) : ℚ) = n := by exact_mod_cast h
  have hne : (10 : ℚ) ^ p ≠ 0 := by positivity
  rw [eq_div_iff hne, ← hq]
  field_simp

theorem body_head (p n : Nat) : ∃ c t, body p n = c :: t ∧ c ≠ '-' ∧ c ≠ ' ' ∧ c ≠ 'N' := by
  unfold body
  cases h : decDigits (n / 10 ^ p) with
  | nil => exact absurd h (decDigits_ne_nil _)
  | cons c t =>
    obtain ⟨_, h1, h2, h3⟩ := plain_dec (n := n / 10 ^ p) (c := c) (by rw [h]; simp)
    exact ⟨c, _, rfl, h1, h2, h3⟩

theorem fixed_eq (p : Nat) (q : ℚ) : fixed p q = (if q < 0 then ['-'] else []) ++ body p (units p q) := by
  unfold fixed body
  rw [List.append_assoc]

theorem fixed_head (p : Nat) (q : ℚ) : ∃ c t, fixed p q = c :: t ∧ c ≠ ' ' ∧ c ≠ 'N' := by
  rw [fixed_eq]
  split
  · exact ⟨'-', _, rfl, by decide, by decide⟩
  · obtain ⟨c, t, h, _, h1, h2⟩ := body_head p (units p q)
    exact ⟨c, t, h, h1, h2⟩

theorem dropWhile_rjust {w : Nat} {c : Char} {t : PyStr} (hc : c ≠ ' ') :
    (rjust w (c :: t)).dropWhile (· == ' ') = c :: t := by
  unfold rjust
  rw [List.dropWhile_append_of_pos (fun x hx => by rw [(List.mem_replicate.1 hx).2]; rfl)]
  rw [List.dropWhile_cons_of_neg (by simpa using hc)]

/-- What a text shows. -/
theorem value_fixed {p w : Nat} (hp : 0 < p) (q : ℚ) :
    value (rjust w (fixed p q)) = (if q < 0 then -1 else 1) * ((units p q : ℚ) / 10 ^ p) := by
  obtain ⟨c, t, h, hc, _⟩ := fixed_head p q
  have hv : value (rjust w (fixed p q)) = signedValue (fixed p q) := by
    unfold value
    rw [h, dropWhile_rjust hc]
  rw [hv, fixed_eq]
  unfold signedValue
  by_cases hq : q < 0
  · rw [if_pos hq, if_pos hq]
    have h0 : (['-'] ++ body p (units p q)).head? = some '-' := rfl
    rw [if_pos h0]
    dsimp only [List.cons_append, List.nil_append, List.tail_cons]
    rw [unsignedValue_body hp]
    ring
  · rw [if_neg hq, if_neg hq, List.nil_append]
    obtain ⟨c, t, h, hc, _⟩ := body_head p (units p q)
    rw [if_neg, unsignedValue_body hp, one_mul]
    rw [h, List.head?_cons, Option.some.injEq]
    exact hc

theorem decimals_eq {p w : Nat} (q : ℚ) :
    decimals (rjust w (fixed p q)) = zfill p (decDigits (units p q % 10 ^ p)) := by
  have : decimals (rjust w (fixed p q)) = decimals (body p (units p q)) := by
    rw [fixed_eq]
    unfold decimals rjust
    rw [← List.append_assoc, List.dropWhile_append_of_pos]
    intro c hc
    rcases List.mem_append.1 hc with h | h
    · rw [(List.mem_replicate.1 h).2]; rfl
    · split at h
      · rw [List.mem_singleton] at h
        rw [h]; rfl
      · cases h
  rw [this, decimals_body]

theorem decimals_fixed {p w : Nat} (hp : 0 < p) (q : ℚ) : (decimals (rjust w (fixed p q))).length = p := by
  rw [decimals_eq, zfill_length hp (Nat.mod_lt _ (by positivity))]

theorem value_tie {p w : Nat} (hp : 0 < p) {q : ℚ} (h : |value (rjust w (fixed p q)) - q| = 1 / 2 / 10 ^ p) :
    digitsValue (decimals (rjust w (fixed p q))) % 2 = 0 := by
  have hpos : (0 : ℚ) < 10 ^ p := by positivity
  have hu : |(units p q : ℚ) - |q| * 10 ^ p| = 1 / 2 := by
    have habs : |(units p q : ℚ) / 10 ^ p - (|q|)| = 1 / 2 / 10 ^ p := by
      rw [← h, value_fixed hp]
      by_cases hq : q < 0
      · rw [if_pos hq, abs_of_neg hq, ← abs_neg]
        congr 1
        ring
      · rw [if_neg hq, abs_of_nonneg (not_lt.1 hq), one_mul]
    have : (units p q : ℚ) / 10 ^ p - (|q|) = ((units p q : ℚ) - |q| * 10 ^ p) / 10 ^ p := by field_simp
    rw [this, abs_div, abs_of_pos hpos] at habs
    exact (div_left_inj' hpos.ne').1 habs
  have := units_tie hu
  rw [decimals_eq]
  unfold zfill
  rw [digitsValue_zeros, digitsValue_dec]
  obtain ⟨k, rfl⟩ : ∃ k, p = k + 1 := ⟨p - 1, by omega⟩
  have hd : 2 ∣ 10 ^ (k + 1) := by
    rw [pow_succ]
    exact Dvd.dvd.mul_left (show 2 ∣ 10 from ⟨5, rfl⟩) _
  rw [Nat.mod_mod_of_dvd _ hd]
  exact this

theorem value_close {p w : Nat} (hp : 0 < p) (q : ℚ) : |value (rjust w (fixed p q)) - q| ≤ 1 / 2 / 10 ^ p := by
  have hpos : (0 : ℚ) < 10 ^ p := by positivity
  have h := units_spec p q
  have habs : |(units p q : ℚ) / 10 ^ p - (|q|)| ≤ 1 / 2 / 10 ^ p := by
    have : (units p q : ℚ) / 10 ^ p - (|q|) = ((units p q : ℚ) - |q| * 10 ^ p) / 10 ^ p := by field_simp
    rw [this, abs_div, abs_of_pos hpos]
    exact div_le_div_of_nonneg_right h hpos.le
  rw [value_fixed hp]
  by_cases hq : q < 0
  · rw [if_pos hq]
    rw [abs_of_neg hq] at habs
    rw [← abs_neg]
    convert habs using 2
    ring
  · rw [if_neg hq]
    rw [abs_of_nonneg (not_lt.1 hq)] at habs
    rwa [one_mul]

theorem value_mono {p w : Nat} (hp : 0 < p) {a b : ℚ} (h : a ≤ b) :
    value (rjust w (fixed p a)) ≤ value (rjust w (fixed p b)) := by
  have hpos : (0 : ℚ) < 10 ^ p := by positivity
  rw [value_fixed hp, value_fixed hp]
  have ha : (0 : ℚ) ≤ (units p a : ℚ) / 10 ^ p := by positivity
  have hb : (0 : ℚ) ≤ (units p b : ℚ) / 10 ^ p := by positivity
  by_cases h1 : a < 0
  · rw [if_pos h1]
    by_cases h2 : b < 0
    · rw [if_pos h2]
      have := units_mono (p := p) (a := b) (b := a) (by rw [abs_of_neg h1, abs_of_neg h2]; linarith)
      have : (units p b : ℚ) / 10 ^ p ≤ (units p a : ℚ) / 10 ^ p :=
        div_le_div_of_nonneg_right (by exact_mod_cast this) hpos.le
      linarith
    · rw [if_neg h2]
      linarith
  · have h2 : ¬ b < 0 := by linarith
    rw [if_neg h1, if_neg h2]
    have := units_mono (p := p) (a := a) (b := b)
      (by rw [abs_of_nonneg (not_lt.1 h1), abs_of_nonneg (not_lt.1 h2)]; exact h)
    have : (units p a : ℚ) / 10 ^ p ≤ (units p b : ℚ) / 10 ^ p :=
      div_le_div_of_nonneg_right (by exact_mod_cast this) hpos.le
    linarith

/-- Two texts are the same if sign and digits are. -/
theorem fixed_inj {p : Nat} (hp : 0 < p) {a b : ℚ} :
    fixed p a = fixed p b ↔ (a < 0 ↔ b < 0) ∧ units p a = units p b := by
  constructor
  · intro h
    have hs : a < 0 ↔ b < 0 := by
      rw [fixed_eq, fixed_eq] at h
      by_cases h1 : a < 0 <;> by_cases h2 : b < 0
      · exact ⟨fun _ => h2, fun _ => h1⟩
      · rw [if_pos h1, if_neg h2] at h
        obtain ⟨c, t, hb, hc, _⟩ := body_head p (units p b)
        rw [hb] at h
        cases h
        exact absurd rfl hc
      · rw [if_neg h1, if_pos h2] at h
        obtain ⟨c, t, hb, hc, _⟩ := body_head p (units p a)
        rw [hb] at h
        cases h
        exact absurd rfl hc
      · exact ⟨fun h => absurd h h1, fun h => absurd h h2⟩
    refine ⟨hs, ?_⟩
    have hv := congrArg (fun t => value (rjust 0 t)) h
    simp only [value_fixed hp, hs] at hv
    have hpos : (10 : ℚ) ^ p ≠ 0 := by positivity
    have : (units p a : ℚ) = units p b := by
      split at hv
      · field_simp at hv
        linarith
      · field_simp at hv
        linarith
    exact_mod_cast this
  · rintro ⟨h1, h2⟩
    rw [fixed_eq, fixed_eq, h2]
    by_cases h : a < 0
    · rw [if_pos h, if_pos (h1.1 h)]
    · rw [if_neg h, if_neg fun h' => h (h1.2 h')]

/-- Numbers that are further apart than one unit of the last place have different texts. -/
theorem fixed_apart {p : Nat} (hp : 0 < p) {a b : ℚ} (h : 1 / 10 ^ p < |a - b|) : fixed p a ≠ fixed p b := by
  intro he
  obtain ⟨hs, hu⟩ := (fixed_inj hp).1 he
  have hpos : (0 : ℚ) < 10 ^ p := by positivity
  have h1 := units_spec p a
  have h2 := units_spec p b
  rw [hu] at h1
  have h3 : |(|a| - |b|)| * 10 ^ p ≤ 1 := by
    have : |(|a| - |b|)| * 10 ^ p = |(|a| - |b|) * 10 ^ p| := by rw [abs_mul, abs_of_pos hpos]
    rw [this]
    rw [abs_le] at h1 h2 ⊢
    constructor <;> nlinarith [h1.1, h1.2, h2.1, h2.2]
  have h4 : |(|a| - |b|)| = |a - b| := by
    by_cases h : a < 0
    · rw [abs_of_neg h, abs_of_neg (hs.1 h), ← abs_neg]
      congr 1; ring
    · rw [abs_of_nonneg (not_lt.1 h), abs_of_nonneg (not_lt.1 fun h' => h (hs.2 h'))]
  rw [h4] at h3
  rw [div_lt_iff₀ hpos] at h
  linarith

/-! ### Cells -/

theorem cell_none_ne (p : Nat) (q : ℚ) : cell p none ≠ cell p (some q) := by
  obtain ⟨c, t, h, _, hc⟩ := fixed_head p q
  have h' : cell p (some q) = c :: t := h
  rw [h']
  intro he
  cases he
  exact hc rfl

theorem cell_head (p : Nat) (v : Option ℚ) : ∃ c t, cell p v = c :: t ∧ c ≠ ' ' := by
  cases v with
  | none => exact ⟨'N', _, rfl, by decide⟩
  | some q =>
    obtain ⟨c, t, h, hc, _⟩ := fixed_head p q
    exact ⟨c, t, h, hc⟩

theorem rjust_cell_inj {p w : Nat} {u v : Option ℚ} : rjust w (cell p u) = rjust w (cell p v) ↔ cell p u = cell p v := by
  constructor
  · intro h
    obtain ⟨c, t, h1, hc⟩ := cell_head p u
    obtain ⟨d, t', h2, hd⟩ := cell_head p v
    have := congrArg (List.dropWhile (· == ' ')) h
    rw [h1, h2, dropWhile_rjust hc, dropWhile_rjust hd] at this
    rw [h1, h2, this]
  · intro h; rw [h]

theorem distinct_length_le {α : Type} [DecidableEq α] (l : List α) : (distinct l).length ≤ l.length := by
  induction l with
  | nil => exact Nat.le_refl 0
  | cons x l ih =>
    rw [distinct, List.length_cons, List.length_cons]
    have := List.length_filter_le (fun y => decide (y ≠ x)) (distinct l)
    omega

theorem distinct_length_eq {α : Type} [DecidableEq α] {l : List α} : (distinct l).length = l.length ↔ l.Nodup := by
  induction l with
  | nil => exact ⟨fun _ => List.nodup_nil, fun _ => rfl⟩
  | cons x l ih =>
    rw [distinct, List.length_cons, List.length_cons, List.nodup_cons, Nat.add_right_cancel_iff]
    have h1 := List.length_filter_le (fun y => decide (y ≠ x)) (distinct l)
    have h2 := distinct_length_le l
    constructor
    · intro h
      have h3 : (distinct l).length = l.length := by omega
      refine ⟨fun hx => ?_, ih.1 h3⟩
      have := List.length_filter_eq_length_iff.1 (h.trans h3.symm) x (mem_distinct.2 hx)
      simp at this
    · rintro ⟨hx, hn⟩
      rw [List.filter_eq_self.2]
      · exact ih.2 hn
      · intro y hy
        rw [decide_eq_true_eq]
        rintro rfl
        exact hx (mem_distinct.1 hy)

/-- The texts with this number of decimals tell the values apart. -/
def Tells (vs : List (Option ℚ)) (p : Nat) : Prop :=
  ∀ u ∈ vs ++ [some 0], ∀ v ∈ vs ++ [some 0], cell p u = cell p v → u = v

theorem tells_iff {vs : List (Option ℚ)} {p : Nat} :
    (distinct ((uniqueVals vs).map (cell p))).length = (uniqueVals vs).length ↔ Tells vs p := by
  have h : (uniqueVals vs).length = ((uniqueVals vs).map (cell p)).length := (List.length_map ..).symm
  rw [h, distinct_length_eq]
  unfold Tells uniqueVals
  rw [List.nodup_map_iff_inj_on (nodup_distinct _)]
  simp only [mem_distinct]

theorem foldl_max_le (l : List Nat) (a : Nat) : a ≤ l.foldl max a ∧ ∀ x ∈ l, x ≤ l.foldl max a := by
  induction l generalizing a with
  | nil => exact ⟨Nat.le_refl _, fun x hx => (nomatch hx)⟩
  | cons y l ih =>
    obtain ⟨h1, h2⟩ := ih (max a y)
    rw [List.foldl_cons]
    refine ⟨Nat.le_trans (Nat.le_max_left _ _) h1, List.forall_mem_cons.2 ⟨Nat.le_trans (Nat.le_max_right _ _) h1, h2⟩⟩

theorem le_maxLen {ts : List PyStr} {t : PyStr} (h : t ∈ ts) : t.length ≤ maxLen ts :=
  (foldl_max_le _ 0).2 _ (List.mem_map.2 ⟨t, h, rfl⟩)

theorem rjust_length {w : Nat} {t : PyStr} (h : t.length ≤ w) : (rjust w t).length = w := by
  unfold rjust
  rw [List.length_append, List.length_replicate]
  omega

theorem tryPrecision_some {vs : List (Option ℚ)} {p : Nat} {out : List PyStr} (h : tryPrecision vs p = some out) :
    Tells vs p ∧ ∃ w, out = vs.map (fun v => rjust w (cell p v)) ∧ ∀ v ∈ vs, (cell p v).length ≤ w := by
  unfold tryPrecision at h
  dsimp only at h
  split at h
  · rename_i ht
    cases h
    refine ⟨tells_iff.1 ht, _, rfl, fun v hv => le_maxLen ?_⟩
    rw [mem_distinct]
    refine List.mem_map.2 ⟨v, ?_, rfl⟩
    unfold uniqueVals
    rw [mem_distinct]
    exact List.mem_append_left _ hv
  · cases h

theorem tryPrecision_none {vs : List (Option ℚ)} {p : Nat} : tryPrecision vs p = none ↔ ¬ Tells vs p := by
  unfold tryPrecision
  dsimp only
  rw [← tells_iff]
  split
  · rename_i h
    exact ⟨fun h' => (nomatch h'), fun h' => absurd h h'⟩
  · rename_i h
    exact ⟨fun _ => h, fun _ => rfl⟩

/-- The first number of decimals, from three to seventeen, that tells the values apart is taken. -/
theorem formatGranularity_ok {vs : List (Option ℚ)} {out : List PyStr} (h : formatGranularity vs = .ok out) :
    ∃ p w, 3 ≤ p ∧ p ≤ 17 ∧ Tells vs p ∧ (∀ p', 3 ≤ p' → p' < p → ¬ Tells vs p') ∧
      out = vs.map (fun v => rjust w (cell p v)) ∧ ∀ v ∈ vs, (cell p v).length ≤ w := by
  unfold formatGranularity at h
  split at h
  · rename_i r hr
    cases h
    obtain ⟨l1, p, l2, h1, h2, h3⟩ := List.findSome?_eq_some_iff.1 hr
    have hp : p ∈ (List.range 15).map (· + 3) := by rw [h1]; simp
    obtain ⟨k, hk, rfl⟩ := List.mem_map.1 hp
    rw [List.mem_range] at hk
    obtain ⟨ht, w, h4, h5⟩ := tryPrecision_some h2
    refine ⟨k + 3, w, by omega, by omega, ht, ?_, h4, h5⟩
    intro p' hp1 hp2
    have hlt : l1.length = k := by
      have hidx : ((List.range 15).map (· + 3))[l1.length]? = some (k + 3) := by
        rw [h1]; simp
      have hl : l1.length < 15 := by
        have := congrArg List.length h1
        simp at this
        omega
      rw [List.getElem?_map, List.getElem?_range hl] at hidx
      simp at hidx
      exact hidx
    have hmem : p' ∈ l1 := by
      have hidx : ((List.range 15).map (· + 3))[p' - 3]? = some p' := by
        rw [List.getElem?_map, List.getElem?_range (by omega)]
        simp
        omega
      rw [h1, List.getElem?_append_left (by omega)] at hidx
      exact List.mem_of_getElem? hidx
    exact tryPrecision_none.1 (h3 p' hmem)
  · cases h

theorem formatGranularity_error {vs : List (Option ℚ)} :
    (∀ p, 3 ≤ p → p ≤ 17 → ¬ Tells vs p) ↔
      formatGranularity vs = .error (.valueError "cannot find a unique representation") := by
  unfold formatGranularity
  constructor
  · intro h
    have : ((List.range 15).map (· + 3)).findSome? (tryPrecision vs) = none := by
      rw [List.findSome?_eq_none_iff]
      intro p hp
      obtain ⟨k, hk, rfl⟩ := List.mem_map.1 hp
      rw [List.mem_range] at hk
      exact tryPrecision_none.2 (h _ (by omega) (by omega))
    rw [this]
  · intro h p hp1 hp2
    split at h
    · cases h
    · rename_i hn
      rw [List.findSome?_eq_none_iff] at hn
      exact tryPrecision_none.1 (hn p (List.mem_map.2 ⟨p - 3, List.mem_range.2 (by omega), by omega⟩))

end Toron.Format
