/-
Rounding to whole numbers when the items do not quite add up to the total.
-/
import Verif.Lemmas.Binary

namespace Toron.Binary
open Toron.Spec

/-- The sum of the whole parts. -/
def wholes (items : List (Nat × ℚ)) : ℤ := (items.map fun it => wholePart it.2).sum

theorem sum_wholes (items : List (Nat × ℚ)) :
    ((items.map mkQItem).map fun x => (x.whole : ℚ)).sum = (wholes items : ℚ) := by
  unfold wholes
  induction items with
  | nil => rfl
  | cons it items ih =>
    rw [List.map_cons, List.map_cons, List.sum_cons, ih, List.map_cons, List.sum_cons]
    push_cast
    rfl

theorem abs_frac {s : ℚ} (hs : s = 1 ∨ s = -1) {q : ℚ} (h : 0 ≤ s * q) : |fracPart q| = s * fracPart q := by
  rcases hs with rfl | rfl
  · rw [abs_of_nonneg (fracPart_nonneg (by linarith)).1, one_mul]
  · rw [abs_of_nonpos (fracPart_nonpos (by linarith)).1]; ring

theorem sign_whole {s : ℤ} (hs : s = 1 ∨ s = -1) {q : ℚ} (h : 0 ≤ (s : ℚ) * q) : 0 ≤ s * wholePart q := by
  rcases hs with rfl | rfl
  · have := wholePart_nonneg (q := q) (by push_cast at h; linarith)
    omega
  · have := wholePart_nonpos (q := q) (by push_cast at h; linarith)
    omega

theorem sign_wholes {s : ℤ} (hs : s = 1 ∨ s = -1) (items : List (Nat × ℚ)) (h : ∀ it ∈ items, 0 ≤ (s : ℚ) * it.2) :
    0 ≤ s * wholes items := by
  unfold wholes
  induction items with
  | nil => simp
  | cons it items ih =>
    rw [List.map_cons, List.sum_cons, mul_add]
    have h1 := sign_whole hs (h it (by simp))
    have h2 := ih fun x hx => h x (by simp [hx])
    omega

theorem sum_fracs {s : ℤ} (hs : s = 1 ∨ s = -1) (items : List (Nat × ℚ)) (h : ∀ it ∈ items, 0 ≤ (s : ℚ) * it.2) :
    ((items.map mkQItem).map fun x => |x.frac|).sum = s * (total items - wholes items) := by
  have hs' : (s : ℚ) = 1 ∨ (s : ℚ) = -1 := by
    rcases hs with rfl | rfl
    · exact .inl (by norm_num)
    · exact .inr (by norm_num)
  unfold wholes
  induction items with
  | nil => simp [total]
  | cons it items ih =>
    have ih := ih fun x hx => h x (by simp [hx])
    have ha := abs_frac hs' (h it (by simp))
    rw [List.map_cons, List.map_cons, List.sum_cons, ih]
    change |fracPart it.2| + _ = _
    rw [ha]
    have h2 : fracPart it.2 = it.2 - wholePart it.2 := rfl
    rw [h2]
    simp only [total, List.map_cons, List.sum_cons]
    push_cast
    ring

/-- The whole remainder when the items add up to the whole number `z` but for less than one. -/
theorem remainder_near {s : ℤ} (hs : s = 1 ∨ s = -1) (items : List (Nat × ℚ)) (h : ∀ it ∈ items, 0 ≤ (s : ℚ) * it.2)
    {z : ℤ} (hnear : |total items - z| < 1) :
    0 ≤ s * (z - wholes items) ∧ (z - wholes items).natAbs ≤ fracCount (items.map mkQItem) := by
  have hsum := sum_fracs hs items h
  rw [abs_lt] at hnear
  have hlt1 : ∀ x ∈ items.map mkQItem, |x.frac| < 1 := by
    intro x hx
    obtain ⟨it, _, rfl⟩ := List.mem_map.1 hx
    exact fracPart_lt_one _
  obtain ⟨hle, hlt⟩ := sum_abs_le_count _ hlt1
  have hnn : 0 ≤ ((items.map mkQItem).map fun x => |x.frac|).sum := by
    apply List.sum_nonneg
    intro x hx
    obtain ⟨y, _, rfl⟩ := List.mem_map.1 hx
    exact abs_nonneg _
  have hbound : -1 < (s : ℚ) * (z - total items) ∧ (s : ℚ) * (z - total items) < 1 := by
    rcases hs with rfl | rfl <;> push_cast <;> constructor <;> linarith
  have hR : ((s * (z - wholes items) : ℤ) : ℚ) =
      ((items.map mkQItem).map fun x => |x.frac|).sum + s * (z - total items) := by
    rw [hsum]; push_cast; ring
  have h0 : 0 ≤ s * (z - wholes items) := by
    have : (-1 : ℚ) < ((s * (z - wholes items) : ℤ) : ℚ) := by rw [hR]; linarith
    have : (-1 : ℤ) < s * (z - wholes items) := by exact_mod_cast this
    omega
  refine ⟨h0, ?_⟩
  have habs : (((z - wholes items).natAbs : ℤ)) = s * (z - wholes items) := by
    rcases hs with rfl | rfl <;> omega
  have : (((z - wholes items).natAbs : ℤ) : ℚ) < fracCount (items.map mkQItem) + 1 := by
    rw [habs, hR]
    linarith
  have : ((z - wholes items).natAbs : ℤ) < (fracCount (items.map mkQItem) : ℤ) + 1 := by exact_mod_cast this
  omega

theorem wholePart_int (z : ℤ) : wholePart (z : ℚ) = z := by
  unfold wholePart; split <;> simp

theorem fracPart_int (z : ℤ) : fracPart (z : ℚ) = 0 := by
  unfold fracPart; rw [wholePart_int]; ring

theorem increment_int (q : ℚ) : ∃ z : ℤ, increment q = z ∧ |z| = 1 := by
  unfold increment; split
  · exact ⟨-1, by simp, rfl⟩
  · exact ⟨1, by simp, rfl⟩

/-- Exact rounding with a whole total that the items miss by less than one. -/
theorem quantize_near {s : ℤ} (hs : s = 1 ∨ s = -1) (items : List (Nat × ℚ)) (h : ∀ it ∈ items, 0 ≤ (s : ℚ) * it.2)
    {z : ℤ} (hnear : |total items - z| < 1) :
    ∃ out, Toron.quantizeValues items z = .ok out ∧ total out = z ∧
      (∃ items', items'.Perm items ∧ List.Forall₂ (fun it o => it.1 = o.1 ∧ |o.2 - it.2| < 1) items' out) ∧
      ∀ o ∈ out, fracPart o.2 = 0 := by
  obtain ⟨h0, hn⟩ := remainder_near hs items h hnear
  have hs' : (s : ℚ) = 1 ∨ (s : ℚ) = -1 := by
    rcases hs with rfl | rfl
    · exact .inl (by norm_num)
    · exact .inr (by norm_num)
  have hrem : (z : ℚ) - ((items.map mkQItem).map fun x => (x.whole : ℚ)).sum = ((z - wholes items : ℤ) : ℚ) := by
    rw [sum_wholes]; push_cast; ring
  have hinc : (z - wholes items).natAbs ≠ 0 → increment (z : ℚ) = s := by
    intro hne
    have h1 := sign_wholes hs items h
    unfold increment
    rcases hs with rfl | rfl
    · rw [if_neg]
      · norm_num
      · have : 0 ≤ z := by omega
        have : (0 : ℚ) ≤ z := by exact_mod_cast this
        linarith
    · rw [if_pos]
      · norm_num
      · have : z < 0 := by omega
        exact_mod_cast this
  have hsign : (((z - wholes items).natAbs : ℕ) : ℚ) * increment (z : ℚ) = ((z - wholes items : ℤ) : ℚ) := by
    by_cases hne : (z - wholes items).natAbs = 0
    · have : z - wholes items = 0 := Int.natAbs_eq_zero.1 hne
      rw [this]; simp
    · rw [hinc hne]
      have : (((z - wholes items).natAbs : ℤ)) * s = z - wholes items := by
        rcases hs with rfl | rfl <;> omega
      have h' := congrArg (Int.cast : ℤ → ℚ) this
      rw [Int.cast_mul, Int.cast_natCast] at h'
      exact h'
  have hperm := sortedBy_perm qKeyLe (items.map mkQItem)
  have hcount : fracCount (sortedBy qKeyLe (items.map mkQItem)) = fracCount (items.map mkQItem) :=
    hperm.countP_eq _
  have hq : Toron.quantizeValues items z = .ok
      (((sortedBy qKeyLe (items.map mkQItem)).take (z - wholes items).natAbs).map
          (fun x => (x.id, (x.whole : ℚ) + increment (z : ℚ))) ++
        ((sortedBy qKeyLe (items.map mkQItem)).drop (z - wholes items).natAbs).map fun x => (x.id, (x.whole : ℚ))) := by
    unfold Toron.quantizeValues
    dsimp only
    rw [hrem, fracPart_int, wholePart_int]
    rfl
  refine ⟨_, hq, ?_, ?_, ?_⟩
  · refine quantize_total items z _ hq ?_ ?_
    · rw [hrem, wholePart_int]
      refine hn.trans (List.countP_le_length.trans ?_)
      rw [List.length_map]
    · rw [hrem, wholePart_int]
      exact hsign
  · refine ⟨(sortedBy qKeyLe (items.map mkQItem)).map QItem.orig, ?_, ?_⟩
    · refine (hperm.map _).trans ?_
      rw [List.map_map]
      have : (QItem.orig ∘ mkQItem) = id := by funext it; exact orig_mkQItem it
      rw [this, List.map_id]
    · conv => arg 2; rw [← List.take_append_drop (z - wholes items).natAbs (sortedBy qKeyLe (items.map mkQItem)), List.map_append]
      have hfr := take_frac_ne_zero (sortedBy qKeyLe (items.map mkQItem)) (sorted_desc _) (z - wholes items).natAbs
        (by rw [hcount]; exact hn)
      refine forall₂_append _ _ _ _ _ (forall₂_map_same _ _ _ _ ?_) (forall₂_map_same _ _ _ _ ?_)
      · intro x hx
        refine ⟨rfl, ?_⟩
        have hne := hfr x hx
        obtain ⟨it, hit, rfl⟩ := List.mem_map.1 (hperm.mem_iff.1 (List.mem_of_mem_take hx))
        have hn0 : (z - wholes items).natAbs ≠ 0 := by rintro h0; rw [h0] at hx; simp at hx
        change |((wholePart it.2 : ℚ) + increment z) - ((wholePart it.2 : ℚ) + fracPart it.2)| < 1
        rw [hinc hn0]
        have h1 := abs_frac hs' (h it hit)
        have h2 := fracPart_lt_one it.2
        have h3 : 0 < |fracPart it.2| := abs_pos.2 hne
        rw [h1] at h2 h3
        rw [abs_lt]
        rcases hs' with h4 | h4 <;> rw [h4] at h2 h3 ⊢ <;> constructor <;> linarith
      · intro x hx
        refine ⟨rfl, ?_⟩
        obtain ⟨it, hit, rfl⟩ := List.mem_map.1 (hperm.mem_iff.1 (List.mem_of_mem_drop hx))
        change |(wholePart it.2 : ℚ) - ((wholePart it.2 : ℚ) + fracPart it.2)| < 1
        rw [show (wholePart it.2 : ℚ) - (wholePart it.2 + fracPart it.2) = -fracPart it.2 by ring, abs_neg]
        exact fracPart_lt_one _
  · intro o ho
    obtain ⟨zi, hzi, _⟩ := increment_int (z : ℚ)
    rw [List.mem_append] at ho
    rcases ho with ho | ho
    · obtain ⟨x, _, rfl⟩ := List.mem_map.1 ho
      change fracPart ((x.whole : ℚ) + increment z) = 0
      rw [hzi]
      have := fracPart_int (x.whole + zi)
      simpa using this
    · obtain ⟨x, _, rfl⟩ := List.mem_map.1 ho
      exact fracPart_int _

theorem fold_wholes {s : ℤ} (hs : s = 1 ∨ s = -1) {b : ℤ} (hb : b < 2 ^ 53) (items : List (Nat × ℚ))
    (h : ∀ it ∈ items, 0 ≤ (s : ℚ) * it.2) :
    ∀ acc : ℤ, 0 ≤ s * acc → s * (acc + wholes items) ≤ b →
      (items.map mkQItem).foldl (fun acc x => fl (acc + (x.whole : ℚ))) (acc : ℚ) = ((acc + wholes items : ℤ) : ℚ) := by
  induction items with
  | nil => intro acc _ _; simp [wholes]
  | cons it items ih =>
    intro acc h0 hle
    have h1 := sign_whole hs (h it (by simp))
    have h2 := sign_wholes hs items fun x hx => h x (by simp [hx])
    have hw : wholes (it :: items) = wholePart it.2 + wholes items := by simp [wholes]
    rw [hw] at hle ⊢
    rw [List.map_cons, List.foldl_cons]
    have hfl : fl ((acc : ℚ) + ((mkQItem it).whole : ℚ)) = ((acc + wholePart it.2 : ℤ) : ℚ) := by
      have : |acc + wholePart it.2| < 2 ^ 53 := by
        rw [abs_lt]
        rcases hs with rfl | rfl <;> constructor <;> omega
      have := fl_int this
      push_cast at this ⊢
      exact this
    rw [hfl, ih (fun x hx => h x (by simp [hx])) (acc + wholePart it.2) (by rw [mul_add]; omega)
      (by rw [add_assoc]; exact hle), add_assoc]

/-- With whole totals of at most 53 bits the rounding to whole numbers is exact. -/
theorem quantize_exact {s : ℤ} (hs : s = 1 ∨ s = -1) (items : List (Nat × ℚ)) (h : ∀ it ∈ items, 0 ≤ (s : ℚ) * it.2)
    {z : ℤ} (hnear : |total items - z| < 1) (hz : |z| + 1 < 2 ^ 53) :
    quantizeValues items z = Toron.quantizeValues items z := by
  obtain ⟨h0, hn⟩ := remainder_near hs items h hnear
  have hW := sign_wholes hs items h
  have hz' : s * z ≤ |z| := by
    rcases hs with rfl | rfl
    · rw [one_mul]; exact le_abs_self z
    · rw [neg_one_mul]; exact neg_le_abs z
  have hle : s * wholes items ≤ |z| := by rw [mul_sub] at h0; omega
  have hsum : (items.map mkQItem).foldl (fun acc x => fl (acc + (x.whole : ℚ))) 0 =
      ((items.map mkQItem).map fun x => (x.whole : ℚ)).sum := by
    have := fold_wholes hs (b := |z|) (by omega) items h 0 (by simp) (by simpa using hle)
    rw [sum_wholes]
    simpa using this
  have hrem : (z : ℚ) - ((items.map mkQItem).map fun x => (x.whole : ℚ)).sum = ((z - wholes items : ℤ) : ℚ) := by
    rw [sum_wholes]; push_cast; ring
  have hflrem : fl ((z : ℚ) - ((items.map mkQItem).map fun x => (x.whole : ℚ)).sum) =
      (z : ℚ) - ((items.map mkQItem).map fun x => (x.whole : ℚ)).sum := by
    rw [hrem]
    apply fl_int
    rw [abs_lt]
    rw [mul_sub] at h0
    rcases hs with rfl | rfl <;> constructor <;> omega
  have hone : ∀ x ∈ items.map mkQItem, fl ((x.whole : ℚ) + increment (z : ℚ)) = (x.whole : ℚ) + increment (z : ℚ) := by
    intro x hx
    obtain ⟨it, hit, rfl⟩ := List.mem_map.1 hx
    obtain ⟨zi, hzi, hzi1⟩ := increment_int (z : ℚ)
    have hmem : s * wholePart it.2 ≤ s * wholes items := by
      clear hsum hrem hflrem h0 hn hnear hle hx
      unfold wholes
      induction items with
      | nil => simp at hit
      | cons a items ih =>
        rw [List.map_cons, List.sum_cons, mul_add]
        have ha := sign_whole hs (h a (by simp))
        have hr := sign_wholes hs items fun x hx => h x (by simp [hx])
        unfold wholes at hr
        rcases List.mem_cons.1 hit with rfl | hit
        · omega
        · have := ih (fun x hx => h x (by simp [hx])) hr hit
          omega
    have hnn := sign_whole hs (h it hit)
    rw [hzi]
    have : |wholePart it.2 + zi| < 2 ^ 53 := by
      refine lt_of_le_of_lt (abs_add_le _ _) ?_
      rw [hzi1]
      have : |wholePart it.2| = s * wholePart it.2 := by
        rcases hs with rfl | rfl
        · rw [abs_of_nonneg (by omega), one_mul]
        · rw [abs_of_nonpos (by omega)]; ring
      omega
    have := fl_int this
    push_cast at this
    exact this
  unfold quantizeValues Toron.quantizeValues
  dsimp only
  rw [hsum, hflrem, hrem, fracPart_int, if_neg (by simp), if_neg (by simp)]
  refine congrArg (fun l => Except.ok (l ++ _)) (List.map_congr_left fun x hx => ?_)
  rw [hone x ((sortedBy_perm _ _).mem_iff.1 (List.mem_of_mem_take hx))]

theorem whole_le_wholes {s : ℤ} (hs : s = 1 ∨ s = -1) (items : List (Nat × ℚ))
    (h : ∀ it ∈ items, 0 ≤ (s : ℚ) * it.2) {it : Nat × ℚ} (hit : it ∈ items) :
    s * wholePart it.2 ≤ s * wholes items := by
  unfold wholes
  induction items with
  | nil => simp at hit
  | cons a items ih =>
    rw [List.map_cons, List.sum_cons, mul_add]
    have ha := sign_whole hs (h a (by simp))
    have hr := sign_wholes hs items fun x hx => h x (by simp [hx])
    unfold wholes at hr
    rcases List.mem_cons.1 hit with rfl | hit
    · omega
    · have := ih (fun x hx => h x (by simp [hx])) hit
      omega

/-- Any total: if the rounding does not fail, the total is kept up to rounding errors. -/
theorem quantize_any {s : ℤ} (hs : s = 1 ∨ s = -1) (items : List (Nat × ℚ)) (h : ∀ it ∈ items, 0 ≤ (s : ℚ) * it.2)
    {v : ℚ} (hv : 0 ≤ (s : ℚ) * v) (hnear : |total items - v| ≤ 1 / 2) (hbig : |v| + 2 < 2 ^ 52)
    (hlen : items.length < 2 ^ 52)
    {out : List (Nat × ℚ)} (hq : quantizeValues items v = .ok out) : |total out - v| ≤ (|v| + 1) / 2 ^ 52 := by
  have hs' : (s : ℚ) = 1 ∨ (s : ℚ) = -1 := by
    rcases hs with rfl | rfl
    · exact .inl (by norm_num)
    · exact .inr (by norm_num)
  have hsv : (s : ℚ) * v = |v| := by
    rcases hs' with h4 | h4 <;> rw [h4] at hv ⊢
    · rw [one_mul] at hv ⊢; exact (abs_of_nonneg hv).symm
    · rw [neg_one_mul] at hv ⊢; rw [abs_of_nonpos (by linarith)]
  have hW := sign_wholes hs items h
  have hWq : (0 : ℚ) ≤ s * wholes items := by exact_mod_cast hW
  have hfs := sum_fracs hs items h
  have hlt1 : ∀ x ∈ items.map mkQItem, |x.frac| < 1 := by
    intro x hx
    obtain ⟨it, _, rfl⟩ := List.mem_map.1 hx
    exact fracPart_lt_one _
  have hcount := (sum_abs_le_count _ hlt1).1
  have hcl : (fracCount (items.map mkQItem) : ℚ) ≤ items.length := by
    have : fracCount (items.map mkQItem) ≤ (items.map mkQItem).length := List.countP_le_length
    rw [List.length_map] at this
    exact_mod_cast this
  have hnn : 0 ≤ ((items.map mkQItem).map fun x => |x.frac|).sum := by
    apply List.sum_nonneg
    intro x hx
    obtain ⟨y, _, rfl⟩ := List.mem_map.1 hx
    exact abs_nonneg _
  have hst : |(s : ℚ) * (v - total items)| ≤ 1 / 2 := by
    rw [abs_mul, abs_sub_comm]
    have : |(s : ℚ)| = 1 := by rcases hs' with h4 | h4 <;> rw [h4] <;> norm_num
    rw [this, one_mul]
    exact hnear
  rw [abs_le] at hst
  set D := v - (wholes items : ℚ) with hD
  have hsD : (s : ℚ) * D = ((items.map mkQItem).map fun x => |x.frac|).sum + s * (v - total items) := by
    rw [hfs, hD]; ring
  have hD1 : -(1 / 2) ≤ (s : ℚ) * D := by linarith
  have hD2 : (s : ℚ) * D ≤ items.length + 1 / 2 := by linarith
  have hD3 : (s : ℚ) * D ≤ |v| := by
    have : (s : ℚ) * D = s * v - s * wholes items := by rw [hD]; ring
    linarith
  have hWle : (s : ℚ) * wholes items ≤ |v| + 1 / 2 := by
    have : (s : ℚ) * D = s * v - s * wholes items := by rw [hD]; ring
    linarith
  have hDabs : |D| ≤ |v| + 1 / 2 := by
    have : |D| = |(s : ℚ) * D| := by
      rw [abs_mul]
      rcases hs' with h4 | h4 <;> rw [h4] <;> norm_num
    rw [this, abs_le]
    have := abs_nonneg v
    constructor <;> linarith
  have hDabs' : |D| ≤ items.length + 1 / 2 := by
    have : |D| = |(s : ℚ) * D| := by
      rw [abs_mul]
      rcases hs' with h4 | h4 <;> rw [h4] <;> norm_num
    rw [this, abs_le]
    have : (0 : ℚ) ≤ items.length := Nat.cast_nonneg _
    constructor <;> linarith
  -- the sum of the whole parts is exact
  have hWint : s * wholes items < 2 ^ 53 := by
    have : ((s * wholes items : ℤ) : ℚ) < 2 ^ 53 := by push_cast; linarith
    exact_mod_cast this
  have hsum : (items.map mkQItem).foldl (fun acc x => fl (acc + (x.whole : ℚ))) 0 = (wholes items : ℚ) := by
    have := fold_wholes hs hWint items h 0 (by simp) (by simp)
    simpa using this
  -- the remainder
  have herr := fl_error D
  set R := fl D with hR
  have hu : u = 1 / 2 ^ 53 := rfl
  have hlenq : (items.length : ℚ) < 2 ^ 52 := by exact_mod_cast hlen
  have herr2 : |R - D| < 1 / 2 := by
    refine lt_of_le_of_lt herr ?_
    rw [hu]
    have : |D| < 2 ^ 52 + 1 / 2 := by linarith
    linarith
  have hsR : -1 < (s : ℚ) * R ∧ (s : ℚ) * R < items.length + 1 := by
    rw [abs_lt] at herr2
    rcases hs' with h4 | h4 <;> rw [h4] at hD1 hD2 ⊢ <;> constructor <;> linarith
  have hk : 0 ≤ s * wholePart R ∧ (s : ℚ) * wholePart R ≤ max ((s : ℚ) * R) 0 := by
    rcases le_or_gt 0 ((s : ℚ) * R) with h0 | h0
    · refine ⟨sign_whole hs h0, ?_⟩
      rw [max_eq_left h0]
      have h5 := abs_frac hs' h0
      have h6 := whole_add_frac R
      have h7 := abs_nonneg (fracPart R)
      rw [h5] at h7
      have : (s : ℚ) * R = s * wholePart R + s * fracPart R := by rw [← mul_add, h6]
      linarith
    · have hz : wholePart R = 0 := by
        unfold wholePart
        rcases hs' with h4 | h4 <;> rw [h4] at h0 hsR
        · rw [if_neg (by linarith), Int.ceil_eq_iff]
          norm_num
          constructor <;> linarith
        · rw [if_pos (by linarith), Int.floor_eq_iff]
          norm_num
          constructor <;> linarith
      rw [hz]
      simp
  have hkn : ((wholePart R).natAbs : ℤ) = s * wholePart R := by
    have := hk.1
    rcases hs with rfl | rfl <;> omega
  have hnle : (wholePart R).natAbs ≤ items.length := by
    have h1 : (((wholePart R).natAbs : ℤ) : ℚ) < items.length + 1 := by
      rw [hkn]
      push_cast
      refine lt_of_le_of_lt hk.2 (max_lt hsR.2 ?_)
      have : (0 : ℚ) ≤ items.length := Nat.cast_nonneg _
      linarith
    have : ((wholePart R).natAbs : ℤ) < (items.length : ℤ) + 1 := by exact_mod_cast h1
    omega
  have hinc : (wholePart R).natAbs ≠ 0 → increment v = s := by
    intro hne
    unfold increment
    rcases hs with rfl | rfl
    · rw [if_neg]
      · norm_num
      · push_cast at hv
        linarith
    · rw [if_pos]
      · norm_num
      · by_contra hv0
        have hv1 : v = 0 := by push_cast at hv; linarith
        have h1 : ((-1 : ℤ) : ℚ) * D ≤ 0 := by
          have := hD3
          rw [hv1, abs_zero] at this
          exact this
        obtain ⟨t, ht, hteq⟩ := (near_fl D).pos
        have h2 : ((-1 : ℤ) : ℚ) * R ≤ 0 := by
          rw [hR, hteq, show ((-1 : ℤ) : ℚ) * (t * D) = t * (((-1 : ℤ) : ℚ) * D) by ring]
          exact mul_nonpos_of_nonneg_of_nonpos ht.le h1
        have h3 := hk.2
        rw [max_eq_right h2] at h3
        have h4 : (-1 : ℤ) * wholePart R ≤ 0 := by exact_mod_cast h3
        have h5 := hk.1
        apply hne
        omega
  have hsign : (((wholePart R).natAbs : ℕ) : ℚ) * increment v = ((wholePart R : ℤ) : ℚ) := by
    by_cases hne : (wholePart R).natAbs = 0
    · have : wholePart R = 0 := Int.natAbs_eq_zero.1 hne
      rw [this]; simp
    · rw [hinc hne]
      have : (((wholePart R).natAbs : ℤ)) * s = wholePart R := by
        rcases hs with rfl | rfl <;> omega
      have h' := congrArg (Int.cast : ℤ → ℚ) this
      rw [Int.cast_mul, Int.cast_natCast] at h'
      exact h'
  have hperm := sortedBy_perm qKeyLe (items.map mkQItem)
  have hwhole : ∀ x ∈ sortedBy qKeyLe (items.map mkQItem), |(x.whole : ℚ)| ≤ |v| + 1 / 2 := by
    intro x hx
    obtain ⟨it, hit, rfl⟩ := List.mem_map.1 (hperm.mem_iff.1 hx)
    have h1 := whole_le_wholes hs items h hit
    have h2 := sign_whole hs (h it hit)
    have h1' : (s : ℚ) * wholePart it.2 ≤ s * wholes items := by exact_mod_cast h1
    have h2' : (0 : ℚ) ≤ s * wholePart it.2 := by exact_mod_cast h2
    change |((wholePart it.2 : ℤ) : ℚ)| ≤ _
    have : |((wholePart it.2 : ℤ) : ℚ)| = |(s : ℚ) * wholePart it.2| := by
      rw [abs_mul]
      rcases hs' with h4 | h4 <;> rw [h4] <;> norm_num
    rw [this, abs_of_nonneg h2']
    linarith
  have hone : ∀ x ∈ sortedBy qKeyLe (items.map mkQItem), fl ((x.whole : ℚ) + increment v) = (x.whole : ℚ) + increment v := by
    intro x hx
    obtain ⟨zi, hzi, hzi1⟩ := increment_int v
    rw [hzi]
    have h1 : |x.whole + zi| < 2 ^ 53 := by
      have h2 : (|((x.whole + zi : ℤ) : ℚ)|) < 2 ^ 53 := by
        push_cast
        refine lt_of_le_of_lt (abs_add_le _ _) ?_
        have h3 : |(zi : ℚ)| = 1 := by exact_mod_cast hzi1
        have := hwhole x hx
        rw [h3]
        linarith
      exact_mod_cast h2
    have := fl_int h1
    push_cast at this
    exact this
  have hfirst : (((sortedBy qKeyLe (items.map mkQItem)).take (wholePart R).natAbs).map
      fun x => (x.id, fl ((x.whole : ℚ) + increment v))) =
      (((sortedBy qKeyLe (items.map mkQItem)).take (wholePart R).natAbs).map
      fun x => (x.id, (x.whole : ℚ) + increment v)) :=
    List.map_congr_left fun x hx => by rw [hone x (List.mem_of_mem_take hx)]
  have hlen' : (sortedBy qKeyLe (items.map mkQItem)).length = items.length := by
    rw [hperm.length_eq, List.length_map]
  have hsumS : ((sortedBy qKeyLe (items.map mkQItem)).map fun x => (x.whole : ℚ)).sum = wholes items := by
    rw [(hperm.map _).sum_eq, sum_wholes]
  have hsplit : (((sortedBy qKeyLe (items.map mkQItem)).take (wholePart R).natAbs).map fun x => (x.whole : ℚ)).sum
      + (((sortedBy qKeyLe (items.map mkQItem)).drop (wholePart R).natAbs).map fun x => (x.whole : ℚ)).sum =
        wholes items := by
    rw [← hsumS, ← List.sum_append, ← List.map_append, List.take_append_drop]
  have htake : ((sortedBy qKeyLe (items.map mkQItem)).take (wholePart R).natAbs).length = (wholePart R).natAbs := by
    rw [List.length_take, hlen']; omega
  have htf : total (((sortedBy qKeyLe (items.map mkQItem)).take (wholePart R).natAbs).map
      fun x => (x.id, (x.whole : ℚ) + increment v)) =
      (((sortedBy qKeyLe (items.map mkQItem)).take (wholePart R).natAbs).map fun x => (x.whole : ℚ)).sum +
        (wholePart R : ℚ) := by
    rw [← hsign]
    unfold total
    rw [List.map_map]
    change (((sortedBy qKeyLe (items.map mkQItem)).take (wholePart R).natAbs).map
      fun x => (x.whole : ℚ) + increment v).sum = _
    rw [sum_map_add, sum_map_const, htake]
  have happ : ∀ a b : List (Nat × ℚ), total (a ++ b) = total a + total b := by
    intro a b; simp [total]
  have hrest : ∀ l : List QItem, total (l.map fun x => (x.id, (x.whole : ℚ))) = (l.map fun x => (x.whole : ℚ)).sum := by
    intro l; simp only [total, List.map_map]; rfl
  have hRw := whole_add_frac R
  have hvabs := abs_nonneg v
  have hDe : |R - D| ≤ (|v| + 1 / 2) / 2 ^ 53 := by
    refine herr.trans ?_
    rw [hu]
    linarith
  unfold quantizeValues at hq
  dsimp only at hq
  rw [hsum, ← hD, ← hR, hfirst] at hq
  by_cases hf : fracPart R = 0
  · rw [if_neg (by simpa using hf)] at hq
    injection hq with hq
    rw [← hq, happ, htf, hrest]
    have : (((sortedBy qKeyLe (items.map mkQItem)).take (wholePart R).natAbs).map fun x => (x.whole : ℚ)).sum +
        (wholePart R : ℚ) +
        (((sortedBy qKeyLe (items.map mkQItem)).drop (wholePart R).natAbs).map fun x => (x.whole : ℚ)).sum - v = R - D := by
      rw [hD]; linarith
    rw [this]
    refine hDe.trans ?_
    linarith
  · rw [if_pos hf] at hq
    cases hd : (sortedBy qKeyLe (items.map mkQItem)).drop (wholePart R).natAbs with
    | nil => rw [hd] at hq; cases hq
    | cons x xs =>
      rw [hd] at hq hsplit
      injection hq with hq
      have hcons : ∀ (p : Nat × ℚ) (l : List (Nat × ℚ)), total (p :: l) = p.2 + total l := by
        intro p l; simp [total]
      rw [← hq, happ, htf, hcons, hrest]
      rw [List.map_cons, List.sum_cons] at hsplit
      have hx : x ∈ sortedBy qKeyLe (items.map mkQItem) := List.mem_of_mem_drop (by rw [hd]; exact List.mem_cons_self)
      have hwx := hwhole x hx
      have hfx := fracPart_lt_one R
      have hfe := fl_error ((x.whole : ℚ) + fracPart R)
      have h8 : |(x.whole : ℚ) + fracPart R| ≤ |v| + 3 / 2 := (abs_add_le _ _).trans (by linarith)
      have h9 : |fl ((x.whole : ℚ) + fracPart R) - ((x.whole : ℚ) + fracPart R)| ≤ (|v| + 3 / 2) / 2 ^ 53 := by
        refine hfe.trans ?_
        rw [hu]
        linarith
      dsimp only
      have : (((sortedBy qKeyLe (items.map mkQItem)).take (wholePart R).natAbs).map fun x => (x.whole : ℚ)).sum +
          (wholePart R : ℚ) + (fl ((x.whole : ℚ) + fracPart R) + (xs.map fun x => (x.whole : ℚ)).sum) - v =
          (fl ((x.whole : ℚ) + fracPart R) - ((x.whole : ℚ) + fracPart R)) + (R - D) := by
        rw [hD]; linarith
      rw [this]
      refine (abs_add_le _ _).trans ?_
      linarith

end Toron.Binary
