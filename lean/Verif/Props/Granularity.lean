/-
C48: granularity.
-/
import Verif.Model.Granularity
import Verif.Spec.Granularity
import Verif.Lemmas.Distinct
import Verif.Model.Store.Service
import Mathlib.Algebra.BigOperators.Group.Finset.Basic
import Mathlib.Algebra.Order.BigOperators.Group.List

namespace Toron

open Toron.Spec

section
variable {α : Type} [DecidableEq α]

/-! ### The two implementations -/

theorem groupInsert_map (l : List α) (f : α → Nat) (x : α) (hl : l.Nodup) :
    groupInsert x (l.map fun y => (y, f y)) =
      if x ∈ l then l.map fun y => (y, if y = x then f y + 1 else f y)
      else (l.map fun y => (y, f y)) ++ [(x, 1)] := by
  induction l with
  | nil => rfl
  | cons y ys ih =>
    rw [List.nodup_cons] at hl
    rw [List.map_cons, groupInsert]
    by_cases h : x = y
    · subst h
      rw [if_pos rfl, if_pos (by simp), List.map_cons, if_pos rfl]
      congr 1
      apply List.map_congr_left
      intro z hz
      have : z ≠ x := by
        rintro rfl
        exact hl.1 hz
      rw [if_neg this]
    · rw [if_neg h, ih hl.2]
      have hyx : ¬ y = x := fun h' => h h'.symm
      by_cases hx : x ∈ ys
      · rw [if_pos hx, if_pos (by simp [hx]), List.map_cons, if_neg hyx]
      · rw [if_neg hx, if_neg (by simp [hx, h])]
        rfl

theorem distinct_snoc (l : List α) (x : α) :
    distinct (l ++ [x]) = if x ∈ l then distinct l else distinct l ++ [x] := by
  induction l with
  | nil => rfl
  | cons y ys ih =>
    rw [List.cons_append, distinct, ih, distinct]
    by_cases h : x = y
    · subst h
      rw [if_pos (by simp : x ∈ x :: ys)]
      split
      · rfl
      · simp
    · by_cases hx : x ∈ ys
      · rw [if_pos hx, if_pos (by simp [hx])]
      · rw [if_neg hx, if_neg (by simp [hx, h]), List.filter_append]
        simp [h]

theorem groups_eq (l : List α) :
    l.foldl (fun acc x => groupInsert x acc) [] = (distinct l).map fun y => (y, l.count y) := by
  induction l using List.reverseRecOn with
  | nil => rfl
  | append_singleton l x ih =>
    rw [List.foldl_append, List.foldl_cons, List.foldl_nil, ih,
      groupInsert_map _ _ _ (nodup_distinct _), distinct_snoc]
    by_cases hx : x ∈ l
    · rw [if_pos (mem_distinct.2 hx), if_pos hx]
      apply List.map_congr_left
      intro y _
      rw [List.count_append]
      by_cases h : y = x
      · subst h
        simp
      · have : ¬ x = y := fun h' => h h'.symm
        simp [h, this]
    · rw [if_neg (fun h => hx (mem_distinct.1 h)), if_neg hx, List.map_append]
      congr 1
      · apply List.map_congr_left
        intro y hy
        have : ¬ x = y := by
          rintro rfl
          exact hx (mem_distinct.1 hy)
        simp [List.count_append, this]
      · simp [List.count_append, List.count_eq_zero.2 hx]

theorem blockSizes_eq (l : List α) : blockSizes l = (distinct l).map fun y => l.count y := by
  unfold blockSizes
  apply List.map_congr_left
  intro y _
  rw [List.count, List.countP_eq_length_filter]
  congr 2

/-- Both implementations compute the same. -/
theorem C48_same (columnsEmpty : Bool) (labels : List α) :
    calculateGranularitySql columnsEmpty labels = calculateGranularity columnsEmpty labels := by
  unfold calculateGranularitySql calculateGranularity groupByCounts
  rw [groups_eq, blockSizes_eq, List.map_map]
  simp only [Function.comp_def, List.map_map]

/-! ### The number -/

/-- The real number a pair stands for (`log2 n - log2 k / n`). -/
noncomputable def Gran.value (g : Gran) : ℝ := Real.logb 2 g.n - Real.logb 2 g.k / g.n

theorem foldl_mul_eq_prod (l : List Nat) (a : Nat) : l.foldl (· * ·) a = a * l.prod := by
  induction l generalizing a with
  | nil => simp
  | cons x xs ih => rw [List.foldl_cons, ih, List.prod_cons, Nat.mul_assoc]

theorem toFinset_distinct (l : List α) : (distinct l).toFinset = l.toFinset := by
  ext x
  simp [mem_distinct]

theorem blockProd_eq (l : List α) :
    ((blockSizes l).map fun c => c ^ c).foldl (· * ·) 1 = ∏ x ∈ l.toFinset, l.count x ^ l.count x := by
  rw [foldl_mul_eq_prod, one_mul, blockSizes_eq, List.map_map, ← toFinset_distinct,
    List.prod_toFinset _ (nodup_distinct _)]
  rfl

theorem count_pos_of_mem {l : List α} {x : α} (h : x ∈ l.toFinset) : 0 < l.count x :=
  List.count_pos_iff.2 (List.mem_toFinset.1 h)

/-- `log2 Π c^c` is the sum over the records of the logarithm of the size of their block. -/
theorem logb_blockProd (l : List α) :
    Real.logb 2 ((∏ x ∈ l.toFinset, l.count x ^ l.count x : ℕ) : ℝ) =
      (l.map fun x => Real.logb 2 (l.count x)).sum := by
  rw [Finset.sum_list_map_count]
  push_cast
  rw [Real.logb_prod]
  · apply Finset.sum_congr rfl
    intro x _
    rw [Real.logb_pow, nsmul_eq_mul]
  · intro x hx
    have := count_pos_of_mem hx
    positivity

theorem granularity_eq (l : List α) (hl : l ≠ []) :
    granularity l = Real.logb 2 l.length - (l.map fun x => Real.logb 2 (l.count x)).sum / l.length := by
  have hN : (0 : ℝ) < l.length := by
    have := List.length_pos_iff.2 hl
    exact_mod_cast this
  unfold granularity
  have h1 : ∑ x ∈ l.toFinset, ((l.count x : ℝ) / l.length) * Real.logb 2 (l.length / l.count x) =
      ∑ x ∈ l.toFinset, (((l.count x : ℝ) / l.length) * Real.logb 2 l.length -
        (l.count x : ℝ) * Real.logb 2 (l.count x) / l.length) := by
    apply Finset.sum_congr rfl
    intro x hx
    have hc : (0 : ℝ) < l.count x := by exact_mod_cast count_pos_of_mem hx
    rw [Real.logb_div hN.ne' hc.ne']
    ring
  rw [h1, Finset.sum_sub_distrib, ← Finset.sum_mul, ← Finset.sum_div, ← Finset.sum_div]
  have h2 : ∑ x ∈ l.toFinset, (l.count x : ℝ) = l.length := by
    have := Finset.sum_list_map_count l (fun _ => (1 : ℝ))
    simp only [List.map_const', List.sum_replicate, nsmul_eq_mul, mul_one] at this
    exact this.symm
  have h3 : (l.map fun x => Real.logb 2 (l.count x)).sum =
      ∑ x ∈ l.toFinset, (l.count x : ℝ) * Real.logb 2 (l.count x) := by
    rw [Finset.sum_list_map_count]
    simp only [nsmul_eq_mul]
  rw [h2, h3, div_self hN.ne', one_mul]

/-- There is a number exactly if there are columns and records; it is the granularity of the partition. -/
theorem C48_value (columnsEmpty : Bool) (labels : List α) :
    (calculateGranularity columnsEmpty labels).map Gran.value =
      if columnsEmpty = true ∨ labels = [] then none else some (granularity labels) := by
  unfold calculateGranularity
  by_cases hc : columnsEmpty = true
  · simp [hc]
  by_cases hl : labels = []
  · simp [hl, hc]
  rw [if_neg hc, if_neg (by simpa using hl), if_neg (by simp [hc, hl]), Option.map_some, Option.some_inj,
    Gran.value]
  rw [blockProd_eq, logb_blockProd, granularity_eq _ hl]

omit [DecidableEq α] in
theorem sum_eq_zero_iff_of_nonneg {l : List α} {f : α → ℝ} (h : ∀ x ∈ l, 0 ≤ f x) :
    (l.map f).sum = 0 ↔ ∀ x ∈ l, f x = 0 := by
  induction l with
  | nil => simp
  | cons x xs ih =>
    have hxs : 0 ≤ (xs.map f).sum := List.sum_nonneg (by
      intro y hy
      obtain ⟨z, hz, rfl⟩ := List.mem_map.1 hy
      exact h z (by simp [hz]))
    have hx := h x (by simp)
    rw [List.map_cons, List.sum_cons, List.forall_mem_cons, ← ih fun y hy => h y (by simp [hy])]
    constructor
    · intro he
      constructor <;> linarith
    · rintro ⟨a, b⟩
      rw [a, b, add_zero]

theorem granularity_mul (l : List α) (hl : l ≠ []) :
    (l.length : ℝ) * granularity l = (l.map fun x => Real.logb 2 (l.length) - Real.logb 2 (l.count x)).sum := by
  have hN : (0 : ℝ) < l.length := by
    have := List.length_pos_iff.2 hl
    exact_mod_cast this
  rw [granularity_eq l hl, mul_sub, mul_div_cancel₀ _ hN.ne']
  have h : ∀ m : List α, (m.length : ℝ) * Real.logb 2 l.length - (m.map fun x => Real.logb 2 (l.count x)).sum =
      (m.map fun x => Real.logb 2 (l.length) - Real.logb 2 (l.count x)).sum := by
    intro m
    induction m with
    | nil => simp
    | cons x xs ih =>
      simp only [List.map_cons, List.sum_cons, List.length_cons, ← ih]
      push_cast
      ring
  exact h l

theorem logb_count_nonneg {l : List α} {x : α} (hx : x ∈ l) : 0 ≤ Real.logb 2 (l.count x) := by
  have : 1 ≤ l.count x := List.count_pos_iff.2 hx
  exact Real.logb_nonneg (by norm_num) (by exact_mod_cast this)

theorem logb_count_le {l : List α} {x : α} (hx : x ∈ l) :
    Real.logb 2 (l.count x) ≤ Real.logb 2 l.length := by
  have h1 : 0 < l.count x := List.count_pos_iff.2 hx
  exact Real.logb_le_logb_of_le (by norm_num) (by exact_mod_cast h1) (by exact_mod_cast List.count_le_length)

/-- It is not negative. -/
theorem C48_nonneg (labels : List α) : 0 ≤ granularity labels := by
  by_cases hl : labels = []
  · subst hl
    simp [granularity]
  have hN : (0 : ℝ) < labels.length := by
    have := List.length_pos_iff.2 hl
    exact_mod_cast this
  have : 0 ≤ (labels.length : ℝ) * granularity labels := by
    rw [granularity_mul _ hl]
    apply List.sum_nonneg
    intro y hy
    obtain ⟨x, hx, rfl⟩ := List.mem_map.1 hy
    exact sub_nonneg.2 (logb_count_le hx)
  exact nonneg_of_mul_nonneg_right this hN

/-- It is at most `log2 N`. -/
theorem C48_le_log (labels : List α) (hl : labels ≠ []) : granularity labels ≤ Real.logb 2 labels.length := by
  rw [granularity_eq _ hl]
  have : 0 ≤ (labels.map fun x => Real.logb 2 (labels.count x)).sum / (labels.length : ℝ) := by
    apply div_nonneg
    · apply List.sum_nonneg
      intro y hy
      obtain ⟨x, hx, rfl⟩ := List.mem_map.1 hy
      exact logb_count_nonneg hx
    · positivity
  linarith

/-- It is `log2 N` exactly if no two records share their labels. -/
theorem C48_maximal_iff (labels : List α) (hl : labels ≠ []) :
    granularity labels = Real.logb 2 labels.length ↔ labels.Nodup := by
  have hN : (0 : ℝ) < labels.length := by
    have := List.length_pos_iff.2 hl
    exact_mod_cast this
  have key : granularity labels = Real.logb 2 labels.length ↔
      (labels.map fun x => Real.logb 2 (labels.count x)).sum = 0 := by
    rw [granularity_eq _ hl]
    constructor
    · intro h
      have h' : (labels.map fun x => Real.logb 2 (labels.count x)).sum / (labels.length : ℝ) = 0 := by linarith
      rcases div_eq_zero_iff.1 h' with h' | h'
      · exact h'
      · exact absurd h' hN.ne'
    · intro h
      rw [h]
      simp
  rw [key, sum_eq_zero_iff_of_nonneg fun x hx => logb_count_nonneg hx, List.nodup_iff_count_le_one]
  constructor
  · intro h x
    by_cases hx : x ∈ labels
    · have hc : 0 < labels.count x := List.count_pos_iff.2 hx
      by_contra hgt
      have : 0 < Real.logb 2 (labels.count x) := by
        apply Real.logb_pos (by norm_num)
        have : 1 < labels.count x := by omega
        exact_mod_cast this
      rw [h x hx] at this
      exact lt_irrefl _ this
    · rw [List.count_eq_zero.2 hx]
      exact Nat.zero_le _
  · intro h x hx
    have hc : 0 < labels.count x := List.count_pos_iff.2 hx
    have : labels.count x = 1 := by
      have := h x
      omega
    rw [this]
    simp

/-- It is 0 exactly if all records share their labels. -/
theorem C48_zero_iff (labels : List α) :
    granularity labels = 0 ↔ ∀ x ∈ labels, ∀ y ∈ labels, x = y := by
  by_cases hl : labels = []
  · subst hl
    simp [granularity]
  have hN : (0 : ℝ) < labels.length := by
    have := List.length_pos_iff.2 hl
    exact_mod_cast this
  have key : granularity labels = 0 ↔
      (labels.map fun x => Real.logb 2 (labels.length) - Real.logb 2 (labels.count x)).sum = 0 := by
    rw [← granularity_mul _ hl]
    constructor
    · intro h
      rw [h, mul_zero]
    · intro h
      rcases mul_eq_zero.1 h with h | h
      · exact absurd h hN.ne'
      · exact h
  rw [key, sum_eq_zero_iff_of_nonneg fun x hx => sub_nonneg.2 (logb_count_le hx)]
  constructor
  · intro h x hx y hy
    have h1 := h x hx
    have hc : 0 < labels.count x := List.count_pos_iff.2 hx
    have hinj : (labels.length : ℝ) = labels.count x := by
      apply Real.logb_injOn_pos (b := 2) (by norm_num) hN (by exact_mod_cast hc : (0 : ℝ) < labels.count x)
      linarith
    have : labels.count x = labels.length := by exact_mod_cast hinj.symm
    exact (List.count_eq_length.1 this y hy)
  · intro h x hx
    have : labels.count x = labels.length := List.count_eq_length.2 fun y hy => h x hx y hy
    rw [this, sub_self]

/-- Making labels coarser (labels that are functions of the others) never increases it. -/
theorem C48_coarser_le {β : Type} [DecidableEq β] (labels : List α) (f : α → β) :
    granularity (labels.map f) ≤ granularity labels := by
  by_cases hl : labels = []
  · subst hl
    simp [granularity]
  have hN : (0 : ℝ) < labels.length := by
    have := List.length_pos_iff.2 hl
    exact_mod_cast this
  rw [granularity_eq _ hl, granularity_eq _ (by simpa using hl), List.length_map, List.map_map]
  have : (labels.map fun x => Real.logb 2 (labels.count x)).sum ≤
      (labels.map ((fun x => Real.logb 2 ((labels.map f).count x)) ∘ f)).sum := by
    apply List.sum_le_sum
    intro x hx
    apply Real.logb_le_logb_of_le (by norm_num)
    · exact_mod_cast List.count_pos_iff.2 hx
    · exact_mod_cast List.count_le_count_map
  have := div_le_div_of_nonneg_right this hN.le
  linarith

/-! ### Comparing -/

/-- The comparison of pairs compares the numbers. -/
theorem C48_compare (a b : Gran) (ha : 0 < a.n) (hb : 0 < b.n) (hka : 0 < a.k) (hkb : 0 < b.k) :
    a.le b = true ↔ a.value ≤ b.value := by
  have ha' : (0 : ℝ) < a.n := by exact_mod_cast ha
  have hb' : (0 : ℝ) < b.n := by exact_mod_cast hb
  have hka' : (0 : ℝ) < a.k := by exact_mod_cast hka
  have hkb' : (0 : ℝ) < b.k := by exact_mod_cast hkb
  unfold Gran.le Gran.value
  rw [decide_eq_true_iff]
  have e1 : (a.n ^ (a.n * b.n) * b.k ^ a.n ≤ b.n ^ (a.n * b.n) * a.k ^ b.n) ↔
      ((a.n : ℝ) ^ (a.n * b.n) * (b.k : ℝ) ^ a.n ≤ (b.n : ℝ) ^ (a.n * b.n) * (a.k : ℝ) ^ b.n) := by
    exact_mod_cast Iff.rfl
  rw [e1, ← Real.logb_le_logb (b := 2) (by norm_num) (by positivity) (by positivity),
    Real.logb_mul (by positivity) (by positivity), Real.logb_mul (by positivity) (by positivity),
    Real.logb_pow, Real.logb_pow, Real.logb_pow, Real.logb_pow]
  push_cast
  have hab : (0 : ℝ) < a.n * b.n := mul_pos ha' hb'
  rw [← mul_le_mul_iff_right₀ hab (b := Real.logb 2 a.n - Real.logb 2 a.k / a.n)]
  have h1 : (a.n * b.n : ℝ) * (Real.logb 2 a.n - Real.logb 2 a.k / a.n) =
      a.n * b.n * Real.logb 2 a.n - b.n * Real.logb 2 a.k := by
    field_simp
  have h2 : (a.n * b.n : ℝ) * (Real.logb 2 b.n - Real.logb 2 b.k / b.n) =
      a.n * b.n * Real.logb 2 b.n - a.n * Real.logb 2 b.k := by
    field_simp
  rw [h1, h2]
  constructor <;> intro h <;> linarith

end

namespace Space
open Toron.Selectors (PyStr)

/-- The labels in fewer columns are a function of the labels in more columns. -/
def narrow (cols : List PyStr) (d e : Finset PyStr) (xs : List PyStr) : List PyStr :=
  (((cols.filter fun c => c ∈ e).zip xs).filter fun cl => cl.1 ∈ d).map (·.2)

theorem narrow_eq (cols : List PyStr) (d e : Finset PyStr) (hde : d ⊆ e) (labels : List PyStr) :
    narrow cols d e (((cols.zip labels).filter fun cl => cl.1 ∈ e).map (·.2)) =
      ((cols.zip labels).filter fun cl => cl.1 ∈ d).map (·.2) := by
  unfold narrow
  induction cols generalizing labels with
  | nil => rfl
  | cons c cs ih =>
    cases labels with
    | nil => simp
    | cons x xs =>
      by_cases he : c ∈ e
      · simp only [List.filter_cons, List.zip_cons_cons, he, decide_true, if_true, List.map_cons]
        by_cases hd : c ∈ d
        · simp only [hd, decide_true, if_true, List.map_cons]
          rw [ih]
        · simp only [hd, decide_false, Bool.false_eq_true, if_false]
          rw [ih]
      · have hd : c ∉ d := fun h => he (hde h)
        simp only [List.filter_cons, List.zip_cons_cons, he, hd, decide_false, Bool.false_eq_true, if_false]
        rw [ih]

/-- Adding label columns to a partition never decreases its granularity, as compared by the program. -/
theorem C48_more_columns (s : Store) (d e : Finset PyStr) (hde : d ⊆ e) :
    granGe (s.granPy e) (s.granPy d) = true := by
  have hlen : ∀ d, (s.projected d).length = (s.index.filter fun r => r.id != 0).length := by
    intro d
    unfold Store.projected
    rw [List.length_map]
  have hmap : (s.projected e).map (narrow s.cols d e) = s.projected d := by
    unfold Store.projected
    rw [List.map_map]
    apply List.map_congr_left
    intro r _
    exact narrow_eq _ _ _ hde _
  unfold Store.granPy calculateGranularity
  by_cases hd : d = ∅
  · simp only [hd, decide_true, if_true]
    cases (if decide (e = ∅) = true then none else _) <;> rfl
  · have he : e ≠ ∅ := by
      rintro rfl
      exact hd (Finset.subset_empty.1 hde)
    simp only [hd, he, decide_false, Bool.false_eq_true, if_false, hlen]
    by_cases h0 : (s.index.filter fun r => r.id != 0).length = 0
    · simp only [h0, if_true]
      rfl
    · simp only [h0, if_false]
      show Gran.le _ _ = true
      have hpos : 0 < (s.index.filter fun r => r.id != 0).length := Nat.pos_of_ne_zero h0
      have hk : ∀ d, 0 < (((blockSizes (s.projected d)).map fun c => c ^ c).foldl (· * ·) 1) := by
        intro d
        rw [blockProd_eq]
        apply Finset.prod_pos
        intro x hx
        exact Nat.pow_pos (count_pos_of_mem hx)
      rw [C48_compare _ _ hpos hpos (hk d) (hk e)]
      have hne : ∀ d, s.projected d ≠ [] := fun d h => by
        have := hlen d
        rw [h] at this
        simp at this
        omega
      have hv : ∀ d, Gran.value ⟨(s.index.filter fun r => r.id != 0).length,
          ((blockSizes (s.projected d)).map fun c => c ^ c).foldl (· * ·) 1⟩ = granularity (s.projected d) := by
        intro d
        rw [granularity_eq _ (hne d), Gran.value, blockProd_eq, logb_blockProd, hlen]
      rw [hv, hv, ← hmap]
      exact C48_coarser_le _ _

end Space

/-- Four records in blocks of two, one and one: 3/2 bits. -/
example : calculateGranularity false ["x", "x", "y", "z"] = some ⟨4, 4⟩ ∧
    Gran.value ⟨4, 4⟩ = 3 / 2 := by
  refine ⟨by decide +kernel, ?_⟩
  unfold Gran.value
  have : Real.logb 2 4 = 2 := by
    rw [show (4 : ℝ) = 2 ^ (2 : ℕ) by norm_num, Real.logb_pow]
    norm_num
  push_cast
  rw [this]
  norm_num

end Toron
