/-
C106: splitting a quantity with floating-point numbers.
-/
import Verif.Lemmas.BinaryQuantize

namespace Toron.Binary
open Toron.Spec

theorem sum_abs_same (value : ℚ) (parts : List (Nat × ℚ)) (h : ∀ p ∈ parts, ∃ a, 0 ≤ a ∧ p.2 = value * a) :
    (parts.map fun p => |p.2|).sum = |total parts| := by
  rcases le_total 0 value with hv | hv
  · have hp : ∀ p ∈ parts, 0 ≤ p.2 := by
      intro p hp
      obtain ⟨a, ha, he⟩ := h p hp
      rw [he]; exact mul_nonneg hv ha
    have : (parts.map fun p => |p.2|) = parts.map (·.2) :=
      List.map_congr_left fun p hpm => abs_of_nonneg (hp p hpm)
    rw [this]
    unfold total
    refine (abs_of_nonneg (List.sum_nonneg ?_)).symm
    intro x hx
    obtain ⟨p, hpm, rfl⟩ := List.mem_map.1 hx
    exact hp p hpm
  · have hp : ∀ p ∈ parts, p.2 ≤ 0 := by
      intro p hp
      obtain ⟨a, ha, he⟩ := h p hp
      rw [he]; exact mul_nonpos_of_nonpos_of_nonneg hv ha
    have hneg : (parts.map fun p => |p.2|).sum = -total parts := by
      unfold total
      induction parts with
      | nil => simp
      | cons p parts ih =>
        rw [List.map_cons, List.sum_cons, List.map_cons, List.sum_cons,
          ih (fun x hx => h x (by simp [hx])) (fun x hx => hp x (by simp [hx])), abs_of_nonpos (hp p (by simp))]
        ring
    have h0 : 0 ≤ (parts.map fun p => |p.2|).sum := by
      apply List.sum_nonneg
      intro x hx
      obtain ⟨p, _, rfl⟩ := List.mem_map.1 hx
      exact abs_nonneg _
    rw [hneg] at h0 ⊢
    rw [abs_of_nonpos (by linarith)]

theorem total_diff {ε : ℚ} {out parts : List (Nat × ℚ)}
    (h : List.Forall₂ (fun o p => o.1 = p.1 ∧ |o.2 - p.2| ≤ ε * |p.2|) out parts) :
    |total out - total parts| ≤ ε * (parts.map fun p => |p.2|).sum := by
  unfold total
  induction h with
  | nil => simp
  | @cons o p out parts h1 _ ih =>
    rw [List.map_cons, List.sum_cons, List.map_cons, List.sum_cons, List.map_cons, List.sum_cons, mul_add]
    have : o.2 + (out.map (·.2)).sum - (p.2 + (parts.map (·.2)).sum) =
        (o.2 - p.2) + ((out.map (·.2)).sum - (parts.map (·.2)).sum) := by ring
    rw [this]
    exact (abs_add_le _ _).trans (add_le_add h1.2 ih)

/-- C106, each part. With floating-point numbers a quantity is split among the same records as with exact numbers, or
fails with the same error, and each part differs from the exact one by no more than the fraction `(n + 2) / 2 ^ 52` of it,
for `n` records. -/
theorem C106_split (value : ℚ) (ids : List Nat) (weight : Nat → Option ℚ)
    (hw : ∀ i w, weight i = some w → 0 ≤ w) (hn : ids.length + 2 ≤ 2 ^ 52) :
    (∃ out parts, disaggregateValue value ids weight = .ok out ∧ Toron.disaggregateValue value ids weight = .ok parts ∧
      List.Forall₂ (fun o p => o.1 = p.1 ∧ |o.2 - p.2| ≤ ((ids.length : ℚ) + 2) / 2 ^ 52 * |p.2|) out parts) ∨
    ∃ e, disaggregateValue value ids weight = .error e ∧ Toron.disaggregateValue value ids weight = .error e := by
  rcases disagg_near value ids weight hw with ⟨out, parts, h1, h2, h3, _⟩ | h
  · refine .inl ⟨out, parts, h1, h2, h3.imp fun o p h => ⟨h.1, ?_⟩⟩
    have := h.2.abs_sub hn
    push_cast at this
    exact this
  · exact .inr h

/-- C106, the total. The parts add up to the quantity but for the fraction `(n + 2) / 2 ^ 52` of it. -/
theorem C106_total (value : ℚ) (ids : List Nat) (weight : Nat → Option ℚ) (hne : ids ≠ []) (hnd : ids.Nodup)
    (hsome : ∀ i ∈ ids, i ≠ 0 → (weight i).isSome) (hw : ∀ i w, weight i = some w → 0 ≤ w)
    (hn : ids.length + 2 ≤ 2 ^ 52) :
    ∃ out, disaggregateValue value ids weight = .ok out ∧ out.map (·.1) = ids ∧
      |total out - value| ≤ ((ids.length : ℚ) + 2) / 2 ^ 52 * |value| := by
  obtain ⟨parts, hp, htot, hids⟩ := disagg_conserves value ids weight hne hnd hsome
  rcases disagg_near value ids weight hw with ⟨out, parts', h1, h2, h3, h4⟩ | ⟨e, _, h⟩
  swap
  · rw [hp] at h; cases h
  rw [hp] at h2
  injection h2 with h2
  subst h2
  refine ⟨out, h1, ?_, ?_⟩
  · rw [← hids]
    clear * - h3
    induction h3 with
    | nil => rfl
    | cons h _ ih => rw [List.map_cons, List.map_cons, ih, h.1]
  · have h5 := total_diff (ε := ((ids.length : ℚ) + 2) / 2 ^ 52) (h3.imp fun o p h => ⟨h.1, by
      have := h.2.abs_sub hn
      push_cast at this
      exact this⟩)
    rw [sum_abs_same value parts h4, htot] at h5
    exact h5

/-- C106, whole numbers. A whole number `z` split among `n` records and rounded to whole numbers: if
`(n + 2) * |z| < 2 ^ 52`, the result is whole numbers that add up to `z`, exactly, one for each record, and each differs
by less than one from the share of its record, but for the rounding error of the share. -/
theorem C106_whole (z : ℤ) (ids : List Nat) (weight : Nat → Option ℚ) (hne : ids ≠ []) (hnd : ids.Nodup)
    (hsome : ∀ i ∈ ids, i ≠ 0 → (weight i).isSome) (hw : ∀ i w, weight i = some w → 0 ≤ w)
    (hn : ids.length + 2 ≤ 2 ^ 52) (hz : ((ids.length : ℤ) + 2) * |z| < 2 ^ 52) :
    ∃ out parts parts', splitWhole z ids weight = .ok out ∧ total out = z ∧ (∀ o ∈ out, fracPart o.2 = 0) ∧
      Toron.disaggregateValue z ids weight = .ok parts ∧ parts'.Perm parts ∧
      List.Forall₂ (fun p o => p.1 = o.1 ∧ |o.2 - p.2| < 1 + ((ids.length : ℚ) + 2) / 2 ^ 52 * |p.2|) parts' out := by
  obtain ⟨parts, hp, htot, hids⟩ := disagg_conserves (z : ℚ) ids weight hne hnd hsome
  obtain ⟨fs, hfs, hfid, hdiff⟩ := C106_total (z : ℚ) ids weight hne hnd hsome hw hn
  rcases disagg_near (z : ℚ) ids weight hw with ⟨fs', parts', h1, h2, h3, h4⟩ | ⟨e, _, h⟩
  swap
  · rw [hp] at h; cases h
  rw [hp] at h2
  injection h2 with h2
  subst h2
  rw [hfs] at h1
  injection h1 with h1
  subst h1
  have hlt : |total fs - (z : ℚ)| < 1 := by
    refine lt_of_le_of_lt hdiff ?_
    rw [div_mul_eq_mul_div, div_lt_one (by positivity)]
    exact_mod_cast hz
  obtain ⟨s, hs, hsz⟩ : ∃ s : ℤ, (s = 1 ∨ s = -1) ∧ 0 ≤ s * z := by
    rcases le_total 0 z with h | h
    · exact ⟨1, .inl rfl, by omega⟩
    · exact ⟨-1, .inr rfl, by omega⟩
  have hsz' : 0 ≤ (s : ℚ) * z := by exact_mod_cast hsz
  have hsign : ∀ it ∈ fs, 0 ≤ (s : ℚ) * it.2 := by
    clear hfs hp htot hids hdiff hlt hfid
    induction h3 with
    | nil => intro it h; cases h
    | @cons o p os ps h _ ih =>
      intro it hit
      rcases List.mem_cons.1 hit with rfl | hit
      · obtain ⟨t, ht, he⟩ := h.2.pos
        obtain ⟨a, ha, he'⟩ := h4 p (by simp)
        rw [he, he', show (s : ℚ) * (t * (z * a)) = t * a * (s * z) by ring]
        exact mul_nonneg (mul_nonneg ht.le ha) hsz'
      · exact ih (fun q hq => h4 q (by simp [hq])) it hit
  have hz1 : |z| + 1 < 2 ^ 53 := by
    have := abs_nonneg z
    nlinarith
  obtain ⟨out, hq, hout, ⟨fs', hperm, hrel⟩, hwhole⟩ := quantize_near hs fs hsign hlt
  -- the exact parts in the order of the result
  have hpull : ∃ ps, ps.Perm parts ∧ List.Forall₂ (fun o p => o.1 = p.1 ∧ Near (ids.length + 2) o.2 p.2) fs' ps := by
    obtain ⟨ps, g1, g2⟩ := List.perm_comp_forall₂ hperm h3
    exact ⟨ps, g2, g1⟩
  obtain ⟨ps, hps, hnear⟩ := hpull
  refine ⟨out, parts, ps, ?_, hout, hwhole, hp, hps, ?_⟩
  · unfold splitWhole
    rw [hfs]
    change quantizeValues fs z = _
    rw [quantize_exact hs fs hsign hlt hz1, hq]
  · clear * - hrel hnear hn
    induction hrel generalizing ps with
    | nil => cases hnear; exact .nil
    | @cons it o its os h _ ih =>
      cases hnear with
      | @cons _ p _ ps h' hr =>
        refine .cons ⟨h'.1.symm.trans h.1, ?_⟩ (ih ps hr)
        have h5 := h'.2.abs_sub hn
        push_cast at h5
        have : o.2 - p.2 = (o.2 - it.2) + (it.2 - p.2) := by ring
        rw [this]
        exact lt_of_le_of_lt (abs_add_le _ _) (add_lt_add_of_lt_of_le h.2 h5)

/-- C106, other numbers, in part. A number `v` split among `n` records and rounded to whole numbers, with
`(n + 2) * (|v| + 2) ≤ 2 ^ 51`: if the rounding does not fail (see `C106_violated_fraction`), the result adds up to `v`
but for `(|v| + 1) / 2 ^ 52`. Missing: that it does not fail. -/
theorem C106_fraction_partial (v : ℚ) (ids : List Nat) (weight : Nat → Option ℚ) (hne : ids ≠ []) (hnd : ids.Nodup)
    (hsome : ∀ i ∈ ids, i ≠ 0 → (weight i).isSome) (hw : ∀ i w, weight i = some w → 0 ≤ w)
    (hv : ((ids.length : ℚ) + 2) * (|v| + 2) ≤ 2 ^ 51) {out : List (Nat × ℚ)} (h : splitWhole v ids weight = .ok out) :
    |total out - v| ≤ (|v| + 1) / 2 ^ 52 := by
  have habs := abs_nonneg v
  have hlen0 : (0 : ℚ) ≤ ids.length := Nat.cast_nonneg _
  have hnq : (ids.length : ℚ) + 2 ≤ 2 ^ 51 := by nlinarith
  have hn : ids.length + 2 ≤ 2 ^ 52 := by
    have : ids.length + 2 ≤ 2 ^ 51 := by exact_mod_cast hnq
    omega
  obtain ⟨fs, hfs, hfid, hdiff⟩ := C106_total v ids weight hne hnd hsome hw hn
  rcases disagg_near v ids weight hw with ⟨fs', parts, h1, h2, h3, h4⟩ | ⟨e, he, _⟩
  swap
  · rw [hfs] at he; cases he
  rw [hfs] at h1
  injection h1 with h1
  subst h1
  unfold splitWhole at h
  rw [hfs] at h
  change quantizeValues fs v = _ at h
  obtain ⟨s, hs, hsv⟩ : ∃ s : ℤ, (s = 1 ∨ s = -1) ∧ 0 ≤ (s : ℚ) * v := by
    rcases le_total 0 v with h | h
    · exact ⟨1, .inl rfl, by push_cast; linarith⟩
    · exact ⟨-1, .inr rfl, by push_cast; linarith⟩
  have hsign : ∀ it ∈ fs, 0 ≤ (s : ℚ) * it.2 := by
    clear hfs hdiff hfid h2 h
    induction h3 with
    | nil => intro it h; cases h
    | @cons o p os ps h _ ih =>
      intro it hit
      rcases List.mem_cons.1 hit with rfl | hit
      · obtain ⟨t, ht, he⟩ := h.2.pos
        obtain ⟨a, ha, he'⟩ := h4 p (by simp)
        rw [he, he', show (s : ℚ) * (t * (v * a)) = t * a * (s * v) by ring]
        exact mul_nonneg (mul_nonneg ht.le ha) hsv
      · exact ih (fun q hq => h4 q (by simp [hq])) it hit
  have hlenfs : fs.length = ids.length := by rw [← hfid, List.length_map]
  refine quantize_any hs fs hsign hsv ?_ (by nlinarith) (by omega) h
  refine hdiff.trans ?_
  rw [div_mul_eq_mul_div, div_le_iff₀ (by positivity)]
  nlinarith

/-! Examples and the exceptions -/


/-- The weights of the examples. -/
def Demo.weight (i : Nat) : Option ℚ := if i = 1 then some 5 else if i = 2 then some 9 else none

example : ([1, 2] : List Nat) ≠ [] ∧ ([1, 2] : List Nat).Nodup ∧ (∀ i ∈ [1, 2], i ≠ 0 → (Demo.weight i).isSome) ∧
    [1, 2].length + 2 ≤ 2 ^ 52 ∧ (([1, 2].length : ℤ) + 2) * |21| < 2 ^ 52 := by decide +kernel

example : ∀ i w, Demo.weight i = some w → 0 ≤ w := by
  intro i w h
  unfold Demo.weight at h
  split_ifs at h <;> (cases h; norm_num)

example : (([1, 2].length : ℚ) + 2) * (|7.5| + 2) ≤ 2 ^ 51 ∧
    (splitWhole 7.5 [1, 2] Demo.weight).toOption = some [(2, 5), (1, 2.5)] := by decide +kernel

example : (splitWhole 20 [1, 2] Demo.weight).toOption = some [(2, 13), (1, 7)] := by decide +kernel

/-- C106 is violated for large numbers: `9007199254740949` (less than `2 ^ 53`, a whole number that a float holds
exactly) with the weights 4, 2, 4 is split and rounded to whole numbers that add up to two more. -/
theorem C106_violated_large :
    ((splitWhole 9007199254740949 [1, 2, 3] fun i => some (if i = 2 then 2 else 4)).map total).toOption =
      some 9007199254740951 := by
  decide +kernel

/-- C106 is violated for ties: 21 with the weights 5 and 9 has the exact shares 7.5 and 13.5. Ties are meant to be
resolved by a hash of the record, which gives 8 and 13; but the first share is computed as a little less than 7.5, so
that it is 7 and 14. -/
theorem C106_violated_ties :
    (Toron.quantizeValues [(1, 7.5), (2, 13.5)] 21).toOption = some [(1, 8), (2, 13)] ∧
    (splitWhole 21 [1, 2] Demo.weight).toOption = some [(2, 14), (1, 7)] := by
  decide +kernel

/-- C106 is violated without rounding to whole numbers: one, split evenly among three records, gives parts that do not
add up to one. -/
theorem C106_violated_sum :
    ((disaggregateValue 1 [1, 2, 3] fun _ => some 1).map total).toOption ≠ some 1 := by
  decide +kernel

/-- C106 is violated for numbers that are not whole: `6.000000000000001` (the next float after 6), split among six
records of weight 4.1 each and rounded to whole numbers, fails. Each part is computed as a little less than one, so that
six units and a rest have to be given to six records; there is no seventh record for the rest. With exact numbers the
parts are a little more than one and nothing fails. -/
theorem C106_violated_fraction :
    let v : ℚ := 6 + 1 / 2 ^ 50
    fl v = v ∧
    (splitWhole v [1, 2, 3, 4, 5, 6] fun _ => some (fl 4.1)).toOption = none ∧
    ((do quantizeValues (← Toron.disaggregateValue v [1, 2, 3, 4, 5, 6] fun _ => some (fl 4.1)) v).map total).toOption =
      some v := by
  decide +kernel

end Toron.Binary
