/-
C109: floating-point numbers and the order of parts.
-/
import Verif.Lemmas.BinaryOrder
import Verif.Props.Binary
import Verif.Props.BinaryTranslate

namespace Toron.Binary
open Toron.Spec
open Toron.Space (flatMapE)

theorem groupWeight_nonneg (weight : Nat → Option ℚ) (hw : ∀ i w, weight i = some w → 0 ≤ w) (ids : List Nat) {g : ℚ}
    (h : groupWeight weight 0 ids = .ok g) : 0 ≤ g := by
  rcases groupWeight_near weight hw ids 0 (le_refl 0) with ⟨g0, g', _, h2, h3, h4⟩ | ⟨e, _, h2⟩
  · rw [h] at h2
    injection h2 with h2
    subst h2
    obtain ⟨t, ht, he⟩ := h3.pos
    rw [he, zero_add]
    exact mul_nonneg ht.le h4
  · rw [h] at h2; cases h2

/-- The factor of each record: one for all quantities. The last step rounds, but for a single record of weight zero. -/
theorem share (ids : List Nat) (weight : Nat → Option ℚ) (hw : ∀ i w, weight i = some w → 0 ≤ w) :
    ∃ (r : Nat → ℚ) (g : ℚ → ℚ), (g = fl ∨ g = id) ∧
      (∀ value parts, disaggregateValue value ids weight = .ok parts → parts = ids.map fun i => (i, g (value * r i))) ∧
      (∀ i, 0 ≤ r i) ∧
      (∀ i j, j ≠ 0 → (weight i).getD 0 ≤ (weight j).getD 0 → r i ≤ r j) := by
  have hwd : ∀ i, 0 ≤ (weight i).getD 0 := by
    intro i
    cases hi : weight i with
    | none => simp
    | some w => simpa using hw i w hi
  cases hg : groupWeight weight 0 ids with
  | error e =>
    refine ⟨fun _ => 0, fl, .inl rfl, ?_, fun _ => le_refl _, fun _ _ _ _ => le_refl _⟩
    intro value parts h
    unfold disaggregateValue at h
    rw [hg] at h
    cases h
  | ok g =>
    have hg0 := groupWeight_nonneg weight hw ids hg
    by_cases hgz : g = 0
    · have c1 : ¬ g ≠ 0 := not_not.2 hgz
      by_cases hl : ids.length > 1
      · have hl' : (1 : ℚ) < ids.length := by exact_mod_cast hl
        by_cases h0 : 0 ∉ ids
        · refine ⟨fun _ => fl (1 / (ids.length : ℚ)), fl, .inl rfl, ?_, fun _ => fl_nonneg (by positivity),
            fun _ _ _ _ => le_refl _⟩
          intro value parts h
          unfold disaggregateValue at h
          rw [hg] at h
          change (if g ≠ 0 then _ else _) = _ at h
          rw [if_neg c1, if_pos hl, if_pos h0] at h
          injection h with h
          exact h.symm
        · have hnn : 0 ≤ fl (1 / ((ids.length : ℚ) - 1)) := fl_nonneg (div_nonneg zero_le_one (by linarith))
          refine ⟨fun i => if i = 0 then 0 else fl (1 / ((ids.length : ℚ) - 1)), fl, .inl rfl, ?_, ?_, ?_⟩
          · intro value parts h
            unfold disaggregateValue at h
            rw [hg] at h
            change (if g ≠ 0 then _ else _) = _ at h
            rw [if_neg c1, if_pos hl, if_neg h0] at h
            injection h with h
            rw [← h]
            refine List.map_congr_left fun i _ => ?_
            dsimp only
            by_cases hi : i = 0
            · rw [if_pos hi, if_pos hi, mul_zero, fl_zero]
            · rw [if_neg hi, if_neg hi]
          · intro i
            dsimp only
            split
            · exact le_refl _
            · exact hnn
          · intro i j hj _
            dsimp only
            rw [if_neg hj]
            split
            · exact hnn
            · exact le_refl _
      · refine ⟨fun _ => 1, id, .inr rfl, ?_, fun _ => zero_le_one, fun _ _ _ _ => le_refl _⟩
        intro value parts h
        unfold disaggregateValue at h
        rw [hg] at h
        change (if g ≠ 0 then _ else _) = _ at h
        rw [if_neg c1, if_neg hl] at h
        match ids, hl, h with
        | [], _, h => cases h
        | [i], _, h =>
          injection h with h
          rw [← h]
          simp
        | _ :: _ :: _, hl, _ => exact absurd (by simp) hl
    · have hpos : 0 < g := lt_of_le_of_ne hg0 (Ne.symm hgz)
      refine ⟨fun i => fl ((weight i).getD 0 / g), fl, .inl rfl, ?_, ?_, ?_⟩
      · intro value parts h
        unfold disaggregateValue at h
        rw [hg] at h
        change (if g ≠ 0 then _ else _) = _ at h
        rw [if_pos hgz] at h
        injection h with h
        rw [← h]
        refine List.map_congr_left fun i _ => ?_
        cases hi : weight i with
        | none => simp [hi, fl_zero]
        | some w => simp [hi]
      · intro i
        exact fl_nonneg (div_nonneg (hwd i) hg0)
      · intro i j _ h
        exact fl_mono (div_le_div_of_nonneg_right h hg0)

theorem last_mono {g : ℚ → ℚ} (hg : g = fl ∨ g = id) {x y : ℚ} (h : x ≤ y) : g x ≤ g y := by
  rcases hg with rfl | rfl
  · exact fl_mono h
  · exact h

theorem last_abs {g : ℚ → ℚ} (hg : g = fl ∨ g = id) (x : ℚ) : |g x| = g |x| := by
  rcases hg with rfl | rfl
  · rcases le_total 0 x with h | h
    · rw [abs_of_nonneg h, abs_of_nonneg (fl_nonneg h)]
    · rw [abs_of_nonpos h, fl_neg, abs_of_nonpos]
      have := fl_nonneg (x := -x) (by linarith)
      rw [fl_neg] at this
      linarith
  · rfl

/-- C109: with floating-point numbers, a record with the larger weight never gets the smaller part, and records with the
same weight get the same part. (The undefined record gets nothing if all weights are zero.) -/
theorem C109_order (value : ℚ) (ids : List Nat) (weight : Nat → Option ℚ) (hw : ∀ i w, weight i = some w → 0 ≤ w)
    (parts : List (Nat × ℚ)) (h : disaggregateValue value ids weight = .ok parts) :
    ∀ i a j b, (i, a) ∈ parts → (j, b) ∈ parts → j ≠ 0 →
      ((weight i).getD 0 ≤ (weight j).getD 0 → |a| ≤ |b|) ∧
      (i ≠ 0 → (weight i).getD 0 = (weight j).getD 0 → a = b) := by
  obtain ⟨r, g, hg, hparts, hr0, hr⟩ := share ids weight hw
  have he := hparts value parts h
  intro i a j b ha hb hj
  rw [he] at ha hb
  obtain ⟨i', _, ha⟩ := List.mem_map.1 ha
  injection ha with ha1 ha2
  obtain ⟨j', _, hb⟩ := List.mem_map.1 hb
  injection hb with hb1 hb2
  rw [ha1] at ha2
  rw [hb1] at hb2
  constructor
  · intro hle
    rw [← ha2, ← hb2, last_abs hg, last_abs hg]
    refine last_mono hg ?_
    rw [abs_mul, abs_mul, abs_of_nonneg (hr0 i), abs_of_nonneg (hr0 j)]
    exact mul_le_mul_of_nonneg_left (hr i j hj hle) (abs_nonneg _)
  · intro hi hwe
    have : r i = r j := le_antisymm (hr i j hj hwe.le) (hr j i hi hwe.ge)
    rw [← ha2, ← hb2, this]

example : (∀ i w, Demo.weight i = some w → 0 ≤ w) ∧ (disaggregateValue 10 [1, 2] Demo.weight).toBool := by
  constructor
  · intro i w h
    unfold Demo.weight at h
    split at h
    · injection h with h; rw [← h]; norm_num
    · split at h
      · injection h with h; rw [← h]; norm_num
      · cases h
  · decide +kernel

/-- C109: with floating-point numbers, a larger quantity gives no record less. -/
theorem C109_more (value value' : ℚ) (hv : value ≤ value') (ids : List Nat) (weight : Nat → Option ℚ)
    (hw : ∀ i w, weight i = some w → 0 ≤ w) (parts parts' : List (Nat × ℚ))
    (h : disaggregateValue value ids weight = .ok parts) (h' : disaggregateValue value' ids weight = .ok parts') :
    List.Forall₂ (fun p p' => p.1 = p'.1 ∧ p.2 ≤ p'.2) parts parts' := by
  obtain ⟨r, g, hg, hparts, hr0, _⟩ := share ids weight hw
  rw [hparts value parts h, hparts value' parts' h']
  exact forall₂_map_same _ _ _ _ fun i _ => ⟨rfl, last_mono hg (mul_le_mul_of_nonneg_right hv (hr0 i))⟩

/-- C109: a whole number `z` that is split among `n` records and rounded to whole numbers, with
`(n + 2) * |z| < 2 ^ 52`. If a record has the larger part before rounding, it has not the smaller one afterwards. Every
record gets one of the two whole numbers around its part. So a record with a larger weight, or the same, gets less than
another by one at the most. -/
theorem C109_whole (z : ℤ) (ids : List Nat) (weight : Nat → Option ℚ) (hne : ids ≠ []) (hnd : ids.Nodup)
    (hsome : ∀ i ∈ ids, i ≠ 0 → (weight i).isSome) (hw : ∀ i w, weight i = some w → 0 ≤ w)
    (hn : ids.length + 2 ≤ 2 ^ 52) (hz : ((ids.length : ℤ) + 2) * |z| < 2 ^ 52) :
    ∃ parts out, disaggregateValue z ids weight = .ok parts ∧ parts.map (·.1) = ids ∧ splitWhole z ids weight = .ok out ∧
      (∀ i x j y a b, (i, x) ∈ parts → (j, y) ∈ parts → (i, a) ∈ out → (j, b) ∈ out → |x| < |y| → |a| ≤ |b|) ∧
      (∀ i x a, (i, x) ∈ parts → (i, a) ∈ out → ((⌊|x|⌋ : ℤ) : ℚ) ≤ |a| ∧ |a| ≤ ⌊|x|⌋ + 1) ∧
      (∀ i j a b, j ≠ 0 → (i, a) ∈ out → (j, b) ∈ out → i ∈ ids → j ∈ ids →
        (weight i).getD 0 ≤ (weight j).getD 0 → |a| ≤ |b| + 1) := by
  obtain ⟨fs, hfs, hfid, hdiff⟩ := C106_total (z : ℚ) ids weight hne hnd hsome hw hn
  obtain ⟨r, g, hg, hparts, hr0, _⟩ := share ids weight hw
  have he := hparts z fs hfs
  have hlt : |total fs - (z : ℚ)| < 1 := by
    refine lt_of_le_of_lt hdiff ?_
    rw [div_mul_eq_mul_div, div_lt_one (by positivity)]
    exact_mod_cast hz
  obtain ⟨s, hs, hsz⟩ : ∃ s : ℤ, (s = 1 ∨ s = -1) ∧ 0 ≤ s * z := by
    rcases le_total 0 z with h | h
    · exact ⟨1, .inl rfl, by omega⟩
    · exact ⟨-1, .inr rfl, by omega⟩
  have hsign : ∀ it ∈ fs, 0 ≤ (s : ℚ) * it.2 := by
    intro it hit
    rw [he] at hit
    obtain ⟨i, _, rfl⟩ := List.mem_map.1 hit
    dsimp only
    rcases hs with rfl | rfl
    · have h0 : (0 : ℚ) ≤ z := by
        have : 0 ≤ z := by omega
        exact_mod_cast this
      have := last_mono hg (mul_nonneg h0 (hr0 i))
      have e : g 0 = 0 := by rcases hg with rfl | rfl; exact fl_zero; rfl
      rw [e] at this
      push_cast
      linarith
    · have h0 : (z : ℚ) ≤ 0 := by
        have : z ≤ 0 := by omega
        exact_mod_cast this
      have := last_mono hg (mul_nonpos_of_nonpos_of_nonneg h0 (hr0 i))
      have e : g 0 = 0 := by rcases hg with rfl | rfl; exact fl_zero; rfl
      rw [e] at this
      push_cast
      linarith
  have hz1 : |z| + 1 < 2 ^ 53 := by
    have := abs_nonneg z
    nlinarith
  obtain ⟨out, hq, -, -, -⟩ := quantize_near hs fs hsign hlt
  obtain ⟨l, hl⟩ := bonus_near hs hsign hlt hq
  obtain ⟨h1, h2⟩ := bonus_order (by rw [hfid]; exact hnd) hs hsign hl
  refine ⟨fs, out, hfs, hfid, ?_, h1, h2, ?_⟩
  · unfold splitWhole
    rw [hfs]
    change quantizeValues fs z = _
    rw [quantize_exact hs fs hsign hlt hz1, hq]
  · intro i j a b hj ha hb hi hj' hwle
    have hpart : ∀ k ∈ ids, (k, g (z * r k)) ∈ fs := by
      intro k hk
      rw [he]
      exact List.mem_map_of_mem (f := fun i => (i, g ((z : ℚ) * r i))) hk
    have ho := (C109_order z ids weight hw fs hfs i _ j _ (hpart i hi) (hpart j hj') hj).1 hwle
    have q1 := (h2 i _ a (hpart i hi) ha).2
    have q2 := (h2 j _ b (hpart j hj') hb).1
    have hfl : ((⌊|g (z * r i)|⌋ : ℤ) : ℚ) ≤ ⌊|g (z * r j)|⌋ := by exact_mod_cast Int.floor_le_floor ho
    linarith

example : [1, 2].Nodup ∧ (∀ i ∈ [1, 2], i ≠ 0 → (Demo.weight i).isSome) ∧
    (([1, 2].length : ℤ) + 2) * |(1000000 : ℤ)| < 2 ^ 52 := by
  decide +kernel

/-- The weights `2 - 5 / 2 ^ 52`, `2 - 4 / 2 ^ 52` and `3.5`. -/
def Demo.close (i : Nat) : Option ℚ :=
  if i = 1 then some (2 - 5 / 2 ^ 52) else if i = 2 then some (2 - 4 / 2 ^ 52) else if i = 3 then some (7 / 2) else none

/-- C109, the stronger claim of C108 is violated with floating-point numbers: the second record has a larger weight than
the first, but the parts before rounding are equal, and the first record gets one and the second nothing. -/
theorem C109_violated_close : (splitWhole 2 [1, 2, 3] Demo.close).toOption = some [(3, 1), (1, 1), (2, 0)] := by
  decide +kernel

/-! ### Translation -/

theorem proportions_nonneg {maps : List (Nat × ℚ)} (h : ∀ m ∈ maps, 0 ≤ m.2) : ∀ p ∈ proportions maps, 0 ≤ p.2 := by
  intro p hp
  unfold proportions at hp
  obtain ⟨m, hm, rfl⟩ := List.mem_map.1 hp
  dsimp only
  split
  · exact fl_nonneg (by positivity)
  · refine fl_nonneg (div_nonneg (h m hm) ?_)
    obtain ⟨t, ht, he⟩ := (plusAll_near (maps.map (·.2)) (by
      intro x hx
      obtain ⟨m', hm', rfl⟩ := List.mem_map.1 hx
      exact h m' hm')).pos
    rw [he]
    refine mul_nonneg ht.le (List.sum_nonneg ?_)
    intro x hx
    obtain ⟨m', hm', rfl⟩ := List.mem_map.1 hx
    exact h m' hm'

/-- C109: larger quantities, translated along any number of links with floating-point numbers, give no record less: the
rows of the two results correspond, and none has become smaller. -/
theorem C109_along (links : List (Nat → List (Nat × ℚ))) (hl : ∀ maps ∈ links, ∀ i, ∀ m ∈ maps i, 0 ≤ m.2) :
    ∀ rows rows' : List (Nat × ℚ), List.Forall₂ (fun p p' => p.1 = p'.1 ∧ p.2 ≤ p'.2) rows rows' →
    ∃ out out', translateAlong false links rows = .ok out ∧ translateAlong false links rows' = .ok out' ∧
      List.Forall₂ (fun p p' => p.1 = p'.1 ∧ p.2 ≤ p'.2) out out' := by
  induction links with
  | nil => intro rows rows' h; exact ⟨rows, rows', rfl, rfl, h⟩
  | cons maps links ih =>
    intro rows rows' h
    have hm := hl maps (by simp)
    have hstep : ∃ out out', flatMapE (translateRow maps false) rows = .ok out ∧
        flatMapE (translateRow maps false) rows' = .ok out' ∧
        List.Forall₂ (fun p p' => p.1 = p'.1 ∧ p.2 ≤ p'.2) out out' := by
      clear ih
      induction h with
      | nil => exact ⟨[], [], rfl, rfl, .nil⟩
      | @cons p p' ps ps' hp _ ih =>
        obtain ⟨out, out', h1, h2, h3⟩ := ih
        have hrow : ∃ o o', translateRow maps false p = .ok o ∧ translateRow maps false p' = .ok o' ∧
            List.Forall₂ (fun p p' => p.1 = p'.1 ∧ p.2 ≤ p'.2) o o' := by
          unfold translateRow
          by_cases h0 : p.1 = 0
          · rw [if_pos h0, if_pos (hp.1 ▸ h0)]
            exact ⟨_, _, rfl, rfl, .cons hp .nil⟩
          · have h0' : ¬ p'.1 = 0 := hp.1 ▸ h0
            rw [if_neg h0, if_neg h0']
            refine ⟨_, _, rfl, rfl, ?_⟩
            rw [← hp.1]
            refine forall₂_map_same _ _ _ _ fun m hmm => ⟨rfl, fl_mono ?_⟩
            exact mul_le_mul_of_nonneg_right hp.2 (proportions_nonneg (hm p.1) m hmm)
        obtain ⟨o, o', g1, g2, g3⟩ := hrow
        refine ⟨o ++ out, o' ++ out', ?_, ?_, ?_⟩
        · unfold flatMapE; rw [g1, h1]; rfl
        · unfold flatMapE; rw [g2, h2]; rfl
        · exact forall₂_append _ _ _ _ _ g3 h3
    obtain ⟨out, out', h1, h2, h3⟩ := hstep
    obtain ⟨r, r', e1, e2, e3⟩ := ih (fun m hm => hl m (by simp [hm])) out out' h3
    refine ⟨r, r', ?_, ?_, e3⟩
    · unfold translateAlong; rw [h1]; exact e1
    · unfold translateAlong; rw [h2]; exact e2

example : List.Forall₂ (fun p p' : Nat × ℚ => p.1 = p'.1 ∧ p.2 ≤ p'.2) [(1, 20), (2, -7)] [(1, 21), (2, -7)] :=
  .cons ⟨rfl, by norm_num⟩ (.cons ⟨rfl, by norm_num⟩ .nil)

example : ∀ maps ∈ [Demo.link, Demo.link], ∀ i, ∀ m ∈ maps i, 0 ≤ m.2 := by
  intro maps hm i m hmm
  simp only [List.mem_cons, List.not_mem_nil, or_false, or_self] at hm
  rw [hm] at hmm
  simp only [Demo.link, List.mem_cons, List.not_mem_nil, or_false] at hmm
  rcases hmm with rfl | rfl <;> norm_num

end Toron.Binary
