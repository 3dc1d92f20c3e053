/-
Lemmas about translating with floating-point numbers.
-/
import Verif.Model.BinaryTranslate
import Verif.Spec.BinaryTranslate
import Verif.Lemmas.BinaryQuantize
import Mathlib.Data.List.Forall2

namespace Toron.Binary
open Toron.Spec
open Toron.Space (flatMapE)

theorem forall₂_mem_right {α β : Type} {R : α → β → Prop} {l : List α} {l' : List β} (h : List.Forall₂ R l l') :
    ∀ b ∈ l', ∃ a ∈ l, R a b := by
  induction h with
  | nil => intro b hb; cases hb
  | cons h _ ih =>
    intro b hb
    rcases List.mem_cons.1 hb with rfl | hb
    · exact ⟨_, by simp, h⟩
    · obtain ⟨a, ha, hr⟩ := ih b hb
      exact ⟨a, by simp [ha], hr⟩

theorem fl_nonneg {x : ℚ} (h : 0 ≤ x) : 0 ≤ fl x := by
  obtain ⟨t, ht, he⟩ := (near_fl x).pos
  rw [he]; exact mul_nonneg ht.le h

theorem foldl_plus_near (vs : List ℚ) (h : ∀ v ∈ vs, 0 ≤ v) : ∀ acc, 0 ≤ acc →
    Near vs.length (vs.foldl (fun acc v => fl (acc + v)) acc) (acc + vs.sum) := by
  induction vs with
  | nil => intro acc _; simpa using near_refl 0 acc
  | cons v vs ih =>
    intro acc hacc
    have hv := h v (by simp)
    have hvs : ∀ x ∈ vs, 0 ≤ x := fun x hx => h x (by simp [hx])
    rw [List.foldl_cons, List.sum_cons, List.length_cons, ← add_assoc]
    have h1 := ih hvs (fl (acc + v)) (fl_nonneg (by linarith))
    have h2 : Near 1 (fl (acc + v) + vs.sum) (acc + v + vs.sum) :=
      (near_fl (acc + v)).add (near_refl 1 _) (by linarith) (List.sum_nonneg hvs)
    exact h1.trans h2

theorem plusAll_near (vs : List ℚ) (h : ∀ v ∈ vs, 0 ≤ v) : Near vs.length (plusAll vs) vs.sum := by
  have := foldl_plus_near vs h 0 (le_refl 0)
  rwa [zero_add] at this

/-- The parts before they are rounded to whole numbers. -/
def rawParts (maps : List (Nat × ℚ)) (v : ℚ) : List (Nat × ℚ) :=
  (proportions maps).map fun m => (m.1, fl (v * m.2))

theorem rawParts_near (maps : List (Nat × ℚ)) (hm : ∀ m ∈ maps, 0 ≤ m.2) (v : ℚ) :
    List.Forall₂ (fun o p => o.1 = p.1 ∧ Near (maps.length + 2) o.2 p.2) (rawParts maps v) (exactParts maps v) := by
  have hs := plusAll_near (maps.map (·.2)) (by
    intro x hx
    obtain ⟨m, hmm, rfl⟩ := List.mem_map.1 hx
    exact hm m hmm)
  rw [List.length_map] at hs
  obtain ⟨t, ht, hteq⟩ := hs.pos
  have hiff : plusAll (maps.map (·.2)) = 0 ↔ (maps.map (·.2)).sum = 0 := by
    rw [hteq, mul_eq_zero]
    exact ⟨fun h => h.resolve_left ht.ne', .inr⟩
  unfold rawParts proportions exactParts
  dsimp only
  rw [List.map_map]
  refine forall₂_map_same _ _ _ _ fun m hmm => ⟨rfl, ?_⟩
  dsimp only [Function.comp]
  by_cases h0 : (maps.map (·.2)).sum = 0
  · rw [if_pos (hiff.2 h0), if_pos h0]
    have := (near_fl (v * fl (1 / (maps.length : ℚ)))).trans ((near_fl (1 / (maps.length : ℚ))).mul_left v)
    rw [mul_one_div] at this
    exact this.mono (by omega)
  · rw [if_neg (fun h => h0 (hiff.1 h)), if_neg h0]
    have h5 := (near_fl (m.2 / plusAll (maps.map (·.2)))).trans (hs.div m.2)
    exact ((near_fl _).trans (h5.mul_left v)).mono (by omega)

theorem exact_total (maps : List (Nat × ℚ)) (hne : maps ≠ []) (v : ℚ) : total (exactParts maps v) = v := by
  unfold exactParts total
  rw [List.map_map]
  by_cases h0 : (maps.map (·.2)).sum = 0
  · have : (maps.map ((·.2) ∘ fun m : Nat × ℚ => (m.1, if (maps.map (·.2)).sum = 0 then v / (maps.length : ℚ)
        else v * (m.2 / (maps.map (·.2)).sum)))) = maps.map fun _ => v / (maps.length : ℚ) := by
      refine List.map_congr_left fun m _ => ?_
      dsimp only [Function.comp]
      rw [if_pos h0]
    rw [this, List.map_const', List.sum_replicate, nsmul_eq_mul]
    have : (maps.length : ℚ) ≠ 0 := by
      have := List.length_pos_iff.2 hne
      exact_mod_cast this.ne'
    field_simp
  · have : (maps.map ((·.2) ∘ fun m : Nat × ℚ => (m.1, if (maps.map (·.2)).sum = 0 then v / (maps.length : ℚ)
        else v * (m.2 / (maps.map (·.2)).sum)))) = maps.map fun m => (v / (maps.map (·.2)).sum) * m.2 := by
      refine List.map_congr_left fun m _ => ?_
      dsimp only [Function.comp]
      rw [if_neg h0]
      ring
    rw [this, List.sum_map_mul_left (f := fun m : Nat × ℚ => m.2)]
    field_simp

theorem exact_share (maps : List (Nat × ℚ)) (hm : ∀ m ∈ maps, 0 ≤ m.2) (v : ℚ) :
    ∀ p ∈ exactParts maps v, ∃ a, 0 ≤ a ∧ p.2 = v * a := by
  intro p hp
  obtain ⟨m, hmm, rfl⟩ := List.mem_map.1 hp
  dsimp only
  by_cases h0 : (maps.map (·.2)).sum = 0
  · rw [if_pos h0]
    exact ⟨1 / (maps.length : ℚ), by positivity, by ring⟩
  · rw [if_neg h0]
    refine ⟨_, div_nonneg (hm m hmm) (List.sum_nonneg ?_), rfl⟩
    intro x hx
    obtain ⟨m', hm', rfl⟩ := List.mem_map.1 hx
    exact hm m' hm'

/-- Sums of parts of the same sign. -/
theorem total_near {k : ℕ} {v : ℚ} {out parts : List (Nat × ℚ)}
    (h : List.Forall₂ (fun o p => Near k o.2 p.2) out parts) (hp : ∀ p ∈ parts, ∃ a, 0 ≤ a ∧ p.2 = v * a) :
    (∃ a, 0 ≤ a ∧ total parts = v * a) ∧ Near k (total out) (total parts) := by
  induction h with
  | nil => exact ⟨⟨0, le_refl _, by simp [total]⟩, by simpa [total] using near_refl k 0⟩
  | @cons o p os ps h _ ih =>
    obtain ⟨⟨a, ha, hae⟩, h1⟩ := ih fun q hq => hp q (by simp [hq])
    obtain ⟨b, hb, hbe⟩ := hp p (by simp)
    have e1 : total (o :: os) = o.2 + total os := by simp [total]
    have e2 : total (p :: ps) = p.2 + total ps := by simp [total]
    rw [e1, e2]
    refine ⟨⟨b + a, by linarith, by rw [hbe, hae]; ring⟩, ?_⟩
    -- divide by `v`
    by_cases hv : v = 0
    · obtain ⟨t, _, _, ht⟩ := h
      obtain ⟨t', _, _, ht'⟩ := h1
      have : p.2 = 0 := by rw [hbe, hv]; ring
      have h2 : total ps = 0 := by rw [hae, hv]; ring
      rw [ht, ht', this, h2]
      simpa using near_refl k 0
    have g1 : Near k (o.2 / v) b := by
      have := h.mul_left (1 / v)
      rw [hbe] at this
      have e : 1 / v * (v * b) = b := by field_simp
      rw [e] at this
      rw [show o.2 / v = 1 / v * o.2 by ring]
      exact this
    have g2 : Near k (total os / v) a := by
      have := h1.mul_left (1 / v)
      rw [hae] at this
      have e : 1 / v * (v * a) = a := by field_simp
      rw [e] at this
      rw [show total os / v = 1 / v * total os by ring]
      exact this
    have g3 := (g1.add g2 hb ha).mul_left v
    rw [hbe, hae]
    have e : v * (o.2 / v + total os / v) = o.2 + total os := by field_simp
    rw [e, mul_add] at g3
    exact g3

theorem near_share {k : ℕ} {v : ℚ} {out parts : List (Nat × ℚ)}
    (h : List.Forall₂ (fun o p => Near k o.2 p.2) out parts) (hp : ∀ p ∈ parts, ∃ a, 0 ≤ a ∧ p.2 = v * a) :
    ∀ o ∈ out, ∃ a, 0 ≤ a ∧ o.2 = v * a := by
  induction h with
  | nil => intro o ho; cases ho
  | @cons o p os ps h _ ih =>
    intro x hx
    rcases List.mem_cons.1 hx with rfl | hx
    · obtain ⟨t, ht, he⟩ := h.pos
      obtain ⟨a, ha, hae⟩ := hp p (by simp)
      exact ⟨t * a, mul_nonneg ht.le ha, by rw [he, hae]; ring⟩
    · exact ih (fun q hq => hp q (by simp [hq])) x hx

/-! ### Without rounding to whole numbers -/

theorem row_near {n : ℕ} {maps : Nat → List (Nat × ℚ)} (hg : GoodLink n maps) (row : Nat × ℚ) :
    ∃ out, translateRow maps false row = .ok out ∧ (∀ o ∈ out, ∃ a, 0 ≤ a ∧ o.2 = row.2 * a) ∧
      Near (n + 2) (total out) row.2 := by
  unfold translateRow
  by_cases h0 : row.1 = 0
  · rw [if_pos h0]
    refine ⟨_, rfl, ?_, by simpa [total] using near_refl _ _⟩
    intro o ho
    rw [List.mem_singleton.1 ho]
    exact ⟨1, by norm_num, by ring⟩
  · rw [if_neg h0]
    dsimp only
    rw [if_neg (by simp)]
    obtain ⟨h1, h2, h3⟩ := hg row.1 h0
    have hn : List.Forall₂ (fun o p => Near ((maps row.1).length + 2) o.2 p.2) (rawParts (maps row.1) row.2)
        (exactParts (maps row.1) row.2) := (rawParts_near (maps row.1) h3 row.2).imp fun _ _ h => h.2
    have hsh := exact_share (maps row.1) h3 row.2
    refine ⟨_, rfl, near_share hn hsh, ?_⟩
    have := (total_near hn hsh).2
    rw [exact_total _ h1] at this
    exact this.mono (by omega)

theorem rows_near {n : ℕ} {maps : Nat → List (Nat × ℚ)} (hg : GoodLink n maps) {v : ℚ} (rows : List (Nat × ℚ))
    (hr : ∀ r ∈ rows, ∃ a, 0 ≤ a ∧ r.2 = v * a) :
    ∃ out, flatMapE (translateRow maps false) rows = .ok out ∧ (∀ o ∈ out, ∃ a, 0 ≤ a ∧ o.2 = v * a) ∧
      Near (n + 2) (total out) (total rows) := by
  induction rows with
  | nil => exact ⟨[], rfl, by simp, by simpa [total] using near_refl _ _⟩
  | cons r rows ih =>
    obtain ⟨o1, h1, h2, h3⟩ := row_near hg r
    obtain ⟨o2, g1, g2, g3⟩ := ih fun x hx => hr x (by simp [hx])
    obtain ⟨a, ha, hae⟩ := hr r (by simp)
    refine ⟨o1 ++ o2, ?_, ?_, ?_⟩
    · unfold flatMapE
      rw [h1, g1]
      rfl
    · intro o ho
      rcases List.mem_append.1 ho with ho | ho
      · obtain ⟨b, hb, hbe⟩ := h2 o ho
        exact ⟨a * b, mul_nonneg ha hb, by rw [hbe, hae]; ring⟩
      · exact g2 o ho
    · have hsum : total (o1 ++ o2) = total o1 + total o2 := by simp [total]
      rw [hsum]
      have hf : List.Forall₂ (fun o p : Nat × ℚ => Near (n + 2) o.2 p.2) [(0, total o1), (0, total o2)]
          [(0, r.2), (0, total rows)] := .cons h3 (.cons g3 .nil)
      have hrest : ∃ b, 0 ≤ b ∧ total rows = v * b :=
        (total_near (k := 0) (out := rows) (parts := rows) (List.forall₂_same.2 fun x _ => near_refl 0 x.2)
          fun x hx => hr x (by simp [hx])).1
      have := (total_near (v := v) hf (by
        intro p hp
        simp only [List.mem_cons, List.not_mem_nil, or_false] at hp
        rcases hp with rfl | rfl
        · exact ⟨a, ha, hae⟩
        · exact hrest)).2
      simpa [total] using this

theorem along_near {n : ℕ} {v : ℚ} (links : List (Nat → List (Nat × ℚ))) : (∀ l ∈ links, GoodLink n l) →
    ∀ rows : List (Nat × ℚ), (∀ r ∈ rows, ∃ a, 0 ≤ a ∧ r.2 = v * a) →
    ∃ out, translateAlong false links rows = .ok out ∧ Near (links.length * (n + 2)) (total out) (total rows) := by
  induction links with
  | nil => intro _ rows _; exact ⟨rows, rfl, by simpa using near_refl 0 _⟩
  | cons l links ih =>
    intro hg rows hr
    obtain ⟨o, h1, h2, h3⟩ := rows_near (hg l (by simp)) rows hr
    obtain ⟨out, g1, g2⟩ := ih (fun x hx => hg x (by simp [hx])) o h2
    refine ⟨out, ?_, ?_⟩
    · unfold translateAlong
      rw [h1]
      exact g1
    · refine (g2.trans h3).mono ?_
      rw [List.length_cons]
      exact le_of_eq (by ring)

/-- Rows are translated one by one. -/
theorem along_append (q : Bool) (links : List (Nat → List (Nat × ℚ))) : ∀ (a b oa ob : List (Nat × ℚ)),
    translateAlong q links a = .ok oa → translateAlong q links b = .ok ob →
    translateAlong q links (a ++ b) = .ok (oa ++ ob) := by
  induction links with
  | nil =>
    intro a b oa ob ha hb
    injection ha with ha
    injection hb with hb
    rw [ha, hb]
    rfl
  | cons l links ih =>
    intro a b oa ob ha hb
    unfold translateAlong at ha hb ⊢
    have hfm : ∀ a x y, flatMapE (translateRow l q) a = .ok x → flatMapE (translateRow l q) b = .ok y →
        flatMapE (translateRow l q) (a ++ b) = .ok (x ++ y) := by
      intro a
      induction a with
      | nil => intro x y hx hy; injection hx with hx; rw [← hx]; exact hy
      | cons r a iha =>
        intro x y hx hy
        rw [List.cons_append]
        unfold flatMapE at hx ⊢
        cases hr : translateRow l q r with
        | error e => rw [hr] at hx; cases hx
        | ok p =>
          rw [hr] at hx
          cases hr2 : flatMapE (translateRow l q) a with
          | error e => rw [hr2] at hx; cases hx
          | ok p2 =>
            rw [hr2] at hx
            injection hx with hx
            rw [iha p2 y hr2 hy, ← hx, List.append_assoc]
            rfl
    cases h1 : flatMapE (translateRow l q) a with
    | error e => rw [h1] at ha; cases ha
    | ok x =>
      cases h2 : flatMapE (translateRow l q) b with
      | error e => rw [h2] at hb; cases hb
      | ok y =>
        rw [h1] at ha
        rw [h2] at hb
        rw [hfm a x y h1 h2]
        exact ih x y oa ob ha hb

/-! ### Whole numbers -/

/-- Rounding parts of a whole number to whole numbers. -/
theorem quantize_whole {k : ℕ} {z : ℤ} {fs parts : List (Nat × ℚ)}
    (hn : List.Forall₂ (fun o p => Near k o.2 p.2) fs parts) (hp : ∀ p ∈ parts, ∃ a, 0 ≤ a ∧ p.2 = (z : ℚ) * a)
    (ht : total parts = z) (hk : k ≤ 2 ^ 52) (hk1 : 1 ≤ k) (hz : (k : ℤ) * |z| < 2 ^ 52) :
    ∃ out, quantizeValues fs z = .ok out ∧ total out = z ∧ ∀ o ∈ out, ∃ y : ℤ, o.2 = y ∧ 0 ≤ z * y ∧ |y| ≤ |z| := by
  have hnear := (total_near hn hp).2
  rw [ht] at hnear
  have hlt : |total fs - (z : ℚ)| < 1 := by
    refine lt_of_le_of_lt (hnear.abs_sub hk) ?_
    rw [div_mul_eq_mul_div, div_lt_one (by positivity)]
    exact_mod_cast hz
  have hshare := near_share hn hp
  obtain ⟨s, hs, hsz⟩ : ∃ s : ℤ, (s = 1 ∨ s = -1) ∧ 0 ≤ s * z := by
    rcases le_total 0 z with h | h
    · exact ⟨1, .inl rfl, by omega⟩
    · exact ⟨-1, .inr rfl, by omega⟩
  have hsz' : 0 ≤ (s : ℚ) * z := by exact_mod_cast hsz
  have hsign : ∀ it ∈ fs, 0 ≤ (s : ℚ) * it.2 := by
    intro it hit
    obtain ⟨a, ha, hae⟩ := hshare it hit
    rw [hae, ← mul_assoc]
    exact mul_nonneg hsz' ha
  have hz1 : |z| + 1 < 2 ^ 53 := by
    have := abs_nonneg z
    have h1 : (1 : ℤ) ≤ k := by exact_mod_cast hk1
    nlinarith
  obtain ⟨out, hq, hout, ⟨fs', hperm, hrel⟩, hwhole⟩ := quantize_near hs fs hsign hlt
  refine ⟨out, by rw [quantize_exact hs fs hsign hlt hz1, hq], hout, ?_⟩
  -- each result is a whole number of the same sign
  have hy : ∀ o ∈ out, ∃ y : ℤ, o.2 = y ∧ 0 ≤ s * y := by
    intro o ho
    have h1 := hwhole o ho
    have h2 := whole_add_frac o.2
    rw [h1, add_zero] at h2
    refine ⟨wholePart o.2, h2.symm, ?_⟩
    obtain ⟨it, hit, _, h4⟩ := (forall₂_mem_right hrel) o ho
    have h5 := hsign it (hperm.mem_iff.1 hit)
    rw [← h2, abs_lt] at h4
    have h6 : (-1 : ℚ) < ((s * wholePart o.2 : ℤ) : ℚ) := by
      push_cast
      rcases hs with rfl | rfl
      · push_cast at h5 ⊢; linarith [h4.1]
      · push_cast at h5 ⊢; linarith [h4.2]
    have h7 : (-1 : ℤ) < s * wholePart o.2 := by exact_mod_cast h6
    omega
  -- none is larger than the sum
  have hbound : ∀ l : List (Nat × ℚ), (∀ o ∈ l, ∃ y : ℤ, o.2 = y ∧ 0 ≤ s * y) →
      0 ≤ (s : ℚ) * total l ∧ ∀ o ∈ l, (s : ℚ) * o.2 ≤ s * total l := by
    intro l
    induction l with
    | nil => intro _; exact ⟨by simp [total], by simp⟩
    | cons o l ih =>
      intro h
      obtain ⟨g1, g2⟩ := ih fun x hx => h x (by simp [hx])
      obtain ⟨y, hy1, hy2⟩ := h o (by simp)
      have e : total (o :: l) = o.2 + total l := by simp [total]
      have hy3 : 0 ≤ (s : ℚ) * o.2 := by rw [hy1]; exact_mod_cast hy2
      rw [e, mul_add]
      refine ⟨by linarith, ?_⟩
      intro x hx
      rcases List.mem_cons.1 hx with rfl | hx
      · linarith
      · linarith [g2 x hx]
  intro o ho
  obtain ⟨y, hy1, hy2⟩ := hy o ho
  have h3 := (hbound out hy).2 o ho
  rw [hout, hy1] at h3
  have h4 : s * y ≤ s * z := by exact_mod_cast h3
  refine ⟨y, hy1, ?_, ?_⟩
  · rcases hs with rfl | rfl
    · exact mul_nonneg (by omega) (by omega)
    · exact mul_nonneg_of_nonpos_of_nonpos (by omega) (by omega)
  · rcases hs with rfl | rfl
    · rw [abs_of_nonneg (by omega), abs_of_nonneg (by omega)]; omega
    · rw [abs_of_nonpos (by omega), abs_of_nonpos (by omega)]; omega

theorem row_whole {n : ℕ} {maps : Nat → List (Nat × ℚ)} (hg : GoodLink n maps) (i : Nat) (z : ℤ)
    (hn : n + 2 ≤ 2 ^ 52) (hz : ((n : ℤ) + 2) * |z| < 2 ^ 52) :
    ∃ out, translateRow maps true (i, (z : ℚ)) = .ok out ∧ total out = z ∧
      ∀ o ∈ out, ∃ y : ℤ, o.2 = y ∧ 0 ≤ z * y ∧ |y| ≤ |z| := by
  unfold translateRow
  dsimp only
  by_cases h0 : i = 0
  · rw [if_pos h0]
    refine ⟨_, rfl, by simp [total], ?_⟩
    intro o ho
    rw [List.mem_singleton.1 ho]
    exact ⟨z, rfl, mul_self_nonneg z, le_refl _⟩
  · rw [if_neg h0, if_pos rfl]
    obtain ⟨h1, h2, h3⟩ := hg i h0
    refine quantize_whole (k := n + 2) (fs := rawParts (maps i) z) (parts := exactParts (maps i) z)
      ((rawParts_near (maps i) h3 z).imp fun _ _ h => h.2.mono (by omega)) (exact_share _ h3 _) (exact_total _ h1 _) hn
      (by omega) (by push_cast; exact hz)

theorem along_whole {n : ℕ} {b : ℤ} (hn : n + 2 ≤ 2 ^ 52) (hb : ((n : ℤ) + 2) * b < 2 ^ 52)
    (links : List (Nat → List (Nat × ℚ))) : (∀ l ∈ links, GoodLink n l) →
    ∀ rows : List (Nat × ℚ), (∀ r ∈ rows, ∃ y : ℤ, r.2 = y ∧ |y| ≤ b) →
    ∃ out, translateAlong true links rows = .ok out ∧ total out = total rows ∧
      ∀ o ∈ out, ∃ y : ℤ, o.2 = y ∧ |y| ≤ b := by
  induction links with
  | nil => intro _ rows hr; exact ⟨rows, rfl, rfl, hr⟩
  | cons l links ih =>
    intro hg rows hr
    have hstep : ∃ o, flatMapE (translateRow l true) rows = .ok o ∧ total o = total rows ∧
        ∀ x ∈ o, ∃ y : ℤ, x.2 = y ∧ |y| ≤ b := by
      clear ih
      induction rows with
      | nil => exact ⟨[], rfl, rfl, by simp⟩
      | cons r rows ih =>
        obtain ⟨o2, g1, g2, g3⟩ := ih fun x hx => hr x (by simp [hx])
        obtain ⟨z, hz, hzb⟩ := hr r (by simp)
        obtain ⟨o1, h1, h2, h3⟩ := row_whole (hg l (by simp)) r.1 z hn (by nlinarith)
        rw [← hz] at h1 h2
        refine ⟨o1 ++ o2, ?_, ?_, ?_⟩
        · unfold flatMapE
          rw [show translateRow l true r = .ok o1 from h1, g1]
          rfl
        · have e1 : total (o1 ++ o2) = total o1 + total o2 := by simp [total]
          have e2 : total (r :: rows) = r.2 + total rows := by simp [total]
          rw [e1, e2, h2, g2]
        · intro x hx
          rcases List.mem_append.1 hx with hx | hx
          · obtain ⟨y, hy, _, hyz⟩ := h3 x hx
            exact ⟨y, hy, hyz.trans hzb⟩
          · exact g3 x hx
    obtain ⟨o, h1, h2, h3⟩ := hstep
    obtain ⟨out, g1, g2, g3⟩ := ih (fun x hx => hg x (by simp [hx])) o h3
    refine ⟨out, ?_, g2.trans h2, g3⟩
    unfold translateAlong
    rw [h1]
    exact g1

end Toron.Binary
