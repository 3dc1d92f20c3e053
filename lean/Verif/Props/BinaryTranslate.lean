/-
C107: translating quantities with floating-point numbers, from one dataspace to the next.
-/
import Verif.Lemmas.BinaryTranslate
import Verif.Props.Binary

namespace Toron.Binary
open Toron.Spec

/-- C107, each part. With floating-point numbers a quantity is translated to the same records as with exact numbers, and
each part differs from the exact one by no more than the fraction `(n + 2) / 2 ^ 52` of it, for `n` mappings. -/
theorem C107_part (maps : Nat → List (Nat × ℚ)) (i : Nat) (hi : i ≠ 0) (hm : ∀ m ∈ maps i, 0 ≤ m.2)
    (hn : (maps i).length + 2 ≤ 2 ^ 52) (v : ℚ) :
    ∃ out, translateRow maps false (i, v) = .ok out ∧
      List.Forall₂ (fun o p => o.1 = p.1 ∧ |o.2 - p.2| ≤ (((maps i).length : ℚ) + 2) / 2 ^ 52 * |p.2|) out
        (exactParts (maps i) v) := by
  refine ⟨rawParts (maps i) v, ?_, (rawParts_near (maps i) hm v).imp fun o p h => ⟨h.1, ?_⟩⟩
  · unfold translateRow
    rw [if_neg hi]
    rfl
  · have := h.2.abs_sub hn
    push_cast at this
    exact this

/-- C107, totals. Quantities that are translated along `k` links, with at most `n` mappings for each record, keep their
total but for the fraction `k * (n + 2) / 2 ^ 52` of the sum of their absolute values. -/
theorem C107_along (n : ℕ) (links : List (Nat → List (Nat × ℚ))) (hg : ∀ l ∈ links, GoodLink n l)
    (hk : links.length * (n + 2) ≤ 2 ^ 52) (rows : List (Nat × ℚ)) :
    ∃ out, translateAlong false links rows = .ok out ∧
      |total out - total rows| ≤ (links.length : ℚ) * (n + 2) / 2 ^ 52 * absTotal rows := by
  induction rows with
  | nil =>
    obtain ⟨out, h1, h2⟩ := along_near (v := 0) links hg [] (by simp)
    refine ⟨out, h1, ?_⟩
    have := h2.abs_sub hk
    simpa [absTotal, total] using this
  | cons r rows ih =>
    obtain ⟨o2, g1, g2⟩ := ih
    obtain ⟨o1, h1, h2⟩ := along_near (v := r.2) links hg [r] (by
      intro x hx
      rw [List.mem_singleton.1 hx]
      exact ⟨1, by norm_num, by ring⟩)
    refine ⟨o1 ++ o2, along_append false links [r] rows o1 o2 h1 g1, ?_⟩
    have h3 := h2.abs_sub hk
    have e0 : total [r] = r.2 := by simp [total]
    have e1 : total (o1 ++ o2) = total o1 + total o2 := by simp [total]
    have e2 : total (r :: rows) = r.2 + total rows := by simp [total]
    have e3 : absTotal (r :: rows) = |r.2| + absTotal rows := by simp [absTotal]
    rw [e0] at h3
    push_cast at h3
    rw [e1, e2, e3, mul_add, show total o1 + total o2 - (r.2 + total rows) = (total o1 - r.2) + (total o2 - total rows) by
      ring]
    exact (abs_add_le _ _).trans (add_le_add h3 g2)

/-- C107, whole numbers. Whole numbers that are translated along any number of links with rounding to whole numbers
remain whole numbers and keep their total, exactly, if `(n + 2) * |z| < 2 ^ 52` for each of them, with at most `n`
mappings for each record. -/
theorem C107_whole (n : ℕ) (hn : n + 2 ≤ 2 ^ 52) (links : List (Nat → List (Nat × ℚ))) (hg : ∀ l ∈ links, GoodLink n l)
    (rows : List (Nat × ℤ)) (hz : ∀ r ∈ rows, ((n : ℤ) + 2) * |r.2| < 2 ^ 52) :
    ∃ out : List (Nat × ℤ), translateAlong true links (rows.map fun r => (r.1, (r.2 : ℚ))) =
        .ok (out.map fun r => (r.1, (r.2 : ℚ))) ∧
      (out.map (·.2)).sum = (rows.map (·.2)).sum := by
  -- the largest of the numbers
  obtain ⟨b, hb, hle⟩ : ∃ b : ℤ, ((n : ℤ) + 2) * b < 2 ^ 52 ∧ ∀ r ∈ rows, |r.2| ≤ b := by
    clear hg
    induction rows with
    | nil => exact ⟨0, by norm_num, by simp⟩
    | cons r rows ih =>
      obtain ⟨b, hb, hle⟩ := ih fun x hx => hz x (by simp [hx])
      rcases le_total |r.2| b with h | h
      · refine ⟨b, hb, fun x hx => ?_⟩
        rcases List.mem_cons.1 hx with rfl | hx
        · exact h
        · exact hle x hx
      · refine ⟨|r.2|, hz r (by simp), fun x hx => ?_⟩
        rcases List.mem_cons.1 hx with rfl | hx
        · exact le_refl _
        · exact (hle x hx).trans h
  obtain ⟨out, h1, h2, h3⟩ := along_whole hn hb links hg (rows.map fun r => (r.1, (r.2 : ℚ))) (by
    intro r hr
    obtain ⟨x, hx, rfl⟩ := List.mem_map.1 hr
    exact ⟨x.2, rfl, hle x hx⟩)
  have hout : (out.map fun r => (r.1, wholePart r.2)).map (fun r => (r.1, (r.2 : ℚ))) = out := by
    rw [List.map_map]
    conv_rhs => rw [← List.map_id out]
    refine List.map_congr_left fun o ho => ?_
    obtain ⟨y, hy, _⟩ := h3 o ho
    dsimp only [Function.comp, id]
    rw [hy, wholePart_int, ← hy]
  refine ⟨out.map fun r => (r.1, wholePart r.2), by rw [hout]; exact h1, ?_⟩
  have e : ∀ l : List (Nat × ℤ), total (l.map fun r => (r.1, (r.2 : ℚ))) = (((l.map (·.2)).sum : ℤ) : ℚ) := by
    intro l
    induction l with
    | nil => simp [total]
    | cons r l ih =>
      have e1 : ∀ (p : Nat × ℚ) l, total (p :: l) = p.2 + total l := by intro p l; simp [total]
      rw [List.map_cons, e1, ih, List.map_cons, List.sum_cons]
      push_cast
      rfl
  rw [e, ← hout, e] at h2
  exact_mod_cast h2

/-! Examples and the exceptions -/

/-- Every record is mapped to the next two, with the values 5 and 9. -/
def Demo.link (i : Nat) : List (Nat × ℚ) := [(i + 1, 5), (i + 2, 9)]

theorem Demo.good : GoodLink 2 Demo.link := by
  intro i _
  refine ⟨by simp [Demo.link], by simp [Demo.link], ?_⟩
  intro m hm
  simp only [Demo.link, List.mem_cons, List.not_mem_nil, or_false] at hm
  rcases hm with rfl | rfl <;> norm_num

example : ∀ l ∈ [Demo.link, Demo.link], GoodLink 2 l := by
  intro l hl
  simp only [List.mem_cons, List.not_mem_nil, or_false, or_self] at hl
  rw [hl]
  exact Demo.good

example : [Demo.link, Demo.link].length * (2 + 2) ≤ 2 ^ 52 ∧
    ∀ r ∈ ([(1, 20), (2, -7), (0, 3)] : List (Nat × ℤ)), (((2 : ℕ) : ℤ) + 2) * |r.2| < 2 ^ 52 := by
  constructor
  · norm_num
  · decide +kernel

example : (translateAlong true [Demo.link, Demo.link] [(1, 20), (2, -7), (0, 3)]).map total = .ok 16 := by decide +kernel

/-- C107 is violated without rounding to whole numbers: one, translated evenly to three records, gives parts that do not
add up to one. -/
theorem C107_violated_sum :
    ((translateAlong false [fun _ => [(1, 1), (2, 1), (3, 1)]] [(1, 1)]).map total).toOption ≠ some 1 := by
  decide +kernel

/-- C107 is violated for large numbers: `9007199254740949` (less than `2 ^ 53`), translated to three records with the
values 4, 2, 4 and rounded to whole numbers, becomes two more. -/
theorem C107_violated_large :
    ((translateAlong true [fun _ => [(1, 4), (2, 2), (3, 4)]] [(1, 9007199254740949)]).map total).toOption =
      some 9007199254740951 := by
  decide +kernel

/-- C107 is violated for numbers that are not whole: `6.000000000000001` (the next float after 6), translated evenly to
six records and rounded to whole numbers, fails, if the value of each mapping is 4.1. -/
theorem C107_violated_fraction :
    let v : ℚ := 6 + 1 / 2 ^ 50
    fl v = v ∧
    (translateAlong true [fun _ => [1, 2, 3, 4, 5, 6].map fun i => (i, fl 4.1)] [(1, v)]).toOption = none := by
  decide +kernel

end Toron.Binary
