/-
Lemmas about the fairness of rounding to whole numbers.
-/
import Verif.Lemmas.BinaryQuantize
import Mathlib.Data.List.Pairwise

namespace Toron
open Toron.Spec

/-- What is added to the whole parts, in the order of the sorted items. -/
structure Bonus (srt : List QItem) (s : ℚ) (out : List (Nat × ℚ)) (l : List (QItem × ℚ)) : Prop where
  items : l.map (·.1) = srt
  out : out = l.map fun e => (e.1.id, (e.1.whole : ℚ) + s * e.2)
  desc : l.Pairwise fun a b => b.2 ≤ a.2
  range : ∀ e ∈ l, 0 ≤ e.2 ∧ e.2 ≤ 1

theorem bonus_whole (srt : List QItem) (s : ℚ) (n : Nat) : ∃ l, Bonus srt s
    ((srt.take n).map (fun x => (x.id, (x.whole : ℚ) + s)) ++ (srt.drop n).map fun x => (x.id, (x.whole : ℚ))) l := by
  refine ⟨(srt.take n).map (fun x => (x, 1)) ++ (srt.drop n).map fun x => (x, 0), ?_, ?_, ?_, ?_⟩
  · rw [List.map_append, List.map_map, List.map_map]
    change (srt.take n).map id ++ (srt.drop n).map id = _
    rw [List.map_id, List.map_id, List.take_append_drop]
  · rw [List.map_append, List.map_map, List.map_map]
    congr 1
    · exact List.map_congr_left fun x _ => by simp
    · exact List.map_congr_left fun x _ => by simp
  · rw [List.pairwise_append]
    refine ⟨?_, ?_, ?_⟩
    · exact List.pairwise_map.2 (List.pairwise_of_forall (by simp))
    · exact List.pairwise_map.2 (List.pairwise_of_forall (by simp))
    · intro a ha b hb
      obtain ⟨_, _, rfl⟩ := List.mem_map.1 ha
      obtain ⟨_, _, rfl⟩ := List.mem_map.1 hb
      norm_num
  · intro e he
    rcases List.mem_append.1 he with he | he <;> obtain ⟨_, _, rfl⟩ := List.mem_map.1 he <;> norm_num

theorem bonus_rest (srt : List QItem) (s f : ℚ) (hf : 0 ≤ f ∧ f ≤ 1) (n : Nat) {x : QItem} {xs : List QItem}
    (hd : srt.drop n = x :: xs) : ∃ l, Bonus srt s
    ((srt.take n).map (fun x => (x.id, (x.whole : ℚ) + s)) ++ (x.id, (x.whole : ℚ) + s * f) ::
      xs.map fun x => (x.id, (x.whole : ℚ))) l := by
  refine ⟨(srt.take n).map (fun x => (x, 1)) ++ (x, f) :: xs.map fun x => (x, 0), ?_, ?_, ?_, ?_⟩
  · rw [List.map_append, List.map_cons, List.map_map, List.map_map]
    change (srt.take n).map id ++ x :: xs.map id = _
    rw [List.map_id, List.map_id, ← hd, List.take_append_drop]
  · rw [List.map_append, List.map_cons, List.map_map, List.map_map]
    congr 1
    · exact List.map_congr_left fun x _ => by simp
    · congr 1
      exact List.map_congr_left fun x _ => by simp
  · rw [List.pairwise_append]
    refine ⟨?_, ?_, ?_⟩
    · exact List.pairwise_map.2 (List.pairwise_of_forall (by simp))
    · rw [List.pairwise_cons]
      refine ⟨?_, List.pairwise_map.2 (List.pairwise_of_forall (by simp))⟩
      intro e he
      obtain ⟨_, _, rfl⟩ := List.mem_map.1 he
      exact hf.1
    · intro a ha b hb
      obtain ⟨_, _, rfl⟩ := List.mem_map.1 ha
      rcases List.mem_cons.1 hb with rfl | hb
      · exact hf.2
      · obtain ⟨_, _, rfl⟩ := List.mem_map.1 hb
        norm_num
  · intro e he
    rcases List.mem_append.1 he with he | he
    · obtain ⟨_, _, rfl⟩ := List.mem_map.1 he
      norm_num
    · rcases List.mem_cons.1 he with rfl | he
      · exact hf
      · obtain ⟨_, _, rfl⟩ := List.mem_map.1 he
        norm_num

/-- The larger of two items does not get less. -/
theorem bonus_order {items : List (Nat × ℚ)} (hnd : (items.map (·.1)).Nodup) {s : ℤ} (hs : s = 1 ∨ s = -1)
    (hsign : ∀ it ∈ items, 0 ≤ (s : ℚ) * it.2) {out : List (Nat × ℚ)} {l : List (QItem × ℚ)}
    (hb : Bonus (sortedBy qKeyLe (items.map mkQItem)) s out l) :
    (∀ i x j y a b, (i, x) ∈ items → (j, y) ∈ items → (i, a) ∈ out → (j, b) ∈ out → |x| < |y| → |a| ≤ |b|) ∧
    (∀ i x a, (i, x) ∈ items → (i, a) ∈ out → ((⌊|x|⌋ : ℤ) : ℚ) ≤ |a| ∧ |a| ≤ ⌊|x|⌋ + 1) := by
  have hs' : (s : ℚ) = 1 ∨ (s : ℚ) = -1 := by
    rcases hs with rfl | rfl
    · exact .inl (by norm_num)
    · exact .inr (by norm_num)
  -- the entry of an item
  have hentry : ∀ i x a, (i, x) ∈ items → (i, a) ∈ out → ∃ e ∈ l, e.1 = mkQItem (i, x) ∧ a = (wholePart x : ℚ) + s * e.2 := by
    intro i x a hx ha
    rw [hb.out] at ha
    obtain ⟨e, he, hea⟩ := List.mem_map.1 ha
    injection hea with h1 h2
    have hmem : e.1 ∈ sortedBy qKeyLe (items.map mkQItem) := by
      rw [← hb.items]
      exact List.mem_map_of_mem he
    obtain ⟨it, hit, hite⟩ := List.mem_map.1 ((sortedBy_perm qKeyLe _).mem_iff.1 hmem)
    have hid : it.1 = i := by rw [← h1, ← hite]; rfl
    have hit2 : it = (i, x) := List.inj_on_of_nodup_map hnd hit hx hid
    refine ⟨e, he, by rw [← hite, hit2], ?_⟩
    rw [← h2, ← hite, hit2]
    rfl
  have habsx : ∀ i x, (i, x) ∈ items → |x| = (s : ℚ) * x ∧ ((⌊|x|⌋ : ℤ) : ℚ) = (s : ℚ) * wholePart x ∧
      |fracPart x| = |x| - ⌊|x|⌋ ∧ 0 ≤ (s : ℚ) * wholePart x := by
    intro i x hx
    have h0 := hsign (i, x) hx
    have h1 : |x| = (s : ℚ) * x := by
      rcases hs' with h | h <;> rw [h] at h0 ⊢
      · rw [one_mul] at h0 ⊢; exact abs_of_nonneg h0
      · rw [neg_one_mul] at h0 ⊢; exact abs_of_nonpos (by linarith)
    have h2 : (⌊|x|⌋ : ℤ) = s * wholePart x := by
      rcases hs with rfl | rfl
      · rw [h1]
        push_cast at h0 ⊢
        rw [one_mul] at h0 ⊢
        unfold wholePart
        rw [if_pos h0, one_mul]
      · rw [h1]
        push_cast at h0 ⊢
        rw [neg_one_mul] at h0 ⊢
        have h3 := wholePart_neg x
        unfold wholePart at h3
        rw [if_pos h0] at h3
        rw [h3]
        unfold wholePart
        ring
    have h2' : ((⌊|x|⌋ : ℤ) : ℚ) = (s : ℚ) * wholePart x := by rw [h2]; push_cast; rfl
    have h3 := whole_add_frac x
    refine ⟨h1, h2', ?_, ?_⟩
    · rw [h2', h1, Binary.abs_frac hs' h0, ← mul_sub]
      congr 1
    · rw [← h2']
      exact_mod_cast Int.floor_nonneg.2 (abs_nonneg x)
  have habsa : ∀ i x a, (i, x) ∈ items → ∀ c : ℚ, 0 ≤ c → a = (wholePart x : ℚ) + s * c → |a| = ⌊|x|⌋ + c := by
    intro i x a hx c hc ha
    obtain ⟨_, h2, _, h4⟩ := habsx i x hx
    have e : a = s * (s * wholePart x + c) := by
      rw [ha]
      rcases hs' with h | h <;> rw [h] <;> ring
    rw [e, abs_mul, abs_of_nonneg (a := (s : ℚ) * wholePart x + c) (by linarith), h2]
    rcases hs' with h | h <;> rw [h] <;> norm_num
  constructor
  · intro i x j y a b hx hy ha hbm hlt
    obtain ⟨e1, he1, hq1, ha1⟩ := hentry i x a hx ha
    obtain ⟨e2, he2, hq2, hb2⟩ := hentry j y b hy hbm
    have r1 := hb.range e1 he1
    have r2 := hb.range e2 he2
    rw [habsa i x a hx _ r1.1 ha1, habsa j y b hy _ r2.1 hb2]
    have hfl : ⌊|x|⌋ ≤ ⌊|y|⌋ := Int.floor_le_floor hlt.le
    rcases hfl.lt_or_eq with h | h
    · have : ((⌊|x|⌋ : ℤ) : ℚ) + 1 ≤ ⌊|y|⌋ := by exact_mod_cast h
      linarith
    · have hfrac : |e1.1.frac| < |e2.1.frac| := by
        rw [hq1, hq2]
        change |fracPart x| < |fracPart y|
        rw [(habsx i x hx).2.2.1, (habsx j y hy).2.2.1, h]
        linarith
      -- the order of the entries
      have hpair : l.Pairwise fun a b : QItem × ℚ => |b.1.frac| ≤ |a.1.frac| := by
        have := sorted_desc (items.map mkQItem)
        rw [← hb.items, List.pairwise_map] at this
        exact this
      have hall : ∀ p ∈ l, ∀ q ∈ l, (|p.1.frac| < |q.1.frac| → p.2 ≤ q.2) ∧ (|q.1.frac| < |p.1.frac| → q.2 ≤ p.2) := by
        have hsymm : Std.Symm fun p q : QItem × ℚ => (|p.1.frac| < |q.1.frac| → p.2 ≤ q.2) ∧
          (|q.1.frac| < |p.1.frac| → q.2 ≤ p.2) := ⟨fun p q h => ⟨h.2, h.1⟩⟩
        refine List.Pairwise.forall_of_forall (R := fun p q : QItem × ℚ => (|p.1.frac| < |q.1.frac| → p.2 ≤ q.2) ∧
          (|q.1.frac| < |p.1.frac| → q.2 ≤ p.2)) ?_ ?_
        · intro p _; exact ⟨fun _ => le_refl _, fun _ => le_refl _⟩
        · refine (hpair.and hb.desc).imp ?_
          intro p q hpq
          exact ⟨fun hh => absurd hh (not_lt.2 hpq.1), fun _ => hpq.2⟩
      have := (hall e1 he1 e2 he2).1 hfrac
      rw [h]
      linarith
  · intro i x a hx ha
    obtain ⟨e1, he1, _, ha1⟩ := hentry i x a hx ha
    have r1 := hb.range e1 he1
    rw [habsa i x a hx _ r1.1 ha1]
    constructor <;> linarith

/-- Rounding items of one sign adds a bonus to the whole parts. -/
theorem quantize_bonus {items : List (Nat × ℚ)} {s : ℤ} (hs : s = 1 ∨ s = -1)
    (hsign : ∀ it ∈ items, 0 ≤ (s : ℚ) * it.2) {out : List (Nat × ℚ)}
    (h : quantizeValues items (total items) = .ok out) :
    ∃ l, Bonus (sortedBy qKeyLe (items.map mkQItem)) s out l := by
  have hs' : (s : ℚ) = 1 ∨ (s : ℚ) = -1 := by
    rcases hs with rfl | rfl
    · exact .inl (by norm_num)
    · exact .inr (by norm_num)
  unfold quantizeValues at h
  set tot := total items with htot
  set ifw := items.map mkQItem with hifw
  set S : ℚ := (ifw.map fun x => (x.whole : ℚ)).sum with hSdef
  set R := tot - S with hRdef
  obtain ⟨hRnn, -, hnle, -⟩ := remainder_facts items s hs' hsign R (by rw [hRdef])
  set n := (wholePart R).natAbs with hn
  set srt := sortedBy qKeyLe ifw with hsrt
  have hinc : n ≠ 0 → increment tot = s := by
    intro hn0
    have hnpos : (0 : ℚ) < n := by exact_mod_cast Nat.pos_of_ne_zero hn0
    have hstot : (s : ℚ) * tot = s * S + s * R := by rw [hRdef]; ring
    have hsS : 0 ≤ (s : ℚ) * S := by
      rw [hSdef, ← List.sum_map_mul_left]
      apply List.sum_nonneg
      intro x hx
      obtain ⟨y, hy, rfl⟩ := List.mem_map.1 hx
      obtain ⟨it, hit, rfl⟩ := List.mem_map.1 hy
      have h := hsign it hit
      simp only [mkQItem]
      rcases hs' with e | e <;> rw [e] at h ⊢
      · have := wholePart_nonneg (q := it.2) (by linarith)
        have : (0 : ℚ) ≤ wholePart it.2 := by exact_mod_cast this
        linarith
      · have := wholePart_nonpos (q := it.2) (by linarith)
        have : (wholePart it.2 : ℚ) ≤ 0 := by exact_mod_cast this
        linarith
    have hpos : 0 < (s : ℚ) * tot := by linarith
    unfold increment
    rcases hs' with e | e <;> rw [e] at hpos ⊢
    · rw [if_neg (by linarith)]
    · rw [if_pos (by linarith)]
  have hfirst : (srt.take n).map (fun x => (x.id, (x.whole : ℚ) + increment tot)) =
      (srt.take n).map fun x => (x.id, (x.whole : ℚ) + s) := by
    by_cases hn0 : n = 0
    · rw [hn0]; rfl
    · rw [hinc hn0]
  dsimp only at h
  rw [hfirst] at h
  by_cases hf : fracPart R ≠ 0
  · rw [if_pos hf] at h
    cases hd : srt.drop n with
    | nil => rw [hd] at h; cases h
    | cons x xs =>
      rw [hd] at h
      injection h with h
      have hfr : 0 ≤ (s : ℚ) * fracPart R ∧ (s : ℚ) * fracPart R ≤ 1 := by
        rcases hs' with e | e <;> rw [e] at hRnn ⊢
        · have := fracPart_nonneg (q := R) (by linarith)
          constructor <;> linarith
        · have := fracPart_nonpos (q := R) (by linarith)
          constructor <;> linarith
      obtain ⟨l, hl⟩ := bonus_rest srt s _ hfr n hd
      refine ⟨l, ?_⟩
      have e : (s : ℚ) * (s * fracPart R) = fracPart R := by
        rcases hs' with e | e <;> rw [e] <;> ring
      rw [e, h] at hl
      exact hl
  · rw [if_neg hf] at h
    injection h with h
    obtain ⟨l, hl⟩ := bonus_whole srt s n
    rw [h] at hl
    exact ⟨l, hl⟩

end Toron
