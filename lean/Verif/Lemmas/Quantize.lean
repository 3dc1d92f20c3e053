import Verif.Model.Quantize
import Verif.Lemmas.Hashing
import Verif.Lemmas.Py
import Verif.Spec.Sums
import Mathlib.Tactic.Linarith
import Mathlib.Tactic.Ring
import Mathlib.Tactic.Positivity
import Mathlib.Algebra.Order.BigOperators.Group.List
import Mathlib.Algebra.BigOperators.Ring.List

namespace Toron
open Toron.Spec

theorem fracPart_nonneg {q : ℚ} (h : 0 ≤ q) : 0 ≤ fracPart q ∧ fracPart q < 1 := by
  unfold fracPart wholePart
  rw [if_pos h]
  have h1 := Int.floor_le q
  have h2 := Int.lt_floor_add_one q
  constructor <;> linarith

theorem fracPart_nonpos {q : ℚ} (h : q ≤ 0) : fracPart q ≤ 0 ∧ -1 < fracPart q := by
  rcases h.eq_or_lt with rfl | h
  · simp [fracPart, wholePart]
  · unfold fracPart wholePart
    rw [if_neg (not_le.2 h)]
    have h1 := Int.le_ceil q
    have h2 := Int.ceil_lt_add_one q
    constructor <;> linarith

theorem wholePart_nonneg {q : ℚ} (h : 0 ≤ q) : 0 ≤ wholePart q := by
  unfold wholePart; rw [if_pos h]; exact Int.floor_nonneg.2 h

theorem wholePart_nonpos {q : ℚ} (h : q ≤ 0) : wholePart q ≤ 0 := by
  rcases h.eq_or_lt with rfl | h
  · simp [wholePart]
  · unfold wholePart; rw [if_neg (not_le.2 h)]
    exact Int.ceil_le.2 (by simpa using h.le)

theorem whole_add_frac (q : ℚ) : (wholePart q : ℚ) + fracPart q = q := by
  unfold fracPart; ring

theorem wholePart_neg (q : ℚ) : wholePart (-q) = - wholePart q := by
  unfold wholePart
  rcases lt_trichotomy q 0 with h | rfl | h
  · rw [if_pos (by linarith), if_neg (by linarith)]; exact Int.floor_neg
  · simp
  · rw [if_neg (by linarith), if_pos h.le]; exact Int.ceil_neg

theorem fracPart_neg (q : ℚ) : fracPart (-q) = - fracPart q := by
  unfold fracPart; rw [wholePart_neg]; push_cast; ring

theorem fracPart_lt_one (q : ℚ) : |fracPart q| < 1 := by
  rcases le_total 0 q with h | h
  · have := fracPart_nonneg h; rw [abs_lt]; constructor <;> linarith
  · have := fracPart_nonpos h; rw [abs_lt]; constructor <;> linarith

/-! ### Sum accounting -/

theorem sum_map_add {α : Type} (l : List α) (f g : α → ℚ) :
    (l.map fun x => f x + g x).sum = (l.map f).sum + (l.map g).sum := by
  induction l with
  | nil => simp
  | cons a l ih => simp only [List.map_cons, List.sum_cons, ih]; ring

theorem sum_map_const {α : Type} (l : List α) (c : ℚ) : (l.map fun _ => c).sum = l.length * c := by
  induction l with
  | nil => simp
  | cons a l ih => simp only [List.map_cons, List.sum_cons, ih, List.length_cons]; push_cast; ring

/-- What `quantizeValues` adds up to, in terms of the number of items it increments. -/
theorem quantize_total (items : List (Nat × ℚ)) (tot : ℚ) (out : List (Nat × ℚ))
    (h : quantizeValues items tot = .ok out)
    (hn : (wholePart (tot - ((items.map mkQItem).map fun x => (x.whole : ℚ)).sum)).natAbs ≤ items.length)
    (hsign : (((wholePart (tot - ((items.map mkQItem).map fun x => (x.whole : ℚ)).sum)).natAbs : ℕ) : ℚ) * increment tot
      = wholePart (tot - ((items.map mkQItem).map fun x => (x.whole : ℚ)).sum)) :
    total out = tot := by
  unfold quantizeValues at h
  set ifw := items.map mkQItem with hifw
  set S : ℚ := (ifw.map fun x => (x.whole : ℚ)).sum with hS
  set R := tot - S with hR
  set n := (wholePart R).natAbs with hndef
  simp only at h
  have hperm := sortedBy_perm qKeyLe ifw
  set srt := sortedBy qKeyLe ifw with hsrt
  have hlen : srt.length = items.length := by rw [hperm.length_eq, hifw]; simp
  have hsumS : (srt.map fun x => (x.whole : ℚ)).sum = S := (hperm.map _).sum_eq
  have hsplit : ((srt.take n).map fun x => (x.whole : ℚ)).sum
      + ((srt.drop n).map fun x => (x.whole : ℚ)).sum = S := by
    rw [← hsumS, ← List.sum_append, ← List.map_append, List.take_append_drop]
  have htake : (srt.take n).length = n := by rw [List.length_take, hlen]; omega
  have hfirst : total ((srt.take n).map fun x => (x.id, (x.whole : ℚ) + increment tot))
      = ((srt.take n).map fun x => (x.whole : ℚ)).sum + n * increment tot := by
    unfold total
    rw [List.map_map]
    show ((srt.take n).map fun x => (x.whole : ℚ) + increment tot).sum = _
    rw [sum_map_add, sum_map_const, htake]
  have happ : ∀ a b : List (Nat × ℚ), total (a ++ b) = total a + total b := by
    intro a b; simp [total]
  have hrest : ∀ l : List QItem, total (l.map fun x => (x.id, (x.whole : ℚ)))
      = (l.map fun x => (x.whole : ℚ)).sum := by
    intro l; simp only [total, List.map_map]; rfl
  have hRw := whole_add_frac R
  split at h
  · rename_i hf
    revert h hsplit
    cases hd : srt.drop n with
    | nil => intro _ h; simp at h
    | cons x xs =>
      intro hsplit h
      simp only [Except.ok.injEq] at h
      rw [← h, happ, hfirst]
      have : ∀ (p : Nat × ℚ) (l : List (Nat × ℚ)), total (p :: l) = p.2 + total l := by
        intro p l; simp [total]
      rw [this, hrest]
      simp only [List.map_cons, List.sum_cons] at hsplit
      simp only
      rw [hsign]
      linarith
  · rename_i hf
    have hf : fracPart R = 0 := by simpa using hf
    simp only [Except.ok.injEq] at h
    rw [← h, happ, hfirst, hrest, hsign]
    linarith

/-! ### Items of one sign -/

/-- Number of items with a fractional part. -/
def fracCount (l : List QItem) : Nat := l.countP fun x => decide (x.frac ≠ 0)

theorem sum_abs_le_count (l : List QItem) (h : ∀ x ∈ l, |x.frac| < 1) :
    (l.map fun x => |x.frac|).sum ≤ fracCount l ∧
      (0 < fracCount l → (l.map fun x => |x.frac|).sum < fracCount l) := by
  induction l with
  | nil => simp [fracCount]
  | cons a l ih =>
    obtain ⟨h1, h2⟩ := ih (fun x hx => h x (by simp [hx]))
    have ha := h a (by simp)
    simp only [List.map_cons, List.sum_cons]
    by_cases hz : a.frac = 0
    · have : fracCount (a :: l) = fracCount l := by simp [fracCount, hz]
      rw [this, hz]; simp only [abs_zero, zero_add]; exact ⟨h1, h2⟩
    · have : fracCount (a :: l) = fracCount l + 1 := by simp [fracCount, hz]
      rw [this]; push_cast
      exact ⟨by linarith, fun _ => by linarith⟩

theorem take_frac_ne_zero (l : List QItem) (hs : l.Pairwise fun a b => |b.frac| ≤ |a.frac|)
    (n : Nat) (hn : n ≤ fracCount l) : ∀ x ∈ l.take n, x.frac ≠ 0 := by
  induction l generalizing n with
  | nil => simp
  | cons a l ih =>
    rw [List.pairwise_cons] at hs
    cases n with
    | zero => simp
    | succ k =>
      by_cases hz : a.frac = 0
      · exfalso
        have h0 : fracCount (a :: l) = 0 := by
          unfold fracCount
          rw [List.countP_eq_zero]
          intro x hx
          rcases List.mem_cons.1 hx with rfl | hx
          · simp [hz]
          · have := hs.1 x hx
            rw [hz, abs_zero] at this
            have : x.frac = 0 := abs_eq_zero.1 (le_antisymm this (abs_nonneg _))
            simp [this]
        omega
      · have hc : fracCount (a :: l) = fracCount l + 1 := by simp [fracCount, hz]
        intro x hx
        simp only [List.take_succ_cons, List.mem_cons] at hx
        rcases hx with rfl | hx
        · exact hz
        · exact ih hs.2 k (by omega) x hx

theorem qKeyLe_trans (a b c : QItem) (h1 : qKeyLe a b) (h2 : qKeyLe b c) : qKeyLe a c := by
  simp only [qKeyLe, Bool.or_eq_true, decide_eq_true_eq, Bool.and_eq_true] at *
  rcases h1 with h1 | ⟨h1, h1'⟩ <;> rcases h2 with h2 | ⟨h2, h2'⟩
  · left; linarith
  · left; linarith
  · left; linarith
  · right; exact ⟨by linarith, by omega⟩

theorem qKeyLe_total (a b : QItem) : qKeyLe a b ∨ qKeyLe b a := by
  simp only [qKeyLe, Bool.or_eq_true, decide_eq_true_eq, Bool.and_eq_true]
  rcases lt_trichotomy (|a.frac|) (|b.frac|) with h | h | h
  · right; left; exact h
  · rcases Nat.le_total (splitmix64 a.id) (splitmix64 b.id) with h' | h'
    · left; right; exact ⟨h, h'⟩
    · right; right; exact ⟨h.symm, h'⟩
  · left; left; exact h

theorem sorted_desc (l : List QItem) :
    (sortedBy qKeyLe l).Pairwise fun a b => |b.frac| ≤ |a.frac| := by
  refine (sortedBy_pairwise qKeyLe qKeyLe_trans qKeyLe_total l).imp ?_
  intro a b h
  simp only [qKeyLe, Bool.or_eq_true, decide_eq_true_eq, Bool.and_eq_true] at h
  rcases h with h | ⟨h, _⟩ <;> linarith

/-- The item an entry was made from. -/
def QItem.orig (x : QItem) : Nat × ℚ := (x.id, (x.whole : ℚ) + x.frac)

theorem orig_mkQItem (it : Nat × ℚ) : (mkQItem it).orig = it := by
  simp [QItem.orig, mkQItem, whole_add_frac]

/-- Facts about the remainder when all items have the sign `s` and add up to `tot`. -/
theorem remainder_facts (items : List (Nat × ℚ)) (s : ℚ) (hs : s = 1 ∨ s = -1)
    (hitems : ∀ it ∈ items, 0 ≤ s * it.2) (R : ℚ)
    (hR : R = total items - ((items.map mkQItem).map fun x => (x.whole : ℚ)).sum) :
    0 ≤ s * R ∧ s * R = ((items.map mkQItem).map fun x => |x.frac|).sum ∧
      (((wholePart R).natAbs : ℕ) : ℚ) ≤ s * R ∧ (((wholePart R).natAbs : ℕ) : ℚ) * s = wholePart R := by
  have habs : ∀ it ∈ items, |fracPart it.2| = s * fracPart it.2 := by
    intro it hit
    have h := hitems it hit
    rcases hs with rfl | rfl
    · rw [abs_of_nonneg (fracPart_nonneg (by linarith)).1, one_mul]
    · rw [abs_of_nonpos (fracPart_nonpos (by linarith)).1]; ring
  have hsum : s * R = ((items.map mkQItem).map fun x => |x.frac|).sum := by
    rw [hR]
    clear hR hitems
    induction items with
    | nil => simp [total]
    | cons it items ih =>
      have ih := ih (fun x hx => habs x (by simp [hx]))
      have ha := habs it (by simp)
      simp only [total, List.map_cons, List.sum_cons, mkQItem] at *
      rw [ha, ← ih]
      have := whole_add_frac it.2
      have h2 : fracPart it.2 = it.2 - wholePart it.2 := rfl
      rw [h2]; ring
  have hnn : 0 ≤ s * R := by
    rw [hsum]
    apply List.sum_nonneg
    intro x hx
    obtain ⟨y, _, rfl⟩ := List.mem_map.1 hx
    exact abs_nonneg _
  refine ⟨hnn, hsum, ?_, ?_⟩
  · rcases hs with rfl | rfl
    · have h0 : 0 ≤ R := by linarith
      have hw := wholePart_nonneg h0
      have : (((wholePart R).natAbs : ℕ) : ℚ) = (wholePart R : ℚ) := by
        rw [← Int.cast_natCast, Int.natAbs_of_nonneg hw]
      rw [this]
      have := (fracPart_nonneg h0).1
      have := whole_add_frac R
      linarith
    · have h0 : R ≤ 0 := by linarith
      have hw := wholePart_nonpos h0
      have : (((wholePart R).natAbs : ℕ) : ℚ) = -(wholePart R : ℚ) := by
        rw [← Int.cast_natCast, Int.ofNat_natAbs_of_nonpos hw]; push_cast; ring
      rw [this]
      have := (fracPart_nonpos h0).1
      have := whole_add_frac R
      linarith
  · rcases hs with rfl | rfl
    · have hw := wholePart_nonneg (q := R) (by linarith)
      rw [mul_one, ← Int.cast_natCast, Int.natAbs_of_nonneg hw]
    · have hw := wholePart_nonpos (q := R) (by linarith)
      rw [← Int.cast_natCast, Int.ofNat_natAbs_of_nonpos hw]; push_cast; ring

theorem forall₂_map_same {α β γ : Type} (P : β → γ → Prop) (f : α → β) (g : α → γ) (l : List α)
    (h : ∀ x ∈ l, P (f x) (g x)) : List.Forall₂ P (l.map f) (l.map g) := by
  induction l with
  | nil => exact List.Forall₂.nil
  | cons a l ih =>
    exact List.Forall₂.cons (h a (by simp)) (ih (fun x hx => h x (by simp [hx])))

theorem forall₂_append {α β : Type} (P : α → β → Prop) (a a' : List α) (b b' : List β)
    (h : List.Forall₂ P a b) (h' : List.Forall₂ P a' b') : List.Forall₂ P (a ++ a') (b ++ b') := by
  induction h with
  | nil => exact h'
  | cons h1 _ ih => exact List.Forall₂.cons h1 ih

/-- Everything about quantizing items of one sign whose sum is the requested total. -/
theorem quantize_same_sign (items : List (Nat × ℚ)) (s : ℚ) (hs : s = 1 ∨ s = -1)
    (hitems : ∀ it ∈ items, 0 ≤ s * it.2) :
    ∃ out, quantizeValues items (total items) = .ok out ∧ total out = total items ∧
      (∃ items', items'.Perm items ∧
        List.Forall₂ (fun it o => it.1 = o.1 ∧ |o.2 - it.2| < 1) items' out) ∧
      (out.filter fun o => decide (fracPart o.2 ≠ 0)).length ≤ 1 ∧
      (fracPart (total items) = 0 → ∀ o ∈ out, fracPart o.2 = 0) := by
  set tot := total items with htot
  set ifw := items.map mkQItem with hifw
  set S : ℚ := (ifw.map fun x => (x.whole : ℚ)).sum with hSdef
  set R := tot - S with hRdef
  obtain ⟨hRnn, hRsum, hnle, hnsign⟩ := remainder_facts items s hs hitems R (by rw [hRdef])
  set n := (wholePart R).natAbs with hn
  set srt := sortedBy qKeyLe ifw with hsrt
  have hperm : srt.Perm ifw := sortedBy_perm _ _
  have hlen : srt.length = items.length := by rw [hperm.length_eq, hifw]; simp
  have hlt1 : ∀ x ∈ srt, |x.frac| < 1 := by
    intro x hx
    obtain ⟨it, _, rfl⟩ := List.mem_map.1 (hperm.mem_iff.1 hx)
    exact fracPart_lt_one _
  have hRsum' : s * R = (srt.map fun x => |x.frac|).sum := by
    rw [hRsum]; exact (hperm.map _).sum_eq.symm
  obtain ⟨hle, hlt⟩ := sum_abs_le_count srt hlt1
  have hcle : fracCount srt ≤ srt.length := List.countP_le_length
  have hn_le : n ≤ fracCount srt := by
    have : (n : ℚ) ≤ fracCount srt := by linarith
    exact_mod_cast this
  -- with a fractional remainder there is a further item with a fractional part
  have hn_lt : fracPart R ≠ 0 → n + 1 ≤ fracCount srt := by
    intro hf
    have hR0 : s * R ≠ 0 := by
      intro h0
      have : R = 0 := by rcases hs with rfl | rfl <;> linarith
      rw [this] at hf; simp [fracPart, wholePart] at hf
    have hpos : 0 < s * R := lt_of_le_of_ne hRnn (Ne.symm hR0)
    have hcpos : 0 < fracCount srt := by
      have : (0 : ℚ) < fracCount srt := by linarith
      exact_mod_cast this
    have : (n : ℚ) < fracCount srt := by have := hlt hcpos; linarith
    have : n < fracCount srt := by exact_mod_cast this
    omega
  -- the increment has the right sign whenever it is used
  have hinc : n ≠ 0 → increment tot = s := by
    intro hn0
    have hnpos : (0 : ℚ) < n := by exact_mod_cast Nat.pos_of_ne_zero hn0
    have hstot : s * tot = s * S + s * R := by rw [hRdef]; ring
    have hsS : 0 ≤ s * S := by
      rw [hSdef, ← List.sum_map_mul_left]
      apply List.sum_nonneg
      intro x hx
      obtain ⟨y, hy, rfl⟩ := List.mem_map.1 hx
      obtain ⟨it, hit, rfl⟩ := List.mem_map.1 hy
      have h := hitems it hit
      simp only [mkQItem]
      rcases hs with rfl | rfl
      · have := wholePart_nonneg (q := it.2) (by linarith)
        have : (0 : ℚ) ≤ wholePart it.2 := by exact_mod_cast this
        linarith
      · have := wholePart_nonpos (q := it.2) (by linarith)
        have : (wholePart it.2 : ℚ) ≤ 0 := by exact_mod_cast this
        linarith
    have hpos : 0 < s * tot := by linarith
    unfold increment
    rcases hs with rfl | rfl
    · rw [if_neg (by linarith)]
    · rw [if_pos (by linarith)]
  have hsign : (n : ℚ) * increment tot = wholePart R := by
    by_cases hn0 : n = 0
    · have : wholePart R = 0 := by rw [hn] at hn0; exact Int.natAbs_eq_zero.1 hn0
      rw [hn0, this]; simp
    · rw [hinc hn0]; exact hnsign
  have hfr : ∀ k, k ≤ fracCount srt → ∀ x ∈ srt.take k, x.frac ≠ 0 :=
    fun k hk => take_frac_ne_zero srt (sorted_desc ifw) k hk
  have hfracsign : ∀ x ∈ srt, 0 ≤ s * x.frac := by
    intro x hx
    obtain ⟨it, hit, rfl⟩ := List.mem_map.1 (hperm.mem_iff.1 hx)
    have h := hitems it hit
    simp only [mkQItem]
    rcases hs with rfl | rfl
    · have := (fracPart_nonneg (q := it.2) (by linarith)).1; linarith
    · have := (fracPart_nonpos (q := it.2) (by linarith)).1; linarith
  have hfirst : List.Forall₂ (fun it o => it.1 = o.1 ∧ |o.2 - it.2| < 1)
      ((srt.take n).map QItem.orig)
      ((srt.take n).map fun x => (x.id, (x.whole : ℚ) + increment tot)) := by
    apply forall₂_map_same
    intro x hx
    refine ⟨rfl, ?_⟩
    have hne := hfr n hn_le x hx
    have hxs := List.mem_of_mem_take hx
    have h1 := abs_lt.1 (hlt1 x hxs)
    have h2 := hfracsign x hxs
    have hn0 : n ≠ 0 := by rintro h0; rw [h0] at hx; simp at hx
    simp only [QItem.orig, hinc hn0]
    rw [abs_lt]
    rcases hs with rfl | rfl
    · have : 0 < x.frac := lt_of_le_of_ne (by linarith) (Ne.symm hne)
      constructor <;> linarith
    · have : x.frac < 0 := lt_of_le_of_ne (by linarith) hne
      constructor <;> linarith
  have hrestrel : ∀ l : List QItem, (∀ x ∈ l, x ∈ srt) →
      List.Forall₂ (fun it o => it.1 = o.1 ∧ |o.2 - it.2| < 1)
        (l.map QItem.orig) (l.map fun x => (x.id, (x.whole : ℚ))) := by
    intro l hl
    apply forall₂_map_same
    intro x hx
    refine ⟨rfl, ?_⟩
    simp only [QItem.orig]
    have := hlt1 x (hl x hx)
    rw [show (x.whole : ℚ) - (x.whole + x.frac) = -x.frac by ring, abs_neg]
    exact this
  have hitperm : (srt.map QItem.orig).Perm items := by
    refine (hperm.map _).trans ?_
    rw [hifw, List.map_map]
    have : (QItem.orig ∘ mkQItem) = id := by funext it; exact orig_mkQItem it
    rw [this, List.map_id]
  have hint : ∀ z : ℤ, fracPart (z : ℚ) = 0 := by
    intro z; unfold fracPart wholePart; split <;> simp
  have hincint : ∃ z : ℤ, increment tot = z := by
    unfold increment; split
    · exact ⟨-1, by simp⟩
    · exact ⟨1, by simp⟩
  obtain ⟨zi, hzi⟩ := hincint
  have hfirstint : ∀ o ∈ ((srt.take n).map fun x => (x.id, (x.whole : ℚ) + increment tot)),
      fracPart o.2 = 0 := by
    intro o ho
    obtain ⟨x, _, rfl⟩ := List.mem_map.1 ho
    simp only [hzi]
    have := hint (x.whole + zi)
    simpa using this
  have hrestint : ∀ l : List QItem, ∀ o ∈ (l.map fun x => (x.id, (x.whole : ℚ))), fracPart o.2 = 0 := by
    intro l o ho
    obtain ⟨x, _, rfl⟩ := List.mem_map.1 ho
    exact hint _
  -- the fractional part of the remainder is that of the total
  have hfracR : fracPart tot = 0 → fracPart R = 0 := by
    intro h0
    have h1 := whole_add_frac tot
    rw [h0, add_zero] at h1
    have : ∃ z : ℤ, S = z := by
      rw [hSdef]
      clear * -
      induction ifw with
      | nil => exact ⟨0, by simp⟩
      | cons a l ih =>
        obtain ⟨z, hz⟩ := ih
        exact ⟨a.whole + z, by simp [hz]⟩
    obtain ⟨z, hz⟩ := this
    rw [hRdef, hz, ← h1]
    have := hint (wholePart tot - z)
    simpa using this
  have hq : ∀ out, quantizeValues items tot = .ok out → total out = tot := by
    intro out ho
    apply quantize_total items tot out ho
    · exact le_trans hn_le (by omega)
    · exact hsign
  by_cases hf : fracPart R ≠ 0
  · -- one further item carries the fraction
    have hk := hn_lt hf
    obtain ⟨x, xs, hd⟩ : ∃ x xs, srt.drop n = x :: xs := by
      cases hd : srt.drop n with
      | nil =>
        have := congrArg List.length hd
        simp only [List.length_drop, List.length_nil] at this
        omega
      | cons x xs => exact ⟨x, xs, rfl⟩
    have hout : quantizeValues items tot = .ok
        (((srt.take n).map fun x => (x.id, (x.whole : ℚ) + increment tot)) ++
          (x.id, (x.whole : ℚ) + fracPart R) :: xs.map fun x => (x.id, (x.whole : ℚ))) := by
      unfold quantizeValues
      simp only
      rw [if_pos (by rw [← hifw, ← hSdef, ← hRdef]; exact hf)]
      rw [← hifw, ← hSdef, ← hRdef, ← hsrt, ← hn, hd]
    have hxtake : x ∈ srt.take (n + 1) := by
      rw [List.take_succ_eq_append_getElem (by omega)]
      have : srt[n]'(by omega) = x := by
        have h0 : (srt.drop n)[0]? = some x := by rw [hd]; rfl
        rw [List.getElem?_drop, Nat.add_zero, List.getElem?_eq_getElem (by omega)] at h0
        exact Option.some.inj h0
      rw [this]; simp
    have hxne := hfr (n + 1) hk x hxtake
    have hxs := List.mem_of_mem_take hxtake
    refine ⟨_, hout, hq _ hout, ⟨srt.map QItem.orig, hitperm, ?_⟩, ?_, ?_⟩
    · rw [← List.take_append_drop n srt, List.map_append, hd]
      have htk : List.take n (List.take n srt ++ x :: xs) = List.take n srt := by
        rw [← hd, List.take_append_drop]
      rw [htk]
      apply forall₂_append _ _ _ _ _ hfirst
      rw [List.map_cons]
      refine List.Forall₂.cons ⟨rfl, ?_⟩ (hrestrel xs ?_)
      · simp only [QItem.orig]
        have h1 := abs_lt.1 (hlt1 x hxs)
        have h2 := hfracsign x hxs
        have h3 := abs_lt.1 (fracPart_lt_one R)
        rw [abs_lt]
        rcases hs with rfl | rfl
        · have h4 := (fracPart_nonneg (q := R) (by linarith)).1
          have : 0 < x.frac := lt_of_le_of_ne (by linarith) (Ne.symm hxne)
          constructor <;> linarith
        · have h4 := (fracPart_nonpos (q := R) (by linarith)).1
          have : x.frac < 0 := lt_of_le_of_ne (by linarith) hxne
          constructor <;> linarith
      · intro y hy
        apply List.mem_of_mem_drop (i := n)
        rw [hd]; simp [hy]
    · rw [List.filter_append, List.length_append, List.filter_cons]
      have e1 : (((srt.take n).map fun x => (x.id, (x.whole : ℚ) + increment tot)).filter
          fun o => decide (fracPart o.2 ≠ 0)) = [] := by
        rw [List.filter_eq_nil_iff]; intro o ho; simp [hfirstint o ho]
      have e2 : ((xs.map fun x => (x.id, (x.whole : ℚ))).filter
          fun o => decide (fracPart o.2 ≠ 0)) = [] := by
        rw [List.filter_eq_nil_iff]; intro o ho; simp [hrestint xs o ho]
      rw [e1, e2]; split <;> simp
    · intro h0; exact absurd (hfracR h0) hf
  · rw [not_not] at hf
    have hout : quantizeValues items tot = .ok
        (((srt.take n).map fun x => (x.id, (x.whole : ℚ) + increment tot)) ++
          (srt.drop n).map fun x => (x.id, (x.whole : ℚ))) := by
      unfold quantizeValues
      simp only
      rw [if_neg (by rw [← hifw, ← hSdef, ← hRdef]; simpa using hf)]
    have hall : ∀ o ∈ (((srt.take n).map fun x => (x.id, (x.whole : ℚ) + increment tot)) ++
          (srt.drop n).map fun x => (x.id, (x.whole : ℚ))), fracPart o.2 = 0 := by
      intro o ho
      rcases List.mem_append.1 ho with ho | ho
      · exact hfirstint o ho
      · exact hrestint _ o ho
    refine ⟨_, hout, hq _ hout, ⟨srt.map QItem.orig, hitperm, ?_⟩, ?_, fun _ => hall⟩
    · conv => arg 2; rw [← List.take_append_drop n srt, List.map_append]
      exact forall₂_append _ _ _ _ _ hfirst (hrestrel _ fun y hy => List.mem_of_mem_drop hy)
    · have : ((((srt.take n).map fun x => (x.id, (x.whole : ℚ) + increment tot)) ++
          (srt.drop n).map fun x => (x.id, (x.whole : ℚ))).filter
            fun o => decide (fracPart o.2 ≠ 0)) = [] := by
        rw [List.filter_eq_nil_iff]; intro o ho; simp [hall o ho]
      rw [this]; simp

/-- Whole numbers made from items of one sign have that sign. -/
theorem quantize_sign (items : List (Nat × ℚ)) (s : ℚ) (hs : s = 1 ∨ s = -1) (hitems : ∀ it ∈ items, 0 ≤ s * it.2)
    {out : List (Nat × ℚ)} (h : quantizeValues items (total items) = .ok out) : ∀ o ∈ out, 0 ≤ s * o.2 := by
  unfold quantizeValues at h
  set tot := total items with htot
  set ifw := items.map mkQItem with hifw
  set S : ℚ := (ifw.map fun x => (x.whole : ℚ)).sum with hSdef
  set R := tot - S with hRdef
  obtain ⟨hRnn, -, hnle, -⟩ := remainder_facts items s hs hitems R (by rw [hRdef])
  set n := (wholePart R).natAbs with hn
  set srt := sortedBy qKeyLe ifw with hsrt
  have hperm : srt.Perm ifw := sortedBy_perm _ _
  have hwhole' : ∀ x ∈ ifw, 0 ≤ s * (x.whole : ℚ) := by
    intro x hx
    obtain ⟨it, hit, rfl⟩ := List.mem_map.1 hx
    have h := hitems it hit
    simp only [mkQItem]
    rcases hs with rfl | rfl
    · have := wholePart_nonneg (q := it.2) (by linarith)
      have : (0 : ℚ) ≤ wholePart it.2 := by exact_mod_cast this
      linarith
    · have := wholePart_nonpos (q := it.2) (by linarith)
      have : (wholePart it.2 : ℚ) ≤ 0 := by exact_mod_cast this
      linarith
  have hwhole : ∀ x ∈ srt, 0 ≤ s * (x.whole : ℚ) := fun x hx => hwhole' x (hperm.mem_iff.1 hx)
  have hsS : 0 ≤ s * S := by
    rw [hSdef, ← List.sum_map_mul_left]
    apply List.sum_nonneg
    intro x hx
    obtain ⟨y, hy, rfl⟩ := List.mem_map.1 hx
    exact hwhole' y hy
  have hfirst : ∀ o ∈ (srt.take n).map (fun x => (x.id, (x.whole : ℚ) + increment tot)), 0 ≤ s * o.2 := by
    intro o ho
    obtain ⟨x, hx, rfl⟩ := List.mem_map.1 ho
    have hn0 : n ≠ 0 := by rintro h0; rw [h0] at hx; simp at hx
    have hnpos : (0 : ℚ) < n := by exact_mod_cast Nat.pos_of_ne_zero hn0
    have hstot : s * tot = s * S + s * R := by rw [hRdef]; ring
    have hpos : 0 < s * tot := by linarith
    have hw := hwhole x (List.mem_of_mem_take hx)
    have : increment tot = s := by
      unfold increment
      rcases hs with rfl | rfl
      · rw [if_neg (by linarith)]
      · rw [if_pos (by linarith)]
    rw [this]
    rcases hs with rfl | rfl <;> linarith
  have hrest : ∀ l : List QItem, (∀ x ∈ l, x ∈ srt) → ∀ o ∈ l.map (fun x => (x.id, (x.whole : ℚ))), 0 ≤ s * o.2 := by
    intro l hl o ho
    obtain ⟨x, hx, rfl⟩ := List.mem_map.1 ho
    exact hwhole x (hl x hx)
  have hfrac : 0 ≤ s * fracPart R := by
    rcases hs with rfl | rfl
    · have := (fracPart_nonneg (q := R) (by linarith)).1; linarith
    · have := (fracPart_nonpos (q := R) (by linarith)).1; linarith
  simp only at h
  split at h
  · revert h
    cases hd : srt.drop n with
    | nil => intro h; simp at h
    | cons x xs =>
      intro h
      simp only [Except.ok.injEq] at h
      have hmem : ∀ y ∈ x :: xs, y ∈ srt := fun y hy => List.mem_of_mem_drop (i := n) (hd ▸ hy)
      rw [← h]
      intro o ho
      rcases List.mem_append.1 ho with ho | ho
      · exact hfirst o ho
      · rcases List.mem_cons.1 ho with rfl | ho
        · have := hwhole x (hmem x (by simp))
          simp only
          rw [mul_add]
          linarith
        · exact hrest xs (fun y hy => hmem y (by simp [hy])) o ho
  · simp only [Except.ok.injEq] at h
    rw [← h]
    intro o ho
    rcases List.mem_append.1 ho with ho | ho
    · exact hfirst o ho
    · exact hrest _ (fun y hy => List.mem_of_mem_drop hy) o ho

/-- A list of values of one sign: none is beyond the sum. -/
theorem le_sum_of_sign {l : List ℚ} {s : ℚ} (h : ∀ x ∈ l, 0 ≤ s * x) {x : ℚ} (hx : x ∈ l) : s * x ≤ s * l.sum := by
  have e : s * l.sum = (l.map fun y => s * y).sum := by
    have := List.sum_map_mul_left l (fun y => y) s
    simpa using this.symm
  rw [e]
  refine List.single_le_sum ?_ _ (List.mem_map_of_mem hx)
  intro y hy
  obtain ⟨z, hz, rfl⟩ := List.mem_map.1 hy
  exact h z hz

end Toron
