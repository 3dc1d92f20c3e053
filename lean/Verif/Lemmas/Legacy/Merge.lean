/-
What merging the rows of `weight` and `quantity` does to sums.
-/
import Verif.Model.Legacy.Remove
import Verif.Lemmas.Store.Inv
import Verif.Lemmas.Distinct
import Verif.Lemmas.Py
import Mathlib.Algebra.BigOperators.Group.Multiset.Basic
import Mathlib.Tactic.Linarith

namespace Toron.Legacy

open Toron.Selectors (PyStr)
open Toron.Space (nextId lt_nextId nextId_not_mem)

/-- Where the amounts of a record go. -/
def rep (m : List (Nat × Nat)) (i : Nat) : Nat := (m.lookup i).getD i

/-- What is used about the table of old and new ids. -/
structure RepOk (m : List (Nat × Nat)) : Prop where
  idem : ∀ {i t}, m.lookup i = some t → m.lookup t = some t
  goes : ∀ i, goes m i = true ↔ rep m i ≠ i

theorem lookup_mem {κ β : Type} [BEq κ] [LawfulBEq κ] {l : List (κ × β)} {k : κ} {v : β} (h : l.lookup k = some v) :
    (k, v) ∈ l := by
  induction l with
  | nil => simp at h
  | cons p l ih =>
    obtain ⟨a, b⟩ := p
    rw [List.lookup_cons] at h
    by_cases e : k = a
    · subst e
      simp at h
      subst h
      exact List.mem_cons_self
    · rw [show (k == a) = false from by simpa using e] at h
      exact List.mem_cons_of_mem _ (ih h)

theorem lookup_of_mem {κ β : Type} [BEq κ] [LawfulBEq κ] {l : List (κ × β)} {k : κ} {v : β} (hn : (l.map (·.1)).Nodup)
    (h : (k, v) ∈ l) : l.lookup k = some v := by
  induction l with
  | nil => simp at h
  | cons p l ih =>
    obtain ⟨a, b⟩ := p
    rw [List.lookup_cons]
    rw [List.map_cons, List.nodup_cons] at hn
    rcases List.mem_cons.1 h with e | e
    · injection e with e1 e2
      subst e1; subst e2
      simp
    · have : k ≠ a := by
        rintro rfl
        exact hn.1 (List.mem_map.2 ⟨_, e, rfl⟩)
      rw [show (k == a) = false from by simpa using this]
      exact ih hn.2 e

theorem foldl_min_le (l : List Nat) (a : Nat) : l.foldl min a ≤ a ∧ ∀ x ∈ l, l.foldl min a ≤ x := by
  induction l generalizing a with
  | nil => exact ⟨le_refl _, by simp⟩
  | cons y l ih =>
    obtain ⟨h1, h2⟩ := ih (min a y)
    refine ⟨le_trans h1 (min_le_left _ _), fun x hx => ?_⟩
    rcases List.mem_cons.1 hx with rfl | hx
    · exact le_trans h1 (min_le_right _ _)
    · exact h2 x hx

theorem foldl_min_mem (l : List Nat) (a : Nat) : l.foldl min a ∈ a :: l := by
  induction l generalizing a with
  | nil => simp
  | cons y l ih =>
    have := ih (min a y)
    rcases List.mem_cons.1 this with h | h
    · rw [List.foldl_cons, h]
      rcases min_choice a y with e | e <;> simp [e]
    · exact List.mem_cons_of_mem _ (List.mem_cons_of_mem _ h)

/-- The ids of the records with the same labels. -/
def sameIds (recs : List (Nat × List PyStr)) (k : List PyStr) : List Nat := (recs.filter fun x => x.2 == k).map (·.1)

theorem mem_sameIds {recs : List (Nat × List PyStr)} {k : List PyStr} {i : Nat} : i ∈ sameIds recs k ↔ (i, k) ∈ recs := by
  unfold sameIds
  simp only [List.mem_map, List.mem_filter, beq_iff_eq]
  constructor
  · rintro ⟨⟨a, b⟩, ⟨h1, h2⟩, h3⟩
    simp only at h2 h3
    subst h2; subst h3
    exact h1
  · intro h
    exact ⟨(i, k), ⟨h, rfl⟩, rfl⟩

theorem mem_oldToNew {recs : List (Nat × List PyStr)} {i t : Nat} :
    (i, t) ∈ oldToNew recs ↔ ∃ k, (i, k) ∈ recs ∧ 1 < (sameIds recs k).length ∧ t = (sameIds recs k).foldl min i := by
  unfold oldToNew
  simp only [List.mem_filterMap]
  constructor
  · rintro ⟨⟨a, b⟩, h1, h2⟩
    dsimp only at h2
    split at h2
    · rename_i hl
      injection h2 with h2
      injection h2 with h3 h4
      subst h3
      exact ⟨b, h1, hl, h4.symm⟩
    · cases h2
  · rintro ⟨k, h1, h2, rfl⟩
    exact ⟨(i, k), h1, if_pos (show 1 < ((recs.filter fun x => x.2 == k).map (·.1)).length from h2)⟩

theorem oldToNew_keys (recs : List (Nat × List PyStr)) : ((oldToNew recs).map (·.1)).Sublist (recs.map (·.1)) := by
  unfold oldToNew
  generalize hg : (fun r : Nat × List PyStr =>
    let same := (recs.filter fun x => x.2 == r.2).map (·.1)
    if 1 < same.length then some (r.1, same.foldl min r.1) else none) = g
  have hg' : ∀ r p, g r = some p → p.1 = r.1 := by
    intro r p h
    subst hg
    dsimp only at h
    split at h
    · injection h with h; rw [← h]
    · cases h
  clear hg
  induction recs with
  | nil => exact List.Sublist.refl _
  | cons r l ih =>
    rw [List.filterMap_cons]
    split
    · exact ih.cons _
    · rename_i p hp
      rw [List.map_cons, List.map_cons, hg' _ _ hp]
      exact ih.cons_cons _

section table
variable {recs : List (Nat × List PyStr)} (hn : (recs.map (·.1)).Nodup)
include hn

theorem key_unique {i : Nat} {k k' : List PyStr} (h : (i, k) ∈ recs) (h' : (i, k') ∈ recs) : k = k' := by
  have h1 := lookup_of_mem hn h
  rw [lookup_of_mem hn h'] at h1
  injection h1 with h1
  exact h1.symm

/-- Everything about the record an id is mapped to. -/
theorem rep_spec {i : Nat} {k : List PyStr} (h : (i, k) ∈ recs) :
    (rep (oldToNew recs) i, k) ∈ recs ∧ ∀ j, (j, k) ∈ recs → rep (oldToNew recs) i ≤ j := by
  have hk : ((oldToNew recs).map (·.1)).Nodup := hn.sublist (oldToNew_keys recs)
  by_cases hl : 1 < (sameIds recs k).length
  · have hm : (i, (sameIds recs k).foldl min i) ∈ oldToNew recs := mem_oldToNew.2 ⟨k, h, hl, rfl⟩
    unfold rep
    rw [lookup_of_mem hk hm]
    refine ⟨?_, fun j hj => (foldl_min_le _ _).2 j (mem_sameIds.2 hj)⟩
    rcases List.mem_cons.1 (foldl_min_mem (sameIds recs k) i) with e | e
    · show ((sameIds recs k).foldl min i, k) ∈ recs
      rw [e]; exact h
    · exact mem_sameIds.1 e
  · have hnone : (oldToNew recs).lookup i = none := by
      cases e : (oldToNew recs).lookup i with
      | none => rfl
      | some t =>
        obtain ⟨k', h1, h2, _⟩ := mem_oldToNew.1 (lookup_mem e)
        rw [key_unique hn h1 h] at h2
        exact absurd h2 hl
    unfold rep
    rw [hnone]
    refine ⟨h, fun j hj => ?_⟩
    have hi := mem_sameIds.2 h
    have hj := mem_sameIds.2 hj
    have : sameIds recs k = [i] := by
      match hs : sameIds recs k with
      | [] => rw [hs] at hi; cases hi
      | [a] => rw [hs] at hi; rw [List.mem_singleton.1 hi]
      | a :: b :: l => rw [hs] at hl; simp at hl
    rw [this] at hj
    rw [List.mem_singleton.1 hj]
    exact le_refl _

theorem rep_same {i j : Nat} {k : List PyStr} (h : (i, k) ∈ recs) (h' : (j, k) ∈ recs) :
    rep (oldToNew recs) i = rep (oldToNew recs) j := by
  obtain ⟨a1, a2⟩ := rep_spec hn h
  obtain ⟨b1, b2⟩ := rep_spec hn h'
  exact le_antisymm (a2 _ b1) (b2 _ a1)

theorem repOk : RepOk (oldToNew recs) := by
  have hk : ((oldToNew recs).map (·.1)).Nodup := hn.sublist (oldToNew_keys recs)
  constructor
  · intro i t h
    obtain ⟨k, h1, h2, h3⟩ := mem_oldToNew.1 (lookup_mem h)
    have ht : rep (oldToNew recs) i = t := by unfold rep; rw [h]; rfl
    have hm := (rep_spec hn h1).1
    rw [ht] at hm
    have : (t, (sameIds recs k).foldl min t) ∈ oldToNew recs := mem_oldToNew.2 ⟨k, hm, h2, rfl⟩
    have e := lookup_of_mem hk this
    have e2 := rep_same hn h1 hm
    rw [ht] at e2
    unfold rep at e2
    rw [e] at e2
    rw [e]
    exact congrArg some e2.symm
  · intro i
    unfold goes
    rw [List.any_eq_true]
    constructor
    · rintro ⟨⟨a, b⟩, h1, h2⟩
      simp only [Bool.and_eq_true, beq_iff_eq, bne_iff_ne] at h2
      obtain ⟨rfl, h3⟩ := h2
      unfold rep
      rw [lookup_of_mem hk h1]
      exact fun e => h3 e.symm
    · intro h
      unfold rep at h
      cases e : (oldToNew recs).lookup i with
      | none => rw [e] at h; exact absurd rfl h
      | some t =>
        rw [e] at h
        exact ⟨(i, t), lookup_mem e, by simpa using fun e => h e.symm⟩

end table

/-! ### Sums -/

/-- The total of the amounts of a key on the records with a property. -/
def sumOn (rows : List Amount) (k : Nat) (P : Nat → Prop) [DecidablePred P] : ℚ :=
  (rows.map fun r => if r.key = k ∧ P r.at_ then r.value else 0).sum

theorem sumOn_append (a b : List Amount) (k : Nat) (P : Nat → Prop) [DecidablePred P] :
    sumOn (a ++ b) k P = sumOn a k P + sumOn b k P := by
  unfold sumOn
  rw [List.map_append, List.sum_append]

theorem addMissing_eq (rows : List Amount) (ps : List (Nat × Nat)) :
    ∃ extra, addMissing rows ps = rows ++ extra ∧ (extra.map fun r => (r.key, r.at_)) = ps ∧ ∀ r ∈ extra, r.value = 0 := by
  unfold addMissing
  induction ps generalizing rows with
  | nil => exact ⟨[], by simp, rfl, by simp⟩
  | cons p ps ih =>
    rw [List.foldl_cons]
    obtain ⟨extra, h1, h2, h3⟩ := ih (rows ++ [⟨nextId (rows.map (·.id)), p.1, p.2, 0⟩])
    refine ⟨⟨nextId (rows.map (·.id)), p.1, p.2, 0⟩ :: extra, ?_, ?_, ?_⟩
    · rw [h1, List.append_assoc]; rfl
    · rw [List.map_cons, h2]
    · intro r hr
      rcases List.mem_cons.1 hr with rfl | hr
      · rfl
      · exact h3 r hr

theorem addMissing_ids {rows : List Amount} (hn : (rows.map (·.id)).Nodup) (ps : List (Nat × Nat)) :
    ((addMissing rows ps).map (·.id)).Nodup := by
  unfold addMissing
  induction ps generalizing rows with
  | nil => exact hn
  | cons p ps ih =>
    rw [List.foldl_cons]
    apply ih
    rw [List.map_append, List.nodup_append]
    refine ⟨hn, by simp, ?_⟩
    intro a ha b hb
    simp only [List.map_cons, List.map_nil, List.mem_singleton] at hb
    subst hb
    rintro rfl
    exact nextId_not_mem _ ha

theorem sumOn_zero {rows : List Amount} (h : ∀ r ∈ rows, r.value = 0) (k : Nat) (P : Nat → Prop) [DecidablePred P] :
    sumOn rows k P = 0 := by
  unfold sumOn
  apply List.sum_eq_zero
  intro x hx
  obtain ⟨r, hr, rfl⟩ := List.mem_map.1 hx
  split
  · exact h r hr
  · rfl

theorem mem_missing {m : List (Nat × Nat)} {rows : List Amount} {p : Nat × Nat} :
    p ∈ missing m rows ↔ (∃ r ∈ rows, r.key = p.1 ∧ m.lookup r.at_ = some p.2) ∧ ¬ ∃ r ∈ rows, r.key = p.1 ∧ r.at_ = p.2 := by
  unfold missing
  rw [mem_sortedBy, List.mem_filter, mem_distinct, List.mem_filterMap]
  constructor
  · rintro ⟨⟨r, hr, h1⟩, h2⟩
    rw [Option.map_eq_some_iff] at h1
    obtain ⟨t, h3, h4⟩ := h1
    subst h4
    refine ⟨⟨r, hr, rfl, h3⟩, ?_⟩
    rintro ⟨x, hx, e1, e2⟩
    simp only [Bool.not_eq_true', List.any_eq_false, Bool.and_eq_true, beq_iff_eq, not_and] at h2
    exact h2 x hx e1 e2
  · rintro ⟨⟨r, hr, h1, h2⟩, h3⟩
    refine ⟨⟨r, hr, by rw [h2, h1]; rfl⟩, ?_⟩
    simp only [Bool.not_eq_true', List.any_eq_false, Bool.and_eq_true, beq_iff_eq, not_and]
    intro x hx e1 e2
    exact h3 ⟨x, hx, e1, e2⟩

theorem missing_nodup (m : List (Nat × Nat)) (rows : List Amount) : (missing m rows).Nodup := by
  unfold missing
  exact (sortedBy_perm _ _).nodup_iff.2 ((nodup_distinct _).filter _)

theorem sum_filter (l : List Amount) (p : Amount → Bool) (f : Amount → ℚ) :
    ((l.filter p).map f).sum = (l.map fun x => if p x = true then f x else 0).sum := by
  induction l with
  | nil => rfl
  | cons x l ih =>
    rw [List.filter_cons, List.map_cons, List.sum_cons]
    by_cases h : p x = true
    · rw [if_pos h, if_pos h, List.map_cons, List.sum_cons, ih]
    · rw [if_neg h, if_neg h, ih, zero_add]

/-- A sum over the one row with a given key and record. -/
theorem sum_one {rows : List Amount} (hn : (rows.map fun r => (r.key, r.at_)).Nodup) {r0 : Amount} (h : r0 ∈ rows)
    (g : Amount → ℚ) :
    (rows.map fun r => if r.key = r0.key ∧ r.at_ = r0.at_ then g r else 0).sum = g r0 := by
  induction rows with
  | nil => cases h
  | cons x l ih =>
    rw [List.map_cons, List.nodup_cons] at hn
    rw [List.map_cons, List.sum_cons]
    rcases List.mem_cons.1 h with rfl | h
    · rw [if_pos ⟨rfl, rfl⟩]
      have : (l.map fun r => if r.key = r0.key ∧ r.at_ = r0.at_ then g r else 0).sum = 0 := by
        apply List.sum_eq_zero
        intro y hy
        obtain ⟨r, hr, rfl⟩ := List.mem_map.1 hy
        rw [if_neg]
        rintro ⟨e1, e2⟩
        exact hn.1 (List.mem_map.2 ⟨r, hr, by rw [e1, e2]⟩)
      rw [this, add_zero]
    · rw [if_neg, ih hn.2 h, zero_add]
      rintro ⟨e1, e2⟩
      exact hn.1 (List.mem_map.2 ⟨r0, h, by rw [e1, e2]⟩)

theorem sum_swap (a b : List Amount) (f : Amount → Amount → ℚ) :
    (a.map fun x => (b.map fun y => f x y).sum).sum = (b.map fun y => (a.map fun x => f x y).sum).sum := by
  induction a with
  | nil => simp
  | cons x a ih =>
    rw [List.map_cons, List.sum_cons, ih]
    simp only [List.map_cons, List.sum_cons]
    rw [List.sum_map_add]

section merge
variable {m : List (Nat × Nat)} (hm : RepOk m) {rows : List Amount} (hn : (rows.map fun r => (r.key, r.at_)).Nodup)
include hn in
theorem merged_pairs : ((addMissing rows (missing m rows)).map fun r => (r.key, r.at_)).Nodup := by
  obtain ⟨extra, h1, h2, _⟩ := addMissing_eq rows (missing m rows)
  rw [h1, List.map_append, h2, List.nodup_append]
  refine ⟨hn, missing_nodup m rows, ?_⟩
  intro a ha b hb
  rintro rfl
  obtain ⟨r, hr, rfl⟩ := List.mem_map.1 ha
  exact (mem_missing.1 hb).2 ⟨r, hr, rfl, rfl⟩

include hm in
/-- Every amount has a row on the record it goes to. -/
theorem merged_target {r : Amount} (hr : r ∈ addMissing rows (missing m rows)) :
    ∃ t ∈ addMissing rows (missing m rows), t.key = r.key ∧ t.at_ = rep m r.at_ := by
  obtain ⟨extra, h1, h2, _⟩ := addMissing_eq rows (missing m rows)
  rw [h1] at hr ⊢
  rcases List.mem_append.1 hr with hr | hr
  · cases e : m.lookup r.at_ with
    | none => exact ⟨r, List.mem_append_left _ hr, rfl, by unfold rep; rw [e]; rfl⟩
    | some t =>
      have hrep : rep m r.at_ = t := by unfold rep; rw [e]; rfl
      by_cases hx : ∃ x ∈ rows, x.key = r.key ∧ x.at_ = t
      · obtain ⟨x, hx, e1, e2⟩ := hx
        exact ⟨x, List.mem_append_left _ hx, e1, by rw [hrep, e2]⟩
      · have : (r.key, t) ∈ missing m rows := mem_missing.2 ⟨⟨r, hr, rfl, e⟩, hx⟩
        rw [← h2] at this
        obtain ⟨x, hx, e1⟩ := List.mem_map.1 this
        injection e1 with e1 e2
        exact ⟨x, List.mem_append_right _ hx, e1, by rw [hrep, e2]⟩
  · have : (r.key, r.at_) ∈ missing m rows := by rw [← h2]; exact List.mem_map.2 ⟨r, hr, rfl⟩
    obtain ⟨⟨x, hx, e1, e2⟩, _⟩ := mem_missing.1 this
    refine ⟨r, List.mem_append_right _ hr, rfl, ?_⟩
    unfold rep
    rw [hm.idem e2]
    rfl

include hm hn

/-- The value written to a row that stays. -/
theorem written {r : Amount} (hr : r ∈ addMissing rows (missing m rows)) (hg : rep m r.at_ = r.at_) :
    (if (addMissing rows (missing m rows)).any fun x => x.key == r.key && m.lookup x.at_ == some r.at_ then
      { r with value := summed m (addMissing rows (missing m rows)) r.key r.at_ } else r).value =
    sumOn (addMissing rows (missing m rows)) r.key (fun i => rep m i = r.at_) := by
  have hp := merged_pairs (m := m) hn
  generalize addMissing rows (missing m rows) = rows1 at *
  split
  · rename_i ha
    obtain ⟨x, hx, e⟩ := List.any_eq_true.1 ha
    simp only [Bool.and_eq_true, beq_iff_eq] at e
    show summed m rows1 r.key r.at_ = _
    unfold summed sumOn
    rw [sum_filter]
    congr 1
    apply List.map_congr_left
    intro y hy
    by_cases h1 : y.key = r.key
    · by_cases h2 : m.lookup y.at_ = some r.at_
      · rw [if_pos (by simp [h1, h2]), if_pos ⟨h1, show (m.lookup y.at_).getD y.at_ = r.at_ by rw [h2]; rfl⟩]
      · rw [if_neg (by simp [h1, h2]), if_neg]
        rintro ⟨_, h3⟩
        unfold rep at h3
        cases h4 : m.lookup y.at_ with
        | none =>
          rw [h4] at h3
          have h3 : y.at_ = r.at_ := h3
          rw [h3, hm.idem e.2] at h4
          cases h4
        | some t =>
          rw [h4] at h3
          have h3 : t = r.at_ := h3
          rw [h3] at h4
          exact h2 h4
    · rw [if_neg (by simp [h1]), if_neg (fun h => h1 h.1)]
  · rename_i ha
    rw [← sum_one hp hr (fun r => r.value)]
    unfold sumOn
    congr 1
    apply List.map_congr_left
    intro y hy
    by_cases h1 : y.key = r.key
    · have h2 : m.lookup y.at_ ≠ some r.at_ := by
        intro h2
        exact ha (List.any_eq_true.2 ⟨y, hy, by simp [h1, h2]⟩)
      have : y.at_ = r.at_ ↔ rep m y.at_ = r.at_ := by
        unfold rep
        cases h4 : m.lookup y.at_ with
        | none => exact Iff.rfl
        | some t =>
          constructor
          · intro h5
            rw [← h5] at hg
            unfold rep at hg
            rw [h4] at hg
            have hg : t = y.at_ := hg
            rw [h4, hg, h5] at h2
            exact absurd rfl h2
          · intro h5
            have h5 : t = r.at_ := h5
            rw [h4, h5] at h2
            exact absurd rfl h2
      simp only [h1, true_and, this]
    · rw [if_neg (fun h => h1 h.1), if_neg (fun h => h1 h.1)]

/-- Merging moves every amount to the record its own record is merged into, and loses nothing. -/
theorem merge_sum (k : Nat) (P : Nat → Prop) [DecidablePred P] :
    sumOn (mergeAmounts m rows) k P = sumOn rows k (fun i => P (rep m i)) := by
  classical
  have hp := merged_pairs (m := m) hn
  have ht := fun r hr => merged_target hm (rows := rows) (r := r) hr
  have hw := fun r hr => written hm hn (r := r) hr
  have hz : sumOn rows k (fun i => P (rep m i)) = sumOn (addMissing rows (missing m rows)) k (fun i => P (rep m i)) := by
    obtain ⟨extra, h1, _, h3⟩ := addMissing_eq rows (missing m rows)
    rw [h1, sumOn_append, sumOn_zero h3, add_zero]
  rw [hz]
  unfold mergeAmounts writeSums
  generalize addMissing rows (missing m rows) = rows1 at *
  have step1 : sumOn ((rows1.map fun r =>
      if rows1.any fun x => x.key == r.key && m.lookup x.at_ == some r.at_ then
        { r with value := summed m rows1 r.key r.at_ } else r).filter fun r => !(goes m r.at_)) k P =
      (rows1.map fun r => (rows1.map fun x =>
        if (r.key = k ∧ P r.at_ ∧ rep m r.at_ = r.at_) ∧ x.key = k ∧ rep m x.at_ = r.at_ then x.value else 0).sum).sum := by
    unfold sumOn
    rw [sum_filter, List.map_map]
    congr 1
    apply List.map_congr_left
    intro r hr
    have hat : ∀ c : Bool, (if c then { r with value := summed m rows1 r.key r.at_ } else r).at_ = r.at_ := by
      intro c; cases c <;> rfl
    have hkey : ∀ c : Bool, (if c then { r with value := summed m rows1 r.key r.at_ } else r).key = r.key := by
      intro c; cases c <;> rfl
    simp only [Function.comp_apply, hat, hkey]
    by_cases hg : rep m r.at_ = r.at_
    · have hgf : goes m r.at_ = false := by
        rw [Bool.eq_false_iff]
        intro h
        exact (hm.goes _).1 h hg
      rw [if_pos (by simp [hgf])]
      by_cases hk : r.key = k ∧ P r.at_
      · rw [if_pos hk, hw r hr hg]
        unfold sumOn
        congr 1
        apply List.map_congr_left
        intro x _
        by_cases hx : x.key = r.key ∧ rep m x.at_ = r.at_
        · rw [if_pos hx, if_pos ⟨⟨hk.1, hk.2, hg⟩, by rw [hx.1, hk.1], hx.2⟩]
        · rw [if_neg hx, if_neg]
          rintro ⟨_, h1, h2⟩
          exact hx ⟨by rw [h1, hk.1], h2⟩
      · rw [if_neg hk]
        symm
        apply List.sum_eq_zero
        intro y hy
        obtain ⟨x, _, rfl⟩ := List.mem_map.1 hy
        rw [if_neg]
        rintro ⟨h, _⟩
        exact hk ⟨h.1, h.2.1⟩
    · have hgt : goes m r.at_ = true := (hm.goes _).2 hg
      rw [if_neg (by simp [hgt])]
      symm
      apply List.sum_eq_zero
      intro y hy
      obtain ⟨x, _, rfl⟩ := List.mem_map.1 hy
      rw [if_neg]
      rintro ⟨h, _⟩
      exact hg h.2.2
  rw [step1, sum_swap]
  unfold sumOn
  congr 1
  apply List.map_congr_left
  intro x hx
  by_cases hxk : x.key = k
  · obtain ⟨t, ht1, ht2, ht3⟩ := ht x hx
    have hidem : rep m t.at_ = t.at_ := by
      rw [ht3]
      unfold rep
      cases e : m.lookup x.at_ with
      | none =>
        show (m.lookup x.at_).getD x.at_ = x.at_
        rw [e]; rfl
      | some u =>
        show (m.lookup u).getD u = u
        rw [hm.idem e]; rfl
    by_cases hP : P (rep m x.at_)
    · rw [if_pos ⟨hxk, hP⟩]
      refine Eq.trans ?_ (sum_one hp ht1 (fun _ => x.value))
      congr 1
      apply List.map_congr_left
      intro r _
      by_cases h1 : r.key = t.key ∧ r.at_ = t.at_
      · have h2 : (r.key = k ∧ P r.at_ ∧ rep m r.at_ = r.at_) ∧ x.key = k ∧ rep m x.at_ = r.at_ :=
          ⟨⟨by rw [h1.1, ht2, hxk], by rw [h1.2, ht3]; exact hP, by rw [h1.2, hidem]⟩, hxk, by rw [h1.2, ht3]⟩
        rw [if_pos h1, if_pos h2]
      · rw [if_neg h1, if_neg]
        rintro ⟨⟨h2, _, _⟩, _, h3⟩
        exact h1 ⟨by rw [h2, ht2, hxk], by rw [← h3, ht3]⟩
    · rw [if_neg (fun h => hP h.2)]
      apply List.sum_eq_zero
      intro y hy
      obtain ⟨r, _, rfl⟩ := List.mem_map.1 hy
      rw [if_neg]
      rintro ⟨⟨_, h2, _⟩, _, h3⟩
      rw [← h3] at h2
      exact hP h2
  · rw [if_neg (fun h => hxk h.1)]
    apply List.sum_eq_zero
    intro y hy
    obtain ⟨r, _, rfl⟩ := List.mem_map.1 hy
    rw [if_neg]
    rintro ⟨_, h, _⟩
    exact hxk h

end merge

end Toron.Legacy
