/-
Repeating the minimisation of partition definitions changes nothing.
-/
import Verif.Props.Partitions
import Verif.Lemmas.Distinct

namespace Toron

section
variable {α : Type} {le : α → α → Bool}

theorem insertBy_cons {x y : α} {ys : List α} :
    insertBy le x (y :: ys) = if le x y = true then x :: y :: ys else y :: insertBy le x ys := rfl

theorem insertBy_of_le {x : α} {l : List α} (h : ∀ y ∈ l, le x y = true) : insertBy le x l = x :: l := by
  cases l with
  | nil => rfl
  | cons y ys =>
    unfold insertBy
    rw [if_pos (h y (by simp))]

theorem sortedBy_of_pairwise {l : List α} (h : l.Pairwise fun a b => le a b = true) : sortedBy le l = l := by
  induction l with
  | nil => rfl
  | cons x xs ih =>
    rw [List.pairwise_cons] at h
    rw [sortedBy, ih h.2, insertBy_of_le h.1]

theorem sortedBy_append_sortedBy (htrans : ∀ a b c, le a b → le b c → le a c) (htotal : ∀ a b, le a b ∨ le b a)
    (a x : List α) : sortedBy le (a ++ sortedBy le x) = sortedBy le (a ++ x) := by
  induction a with
  | nil => exact sortedBy_of_pairwise (sortedBy_pairwise le htrans htotal x)
  | cons y ys ih => rw [List.cons_append, List.cons_append, sortedBy, sortedBy, ih]

theorem filter_insertBy (htrans : ∀ a b c, le a b → le b c → le a c) {p : α → Bool} {x : α} {l : List α}
    (hl : l.Pairwise fun a b => le a b = true) (hx : p x = true) :
    (insertBy le x l).filter p = insertBy le x (l.filter p) := by
  induction l with
  | nil => simp [insertBy, hx]
  | cons y ys ih =>
    rw [List.pairwise_cons] at hl
    rw [insertBy_cons]
    by_cases h : le x y = true
    · rw [if_pos h, List.filter_cons_of_pos hx]
      have : ∀ z ∈ (y :: ys).filter p, le x z = true := by
        intro z hz
        rcases List.mem_cons.1 (List.mem_of_mem_filter hz) with rfl | hz
        · exact h
        · exact htrans _ _ _ h (hl.1 z hz)
      rw [← insertBy_of_le this]
    · rw [if_neg h]
      by_cases hy : p y = true
      · rw [List.filter_cons_of_pos hy, List.filter_cons_of_pos hy, ih hl.2]
        show _ = if le x y = true then _ else _
        rw [if_neg h]
      · rw [List.filter_cons_of_neg hy, List.filter_cons_of_neg hy, ih hl.2]

theorem filter_insertBy_neg {p : α → Bool} {x : α} {l : List α} (hx : ¬ p x = true) :
    (insertBy le x l).filter p = l.filter p := by
  induction l with
  | nil => simp [insertBy, hx]
  | cons y ys ih =>
    rw [insertBy_cons]
    split
    · rw [List.filter_cons_of_neg hx]
    · by_cases hy : p y = true
      · rw [List.filter_cons_of_pos hy, List.filter_cons_of_pos hy, ih]
      · rw [List.filter_cons_of_neg hy, List.filter_cons_of_neg hy, ih]

theorem filter_sortedBy (htrans : ∀ a b c, le a b → le b c → le a c) (htotal : ∀ a b, le a b ∨ le b a)
    (p : α → Bool) (l : List α) : (sortedBy le l).filter p = sortedBy le (l.filter p) := by
  induction l with
  | nil => rfl
  | cons x xs ih =>
    rw [sortedBy]
    by_cases hx : p x = true
    · rw [filter_insertBy htrans (sortedBy_pairwise le htrans htotal xs) hx, List.filter_cons_of_pos hx, ih]
      rfl
    · rw [filter_insertBy_neg hx, List.filter_cons_of_neg hx, ih]

variable [DecidableEq α]

theorem distinct_append (a b : List α) :
    distinct (a ++ b) = distinct a ++ (distinct b).filter fun x => decide (x ∉ a) := by
  induction a with
  | nil => simp [distinct]
  | cons x xs ih =>
    rw [List.cons_append, distinct, ih, distinct, List.filter_append, List.filter_filter, List.cons_append]
    congr 2
    apply List.filter_congr
    intro y _
    by_cases h : y = x <;> simp [h]

theorem distinct_of_nodup {l : List α} (h : l.Nodup) : distinct l = l := by
  induction l with
  | nil => rfl
  | cons x xs ih =>
    rw [List.nodup_cons] at h
    rw [distinct, ih h.2, List.filter_eq_self.2]
    intro y hy
    simp only [decide_eq_true_eq]
    rintro rfl
    exact h.1 hy

theorem distinct_insertBy (htrans : ∀ a b c, le a b → le b c → le a c) (hrefl : ∀ a, le a a = true)
    {x : α} {l : List α} (hl : l.Pairwise fun a b => le a b = true) :
    distinct (insertBy le x l) = insertBy le x ((distinct l).filter fun y => decide (y ≠ x)) := by
  induction l with
  | nil => rfl
  | cons y ys ih =>
    have hl' := List.pairwise_cons.1 hl
    rw [insertBy_cons]
    by_cases h : le x y = true
    · rw [if_pos h]
      rw [distinct]
      have : ∀ z ∈ (distinct (y :: ys)).filter fun y => decide (y ≠ x), le x z = true := by
        intro z hz
        rcases List.mem_cons.1 (mem_distinct.1 (List.mem_of_mem_filter hz)) with rfl | hz
        · exact h
        · exact htrans _ _ _ h (hl'.1 z hz)
      rw [← insertBy_of_le this]
    · rw [if_neg h, distinct, ih hl'.2]
      have hne : x ≠ y := by
        rintro rfl
        exact h (hrefl x)
      have hs : ((distinct ys).filter fun z => decide (z ≠ x)).Pairwise fun a b => le a b = true := by
        refine List.Pairwise.sublist ?_ hl'.2
        refine List.filter_sublist.trans ?_
        clear hl' hl ih h hne
        induction ys with
        | nil => exact List.Sublist.refl _
        | cons z zs ih => exact (List.filter_sublist.trans ih).cons_cons z
      rw [filter_insertBy htrans hs (by simpa using hne)]
      rw [distinct, List.filter_cons_of_pos (by simpa using hne.symm)]
      show y :: _ = if le x y = true then _ else _
      rw [if_neg h, List.filter_filter, List.filter_filter]
      congr 2
      apply List.filter_congr
      intro z _
      rw [Bool.and_comm]

theorem distinct_sortedBy (htrans : ∀ a b c, le a b → le b c → le a c) (htotal : ∀ a b, le a b ∨ le b a)
    (l : List α) : distinct (sortedBy le l) = sortedBy le (distinct l) := by
  have hrefl : ∀ a, le a a = true := fun a => (htotal a a).elim id id
  induction l with
  | nil => rfl
  | cons x xs ih =>
    rw [sortedBy, distinct_insertBy htrans hrefl (sortedBy_pairwise le htrans htotal xs), ih,
      filter_sortedBy htrans htotal, distinct, sortedBy]

end

namespace Partitions
open Toron.Spec

variable {α : Type} [DecidableEq α]

/-- `d` is no union of other members. -/
def Irr (F : Finset α → Prop) (d : Finset α) : Prop := ¬ IsUnionOf (fun e => F e ∧ e ≠ d) d

theorem irr_iff {F : Finset α → Prop} {d : Finset α} :
    Irr F d ↔ ¬ IsUnionOf (fun e => IsUnionOf F e ∧ e ≠ d) d := by
  unfold Irr
  apply not_congr
  constructor
  · apply isUnionOf_mono
    exact fun e he => ⟨isUnionOf_self he.1, he.2⟩
  · intro h
    rw [isUnionOf_iff] at h ⊢
    intro x hx
    obtain ⟨e, ⟨he, hne⟩, hed, hxe⟩ := h x hx
    obtain ⟨f, hf, hfe, hxf⟩ := (isUnionOf_iff _ _).1 he x hxe
    refine ⟨f, ⟨hf, ?_⟩, hfe.trans hed, hxf⟩
    rintro rfl
    exact hne (Finset.Subset.antisymm hed hfe)

theorem irr_congr {F G : Finset α → Prop} (h : SameFamily F G) (d : Finset α) : Irr F d ↔ Irr G d := by
  rw [irr_iff, irr_iff]
  apply not_congr
  have : (fun e => IsUnionOf F e ∧ e ≠ d) = fun e => IsUnionOf G e ∧ e ≠ d := by
    funext e
    rw [h e]
  rw [this]

open Classical in
/-- What the loop keeps: the irreducible sets, each at its first place. -/
theorem foldl_addDefinition_eq (l : List (Finset α)) (hs : l.Pairwise fun a b => a.card ≤ b.card)
    {F : Finset α → Prop} (hF : ∀ d, F d ↔ d ∈ l) :
    l.foldl addDefinition [] = distinct (l.filter fun d => decide (Irr F d)) := by
  have main : ∀ p q, l = p ++ q → p.foldl addDefinition [] = distinct (p.filter fun d => decide (Irr F d)) := by
    intro p
    induction p using List.reverseRecOn with
    | nil => intro _ _; rfl
    | append_singleton p d ih =>
      intro q hq
      have hp := ih (d :: q) (by rw [hq]; simp)
      rw [List.foldl_append, List.foldl_cons, List.foldl_nil]
      have hgen : ∀ e ∈ p, IsUnionOf (· ∈ p.foldl addDefinition []) e := fun e he =>
        foldl_addDefinition_generates _ _ e he
      have hsub : ∀ e ∈ p.foldl addDefinition [], e ∈ p := by
        intro e he
        rcases foldl_addDefinition_subset _ _ e he with h | h
        · cases h
        · exact h
      rw [hp] at hgen hsub ⊢
      unfold addDefinition
      rw [List.filter_append, distinct_append]
      by_cases hd : d ∈ makeStructure (distinct (p.filter fun d => decide (Irr F d)))
      · rw [if_pos hd]
        have hnil : (distinct ([d].filter fun d => decide (Irr F d))).filter
            (fun x => decide (x ∉ p.filter fun d => decide (Irr F d))) = [] := by
          rw [List.filter_eq_nil_iff]
          intro x hx
          obtain ⟨hx, hi⟩ := List.mem_filter.1 (mem_distinct.1 hx)
          rw [List.mem_singleton] at hx
          subst hx
          simp only [decide_eq_true_eq] at hi
          simp only [decide_eq_true_eq, not_not]
          rw [mem_makeStructure] at hd
          by_contra hn
          apply hi
          refine isUnionOf_mono ?_ hd
          intro e he
          refine ⟨(hF e).2 (by rw [hq]; simp [hsub e he]), ?_⟩
          rintro rfl
          exact hn (mem_distinct.1 he)
        rw [hnil, List.append_nil]
      · rw [if_neg hd]
        rw [mem_makeStructure] at hd
        have hirr : Irr F d := by
          intro hu
          apply hd
          rw [isUnionOf_iff] at hu
          refine isUnionOf_bind (D := fun e => e ∈ p) hgen ?_
          rw [isUnionOf_iff]
          intro x hx
          obtain ⟨e, ⟨he, hne⟩, hed, hxe⟩ := hu x hx
          refine ⟨e, ?_, hed, hxe⟩
          have hlt : e.card < d.card := Finset.card_lt_card (Finset.ssubset_iff_subset_ne.2 ⟨hed, hne⟩)
          have hel := (hF e).1 he
          rw [hq, List.append_assoc, List.mem_append, List.singleton_append] at hel
          rcases hel with h | h
          · exact h
          · rw [hq, List.append_assoc, List.singleton_append, List.pairwise_append] at hs
            rcases List.mem_cons.1 h with rfl | h
            · exact absurd hlt (lt_irrefl _)
            · have := (List.pairwise_cons.1 hs.2.1).1 e h
              omega
        have hnp : d ∉ p := fun h => hd (hgen d h)
        rw [List.filter_cons_of_pos (by simpa using hirr), List.filter_nil]
        simp [distinct, hnp]
  exact main l [] (by simp)

open Classical in
theorem minimal_eq (bases : List (List (Finset α))) :
    findMinimalGeneratingSet bases = sortedBy (fun a b => decide (a.card ≤ b.card))
      (distinct (bases.flatten.filter fun d => decide (Irr (· ∈ bases.flatten) d))) := by
  have htrans : ∀ a b c : Finset α, decide (a.card ≤ b.card) → decide (b.card ≤ c.card) → decide (a.card ≤ c.card) := by
    simp; intro a b c; exact Nat.le_trans
  have htotal : ∀ a b : Finset α, decide (a.card ≤ b.card) ∨ decide (b.card ≤ a.card) := by
    simp; intro a b; exact Nat.le_total _ _
  unfold findMinimalGeneratingSet
  rw [foldl_addDefinition_eq (F := (· ∈ bases.flatten)) _ ?_ (fun d => by simp), filter_sortedBy htrans htotal,
    distinct_sortedBy htrans htotal]
  exact (sortedBy_pairwise _ htrans htotal bases.flatten).imp (by simp)

/-- Minimising again, with the result in place of the old definitions, gives the same list. -/
theorem minimal_idem (defs old : List (Finset α)) (w : Finset α) :
    findMinimalGeneratingSet [defs, findMinimalGeneratingSet [defs, old, [w]], [w]] =
      findMinimalGeneratingSet [defs, old, [w]] := by
  classical
  have htrans : ∀ a b c : Finset α, decide (a.card ≤ b.card) → decide (b.card ≤ c.card) → decide (a.card ≤ c.card) := by
    simp; intro a b c; exact Nat.le_trans
  have htotal : ∀ a b : Finset α, decide (a.card ≤ b.card) ∨ decide (b.card ≤ a.card) := by
    simp; intro a b; exact Nat.le_total _ _
  set M := findMinimalGeneratingSet [defs, old, [w]] with hM
  have hgen := C02_minimal_generates_same [defs, old, [w]]
  have hsubM : ∀ d ∈ M, d ∈ [defs, old, [w]].flatten := by
    intro d hd
    have := C02_minimal_subset [defs, old, [w]] d hd
    simpa using this
  have hsame : SameFamily (· ∈ [defs, M, [w]].flatten) (· ∈ [defs, old, [w]].flatten) := by
    intro s
    constructor
    · apply isUnionOf_mono
      intro d hd
      simp only [List.mem_flatten, List.mem_cons, List.not_mem_nil, or_false, exists_eq_or_imp, exists_eq_left] at hd ⊢
      rcases hd with h | h | h
      · exact .inl h
      · simpa using hsubM d h
      · exact .inr (.inr h)
    · intro h
      have : IsUnionOf (· ∈ M) s := by
        refine (hgen s).2 (isUnionOf_mono ?_ h)
        intro d hd
        simpa using hd
      exact isUnionOf_mono (fun d hd => by simp [hd]) this
  have hirr : ∀ d, Irr (· ∈ [defs, M, [w]].flatten) d ↔ Irr (· ∈ [defs, old, [w]].flatten) d := irr_congr hsame
  have hMeq := minimal_eq [defs, old, [w]]
  rw [← hM] at hMeq
  rw [minimal_eq]
  simp only [hirr]
  set irr : Finset α → Bool := fun d => decide (Irr (· ∈ [defs, old, [w]].flatten) d) with hirrdef
  set le : Finset α → Finset α → Bool := fun a b => decide (a.card ≤ b.card) with hle
  have hMirr : M.filter irr = M := by
    rw [List.filter_eq_self]
    intro d hd
    rw [hMeq, mem_sortedBy, mem_distinct] at hd
    exact (List.mem_filter.1 hd).2
  have hWM : ∀ d ∈ [w].filter irr, d ∈ M := by
    intro d hd
    rw [hMeq, mem_sortedBy, mem_distinct]
    simp only [List.flatten_cons, List.filter_append, List.mem_append]
    exact .inr (.inr (.inl hd))
  have hMnd : M.Nodup := C02_minimal_nodup _
  have e1 : [defs, M, [w]].flatten.filter irr = defs.filter irr ++ (M ++ [w].filter irr) := by
    simp only [List.flatten_cons, List.flatten_nil, List.filter_append, List.filter_nil, List.append_nil, hMirr]
  have e2 : [defs, old, [w]].flatten.filter irr = defs.filter irr ++ (old.filter irr ++ [w].filter irr) := by
    simp only [List.flatten_cons, List.flatten_nil, List.filter_append, List.filter_nil, List.append_nil]
  rw [e2, distinct_append] at hMeq
  rw [e1, distinct_append, distinct_append M, distinct_of_nodup hMnd]
  have hnil : (distinct ([w].filter irr)).filter (fun x => decide (x ∉ M)) = [] := by
    rw [List.filter_eq_nil_iff]
    intro x hx
    simpa using hWM x (mem_distinct.1 hx)
  rw [hnil, List.append_nil]
  have hMD : M.filter (fun x => decide (x ∉ defs.filter irr)) =
      sortedBy le ((distinct (old.filter irr ++ [w].filter irr)).filter fun x => decide (x ∉ defs.filter irr)) := by
    rw [hMeq, filter_sortedBy htrans htotal, List.filter_append, List.filter_filter]
    congr 1
    have : (distinct (defs.filter irr)).filter (fun x => decide (x ∉ defs.filter irr)) = [] := by
      rw [List.filter_eq_nil_iff]
      intro x hx
      have := mem_distinct.1 hx
      simpa using this
    rw [this, List.nil_append]
    apply List.filter_congr
    intro x _
    exact Bool.and_self _
  rw [hMD, sortedBy_append_sortedBy htrans htotal, ← hMeq]

end Partitions
end Toron
