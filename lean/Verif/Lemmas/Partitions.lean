import Verif.Model.Partitions
import Verif.Lemmas.Py
import Verif.Spec.Partitions
import Mathlib.Data.List.Sublists
import Mathlib.Data.Finset.Basic

namespace Toron.Partitions
open Toron.Spec

variable {α : Type} [DecidableEq α]

theorem mem_combinations {β : Type _} (k : Nat) (xs sub : List β) :
    sub ∈ combinations k xs ↔ sub.Sublist xs ∧ sub.length = k := by
  induction xs generalizing k sub with
  | nil =>
    cases k with
    | zero => simp [combinations]
    | succ k =>
      simp [combinations]
      intro h; simp [h]
  | cons x xs ih =>
    cases k with
    | zero =>
      simp only [combinations, List.mem_singleton, List.length_eq_zero_iff]
      constructor
      · rintro rfl; simp
      · exact fun h => h.2
    | succ k =>
      simp only [combinations, List.mem_append, List.mem_map, ih]
      constructor
      · rintro (⟨t, ⟨h1, h2⟩, rfl⟩ | ⟨h1, h2⟩)
        · exact ⟨h1.cons_cons x, by simp [h2]⟩
        · exact ⟨h1.cons x, h2⟩
      · rintro ⟨h1, h2⟩
        cases h1 with
        | cons _ h => exact Or.inr ⟨h, h2⟩
        | cons_cons _ h => exact Or.inl ⟨_, ⟨h, by simpa using h2⟩, rfl⟩

theorem mem_unionAll_aux (sub : List (Finset α)) (acc : Finset α) (x : α) :
    x ∈ sub.foldl (· ∪ ·) acc ↔ x ∈ acc ∨ ∃ t ∈ sub, x ∈ t := by
  induction sub generalizing acc with
  | nil => simp
  | cons s sub ih => simp [ih, or_assoc]

theorem mem_unionAll (sub : List (Finset α)) (x : α) :
    x ∈ unionAll sub ↔ ∃ t ∈ sub, x ∈ t := by
  simp [unionAll, mem_unionAll_aux]

theorem mem_addUnion (st : List (Finset α)) (sub : List (Finset α)) (s : Finset α) :
    s ∈ addUnion st sub ↔ s ∈ st ∨ s = unionAll sub := by
  unfold addUnion
  simp only
  split
  · rename_i h
    constructor
    · exact Or.inl
    · rintro (h' | rfl) <;> assumption
  · simp

theorem mem_foldl_addUnion (L : List (List (Finset α))) (st : List (Finset α)) (s : Finset α) :
    s ∈ L.foldl addUnion st ↔ s ∈ st ∨ ∃ sub ∈ L, s = unionAll sub := by
  induction L generalizing st with
  | nil => simp
  | cons a L ih => simp [ih, mem_addUnion, or_assoc]

theorem makeStructure_eq (defs : List (Finset α)) :
    makeStructure defs =
      ((List.range (defs.length + 1)).flatMap (fun len => combinations len defs)).foldl addUnion [] := by
  unfold makeStructure
  generalize ([] : List (Finset α)) = st
  induction List.range (defs.length + 1) generalizing st with
  | nil => simp
  | cons a L ih => simp [List.flatMap_cons, List.foldl_append, ih]

theorem mem_makeStructure_sublist (defs : List (Finset α)) (s : Finset α) :
    s ∈ makeStructure defs ↔ ∃ sub, sub.Sublist defs ∧ s = unionAll sub := by
  rw [makeStructure_eq, mem_foldl_addUnion]
  simp only [List.not_mem_nil, false_or, List.mem_flatMap, List.mem_range, mem_combinations]
  constructor
  · rintro ⟨sub, ⟨k, _, h, _⟩, rfl⟩; exact ⟨sub, h, rfl⟩
  · rintro ⟨sub, h, rfl⟩
    exact ⟨sub, ⟨sub.length, Nat.lt_succ_of_le h.length_le, h, rfl⟩, rfl⟩

/-- A convenient pointwise form of `IsUnionOf`. -/
theorem isUnionOf_iff (D : Finset α → Prop) (s : Finset α) :
    IsUnionOf D s ↔ ∀ x ∈ s, ∃ d, D d ∧ d ⊆ s ∧ x ∈ d := by
  classical
  constructor
  · rintro ⟨T, hT, hs⟩ x hx
    obtain ⟨t, ht, hxt⟩ := (hs x).1 hx
    exact ⟨t, hT t ht, fun y hy => (hs y).2 ⟨t, ht, hy⟩, hxt⟩
  · intro h
    choose! f hf using h
    refine ⟨s.image f, ?_, ?_⟩
    · intro t ht
      obtain ⟨x, hx, rfl⟩ := Finset.mem_image.1 ht
      exact (hf x hx).1
    · intro x
      constructor
      · intro hx; exact ⟨f x, Finset.mem_image_of_mem f hx, (hf x hx).2.2⟩
      · rintro ⟨t, ht, hx⟩
        obtain ⟨y, hy, rfl⟩ := Finset.mem_image.1 ht
        exact (hf y hy).2.1 hx

theorem mem_makeStructure (defs : List (Finset α)) (s : Finset α) :
    s ∈ makeStructure defs ↔ IsUnionOf (· ∈ defs) s := by
  rw [mem_makeStructure_sublist]
  constructor
  · rintro ⟨sub, hsub, rfl⟩
    refine ⟨sub.toFinset, ?_, ?_⟩
    · intro t ht; exact hsub.subset (by simpa using ht)
    · intro x; simp [mem_unionAll]
  · rintro ⟨T, hT, hs⟩
    refine ⟨defs.filter (· ∈ T), List.filter_sublist, ?_⟩
    ext x
    rw [hs, mem_unionAll]
    constructor
    · rintro ⟨t, ht, hx⟩; exact ⟨t, by simp [ht, hT t ht], hx⟩
    · rintro ⟨t, ht, hx⟩
      exact ⟨t, by simpa using (List.mem_filter.1 ht).2, hx⟩

theorem nodup_addUnion (st : List (Finset α)) (sub : List (Finset α)) (h : st.Nodup) :
    (addUnion st sub).Nodup := by
  unfold addUnion
  simp only
  split
  · exact h
  · rename_i hn
    rw [List.nodup_append]
    refine ⟨h, by simp, ?_⟩
    rintro a ha b hb rfl
    simp only [List.mem_singleton] at hb
    exact hn (hb ▸ ha)

theorem nodup_foldl_addUnion (L : List (List (Finset α))) (st : List (Finset α)) (h : st.Nodup) :
    (L.foldl addUnion st).Nodup := by
  induction L generalizing st with
  | nil => simpa
  | cons a L ih => exact ih _ (nodup_addUnion _ _ h)

theorem prefix_addUnion (st : List (Finset α)) (sub : List (Finset α)) :
    st <+: addUnion st sub := by
  unfold addUnion; simp only; split
  · exact List.prefix_refl _
  · exact List.prefix_append _ _

theorem prefix_foldl_addUnion (L : List (List (Finset α))) (st : List (Finset α)) :
    st <+: L.foldl addUnion st := by
  induction L generalizing st with
  | nil => exact List.prefix_refl _
  | cons a L ih => exact (prefix_addUnion st a).trans (ih _)

theorem makeStructure_head (defs : List (Finset α)) : (makeStructure defs).head? = some ∅ := by
  rw [makeStructure_eq, List.range_succ_eq_map]
  simp only [List.flatMap_cons, combinations, List.singleton_append, List.foldl_cons]
  have h : addUnion ([] : List (Finset α)) [] = [∅] := by simp [addUnion, unionAll]
  rw [h]
  obtain ⟨t, ht⟩ := prefix_foldl_addUnion
    ((List.map Nat.succ (List.range defs.length)).flatMap fun len => combinations len defs)
    [(∅ : Finset α)]
  rw [← ht]; rfl

/-! ### The minimal generating set loop -/

theorem isUnionOf_mono {D E : Finset α → Prop} (h : ∀ d, D d → E d) {s : Finset α}
    (hs : IsUnionOf D s) : IsUnionOf E s := by
  obtain ⟨T, h1, h2⟩ := hs
  exact ⟨T, fun t ht => h _ (h1 t ht), h2⟩

/-- Generated families are closed: a union of generated sets is generated. -/
theorem isUnionOf_bind {D E : Finset α → Prop} (h : ∀ d, D d → IsUnionOf E d) {s : Finset α}
    (hs : IsUnionOf D s) : IsUnionOf E s := by
  rw [isUnionOf_iff] at hs ⊢
  intro x hx
  obtain ⟨d, hd, hds, hxd⟩ := hs x hx
  obtain ⟨e, he, hed, hxe⟩ := (isUnionOf_iff _ _).1 (h d hd) x hxd
  exact ⟨e, he, hed.trans hds, hxe⟩

theorem isUnionOf_self {D : Finset α → Prop} {d : Finset α} (h : D d) : IsUnionOf D d :=
  (isUnionOf_iff _ _).2 fun x hx => ⟨d, h, Finset.Subset.refl _, hx⟩

theorem addDefinition_prefix (ds : List (Finset α)) (d : Finset α) : ds <+: addDefinition ds d := by
  unfold addDefinition; split
  · exact List.prefix_refl _
  · exact List.prefix_append _ _

theorem foldl_addDefinition_prefix (L : List (Finset α)) (ds : List (Finset α)) :
    ds <+: L.foldl addDefinition ds := by
  induction L generalizing ds with
  | nil => exact List.prefix_refl _
  | cons a L ih => exact (addDefinition_prefix ds a).trans (ih _)

theorem addDefinition_generates (ds : List (Finset α)) (d : Finset α) :
    IsUnionOf (· ∈ addDefinition ds d) d := by
  unfold addDefinition; split
  · rename_i h; exact (mem_makeStructure _ _).1 h
  · exact isUnionOf_self (by simp)

theorem foldl_addDefinition_generates (L : List (Finset α)) (ds : List (Finset α)) (d : Finset α)
    (h : d ∈ L) : IsUnionOf (· ∈ L.foldl addDefinition ds) d := by
  induction L generalizing ds with
  | nil => simp at h
  | cons a L ih =>
    rcases List.mem_cons.1 h with rfl | h
    · exact isUnionOf_mono (fun _ hd => (foldl_addDefinition_prefix L _).subset hd)
        (addDefinition_generates ds _)
    · exact ih _ h

theorem foldl_addDefinition_subset (L : List (Finset α)) (ds : List (Finset α)) :
    ∀ d ∈ L.foldl addDefinition ds, d ∈ ds ∨ d ∈ L := by
  induction L generalizing ds with
  | nil => intro d h; exact Or.inl h
  | cons a L ih =>
    intro d h
    rcases ih _ d h with h | h
    · unfold addDefinition at h
      split at h
      · exact Or.inl h
      · rcases List.mem_append.1 h with h | h
        · exact Or.inl h
        · right; simp only [List.mem_singleton] at h; simp [h]
    · right; simp [h]

/-- Invariant of the loop: no member is generated by the others. -/
def Irredundant (ds : List (Finset α)) : Prop :=
  ∀ d ∈ ds, ¬ IsUnionOf (fun e => e ∈ ds ∧ e ≠ d) d

theorem foldl_addDefinition_irredundant (L : List (Finset α)) (ds : List (Finset α))
    (hL : L.Pairwise (fun a b => a.card ≤ b.card)) (hd : ∀ d ∈ ds, ∀ a ∈ L, d.card ≤ a.card)
    (h : Irredundant ds) (hn : ds.Nodup) :
    Irredundant (L.foldl addDefinition ds) ∧ (L.foldl addDefinition ds).Nodup := by
  induction L generalizing ds with
  | nil => exact ⟨h, hn⟩
  | cons a L ih =>
    rw [List.pairwise_cons] at hL
    have key : Irredundant (addDefinition ds a) ∧ (addDefinition ds a).Nodup := by
      unfold addDefinition
      split
      · exact ⟨h, hn⟩
      · rename_i hna
        rw [mem_makeStructure] at hna
        have hnot : a ∉ ds := fun hm => hna (isUnionOf_self hm)
        constructor
        · intro d hdm hu
          rcases List.mem_append.1 hdm with hd1 | hd1
          · -- `d` is old: `a` cannot help since `a ⊆ d` and `card d ≤ card a` give `a = d`
            apply h d hd1
            rw [isUnionOf_iff] at hu ⊢
            intro x hx
            obtain ⟨e, ⟨he1, he2⟩, he3, he4⟩ := hu x hx
            rcases List.mem_append.1 he1 with he1 | he1
            · exact ⟨e, ⟨he1, he2⟩, he3, he4⟩
            · simp only [List.mem_singleton] at he1
              subst he1
              exact absurd (Finset.eq_of_subset_of_card_le he3 (hd d hd1 e (by simp))) he2
          · simp only [List.mem_singleton] at hd1
            subst hd1
            apply hna
            apply isUnionOf_mono _ hu
            rintro e ⟨he1, he2⟩
            rcases List.mem_append.1 he1 with he1 | he1
            · exact he1
            · simp only [List.mem_singleton] at he1; exact absurd he1 he2
        · rw [List.nodup_append]
          refine ⟨hn, by simp, ?_⟩
          rintro x hx y hy rfl
          simp only [List.mem_singleton] at hy
          exact hnot (hy ▸ hx)
    refine ih _ hL.2 ?_ key.1 key.2
    intro d hdm b hb
    unfold addDefinition at hdm
    split at hdm
    · exact hd d hdm b (by simp [hb])
    · rcases List.mem_append.1 hdm with h1 | h1
      · exact hd d h1 b (by simp [hb])
      · simp only [List.mem_singleton] at h1; subst h1; exact hL.1 b hb

end Toron.Partitions
