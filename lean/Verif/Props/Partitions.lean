/-
Property theorems about partitions (C01, C02).
-/
import Verif.Lemmas.Partitions

namespace Toron.Partitions
open Toron.Spec

variable {α : Type} [DecidableEq α]

/-- C01: a label set is in the structure iff it is the union of some sub-collection of the
definitions. -/
theorem C01_structure_is_exactly_the_unions (defs : List (Finset α)) (s : Finset α) :
    s ∈ makeStructure defs ↔ IsUnionOf (· ∈ defs) s :=
  mem_makeStructure defs s

/-- C01: no set is listed twice. -/
theorem C01_structure_nodup (defs : List (Finset α)) : (makeStructure defs).Nodup := by
  rw [makeStructure_eq]; exact nodup_foldl_addUnion _ _ (by simp)

/-- C01: the empty set is listed first. -/
theorem C01_structure_starts_with_empty (defs : List (Finset α)) :
    (makeStructure defs).head? = some ∅ :=
  makeStructure_head defs

/-- C01: the listed sets are closed under union. -/
theorem C01_structure_closed_under_union (defs : List (Finset α)) (s t : Finset α)
    (hs : s ∈ makeStructure defs) (ht : t ∈ makeStructure defs) :
    s ∪ t ∈ makeStructure defs := by
  rw [mem_makeStructure] at *
  obtain ⟨S, hS, hs⟩ := hs
  obtain ⟨T, hT, ht⟩ := ht
  refine ⟨S ∪ T, ?_, ?_⟩
  · intro d hd
    rcases Finset.mem_union.1 hd with h | h
    · exact hS d h
    · exact hT d h
  · intro x
    simp only [Finset.mem_union, hs, ht]
    constructor
    · rintro (⟨t, h, hx⟩ | ⟨t, h, hx⟩)
      · exact ⟨t, Or.inl h, hx⟩
      · exact ⟨t, Or.inr h, hx⟩
    · rintro ⟨t, h | h, hx⟩
      · exact Or.inl ⟨t, h, hx⟩
      · exact Or.inr ⟨t, h, hx⟩

-- a non-trivial case: the docstring example of `make_structure`
example : makeStructure [{"A"}, {"B"}, {"B", "C"}] =
    [∅, {"A"}, {"B"}, {"B", "C"}, {"A", "B"}, {"A", "B", "C"}] := by decide

/-- C02: the minimal generating set generates the same family of label sets as everything given. -/
theorem C02_minimal_generates_same (bases : List (List (Finset α))) :
    SameFamily (· ∈ findMinimalGeneratingSet bases) (fun d => ∃ b ∈ bases, d ∈ b) := by
  intro s
  constructor
  · apply isUnionOf_mono
    intro d hd
    rcases foldl_addDefinition_subset _ _ d hd with h | h
    · simp at h
    · simpa using h
  · apply isUnionOf_bind
    rintro d ⟨b, hb, hd⟩
    apply foldl_addDefinition_generates
    simp only [mem_sortedBy, List.mem_flatten]
    exact ⟨b, hb, hd⟩

/-- C02: only given sets are returned. -/
theorem C02_minimal_subset (bases : List (List (Finset α))) :
    ∀ d ∈ findMinimalGeneratingSet bases, ∃ b ∈ bases, d ∈ b := by
  intro d hd
  rcases foldl_addDefinition_subset _ _ d hd with h | h
  · simp at h
  · simpa using h

theorem minimal_irredundant_nodup (bases : List (List (Finset α))) :
    Irredundant (findMinimalGeneratingSet bases) ∧ (findMinimalGeneratingSet bases).Nodup := by
  apply foldl_addDefinition_irredundant
  · have := sortedBy_pairwise (fun a b : Finset α => decide (a.card ≤ b.card))
      (by simp; intro a b c; exact Nat.le_trans) (by simp; intro a b; exact Nat.le_total _ _)
      bases.flatten
    exact this.imp (by simp)
  · simp
  · intro d hd; simp at hd
  · simp

/-- C02: no returned set is a union of other returned sets (in particular none is empty). -/
theorem C02_minimal_irredundant (bases : List (List (Finset α))) :
    ∀ d ∈ findMinimalGeneratingSet bases,
      ¬ IsUnionOf (fun e => e ∈ findMinimalGeneratingSet bases ∧ e ≠ d) d :=
  (minimal_irredundant_nodup bases).1

/-- C02: nothing is returned twice. -/
theorem C02_minimal_nodup (bases : List (List (Finset α))) :
    (findMinimalGeneratingSet bases).Nodup :=
  (minimal_irredundant_nodup bases).2

/-- C02: every collection `G` that generates the same family contains all returned sets; hence the
result is the unique smallest generating set. -/
theorem C02_minimal_is_least (bases : List (List (Finset α))) (G : Finset α → Prop)
    (hG : SameFamily G (fun d => ∃ b ∈ bases, d ∈ b)) :
    ∀ d ∈ findMinimalGeneratingSet bases, G d := by
  intro d hd
  by_contra hGd
  apply C02_minimal_irredundant bases d hd
  have hdG : IsUnionOf G d := (hG d).2 ((C02_minimal_generates_same bases d).1 (isUnionOf_self hd))
  rw [isUnionOf_iff] at hdG ⊢
  intro x hx
  obtain ⟨g, hg, hgd, hxg⟩ := hdG x hx
  have hgM : IsUnionOf (· ∈ findMinimalGeneratingSet bases) g :=
    (C02_minimal_generates_same bases g).2 ((hG g).1 (isUnionOf_self hg))
  obtain ⟨e, he, heg, hxe⟩ := (isUnionOf_iff _ _).1 hgM x hxg
  refine ⟨e, ⟨he, ?_⟩, heg.trans hgd, hxe⟩
  rintro rfl
  exact hGd (Finset.Subset.antisymm heg hgd ▸ hg)

/-- C02: the number of returned sets is the least possible among finite generating collections. -/
theorem C02_minimal_card (bases : List (List (Finset α))) (G : List (Finset α))
    (hG : SameFamily (· ∈ G) (fun d => ∃ b ∈ bases, d ∈ b)) :
    (findMinimalGeneratingSet bases).length ≤ G.length := by
  have h1 : (findMinimalGeneratingSet bases) ⊆ G := C02_minimal_is_least bases _ hG
  exact ((C02_minimal_nodup bases).subperm h1).length_le

-- the docstring example of `find_minimal_partition_generating_set`
example : findMinimalGeneratingSet [[{"A"}, {"B"}, {"B", "C"}], [{"A", "C"}, {"C"}, {"C", "D"}]] =
    [{"A"}, {"B"}, {"C"}, {"C", "D"}] := by decide

-- the hypothesis of `C02_minimal_is_least` is met by the inputs themselves
example (bases : List (List (Finset α))) :
    SameFamily (fun d => ∃ b ∈ bases, d ∈ b) (fun d => ∃ b ∈ bases, d ∈ b) := fun _ => Iff.rfl

end Toron.Partitions
