import Verif.Py

namespace Toron

theorem insertBy_perm {α : Type _} (le : α → α → Bool) (x : α) (l : List α) :
    (insertBy le x l).Perm (x :: l) := by
  induction l with
  | nil => exact List.Perm.refl _
  | cons y ys ih =>
    unfold insertBy; split
    · exact List.Perm.refl _
    · exact (ih.cons y).trans (List.Perm.swap x y ys)

theorem sortedBy_perm {α : Type _} (le : α → α → Bool) (l : List α) :
    (sortedBy le l).Perm l := by
  induction l with
  | nil => exact List.Perm.refl _
  | cons x xs ih => exact (insertBy_perm le x _).trans (ih.cons x)

@[simp] theorem mem_sortedBy {α : Type _} (le : α → α → Bool) (l : List α) (x : α) :
    x ∈ sortedBy le l ↔ x ∈ l := (sortedBy_perm le l).mem_iff

theorem insertBy_pairwise {α : Type _} (le : α → α → Bool)
    (htrans : ∀ a b c, le a b → le b c → le a c) (htotal : ∀ a b, le a b ∨ le b a)
    (x : α) (l : List α) (h : l.Pairwise (fun a b => le a b)) :
    (insertBy le x l).Pairwise (fun a b => le a b) := by
  induction l with
  | nil => simp [insertBy]
  | cons y ys ih =>
    rw [List.pairwise_cons] at h
    unfold insertBy; split
    · rename_i hxy
      rw [List.pairwise_cons]
      refine ⟨?_, List.pairwise_cons.2 h⟩
      intro z hz
      rcases List.mem_cons.1 hz with rfl | hz
      · exact hxy
      · exact htrans _ _ _ hxy (h.1 z hz)
    · rename_i hxy
      rw [List.pairwise_cons]
      refine ⟨?_, ih h.2⟩
      intro z hz
      rcases List.mem_cons.1 ((insertBy_perm le x ys).mem_iff.1 hz) with rfl | hz
      · rcases htotal z y with h' | h'
        · exact absurd h' hxy
        · exact h'
      · exact h.1 z hz

theorem sortedBy_pairwise {α : Type _} (le : α → α → Bool)
    (htrans : ∀ a b c, le a b → le b c → le a c) (htotal : ∀ a b, le a b ∨ le b a) (l : List α) :
    (sortedBy le l).Pairwise (fun a b => le a b) := by
  induction l with
  | nil => exact List.Pairwise.nil
  | cons x xs ih => exact insertBy_pairwise le htrans htotal x _ ih

/-- If the order is antisymmetric on the elements, sorting does not depend on the input order. -/
theorem sortedBy_congr {α : Type _} (le : α → α → Bool)
    (htrans : ∀ a b c, le a b → le b c → le a c) (htotal : ∀ a b, le a b ∨ le b a)
    (l l' : List α) (hp : l.Perm l')
    (hanti : ∀ a ∈ l, ∀ b ∈ l, le a b → le b a → a = b) :
    sortedBy le l = sortedBy le l' := by
  have hP : (sortedBy le l).Perm (sortedBy le l') :=
    (sortedBy_perm le l).trans (hp.trans (sortedBy_perm le l').symm)
  refine List.Perm.eq_of_pairwise (le := fun a b => le a b) ?_
    (sortedBy_pairwise le htrans htotal l) (sortedBy_pairwise le htrans htotal l') hP
  intro a b ha hb h1 h2
  exact hanti a ((mem_sortedBy le l a).1 ha) b (hp.mem_iff.2 ((mem_sortedBy le l' b).1 hb)) h1 h2

end Toron
