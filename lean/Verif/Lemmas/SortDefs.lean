/-
Lemmas about the order in which partition definitions are shown.
-/
import Verif.Lemmas.Format

namespace Toron.Format

open Toron.Selectors (PyStr)

theorem keyLe_refl (a : List Bool) : keyLe a a = true := by
  induction a with
  | nil => rfl
  | cons x a ih => rw [keyLe]; simp [ih]

theorem keyLe_total (a b : List Bool) : keyLe a b = true ∨ keyLe b a = true := by
  induction a generalizing b with
  | nil => exact .inl rfl
  | cons x a ih =>
    cases b with
    | nil => exact .inr rfl
    | cons y b =>
      rw [keyLe, keyLe]
      cases x <;> cases y <;> simp [ih]

theorem keyLe_trans {a b c : List Bool} (h1 : keyLe a b = true) (h2 : keyLe b c = true) : keyLe a c = true := by
  induction a generalizing b c with
  | nil => rfl
  | cons x a ih =>
    cases b with
    | nil => cases h1
    | cons y b =>
      cases c with
      | nil => cases h2
      | cons z c =>
        rw [keyLe] at h1 h2 ⊢
        cases x <;> cases y <;> cases z <;> simp at h1 h2 ⊢ <;> exact ih h1 h2

theorem keyLe_before {labels : List PyStr} {a b : Finset PyStr} (h : keyLe (catKey labels b) (catKey labels a) = true)
    (pre : List PyStr) (x : PyStr) (post : List PyStr) (hl : labels = pre ++ x :: post)
    (hpre : ∀ y ∈ pre, y ∈ a ↔ y ∈ b) (hx : x ∈ b) : x ∈ a := by
  induction pre generalizing labels with
  | nil =>
    subst hl
    unfold catKey at h
    rw [List.nil_append, List.map_cons, List.map_cons, keyLe, decide_eq_true hx] at h
    by_cases ha : x ∈ a
    · exact ha
    · rw [decide_eq_false ha] at h
      simp at h
  | cons c pre ih =>
    obtain ⟨hc, hpre⟩ := List.forall_mem_cons.1 hpre
    subst hl
    unfold catKey at h
    rw [List.cons_append, List.map_cons, List.map_cons, keyLe, decide_eq_decide.2 hc] at h
    rw [if_pos (beq_self_eq_true _)] at h
    exact ih h rfl hpre

theorem distinct_of_nodup' {l : List PyStr} (h : l.Nodup) : distinct l = l := by
  induction l with
  | nil => rfl
  | cons x l ih =>
    obtain ⟨hx, hn⟩ := List.nodup_cons.1 h
    rw [distinct, ih hn, List.filter_eq_self.2]
    intro y hy
    rw [decide_eq_true_eq]
    rintro rfl
    exact hx hy

theorem sortLabels_some {labels : List PyStr} {d : Finset PyStr} (hn : labels.Nodup) (hd : ∀ x ∈ d, x ∈ labels) :
    sortLabels labels d = some (labels.filter fun x => decide (x ∈ d)) := by
  unfold sortLabels
  rw [if_pos hd, distinct_of_nodup' (List.nodup_reverse.2 hn), List.reverse_reverse]

theorem filter_toFinset {labels : List PyStr} {d : Finset PyStr} (hd : ∀ x ∈ d, x ∈ labels) :
    (labels.filter fun x => decide (x ∈ d)).toFinset = d := by
  ext x
  rw [List.mem_toFinset, List.mem_filter, decide_eq_true_eq]
  exact ⟨fun h => h.2, fun h => ⟨hd x h, h⟩⟩

theorem mem_withWhole {defs : List (Finset PyStr)} {labels : List PyStr} {d : Finset PyStr}
    (h : d ∈ withWhole defs labels) : d ∈ defs ∨ d = labels.toFinset := by
  unfold withWhole at h
  split at h
  · rcases List.mem_append.1 h with h | h
    · exact .inl h
    · exact .inr (List.mem_singleton.1 h)
  · exact .inl h

theorem withWhole_known {defs : List (Finset PyStr)} {labels : List PyStr} (hd : ∀ d ∈ defs, ∀ x ∈ d, x ∈ labels) :
    ∀ d ∈ withWhole defs labels, ∀ x ∈ d, x ∈ labels := by
  intro d h x hx
  rcases mem_withWhole h with h | rfl
  · exact hd d h x hx
  · exact List.mem_toFinset.1 hx

theorem mapM_some' {α β : Type} {f : α → Option β} {g : α → β} {l : List α} (h : ∀ x ∈ l, f x = some (g x)) :
    l.mapM f = some (l.map g) := by
  induction l with
  | nil => rfl
  | cons x l ih =>
    obtain ⟨hx, hl⟩ := List.forall_mem_cons.1 h
    rw [List.mapM_cons, hx, ih hl]
    rfl

theorem mapM_none {α β : Type} {f : α → Option β} {l : List α} {x : α} (hx : x ∈ l) (h : f x = none) :
    l.mapM f = none := by
  induction l with
  | nil => cases hx
  | cons y l ih =>
    rw [List.mapM_cons]
    rcases List.mem_cons.1 hx with rfl | hx
    · rw [h]; rfl
    · rw [ih hx]
      cases f y <;> rfl

/-- The sorted definitions. -/
def sorted (defs : List (Finset PyStr)) (labels : List PyStr) : List (Finset PyStr) :=
  sortedBy (fun a b => keyLe (catKey labels b) (catKey labels a)) (withWhole defs labels)

theorem sortDefinitions_ok {defs : List (Finset PyStr)} {labels : List PyStr} (hn : labels.Nodup)
    (hd : ∀ d ∈ defs, ∀ x ∈ d, x ∈ labels) :
    sortDefinitions defs labels = .ok ((sorted defs labels).map fun d => labels.filter fun x => decide (x ∈ d)) := by
  have h : (sorted defs labels).mapM (sortLabels labels) =
      some ((sorted defs labels).map fun d => labels.filter fun x => decide (x ∈ d)) := by
    refine mapM_some' fun d h => sortLabels_some hn (withWhole_known hd d ?_)
    unfold sorted at h
    rwa [mem_sortedBy] at h
  unfold sortDefinitions
  unfold sorted at h ⊢
  rw [h]

theorem sortDefinitions_error {defs : List (Finset PyStr)} {labels : List PyStr} {d : Finset PyStr} {x : PyStr}
    (hd : d ∈ defs) (hx : x ∈ d) (hl : x ∉ labels) :
    sortDefinitions defs labels = .error (.valueError "partition label missing from given labels") := by
  unfold sortDefinitions
  rw [mapM_none (x := d)]
  · rw [mem_sortedBy]
    unfold withWhole
    split
    · exact List.mem_append_left _ hd
    · exact hd
  · unfold sortLabels
    rw [if_neg fun h => hl (h x hx)]

theorem sorted_perm (defs : List (Finset PyStr)) (labels : List PyStr) :
    (sorted defs labels).Perm (withWhole defs labels) := sortedBy_perm _ _

theorem sorted_pairwise (defs : List (Finset PyStr)) (labels : List PyStr) :
    (sorted defs labels).Pairwise fun a b => keyLe (catKey labels b) (catKey labels a) = true :=
  sortedBy_pairwise (fun a b => keyLe (catKey labels b) (catKey labels a)) (fun _ _ _ h1 h2 => keyLe_trans h2 h1)
    (fun _ _ => keyLe_total _ _) _

end Toron.Format
