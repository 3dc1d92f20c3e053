/-
Lemmas about the summary of a dataspace.
-/
import Verif.Model.Info
import Verif.Spec.Info
import Verif.Lemmas.Distinct
import Verif.Lemmas.Py
import Verif.Lemmas.Store.Columns

namespace Toron.Info

open Toron.Selectors (PyStr)
open Toron.Space

/-! ### The default weight group -/

/-- The default weight group, if there is one, exists. -/
def DefaultOk (s : Store) : Prop := ∀ d, s.defaultWG = some d → ∃ w ∈ s.wgroups, d = some w.id

theorem DefaultOk.prim {k : Kind} {s s' : Store} (hp : Prim k s s') (hk : k ∉ [Kind.wgDel, .defwg])
    (h : DefaultOk s) : DefaultOk s' := by
  cases hp with
  | wgAdd _ name selectors complete huniq =>
    intro d hd
    obtain ⟨w, hw, he⟩ := h d hd
    exact ⟨w, List.mem_append_left _ hw, he⟩
  | wgUpd _ g hex huniq =>
    intro d hd
    obtain ⟨w, hw, he⟩ := h d hd
    have h1 : w.id ∈ (s.wgroups.map fun x => if x.id = g.id then g else x).map (·.id) := by
      rw [map_update_id (id := WGroup.id)]
      exact List.mem_map_of_mem hw
    obtain ⟨x, hx, hxe⟩ := List.mem_map.1 h1
    exact ⟨x, hx, by rw [he, ← hxe]⟩
  | wgDel => exact absurd (by simp) hk
  | defwg => exact absurd (by simp) hk
  | _ => exact h

theorem DefaultOk.steps {K : List Kind} {s s' : Store} (h : Steps K s s')
    (hK : ∀ k ∈ K, k ∉ [Kind.wgDel, .defwg]) (hs : DefaultOk s) : DefaultOk s' :=
  h.invariant (P := DefaultOk) (fun k hk _ _ hp => DefaultOk.prim hp (hK k hk)) hs

theorem step_defaultOk (op : Op) {s : Store} (hs : DefaultOk s)
    (hop : ∀ g, op = .setDefaultWeightGroup g → ∃ w ∈ s.wgroups, g = some w.id) : DefaultOk (step op s).1 := by
  have key : ∀ m, op.body = some m → (∀ s', m s = .ok ((), s') → DefaultOk s') → DefaultOk (step op s).1 := by
    intro m hm hk
    have hrun := step_of_body hm s
    unfold runTx at hrun
    split at hrun
    · rename_i a s' heq
      split at hrun
      · have := hk s' heq
        rw [hrun]
        exact this
      · rw [hrun]
        exact hs
    · rw [hrun]
      exact hs
  have plain : ∀ (K : List Kind) m, op.body = some m → Does K m →
      (∀ k ∈ K, k ∉ [Kind.wgDel, .defwg]) → DefaultOk (step op s).1 := by
    intro K m hm hd h1
    exact key m hm fun s' h => DefaultOk.steps (hd.steps _ _ _ h) h1 hs
  cases op with
  | setDefaultWeightGroup g =>
    refine key _ rfl fun s' h => ?_
    have h' := (Prod.mk.inj (modify_ok.1 h)).2
    subst h'
    intro d hd
    obtain ⟨w, hw, he⟩ := hop g rfl
    refine ⟨w, hw, ?_⟩
    cases hd
    exact he
  | addWeightGroup name selectors complete mk =>
    refine key _ rfl fun s' h => ?_
    unfold addWeightGroup at h
    simp only [bind_ok, get_ok] at h
    obtain ⟨_, _, he, h⟩ := h
    cases he
    cases hf : s.findWGroup name with
    | some g => simp only [hf, throw_ok] at h
    | none =>
      simp only [hf, bind_ok] at h
      obtain ⟨_, t, ht, h⟩ := h
      have hst := DefaultOk.steps ((wgroupAdd_does _ _ _).steps _ _ _ ht) (by decide) hs
      rw [ite_ok] at h
      obtain ⟨_, h⟩ | ⟨_, h⟩ := h
      · rw [bind_ok] at h
        obtain ⟨g, u, hg, h⟩ := h
        unfold wgroupGetByName at hg
        rw [bind_ok] at hg
        obtain ⟨_, _, he, hg⟩ := hg
        rw [get_ok] at he
        cases he
        cases hf' : t.findWGroup name with
        | none => simp only [hf', throw_ok] at hg
        | some g' =>
          simp only [hf', pure_ok] at hg
          cases hg
          have h' := (Prod.mk.inj (modify_ok.1 h)).2
          subst h'
          intro d hd
          cases hd
          exact ⟨_, List.mem_of_find?_eq_some hf', rfl⟩
      · rw [pure_ok] at h
        cases h
        exact hst
  | dropWeightGroup name =>
    refine key _ rfl fun s' h => ?_
    unfold dropWeightGroup at h
    rw [bind_ok] at h
    obtain ⟨_, _, he, h⟩ := h
    rw [get_ok] at he
    cases he
    cases hf : s.findWGroup name with
    | none =>
      simp only [hf, pure_ok] at h
      cases h
      exact hs
    | some g =>
      simp only [hf] at h
      rw [bind_ok] at h
      obtain ⟨_, t, ht, h⟩ := h
      have ht' := (Prod.mk.inj (modify_ok.1 ht)).2
      rw [bind_ok] at h
      obtain ⟨_, _, he, h⟩ := h
      rw [get_ok] at he
      cases he
      have htd : t.defaultWG = s.defaultWG := by rw [ht']
      have htw : t.wgroups = s.wgroups.filter fun x => x.id != g.id := by rw [ht']
      rcases hd : t.defaultWG with _ | d <;> simp only [hd] at h
      · cases h
      · simp only [ite_ok, put_ok, pure_ok] at h
        obtain ⟨_, h⟩ | ⟨hne, h⟩ := h <;> cases h
        · intro d hd
          cases hd
        · intro d' hd'
          rw [hd] at hd'
          cases hd'
          obtain ⟨w, hw, he⟩ := hs d (by rw [← htd, hd])
          refine ⟨w, ?_, he⟩
          rw [htw, List.mem_filter]
          refine ⟨hw, ?_⟩
          simp only [bne_iff_ne, ne_eq]
          intro hid
          exact hne (by rw [he, hid])
  | reifyMappings r n cs => exact DefaultOk.steps (reifyMappings_steps r n cs s) (by decide) hs
  | deleteUnmatchedQuantities => exact DefaultOk.steps (deleteUnmatchedQuantities_steps s) (by decide) hs
  | reopen => exact hs
  | _ =>
    exact plain
      [.idxAdd, .idxUpd, .idxDel, .locAdd, .locDel, .agAdd, .agDel, .qAdd, .qSet, .qDel,
       .wgAdd, .wgUpd, .wAdd, .wSet, .wDel, .lAdd, .lUpd, .lDel, .mAdd, .mUpd, .mDel,
       .hash, .structs, .pdefs, .attrs, .domain, .display, .colAdd, .colRen, .colDrop] _ rfl (by does) (by decide)

theorem ReachableDefaulted.defaultOk {s : Store} (h : ReachableDefaulted s) : DefaultOk s := by
  obtain ⟨uid, ops, hops, rfl⟩ := h
  induction ops using List.reverseRecOn with
  | nil => intro d hd; cases hd
  | append_singleton ops op ih =>
    rw [run_snoc]
    refine step_defaultOk op (ih fun pre g post he => hops pre g (post ++ [op]) ?_) fun g hg => ?_
    · rw [he]; simp
    · exact hops ops g [] (by rw [hg])

/-! ### Order of texts -/

theorem text_trans (a b c : PyStr) (h1 : textLe a b = true)
    (h2 : textLe b c = true) :
    textLe a c = true := by
  unfold textLe at *
  exact decide_eq_true (List.le_trans (of_decide_eq_true h1) (of_decide_eq_true h2))

theorem text_total (a b : PyStr) : textLe a b = true ∨
    textLe b a = true := by
  unfold textLe
  rcases List.le_total (a.map Char.toNat) (b.map Char.toNat) with h | h
  · exact .inl (decide_eq_true h)
  · exact .inr (decide_eq_true h)

theorem text_le {a b : PyStr} (h : textLe a b = true) : TextLe a b := by
  unfold textLe at h
  rw [decide_eq_true_eq] at h
  exact h

theorem text_antisymm {a b : PyStr} (h1 : textLe a b = true)
    (h2 : textLe b a = true) : a = b := by
  unfold textLe at h1 h2
  have := List.le_antisymm (of_decide_eq_true h1) (of_decide_eq_true h2)
  exact List.map_injective_iff.2 (fun x y h => Char.toNat_inj.1 h) this

theorem linkLe_trans (a b c : Link) (h1 : linkLe a b = true) (h2 : linkLe b c = true) : linkLe a c = true := by
  unfold linkLe at *
  by_cases hab : a.other = b.other
  · rw [if_pos hab] at h1
    by_cases hbc : b.other = c.other
    · rw [if_pos hbc] at h2
      rw [if_pos (hab.trans hbc)]
      exact decide_eq_true ((of_decide_eq_true h1).trans (of_decide_eq_true h2))
    · rw [if_neg hbc] at h2
      rw [if_neg (fun h => hbc (hab.symm.trans h)), hab]
      exact h2
  · rw [if_neg hab] at h1
    by_cases hbc : b.other = c.other
    · rw [if_neg (fun h => hab (h.trans hbc.symm)), ← hbc]
      exact h1
    · rw [if_neg hbc] at h2
      by_cases hac : a.other = c.other
      · rw [← hac] at h2
        exact absurd (text_antisymm h1 h2) hab
      · rw [if_neg hac]
        exact text_trans _ _ _ h1 h2

theorem linkLe_total (a b : Link) : linkLe a b = true ∨ linkLe b a = true := by
  unfold linkLe
  by_cases hab : a.other = b.other
  · rw [if_pos hab, if_pos hab.symm]
    rcases Nat.le_total a.id b.id with h | h
    · exact .inl (decide_eq_true h)
    · exact .inr (decide_eq_true h)
  · rw [if_neg hab, if_neg (Ne.symm hab)]
    exact text_total _ _

theorem distinct_sublist {κ : Type} [DecidableEq κ] (l : List κ) : (distinct l).Sublist l := by
  induction l with
  | nil => exact List.Sublist.refl _
  | cons x xs ih =>
    rw [distinct]
    exact (List.filter_sublist.trans ih).cons_cons x

theorem forall₂_filterMap {α β : Type} {R : α → β → Prop} {f : α → Option β} {l : List α}
    (h : ∀ x ∈ l, ∃ y, f x = some y ∧ R x y) : List.Forall₂ R l (l.filterMap f) := by
  induction l with
  | nil => exact .nil
  | cons x xs ih =>
    obtain ⟨⟨y, hy, hr⟩, hl⟩ := List.forall_mem_cons.1 h
    rw [List.filterMap_cons_some hy]
    exact .cons hr (ih hl)

end Toron.Info
