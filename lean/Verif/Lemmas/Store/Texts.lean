/-
What is entered for weight groups and links is kept when only their state is recomputed.
-/
import Verif.Lemmas.Store.Complete
import Verif.Lemmas.Store.Frames

set_option linter.unusedSimpArgs false

namespace Toron.Space

open Toron.Selectors (PyStr Sel)

/-- What is entered for the weight groups. -/
def wtexts (s : Store) : List (Nat × PyStr × List Sel) := s.wgroups.map fun g => (g.id, g.name, g.selectors)

/-- What is entered for the links. -/
def ltexts (s : Store) : List (Nat × PyStr × Option PyStr × PyStr × List Sel × Bool) :=
  s.links.map fun l => (l.id, l.other, l.hint, l.name, l.selectors, l.isDefault)

variable {α β γ : Type} {f : Store → List (Nat × γ)}

/-- A program keeps the list `f` if the numbers in it are different. -/
def Keeps (f : Store → List (Nat × γ)) (m : M α) : Prop :=
  ∀ s a s', ((f s).map (·.1)).Nodup → m s = .ok (a, s') → f s' = f s

theorem Keeps.bind {m : M α} {k : α → M β} (h1 : Keeps f m) (h2 : ∀ a, Keeps f (k a)) : Keeps f (m >>= k) := by
  intro s a s' hn h
  obtain ⟨x, t, ha, hb⟩ := bind_ok.1 h
  have e1 := h1 s x t hn ha
  rw [← e1]
  exact h2 x t a s' (e1 ▸ hn) hb

theorem Keeps.whenM {b : Bool} {m : M Unit} (h : Keeps f m) : Keeps f (whenM b m) := by
  intro s a s' hn hs
  rcases whenM_ok.1 hs with ⟨-, hs⟩ | ⟨-, rfl⟩
  · exact h s a s' hn hs
  · rfl

theorem Keeps.throw {e : Err} : Keeps f (throw e : M α) := fun s a s' _ h => (throw_ok.1 h).elim

theorem Keeps.ite {p : Prop} [Decidable p] {x y : M α} (h1 : Keeps f x) (h2 : Keeps f y) :
    Keeps f (if p then x else y) := by
  by_cases hp : p
  · rw [if_pos hp]; exact h1
  · rw [if_neg hp]; exact h2

theorem Keeps.pure (a : α) : Keeps f (pure a : M α) := by
  intro s b s' _ h
  cases pure_ok.1 h
  rfl

theorem Keeps.of_does {m : M α} {K : List Kind} (h : Does K m) (hf : ∀ s s', Steps K s s' → f s' = f s) :
    Keeps f m := fun s a s' _ hm => hf s s' (h.steps s a s' hm)

theorem Keeps.get_forM {δ : Type} {g : Store → List δ} {body : δ → M Unit}
    (h : ∀ s, ∀ x ∈ g s, ∀ t t', f t = f s → ((f t).map (·.1)).Nodup → body x t = .ok ((), t') → f t' = f t) :
    Keeps f (do (g (← get)).forM body) := by
  intro s a s' hn hs
  obtain ⟨_, _, hg, hs⟩ := bind_ok.1 hs
  cases get_ok.1 hg
  suffices ∀ (l : List δ), (∀ x ∈ l, x ∈ g s) → ∀ t, f t = f s → l.forM body t = .ok (a, s') → f s' = f s from
    this _ (fun x hx => hx) s rfl hs
  intro l
  induction l with
  | nil => intro _ t ht h; cases h; exact ht
  | cons x xs ih =>
    intro hl t ht h'
    obtain ⟨u, t2, h1, h2⟩ := bind_ok.1 h'
    have e := h s x (hl x (by simp)) t t2 ht (ht ▸ hn) h1
    exact ih (fun y hy => hl y (by simp [hy])) t2 (e.trans ht) h2

/-! ### Weight groups -/

theorem wgroupUpdate_keeps {g g' : WGroup} {s s' : Store} (hn : ((wtexts s).map (·.1)).Nodup)
    (hg : (g.id, g.name, g.selectors) ∈ wtexts s)
    (hg' : (g'.id, g'.name, g'.selectors) = (g.id, g.name, g.selectors))
    (h : wgroupUpdate g' s = .ok ((), s')) : wtexts s' = wtexts s := by
  simp only [wgroupUpdate, bind_ok, get_ok, ite_ok, throw_ok, put_ok, pure_ok] at h
  obtain ⟨_, _, he, h⟩ := h
  cases he
  obtain ⟨_, h⟩ | ⟨_, h⟩ := h
  · cases h; rfl
  obtain ⟨_, h⟩ | ⟨_, h⟩ := h
  · exact h.elim
  cases h
  simp only [wtexts, List.map_map] at hn hg ⊢
  apply List.map_congr_left
  intro x hx
  rw [Function.comp_apply]
  by_cases hid : x.id = g'.id
  · rw [if_pos hid, hg']
    obtain ⟨y, hy, he⟩ := List.mem_map.1 hg
    have hxy : y = x := List.inj_on_of_nodup_map hn hy hx (by
      simp only [Function.comp_apply]
      rw [hid]
      exact (congrArg Prod.fst he).trans (congrArg Prod.fst hg').symm)
    rw [← hxy, he]
  · rw [if_neg hid]

theorem mem_wtexts {s t : Store} {g : WGroup} (hg : g ∈ s.wgroups) (h : wtexts t = wtexts s) :
    (g.id, g.name, g.selectors) ∈ wtexts t := by
  rw [h]
  exact List.mem_map_of_mem (f := fun g : WGroup => (g.id, g.name, g.selectors)) hg

theorem recomputeComplete_keeps : Keeps wtexts recomputeComplete := by
  refine Keeps.get_forM (g := fun s => s.wgroups) fun s x hx t t' ht hn h => ?_
  obtain ⟨_, _, hg, h⟩ := bind_ok.1 h
  cases get_ok.1 hg
  exact wgroupUpdate_keeps hn (mem_wtexts hx ht) (by rfl) h

theorem promoteGroups_keeps : Keeps wtexts promoteGroups := by
  refine Keeps.get_forM (g := fun s => s.wgroups) fun s x hx t t' ht hn h => ?_
  obtain ⟨_, _, hg, h⟩ := bind_ok.1 h
  cases get_ok.1 hg
  rcases whenM_ok.1 h with ⟨-, h⟩ | ⟨-, rfl⟩
  · exact wgroupUpdate_keeps hn (mem_wtexts hx ht) (by rfl) h
  · rfl

theorem keepsW_of_does {m : M α} {K : List Kind} (h : Does K m) (hK : ∀ k ∈ K, k ∉ [Kind.wgAdd, .wgUpd, .wgDel]) :
    Keeps wtexts m := Keeps.of_does h fun s s' hs => by simp only [wtexts, hs.wgroups_eq hK]

theorem keepsL_of_does {m : M α} {K : List Kind} (h : Does K m) (hK : ∀ k ∈ K, k ∉ [Kind.lAdd, .lUpd, .lDel]) :
    Keeps ltexts m := Keeps.of_does h fun s s' hs => by simp only [ltexts, hs.links_eq hK]

theorem get_keeps : Keeps f (get : M Store) := by
  intro s a s' _ h
  cases get_ok.1 h
  rfl

theorem afterWeights_keeps {g : WGroup} {b : Bool} {s s' : Store} (hn : ((wtexts s).map (·.1)).Nodup)
    (hg : (g.id, g.name, g.selectors) ∈ wtexts s) (h : afterWeights g b s = .ok ((), s')) :
    wtexts s' = wtexts s := by
  obtain ⟨_, _, hgt, h⟩ := bind_ok.1 h
  cases get_ok.1 hgt
  rcases whenM_ok.1 h with ⟨-, h⟩ | ⟨-, rfl⟩
  · exact wgroupUpdate_keeps hn hg (by rfl) h
  · rfl

theorem insertIndex_keepsW (weights : Option (List PyStr)) (wcols : List PyStr) (pl pw : Policy)
    (rows : List IndexRow) : Keeps wtexts (insertIndex weights wcols pl pw rows) := by
  unfold insertIndex
  refine get_keeps.bind fun s => Keeps.ite Keeps.throw (Keeps.ite Keeps.throw ?_)
  refine (keepsW_of_does (insertIndexGroups_does _ _) (by decide)).bind fun gs => ?_
  refine (keepsW_of_does (K := [.idxAdd, .idxUpd, .wAdd, .wSet]) (by does) (by decide)).bind fun c => ?_
  refine (keepsW_of_does (K := [.hash, .structs, .pdefs, .lUpd]) (by does) (by decide)).bind fun _ => ?_
  exact recomputeComplete_keeps.whenM

theorem afterMerge_keepsW : Keeps wtexts afterMerge := by
  unfold afterMerge
  refine (keepsW_of_does refreshIndexHash_does (by decide)).bind fun _ => ?_
  exact promoteGroups_keeps.bind fun _ => keepsW_of_does promoteLinks_does (by decide)

theorem updateIndex_keepsW (merge : Bool) (rows : List (Nat × List PyStr)) :
    Keeps wtexts (updateIndex merge rows) := by
  unfold updateIndex
  refine (keepsW_of_does (K := [.wAdd, .wDel, .mAdd, .mDel, .idxDel, .idxUpd]) (by does) (by decide)).bind fun c => ?_
  refine (keepsW_of_does (K := [.structs]) (by does) (by decide)).bind fun _ => ?_
  exact afterMerge_keepsW.whenM

theorem afterDeleteIndex_keepsW : Keeps wtexts afterDeleteIndex := by
  unfold afterDeleteIndex
  refine (keepsW_of_does refreshIndexHash_does (by decide)).bind fun _ => ?_
  refine (keepsW_of_does refreshGranularity_does (by decide)).bind fun _ => ?_
  exact promoteGroups_keeps.bind fun _ => keepsW_of_does (K := [.lUpd]) (by does) (by decide)

theorem deleteIndex_keepsW (t : Target (Nat × List PyStr)) : Keeps wtexts (deleteIndex t) := by
  unfold deleteIndex
  refine Keeps.ite Keeps.throw ?_
  refine (keepsW_of_does (deleteIndexTarget_does _) (by decide)).bind fun c => ?_
  exact afterDeleteIndex_keepsW.whenM

theorem updateWeights_keepsW (name : PyStr) (rows : List (Nat × List PyStr × ℚ)) :
    Keeps wtexts (updateWeights name rows) := by
  intro s a s' hn h
  obtain ⟨g, s1, hg, h0⟩ := bind_ok.1 h
  obtain ⟨e0, hg, -⟩ := wgroupGetByName_ok hg
  rw [e0] at h0
  obtain ⟨b, t, h1, h2⟩ := bind_ok.1 h0
  have e := keepsW_of_does (K := [.wAdd, .wSet]) (by does) (by decide) _ _ _ hn h1
  exact (afterWeights_keeps (e ▸ hn) (mem_wtexts hg e) h2).trans e

theorem deleteWeights_keepsW (name : PyStr) (t : Target (Nat × List PyStr)) :
    Keeps wtexts (deleteWeights name t) := by
  intro s a s' hn h
  obtain ⟨g, s1, hg, h0⟩ := bind_ok.1 h
  obtain ⟨e0, hg, -⟩ := wgroupGetByName_ok hg
  rw [e0] at h0
  rcases ite_ok.1 h0 with ⟨-, h⟩ | ⟨-, h⟩
  · exact (throw_ok.1 h).elim
  obtain ⟨b, t, h1, h2⟩ := bind_ok.1 h
  have e := keepsW_of_does (deleteWeightTarget_does _ _) (by decide) _ _ _ hn h1
  rcases whenM_ok.1 h2 with ⟨-, h⟩ | ⟨-, rfl⟩
  · exact (wgroupUpdate_keeps (e ▸ hn) (mem_wtexts hg e) (by rfl) h).trans e
  · exact e

/-! ### Links -/

theorem linkUpdate_keeps {l l' : Link} {s s' : Store} (hn : ((ltexts s).map (·.1)).Nodup)
    (hl : (l.id, l.other, l.hint, l.name, l.selectors, l.isDefault) ∈ ltexts s)
    (hl' : (l'.id, l'.other, l'.hint, l'.name, l'.selectors, l'.isDefault) =
      (l.id, l.other, l.hint, l.name, l.selectors, l.isDefault))
    (h : linkUpdate l' s = .ok ((), s')) : ltexts s' = ltexts s := by
  simp only [linkUpdate, bind_ok, get_ok, ite_ok, throw_ok, put_ok, pure_ok] at h
  obtain ⟨_, _, he, h⟩ := h
  cases he
  obtain ⟨_, h⟩ | ⟨_, h⟩ := h
  · cases h; rfl
  obtain ⟨_, h⟩ | ⟨_, h⟩ := h
  · exact h.elim
  cases h
  simp only [ltexts, List.map_map] at hn hl ⊢
  apply List.map_congr_left
  intro x hx
  rw [Function.comp_apply]
  by_cases hid : x.id = l'.id
  · rw [if_pos hid, hl']
    obtain ⟨y, hy, he⟩ := List.mem_map.1 hl
    have hxy : y = x := List.inj_on_of_nodup_map hn hy hx (by
      simp only [Function.comp_apply]
      rw [hid]
      exact (congrArg Prod.fst he).trans (congrArg Prod.fst hl').symm)
    rw [← hxy, he]
  · rw [if_neg hid]

theorem mem_ltexts {s t : Store} {l : Link} (hl : l ∈ s.links) (h : ltexts t = ltexts s) :
    (l.id, l.other, l.hint, l.name, l.selectors, l.isDefault) ∈ ltexts t := by
  rw [h]
  exact List.mem_map_of_mem
    (f := fun l : Link => (l.id, l.other, l.hint, l.name, l.selectors, l.isDefault)) hl

theorem promoteLinks_keeps : Keeps ltexts promoteLinks := by
  refine Keeps.get_forM (g := fun s => s.links) fun s x hx t t' ht hn h => ?_
  obtain ⟨_, _, hg, h⟩ := bind_ok.1 h
  cases get_ok.1 hg
  rcases whenM_ok.1 h with ⟨-, h⟩ | ⟨-, rfl⟩
  · exact linkUpdate_keeps hn (mem_ltexts hx ht) (by rfl) h
  · rfl

theorem afterNewRecords_keepsL : Keeps ltexts afterNewRecords := by
  unfold afterNewRecords
  refine (keepsL_of_does refreshIndexHash_does (by decide)).bind fun _ => ?_
  refine (keepsL_of_does refreshOrRebuild_does (by decide)).bind fun _ => ?_
  refine Keeps.get_forM (g := fun s => s.links) fun s x hx t t' ht hn h => ?_
  rcases whenM_ok.1 h with ⟨-, h⟩ | ⟨-, rfl⟩
  · exact linkUpdate_keeps hn (mem_ltexts hx ht) (by rfl) h
  · rfl

theorem insertIndex_keepsL (weights : Option (List PyStr)) (wcols : List PyStr) (pl pw : Policy)
    (rows : List IndexRow) : Keeps ltexts (insertIndex weights wcols pl pw rows) := by
  unfold insertIndex
  refine get_keeps.bind fun s => Keeps.ite Keeps.throw (Keeps.ite Keeps.throw ?_)
  refine (keepsL_of_does (insertIndexGroups_does _ _) (by decide)).bind fun gs => ?_
  refine (keepsL_of_does (K := [.idxAdd, .idxUpd, .wAdd, .wSet]) (by does) (by decide)).bind fun c => ?_
  refine afterNewRecords_keepsL.whenM.bind fun _ => ?_
  exact keepsL_of_does (K := [.wgUpd]) (by does) (by decide)

theorem updateIndex_keepsL (merge : Bool) (rows : List (Nat × List PyStr)) :
    Keeps ltexts (updateIndex merge rows) := by
  unfold updateIndex
  refine (keepsL_of_does (K := [.wAdd, .wDel, .mAdd, .mDel, .idxDel, .idxUpd]) (by does) (by decide)).bind fun c => ?_
  refine (keepsL_of_does (K := [.structs]) (by does) (by decide)).bind fun _ => ?_
  refine Keeps.whenM ?_
  unfold afterMerge
  refine (keepsL_of_does refreshIndexHash_does (by decide)).bind fun _ => ?_
  exact (keepsL_of_does promoteGroups_does (by decide)).bind fun _ => promoteLinks_keeps

theorem deleteIndex_keepsL (t : Target (Nat × List PyStr)) : Keeps ltexts (deleteIndex t) := by
  unfold deleteIndex
  refine Keeps.ite Keeps.throw ?_
  refine (keepsL_of_does (deleteIndexTarget_does _) (by decide)).bind fun c => ?_
  refine Keeps.whenM ?_
  unfold afterDeleteIndex
  refine (keepsL_of_does refreshIndexHash_does (by decide)).bind fun _ => ?_
  refine (keepsL_of_does refreshGranularity_does (by decide)).bind fun _ => ?_
  refine (keepsL_of_does promoteGroups_does (by decide)).bind fun _ => ?_
  refine Keeps.get_forM (g := fun s => s.links) fun s x hx t t' ht hn h => ?_
  obtain ⟨_, _, hg, h⟩ := bind_ok.1 h
  cases get_ok.1 hg
  exact linkUpdate_keeps hn (mem_ltexts hx ht) (by rfl) h

theorem refreshLink_keepsL {l : Link} {s s' : Store} (hn : ((ltexts s).map (·.1)).Nodup)
    (hl : (l.id, l.other, l.hint, l.name, l.selectors, l.isDefault) ∈ ltexts s)
    (h : refreshLink l s = .ok ((), s')) : ltexts s' = ltexts s := by
  obtain ⟨_, _, hgt, h⟩ := bind_ok.1 h
  cases get_ok.1 hgt
  obtain ⟨_, t, h1, h⟩ := bind_ok.1 h
  have e := keepsL_of_does (K := [.mUpd]) (by does) (by decide) _ _ _ hn h1
  obtain ⟨_, _, hgt, h⟩ := bind_ok.1 h
  cases get_ok.1 hgt
  exact (linkUpdate_keeps (e ▸ hn) (e ▸ hl) (by rfl) h).trans e

end Toron.Space
