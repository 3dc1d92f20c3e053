/-
Partition definitions and the structure table.
-/
import Verif.Lemmas.Store.Call
import Verif.Lemmas.Store.Frames
import Verif.Lemmas.Minimal
import Verif.Spec.Columns

set_option linter.unusedSimpArgs false

namespace Toron.Space

open Toron.Selectors (PyStr Sel)
open Toron.Partitions Toron.Spec

/-! ### Rebuilding -/

theorem structAdds_ok {l : List (Finset PyStr)} {g : Finset PyStr → Option Gran} {cols : List PyStr}
    {s s' : Store} (h : l.forM (fun d => structAdd (g d) (bitsOf cols d)) s = .ok ((), s')) :
    ∃ X, s' = { s with structs := s.structs ++ X } ∧
      X.map (fun r => (r.gran, r.bits)) = l.map fun d => (g d, bitsOf cols d) := by
  induction l generalizing s with
  | nil => cases h; exact ⟨[], by simp, rfl⟩
  | cons d ds ih =>
    rw [forM_cons_ok] at h
    obtain ⟨t, h1, h2⟩ := h
    simp only [structAdd, bind_ok, get_ok, ite_ok, throw_ok, put_ok] at h1
    obtain ⟨_, _, he, h1⟩ := h1
    cases he
    obtain ⟨_, h1⟩ | ⟨_, h1⟩ := h1
    · exact h1.elim
    obtain ⟨_, h1⟩ | ⟨_, h1⟩ := h1
    · exact h1.elim
    obtain ⟨_, h1⟩ | ⟨_, h1⟩ := h1
    · exact h1.elim
    cases h1
    obtain ⟨X, rfl, hX⟩ := ih h2
    refine ⟨⟨nextId (s.structs.map (·.id)), g d, bitsOf cols d⟩ :: X, ?_, ?_⟩
    · rw [List.append_assoc]
      rfl
    · rw [List.map_cons, List.map_cons, hX]

theorem rebuildStructure_ok {s s' : Store} (h : rebuildStructure s = .ok ((), s')) :
    ∃ X, s' = { s with structs := X } ∧
      (X.map fun r => (r.gran, r.bits)) = (makeStructure s.defs).map fun d => (s.granSql d, bitsOf s.cols d) := by
  simp only [rebuildStructure, bind_ok, get_ok, modify_ok, ite_ok, throw_ok] at h
  obtain ⟨_, _, he, _, _, he2, h⟩ := h
  cases he
  cases he2
  obtain ⟨_, h⟩ | ⟨_, h⟩ := h
  · exact h.elim
  obtain ⟨X, rfl, hX⟩ := structAdds_ok h
  exact ⟨X, rfl, hX⟩

theorem rebuildStructure_again {s : Store} (X : List StructRec) :
    rebuildStructure { s with structs := X } = rebuildStructure s := rfl

/-! ### The invariant -/

/-- The structure table has one row for each union of definitions. -/
structure StructInv (s : Store) : Prop where
  empty : s.cols = [] → s.structs = [] ∧ s.partDefs = none
  has : s.cols ≠ [] → s.partDefs ≠ none
  rows : s.cols ≠ [] → ∀ b, b ∈ s.structs.map (·.bits) ↔ ∃ d, IsUnionOf (· ∈ s.defs) d ∧ b = bitsOf s.cols d

theorem StructInv.new (uid : PyStr) : StructInv (Store.new uid) :=
  ⟨fun _ => ⟨rfl, rfl⟩, fun h => absurd rfl h, fun h => absurd rfl h⟩

theorem StructInv.of_rebuild {s s' : Store} (h : rebuildStructure s = .ok ((), s')) (hc : s.cols ≠ [])
    (hp : s.partDefs ≠ none) : StructInv s' := by
  obtain ⟨X, rfl, hX⟩ := rebuildStructure_ok h
  refine ⟨fun h => absurd h hc, fun _ => hp, fun _ b => ?_⟩
  have : X.map (·.bits) = (makeStructure s.defs).map (bitsOf s.cols) := by
    have := congrArg (List.map Prod.snd) hX
    rw [List.map_map, List.map_map] at this
    exact this
  show b ∈ X.map (·.bits) ↔ _
  rw [this, List.mem_map]
  constructor
  · rintro ⟨d, hd, rfl⟩
    exact ⟨d, (mem_makeStructure _ _).1 hd, rfl⟩
  · rintro ⟨d, hd, rfl⟩
    exact ⟨d, (mem_makeStructure _ _).2 hd, rfl⟩

theorem StructInv.congr {s s' : Store} (h : StructInv s) (hc : s'.cols = s.cols) (hp : s'.partDefs = s.partDefs)
    (hs : s'.structs.map (·.bits) = s.structs.map (·.bits)) : StructInv s' := by
  obtain ⟨h1, h2, h3⟩ := h
  refine ⟨fun h => ?_, fun h => ?_, fun h b => ?_⟩
  · rw [hc] at h
    obtain ⟨a, b⟩ := h1 h
    rw [a] at hs
    exact ⟨List.map_eq_nil_iff.1 hs, hp.trans b⟩
  · rw [hc] at h
    rw [hp]
    exact h2 h
  · rw [hc] at h
    rw [hs, h3 h b, hc, Store.defs, Store.defs, hp]

/-- Definitions name only columns and generate the whole space. -/
structure DefsOk (s : Store) : Prop where
  sub : ∀ d ∈ s.defs, d ⊆ s.whole
  gen : s.cols ≠ [] → IsUnionOf (· ∈ s.defs) s.whole

theorem DefsOk.new (uid : PyStr) : DefsOk (Store.new uid) :=
  ⟨fun _ h => (by cases h), fun h => absurd rfl h⟩

theorem DefsOk.congr {s s' : Store} (h : DefsOk s) (hc : s'.cols = s.cols) (hp : s'.partDefs = s.partDefs) :
    DefsOk s' := by
  obtain ⟨h1, h2⟩ := h
  refine ⟨?_, ?_⟩
  · unfold Store.defs Store.whole
    rw [hc, hp]
    exact h1
  · unfold Store.defs Store.whole
    rw [hc, hp]
    exact h2

theorem minimal_whole {l : List (List (Finset PyStr))} {w : Finset PyStr} (h : [w] ∈ l) :
    IsUnionOf (· ∈ findMinimalGeneratingSet l) w :=
  (C02_minimal_generates_same l w).2 (isUnionOf_self ⟨[w], h, by simp⟩)

/-! ### The partition functions -/

theorem addPartitionDefs_ok {defs : List (Finset PyStr)} {s s' : Store}
    (h : addPartitionDefs defs s = .ok ((), s')) :
    s.cols ≠ [] ∧ (∀ d ∈ defs, d ⊆ s.whole) ∧
      s' = { s with partDefs := some (findMinimalGeneratingSet [defs, s.defs, [s.whole]]) } := by
  simp only [addPartitionDefs, bind_ok, get_ok, ite_ok, throw_ok, put_ok] at h
  obtain ⟨_, _, he, h⟩ := h
  cases he
  obtain ⟨_, h⟩ | ⟨h1, h⟩ := h
  · exact h.elim
  obtain ⟨_, h⟩ | ⟨h2, h⟩ := h
  · exact h.elim
  cases h
  exact ⟨h1, not_not.1 h2, rfl⟩

theorem addPartitionDef_ok {d : Finset PyStr} {s s' : Store}
    (h : addPartitionDef d s = .ok ((), s')) :
    s.cols ≠ [] ∧ d ⊆ s.whole ∧ d ∉ s.defs ∧ d ∈ findMinimalGeneratingSet [[d], s.defs, [s.whole]] ∧
      s' = { s with partDefs := some (findMinimalGeneratingSet [[d], s.defs, [s.whole]]) } := by
  simp only [addPartitionDef, bind_ok, get_ok, ite_ok, throw_ok, put_ok] at h
  obtain ⟨_, _, he, h⟩ := h
  cases he
  obtain ⟨_, h⟩ | ⟨h1, h⟩ := h
  · exact h.elim
  obtain ⟨_, h⟩ | ⟨h2, h⟩ := h
  · exact h.elim
  obtain ⟨_, h⟩ | ⟨h3, h⟩ := h
  · exact h.elim
  obtain ⟨_, h⟩ | ⟨h4, h⟩ := h
  · exact h.elim
  cases h
  exact ⟨h1, not_not.1 h2, h3, not_not.1 h4, rfl⟩

theorem removePartitionDef_ok {d : Finset PyStr} {s s' : Store}
    (h : removePartitionDef d s = .ok ((), s')) :
    s' = { s with partDefs := (s.partDefs.map fun _ =>
      (findMinimalGeneratingSet [s.defs.filter (fun x => x ≠ d), [s.whole]])) } := by
  simp only [removePartitionDef, bind_ok, get_ok, ite_ok, throw_ok, put_ok] at h
  obtain ⟨_, _, he, h⟩ := h
  cases he
  obtain ⟨_, h⟩ | ⟨_, h⟩ := h
  · exact h.elim
  cases h
  rfl

theorem opDropPartitionDefs_ok {defs : List (Finset PyStr)} {s s' : Store}
    (h : opDropPartitionDefs defs s = .ok ((), s')) :
    s.whole ∉ defs ∧ rebuildStructure { s with partDefs := (s.partDefs.map fun _ =>
      (findMinimalGeneratingSet [s.defs.filter (fun x => x ∉ defs), [s.whole]])) } = .ok ((), s') := by
  simp only [opDropPartitionDefs, bind_ok, get_ok, ite_ok, throw_ok, put_ok] at h
  obtain ⟨_, _, he, h⟩ := h
  cases he
  obtain ⟨_, h⟩ | ⟨h1, h⟩ := h
  · exact h.elim
  obtain ⟨_, _, he, h⟩ := h
  cases he
  exact ⟨h1, h⟩

theorem addColumns_ok {names : List PyStr} {s s' : Store} (h : names.forM addColumn s = .ok ((), s')) :
    s'.cols = s.cols ++ names ∧ s'.partDefs = s.partDefs ∧ s'.display = s.display := by
  induction names generalizing s with
  | nil => cases h; simp
  | cons c cs ih =>
    rw [forM_cons_ok] at h
    obtain ⟨t, h1, h2⟩ := h
    obtain ⟨_, rfl⟩ := addColumn_ok h1
    obtain ⟨a, b, c⟩ := ih h2
    refine ⟨?_, b, c⟩
    rw [a]
    simp [Store.addCol]

/-- What adding columns does to the definitions. -/
theorem addIndexColumns_ok {names : List PyStr} {s s' : Store} (h : addIndexColumns names s = .ok ((), s')) :
    s'.cols = s.cols ++ names ∧ s'.cols ≠ [] ∧ s'.partDefs ≠ none ∧ s'.display = s.display ∧
      (∃ t, rebuildStructure t = .ok ((), s') ∧ t.cols ≠ [] ∧ t.partDefs ≠ none) ∧
      (∀ d ∈ s'.defs, d ∈ s.defs ∨ d = s'.whole) ∧ IsUnionOf (· ∈ s'.defs) s'.whole := by
  unfold addIndexColumns at h
  rw [bind_ok] at h
  obtain ⟨_, s1, hv, h⟩ := h
  obtain ⟨rfl, hall⟩ := validateNewColumns_ok hv
  rw [bind_ok] at h
  obtain ⟨_, _, he, h⟩ := h
  rw [get_ok] at he
  cases he
  dsimp only at h
  rw [bind_ok] at h
  obtain ⟨_, s2, h1, h⟩ := h
  obtain ⟨hc2, hp2, hd2⟩ := addColumns_ok h1
  rw [bind_ok] at h
  obtain ⟨_, s3, h3, h⟩ := h
  obtain ⟨rfl, _⟩ := checkUnique_ok h3
  simp only [bind_ok, get_ok] at h
  obtain ⟨_, _, he, _, s4, h4, _, s5, h5, _, _, he2, h⟩ := h
  cases he
  cases he2
  obtain ⟨hne, _, _, _, rfl⟩ := addPartitionDef_ok h4
  obtain ⟨X, rfl, hX⟩ := rebuildStructure_ok h5
  have hsub : ∀ d ∈ findMinimalGeneratingSet [[s3.cols.toFinset], s3.defs, [s3.whole]],
      d ∈ s1.defs ∨ d = s3.whole := by
    intro d hd
    obtain ⟨b, hb, hdb⟩ := C02_minimal_subset _ d hd
    have e : s3.defs = s1.defs := by unfold Store.defs; rw [hp2]
    rw [e] at hb
    simp only [List.mem_cons, List.not_mem_nil, or_false] at hb
    rcases hb with rfl | rfl | rfl
    · exact .inr (List.mem_singleton.1 hdb)
    · exact .inl hdb
    · exact .inr (List.mem_singleton.1 hdb)
  have hgen : IsUnionOf (· ∈ findMinimalGeneratingSet [[s3.cols.toFinset], s3.defs, [s3.whole]]) s3.whole :=
    minimal_whole (by simp)
  dsimp only at h
  rcases hst : Store.structByLabels _ s1.cols.toFinset with _ | st
  · rw [hst] at h
    exact absurd h (by simp [throw_ok])
  · rw [hst] at h
    dsimp only at h
    rw [ite_ok] at h
    obtain ⟨_, h⟩ | ⟨_, h⟩ := h
    · rw [bind_ok] at h
      obtain ⟨_, s6, h6, h7⟩ := h
      have := removePartitionDef_ok h6
      subst this
      obtain ⟨Y, rfl, hY⟩ := rebuildStructure_ok h7
      refine ⟨hc2, hne, by simp, hd2, ⟨_, h7, hne, by simp⟩, ?_, ?_⟩
      · intro d hd
        obtain ⟨b, hb, hdb⟩ := C02_minimal_subset _ d hd
        simp only [List.mem_cons, List.not_mem_nil, or_false] at hb
        rcases hb with rfl | rfl
        · exact hsub d (List.mem_of_mem_filter hdb)
        · exact .inr (List.mem_singleton.1 hdb)
      · exact minimal_whole (w := s3.whole) (by simp [Store.whole])
    · cases h
      exact ⟨hc2, hne, by simp, hd2, ⟨_, h5, hne, by simp⟩, hsub, hgen⟩

/-! ### Renaming -/

theorem renameColumns_ok {mapping : List (PyStr × PyStr)} {s s' : Store}
    (h : mapping.forM (fun p => renameColumn p.1 p.2) s = .ok ((), s'))
    (hd : ∀ p ∈ mapping, ∀ q ∈ mapping, p.1 ≠ q.2) :
    s' = { s with cols := s.cols.map (renamed mapping) } := by
  induction mapping generalizing s with
  | nil =>
    cases h
    have : renamed [] = id := rfl
    rw [this, List.map_id]
  | cons p ps ih =>
    rw [forM_cons_ok] at h
    obtain ⟨t, h1, h2⟩ := h
    obtain ⟨_, _, rfl⟩ := renameColumn_ok h1
    rw [ih h2 fun a ha b hb => hd a (by simp [ha]) b (by simp [hb])]
    dsimp only
    congr 1
    rw [List.map_map]
    apply List.map_congr_left
    intro c _
    simp only [Function.comp_apply]
    have hnk : ps.lookup p.2 = none := by
      rw [List.lookup_eq_none_iff]
      intro q hq
      simpa using (hd q (by simp [hq]) p (by simp)).symm
    by_cases hcp : c = p.1
    · rw [if_pos hcp]
      subst hcp
      simp [renamed, List.lookup, hnk]
    · have hb : (c == p.1) = false := by simpa using hcp
      rw [if_neg hcp]
      simp only [renamed, List.lookup, hb]

/-- The store after a successful renaming. -/
def Store.renameCols (s : Store) (mapping : List (PyStr × PyStr)) : Store :=
  { s with cols := s.cols.map (renamed mapping),
           partDefs := s.partDefs.map fun ds => ds.map fun d => d.image (renamed mapping) }

theorem renameIndexColumns_ok {mapping : List (PyStr × PyStr)} {s s' : Store}
    (h : renameIndexColumns mapping s = .ok ((), s')) :
    (∀ p ∈ mapping, p.1 ∈ s.cols) ∧ (∀ p ∈ mapping, p.2 ∉ s.cols) ∧
    s' = s.renameCols mapping := by
  unfold renameIndexColumns at h
  simp only [bind_ok, get_ok, ite_ok, throw_ok] at h
  obtain ⟨_, _, he, h⟩ := h
  cases he
  obtain ⟨_, h⟩ | ⟨hk, h⟩ := h
  · exact h.elim
  obtain ⟨_, s1, hv, _, s2, h1, h⟩ := h
  obtain ⟨rfl, hall⟩ := validateNewColumns_ok hv
  have hk := not_not.1 hk
  have hn : ∀ p ∈ mapping, p.2 ∉ s1.cols := fun p hp => (hall p.2 (List.mem_map_of_mem hp)).2.1
  have := renameColumns_ok h1 fun p hp q hq he => hn q hq (he ▸ hk p hp)
  subst this
  rw [modify_ok] at h
  cases h
  exact ⟨hk, hn, rfl⟩

/-- Images under a map that is one-to-one on the columns. -/
theorem isUnionOf_image {cols : Finset PyStr} {f : PyStr → PyStr} (hf : Set.InjOn f cols)
    {defs : List (Finset PyStr)} (hd : ∀ d ∈ defs, d ⊆ cols) (d' : Finset PyStr) :
    IsUnionOf (· ∈ defs.map fun d => d.image f) d' ↔
      ∃ d, IsUnionOf (· ∈ defs) d ∧ d ⊆ cols ∧ d' = d.image f := by
  constructor
  · intro h
    rw [isUnionOf_iff] at h
    refine ⟨cols.filter fun c => f c ∈ d', ?_, Finset.filter_subset _ _, ?_⟩
    · rw [isUnionOf_iff]
      intro y hy
      obtain ⟨hyc, hyd⟩ := Finset.mem_filter.1 hy
      obtain ⟨e', he', hsub, hmem⟩ := h (f y) hyd
      obtain ⟨e, he, rfl⟩ := List.mem_map.1 he'
      obtain ⟨z, hz, hzy⟩ := Finset.mem_image.1 hmem
      have : z = y := hf (hd e he hz) hyc hzy
      subst this
      refine ⟨e, he, ?_, hz⟩
      intro x hx
      exact Finset.mem_filter.2 ⟨hd e he hx, hsub (Finset.mem_image_of_mem f hx)⟩
    · ext x
      rw [Finset.mem_image]
      constructor
      · intro hx
        obtain ⟨e', he', hsub, hmem⟩ := h x hx
        obtain ⟨e, he, rfl⟩ := List.mem_map.1 he'
        obtain ⟨z, hz, rfl⟩ := Finset.mem_image.1 hmem
        exact ⟨z, Finset.mem_filter.2 ⟨hd e he hz, hx⟩, rfl⟩
      · rintro ⟨z, hz, rfl⟩
        exact (Finset.mem_filter.1 hz).2
  · rintro ⟨d, hu, _, rfl⟩
    rw [isUnionOf_iff] at hu ⊢
    intro x hx
    obtain ⟨y, hy, rfl⟩ := Finset.mem_image.1 hx
    obtain ⟨e, he, hsub, hye⟩ := hu y hy
    exact ⟨e.image f, List.mem_map_of_mem he, Finset.image_subset_image hsub, Finset.mem_image_of_mem f hye⟩

theorem bitsOf_image {cols : List PyStr} {f : PyStr → PyStr} (hf : Set.InjOn f (cols.toFinset : Set PyStr))
    {d : Finset PyStr} (hd : d ⊆ cols.toFinset) : bitsOf (cols.map f) (d.image f) = bitsOf cols d := by
  unfold bitsOf
  rw [List.map_map]
  apply List.map_congr_left
  intro c hc
  simp only [Function.comp_apply, decide_eq_decide]
  constructor
  · intro h
    obtain ⟨z, hz, hzc⟩ := Finset.mem_image.1 h
    have : z = c := hf (hd hz) (by simpa using hc) hzc
    exact this ▸ hz
  · exact Finset.mem_image_of_mem f

theorem isUnionOf_subset {defs : List (Finset PyStr)} {w d : Finset PyStr} (hd : ∀ d ∈ defs, d ⊆ w)
    (h : IsUnionOf (· ∈ defs) d) : d ⊆ w := by
  rw [isUnionOf_iff] at h
  intro x hx
  obtain ⟨e, he, _, hxe⟩ := h x hx
  exact hd e he hxe

theorem injOn_of_nodup {cols : List PyStr} {f : PyStr → PyStr} (h : (cols.map f).Nodup) :
    Set.InjOn f (cols.toFinset : Set PyStr) := by
  intro a ha b hb hab
  exact List.inj_on_of_nodup_map h (by simpa using ha) (by simpa using hb) hab

theorem renameIndexColumns_inv {mapping : List (PyStr × PyStr)} {s s' : Store}
    (h : renameIndexColumns mapping s = .ok ((), s')) (hnd : s'.cols.Nodup) (hs : StructInv s) (hd : DefsOk s) :
    StructInv s' ∧ DefsOk s' := by
  obtain ⟨_, _, rfl⟩ := renameIndexColumns_ok h
  have hinj := injOn_of_nodup hnd
  have hdefs : (s.renameCols mapping).defs =
      s.defs.map fun d => d.image (renamed mapping) := by
    unfold Store.defs Store.renameCols
    rcases s.partDefs with _ | ds <;> rfl
  have hwhole : (s.renameCols mapping).whole = s.whole.image (renamed mapping) := by
    unfold Store.whole Store.renameCols
    ext x
    simp
  refine ⟨⟨?_, ?_, ?_⟩, ?_, ?_⟩
  · intro h
    obtain ⟨a, b⟩ := hs.empty (List.map_eq_nil_iff.1 h)
    refine ⟨a, ?_⟩
    dsimp only [Store.renameCols]
    rw [b]
    rfl
  · intro h
    have := hs.has fun h' => h (by dsimp only [Store.renameCols]; rw [h']; rfl)
    dsimp only [Store.renameCols]
    rcases hp : s.partDefs with _ | ds
    · exact absurd hp this
    · simp
  · intro h b
    have hne : s.cols ≠ [] := fun h' => h (by dsimp only [Store.renameCols]; rw [h']; rfl)
    rw [hdefs]
    dsimp only [Store.renameCols]
    rw [hs.rows hne b]
    constructor
    · rintro ⟨d, hu, rfl⟩
      have hsub := isUnionOf_subset hd.sub hu
      exact ⟨d.image (renamed mapping), (isUnionOf_image hinj hd.sub _).2 ⟨d, hu, hsub, rfl⟩,
        (bitsOf_image hinj hsub).symm⟩
    · rintro ⟨d', hu, rfl⟩
      obtain ⟨d, hu', hsub, rfl⟩ := (isUnionOf_image hinj hd.sub _).1 hu
      exact ⟨d, hu', bitsOf_image hinj hsub⟩
  · rw [hdefs, hwhole]
    intro d hdm
    obtain ⟨e, he, rfl⟩ := List.mem_map.1 hdm
    exact Finset.image_subset_image (hd.sub e he)
  · intro h
    have hne : s.cols ≠ [] := fun h' => h (by dsimp only [Store.renameCols]; rw [h']; rfl)
    rw [hdefs, hwhole]
    exact (isUnionOf_image hinj hd.sub _).2 ⟨_, hd.gen hne, Finset.Subset.refl _, rfl⟩

/-! ### Dropping columns -/

theorem keepCols_bitsOf (cols names : List PyStr) (d : Finset PyStr) :
    keepCols cols names (bitsOf cols d) = bitsOf (cols.filter fun c => c ∉ names) d := by
  unfold keepCols bitsOf
  induction cols with
  | nil => rfl
  | cons c cs ih =>
    simp only [List.map_cons, List.zip_cons_cons, List.filter_cons]
    by_cases h : c ∈ names
    · simp only [h, not_true_eq_false, decide_false, Bool.false_eq_true, if_false]
      exact ih
    · simp only [h, not_false_eq_true, decide_true, if_true, List.map_cons]
      rw [ih]

theorem dropIndexColumns_ok {names : List PyStr} {s s' : Store} (h : dropIndexColumns names s = .ok ((), s')) :
    (∃ c ∈ s.cols, c ∉ names) ∧ s' = s.dropCols names := by
  simp only [dropIndexColumns, bind_ok, get_ok, ite_ok, throw_ok, put_ok] at h
  obtain ⟨_, _, he, h⟩ := h
  cases he
  obtain ⟨_, h⟩ | ⟨h1, h⟩ := h
  · exact h.elim
  obtain ⟨_, h⟩ | ⟨h2, h⟩ := h
  · exact h.elim
  obtain ⟨_, t, he, h⟩ := h
  cases he
  obtain ⟨rfl, hu⟩ := checkUnique_ok h
  push Not at h2
  exact ⟨h2, rfl⟩

theorem dropIndexColumns_inv {names : List PyStr} {s s' : Store} (h : dropIndexColumns names s = .ok ((), s'))
    (hs : StructInv s) : StructInv s' := by
  obtain ⟨⟨c, hc, hcn⟩, rfl⟩ := dropIndexColumns_ok h
  have hne : s.cols ≠ [] := List.ne_nil_of_mem hc
  have hne' : (s.dropCols names).cols ≠ [] :=
    List.ne_nil_of_mem (List.mem_filter.2 ⟨hc, by simpa using hcn⟩)
  refine ⟨fun h => absurd h hne', fun _ => hs.has hne, fun _ b => ?_⟩
  have e : (s.dropCols names).structs.map (·.bits) = (s.structs.map (·.bits)).map (keepCols s.cols names) := by
    simp only [Store.dropCols, List.map_map, Function.comp_def]
  rw [e, List.mem_map]
  constructor
  · rintro ⟨b0, hb, rfl⟩
    obtain ⟨d, hd, rfl⟩ := (hs.rows hne b0).1 hb
    exact ⟨d, hd, keepCols_bitsOf _ _ _⟩
  · rintro ⟨d, hd, rfl⟩
    exact ⟨bitsOf s.cols d, (hs.rows hne _).2 ⟨d, hd, rfl⟩, keepCols_bitsOf _ _ _⟩

/-! ### Histories -/

theorem opAddPartitionDefs_parts {defs : List (Finset PyStr)} {s s' : Store}
    (h : opAddPartitionDefs defs s = .ok ((), s')) :
    ∃ t, addPartitionDefs defs s = .ok ((), t) ∧ rebuildStructure t = .ok ((), s') := by
  unfold opAddPartitionDefs at h
  rw [bind_ok] at h
  obtain ⟨_, t, h1, h2⟩ := h
  exact ⟨t, h1, h2⟩

theorem opAddPartitionDef_parts {d : Finset PyStr} {s s' : Store}
    (h : opAddPartitionDef d s = .ok ((), s')) :
    ∃ t, addPartitionDef d s = .ok ((), t) ∧ rebuildStructure t = .ok ((), s') := by
  unfold opAddPartitionDef at h
  rw [bind_ok] at h
  obtain ⟨_, t, h1, h2⟩ := h
  exact ⟨t, h1, h2⟩

theorem refreshGranularity_ok {s s' : Store} (h : refreshGranularity s = .ok ((), s')) :
    s' = { s with structs := s.structs.map fun r => { r with gran := s.granPy (defOf s.cols r.bits) } } := by
  unfold refreshGranularity at h
  rw [modify_ok] at h
  cases h
  rfl

theorem refreshGranularity_bits {s s' : Store} (h : refreshGranularity s = .ok ((), s')) :
    s'.cols = s.cols ∧ s'.partDefs = s.partDefs ∧ s'.structs.map (·.bits) = s.structs.map (·.bits) := by
  have := refreshGranularity_ok h
  subst this
  refine ⟨rfl, rfl, ?_⟩
  simp only [List.map_map, Function.comp_def]

/-- Both invariants. -/
def PartInv (s : Store) : Prop := StructInv s ∧ DefsOk s

theorem DefsOk.of_minimal {s : Store} {l : List (List (Finset PyStr))} (h : s.partDefs = some (findMinimalGeneratingSet l))
    (hl : ∀ b ∈ l, ∀ d ∈ b, d ⊆ s.whole) (hw : [s.whole] ∈ l) : DefsOk s := by
  have e : s.defs = findMinimalGeneratingSet l := by
    unfold Store.defs
    rw [h]
    rfl
  refine ⟨?_, fun _ => ?_⟩
  · intro d hd
    rw [e] at hd
    obtain ⟨b, hb, hdb⟩ := C02_minimal_subset _ d hd
    exact hl b hb d hdb
  · rw [e]
    exact minimal_whole hw

theorem refreshOrRebuild_inv {s s' : Store} (h : refreshOrRebuild s = .ok ((), s')) (hs : StructInv s) :
    StructInv s' ∧ (DefsOk s → DefsOk s') := by
  unfold refreshOrRebuild at h
  simp only [bind_ok, get_ok, ite_ok] at h
  obtain ⟨_, _, he, h⟩ := h
  cases he
  obtain ⟨_, h⟩ | ⟨hp, h⟩ := h
  · obtain ⟨a, b, c⟩ := refreshGranularity_bits h
    exact ⟨hs.congr a b c, fun hd => hd.congr a b⟩
  · obtain ⟨_, t, h1, h2⟩ := h
    obtain ⟨hne, hsub, rfl⟩ := addPartitionDefs_ok h1
    refine ⟨StructInv.of_rebuild h2 hne (by simp), fun hd => ?_⟩
    obtain ⟨X, rfl, _⟩ := rebuildStructure_ok h2
    refine DefsOk.of_minimal rfl ?_ (by simp [Store.whole])
    intro b hb d hdb
    simp only [List.mem_cons, List.not_mem_nil, or_false] at hb
    rcases hb with rfl | rfl | rfl
    · exact hsub d hdb
    · exact hd.sub d hdb
    · rw [List.mem_singleton.1 hdb]
      exact Finset.Subset.refl _

/-- Kinds of changes that touch neither columns nor definitions nor the structure table. -/
def plainKinds : List Kind :=
  [.idxAdd, .idxUpd, .idxDel, .locAdd, .locDel, .agAdd, .agDel, .qAdd, .qSet, .qDel,
   .wgAdd, .wgUpd, .wgDel, .wAdd, .wSet, .wDel, .lAdd, .lUpd, .lDel, .mAdd, .mUpd, .mDel,
   .hash, .attrs, .display, .domain, .defwg, .fkOff]

/-- The state of columns, definitions and structures is the same. -/
def SameParts (s s' : Store) : Prop :=
  s'.cols = s.cols ∧ s'.partDefs = s.partDefs ∧ s'.structs.map (·.bits) = s.structs.map (·.bits)

theorem SameParts.refl (s : Store) : SameParts s s := ⟨rfl, rfl, rfl⟩

theorem SameParts.trans {s t u : Store} (h1 : SameParts s t) (h2 : SameParts t u) : SameParts s u :=
  ⟨h2.1.trans h1.1, h2.2.1.trans h1.2.1, h2.2.2.trans h1.2.2⟩

theorem SameParts.of_steps {s s' : Store} (h : Steps plainKinds s s') : SameParts s s' :=
  ⟨h.cols_eq (by decide), h.partDefs_eq (by decide), by rw [h.structs_eq (by decide)]⟩

theorem SameParts.inv {s s' : Store} (h : SameParts s s') (hs : StructInv s) :
    StructInv s' ∧ (DefsOk s → DefsOk s') :=
  ⟨hs.congr h.1 h.2.1 h.2.2, fun hd => hd.congr h.1 h.2.1⟩

theorem Does.plain {α : Type} {m : M α} (hm : Does plainKinds m) {s s' : Store} {a : α} (h : m s = .ok (a, s')) :
    SameParts s s' := SameParts.of_steps (hm.steps _ _ _ h)

theorem updateIndex_same {merge : Bool} {rows : List (Nat × List PyStr)} {s s' : Store}
    (h : updateIndex merge rows s = .ok ((), s')) : SameParts s s' := by
  obtain ⟨acc, t, u, h1, h2, h3⟩ := updateIndex_parts h
  have a1 : SameParts s t := Does.plain (by unfold plainKinds; does) h1
  have a2 : SameParts t u := by
    rw [whenM_ok] at h2
    obtain ⟨_, h2⟩ | ⟨_, rfl⟩ := h2
    · exact refreshGranularity_bits h2
    · exact SameParts.refl _
  exact (a1.trans a2).trans (Does.plain (by unfold plainKinds; does) h3)

theorem deleteIndex_same {t : Target (Nat × List PyStr)} {s s' : Store}
    (h : deleteIndex t s = .ok ((), s')) : SameParts s s' := by
  obtain ⟨d, u, h1, h2⟩ := deleteIndex_parts h
  have a1 : SameParts s u := Does.plain (by unfold plainKinds; does) h1
  refine a1.trans ?_
  rw [whenM_ok] at h2
  obtain ⟨_, h2⟩ | ⟨_, rfl⟩ := h2
  · unfold afterDeleteIndex at h2
    rw [bind_ok] at h2
    obtain ⟨_, v, h3, h4⟩ := h2
    have a2 : SameParts u v := Does.plain (by unfold plainKinds; does) h3
    rw [bind_ok] at h4
    obtain ⟨_, w, h5, h6⟩ := h4
    exact (a2.trans (refreshGranularity_bits h5)).trans (Does.plain (by unfold plainKinds; does) h6)
  · exact SameParts.refl _

theorem insertIndex_partInv {weights : Option (List PyStr)} {wcols : List PyStr} {pl pw : Policy}
    {rows : List IndexRow} {s s' : Store} (h : insertIndex weights wcols pl pw rows s = .ok ((), s'))
    (hs : StructInv s) : StructInv s' ∧ (DefsOk s → DefsOk s') := by
  obtain ⟨groups, c, t, u, h1, h2, h3, _⟩ := insertIndex_parts h
  have a1 : SameParts s t := Does.plain (by unfold plainKinds; does) h1
  have a3 : SameParts u s' := Does.plain (by unfold plainKinds; does) h3
  have a2 : StructInv u ∧ (DefsOk t → DefsOk u) := by
    rw [whenM_ok] at h2
    obtain ⟨_, h2⟩ | ⟨_, rfl⟩ := h2
    · unfold afterNewRecords at h2
      rw [bind_ok] at h2
      obtain ⟨_, v, h4, h5⟩ := h2
      have b1 : SameParts t v := Does.plain (by unfold plainKinds; does) h4
      rw [bind_ok] at h5
      obtain ⟨_, w, h6, h7⟩ := h5
      obtain ⟨b2, b3⟩ := refreshOrRebuild_inv h6 (b1.inv (a1.inv hs).1).1
      have b4 : SameParts w u := Does.plain (by unfold plainKinds; does) h7
      exact ⟨(b4.inv b2).1, fun hd => (b4.inv b2).2 (b3 ((b1.inv (a1.inv hs).1).2 hd))⟩
    · exact ⟨(a1.inv hs).1, id⟩
  exact ⟨(a3.inv a2.1).1, fun hd => (a3.inv a2.1).2 (a2.2 ((a1.inv hs).2 hd))⟩

theorem opAddPartitionDefs_inv {defs : List (Finset PyStr)} {s s' : Store}
    (h : opAddPartitionDefs defs s = .ok ((), s')) : StructInv s' ∧ (DefsOk s → DefsOk s') := by
  obtain ⟨t, h1, h2⟩ := opAddPartitionDefs_parts h
  obtain ⟨hne, hsub, rfl⟩ := addPartitionDefs_ok h1
  refine ⟨StructInv.of_rebuild h2 hne (by simp), fun hd => ?_⟩
  obtain ⟨X, rfl, _⟩ := rebuildStructure_ok h2
  refine DefsOk.of_minimal rfl ?_ (by simp [Store.whole])
  intro b hb d hdb
  simp only [List.mem_cons, List.not_mem_nil, or_false] at hb
  rcases hb with rfl | rfl | rfl
  · exact hsub d hdb
  · exact hd.sub d hdb
  · rw [List.mem_singleton.1 hdb]
    exact Finset.Subset.refl _

theorem opAddPartitionDef_inv {d : Finset PyStr} {s s' : Store}
    (h : opAddPartitionDef d s = .ok ((), s')) : StructInv s' ∧ (DefsOk s → DefsOk s') := by
  obtain ⟨t, h1, h2⟩ := opAddPartitionDef_parts h
  obtain ⟨hne, hsub, _, _, rfl⟩ := addPartitionDef_ok h1
  refine ⟨StructInv.of_rebuild h2 hne (by simp), fun hd => ?_⟩
  obtain ⟨X, rfl, _⟩ := rebuildStructure_ok h2
  refine DefsOk.of_minimal rfl ?_ (by simp [Store.whole])
  intro b hb d' hdb
  simp only [List.mem_cons, List.not_mem_nil, or_false] at hb
  rcases hb with rfl | rfl | rfl
  · rw [List.mem_singleton.1 hdb]
    exact hsub
  · exact hd.sub d' hdb
  · rw [List.mem_singleton.1 hdb]
    exact Finset.Subset.refl _

theorem opDropPartitionDefs_inv {defs : List (Finset PyStr)} {s s' : Store}
    (h : opDropPartitionDefs defs s = .ok ((), s')) (hs : StructInv s) : StructInv s' ∧ (DefsOk s → DefsOk s') := by
  obtain ⟨_, h2⟩ := opDropPartitionDefs_ok h
  rcases hp : s.partDefs with _ | ds
  · rw [hp] at h2
    have hc : s.cols = [] := by
      by_contra hc
      exact hs.has hc hp
    obtain ⟨X, rfl, hX⟩ := rebuildStructure_ok h2
    have hX' : X = [] := by
      have hm : makeStructure (Store.defs { s with partDefs := (none : Option (List (Finset PyStr))) }) = [∅] := rfl
      -- a row for the empty set of columns cannot be added
      simp only [rebuildStructure, bind_ok, get_ok, modify_ok, ite_ok, throw_ok] at h2
      obtain ⟨_, _, he, _, _, he2, h2⟩ := h2
      cases he
      cases he2
      obtain ⟨_, h2⟩ | ⟨_, h2⟩ := h2
      · exact h2.elim
      · exfalso
        have : makeStructure (Option.getD (Option.map (fun _ : List (Finset PyStr) =>
          findMinimalGeneratingSet [s.defs.filter (fun x => x ∉ defs), [s.whole]]) none) []) = [∅] := rfl
        rw [this, forM_cons_ok] at h2
        obtain ⟨t, h3, _⟩ := h2
        simp only [structAdd, bind_ok, get_ok, ite_ok, throw_ok, put_ok] at h3
        obtain ⟨_, _, he, h3⟩ := h3
        cases he
        obtain ⟨_, h3⟩ | ⟨h3, _⟩ := h3
        · exact h3
        · exact h3 (by rw [hc]; rfl)
    subst hX'
    refine ⟨⟨fun _ => ⟨rfl, rfl⟩, fun h => absurd hc h, fun h => absurd hc h⟩, fun _ => ⟨?_, fun h => absurd hc h⟩⟩
    intro d hd
    cases hd
  · have hc : s.cols ≠ [] := by
      intro hc
      rw [(hs.empty hc).2] at hp
      cases hp
    rw [hp] at h2
    refine ⟨StructInv.of_rebuild h2 hc (by simp), fun hd => ?_⟩
    obtain ⟨X, rfl, _⟩ := rebuildStructure_ok h2
    refine DefsOk.of_minimal rfl ?_ (by simp [Store.whole])
    intro b hb d' hdb
    simp only [List.mem_cons, List.not_mem_nil, or_false] at hb
    rcases hb with rfl | rfl
    · exact hd.sub d' (List.mem_of_mem_filter hdb)
    · rw [List.mem_singleton.1 hdb]
      exact Finset.Subset.refl _

theorem addIndexColumns_inv {names : List PyStr} {s s' : Store} (h : addIndexColumns names s = .ok ((), s')) :
    StructInv s' ∧ (DefsOk s → DefsOk s') := by
  obtain ⟨hc, hne, hp, _, ⟨t, ht, htc, htp⟩, hsub, hgen⟩ := addIndexColumns_ok h
  refine ⟨StructInv.of_rebuild ht htc htp, fun hd => ⟨?_, fun _ => hgen⟩⟩
  intro d hdm
  rcases hsub d hdm with h | rfl
  · refine (hd.sub d h).trans ?_
    unfold Store.whole
    rw [hc]
    intro x hx
    simp only [List.mem_toFinset, List.mem_append] at hx ⊢
    exact .inl hx
  · exact Finset.Subset.refl _

/-- One call. -/
theorem step_parts (op : Op) {s : Store} (hr : Reachable s) (hs : StructInv s)
    (hren : op.renamesColumns = true → DefsOk s) :
    StructInv (step op s).1 ∧ (op.dropsColumns = false → DefsOk s → DefsOk (step op s).1) := by
  have key : ∀ m, op.body = some m →
      (∀ s', m s = .ok ((), s') → s' = (step op s).1 →
        StructInv s' ∧ (op.dropsColumns = false → DefsOk s → DefsOk s')) →
      StructInv (step op s).1 ∧ (op.dropsColumns = false → DefsOk s → DefsOk (step op s).1) := by
    intro m hm hk
    have hrun := step_of_body hm s
    unfold runTx at hrun
    split at hrun
    · rename_i a s' heq
      split at hrun
      · have := hk s' heq (by rw [hrun])
        rw [hrun]
        exact this
      · rw [hrun]
        exact ⟨hs, fun _ hd => hd⟩
    · rw [hrun]
      exact ⟨hs, fun _ hd => hd⟩
  have weak : ∀ {s' : Store}, (StructInv s' ∧ (DefsOk s → DefsOk s')) →
      StructInv s' ∧ (op.dropsColumns = false → DefsOk s → DefsOk s') := fun h => ⟨h.1, fun _ => h.2⟩
  have plain : ∀ m, op.body = some m → Does plainKinds m →
      StructInv (step op s).1 ∧ (op.dropsColumns = false → DefsOk s → DefsOk (step op s).1) := by
    intro m hm hd
    exact key m hm fun s' h _ => weak ((Does.plain hd h).inv hs)
  cases op with
  | addIndexColumns n => exact key _ rfl fun s' h _ => weak (addIndexColumns_inv h)
  | renameIndexColumns m =>
    refine key _ rfl fun s' h he => ?_
    have hnd : s'.cols.Nodup := by
      have := hr.step (.renameIndexColumns m)
      rw [← he] at this
      exact this.colInv.cols.of_map _
    have := renameIndexColumns_inv h hnd hs (hren rfl)
    exact ⟨this.1, fun _ _ => this.2⟩
  | dropIndexColumns n =>
    exact key _ rfl fun s' h _ => ⟨dropIndexColumns_inv h hs, fun hf => by cases hf⟩
  | addPartitionDefs d => exact key _ rfl fun s' h _ => weak (opAddPartitionDefs_inv h)
  | addPartitionDef d => exact key _ rfl fun s' h _ => weak (opAddPartitionDef_inv h)
  | dropPartitionDefs d => exact key _ rfl fun s' h _ => weak (opDropPartitionDefs_inv h hs)
  | insertIndex w wc pl pw r => exact key _ rfl fun s' h _ => weak (insertIndex_partInv h hs)
  | updateIndex m r => exact key _ rfl fun s' h _ => weak ((updateIndex_same h).inv hs)
  | deleteIndex t => exact key _ rfl fun s' h _ => weak ((deleteIndex_same h).inv hs)
  | reifyMappings r n cs =>
    exact weak ((SameParts.of_steps ((reifyMappings_steps r n cs s).mono (by decide))).inv hs)
  | deleteUnmatchedQuantities =>
    exact weak ((SameParts.of_steps ((deleteUnmatchedQuantities_steps s).mono (by decide))).inv hs)
  | reopen => exact weak (SameParts.inv ⟨rfl, rfl, rfl⟩ hs)
  | _ => exact plain _ rfl (by unfold plainKinds; does)

theorem run_snoc (ops : List Op) (op : Op) (s : Store) : run (ops ++ [op]) s = (step op (run ops s)).1 := by
  rw [run, List.foldl_append, List.foldl_cons, List.foldl_nil]
  rfl

theorem ReachableKeeping.reachable {s : Store} (h : ReachableKeeping s) : Reachable s := by
  obtain ⟨uid, ops, _, rfl⟩ := h
  exact ⟨uid, ops, rfl⟩

theorem ReachableKeeping.parts {s : Store} (h : ReachableKeeping s) : StructInv s ∧ DefsOk s := by
  obtain ⟨uid, ops, hops, rfl⟩ := h
  induction ops using List.reverseRecOn with
  | nil => exact ⟨StructInv.new uid, DefsOk.new uid⟩
  | append_singleton ops op ih =>
    have hi := ih fun o ho => hops o (by simp [ho])
    rw [run_snoc]
    have := step_parts op ⟨uid, ops, rfl⟩ hi.1 fun _ => hi.2
    exact ⟨this.1, this.2 (hops op (by simp)) hi.2⟩

theorem ReachableOrderly.parts {s : Store} (h : ReachableOrderly s) : StructInv s := by
  obtain ⟨uid, ops, hops, rfl⟩ := h
  induction ops using List.reverseRecOn with
  | nil => exact StructInv.new uid
  | append_singleton ops op ih =>
    rw [List.pairwise_append] at hops
    rw [run_snoc]
    refine (step_parts op ⟨uid, ops, rfl⟩ (ih hops.1) fun hren => ?_).1
    refine (ReachableKeeping.parts ⟨uid, ops, fun o ho => ?_, rfl⟩).2
    by_contra hd
    rw [hops.2.2 o ho op (by simp) (by simpa using hd)] at hren
    cases hren

end Toron.Space
