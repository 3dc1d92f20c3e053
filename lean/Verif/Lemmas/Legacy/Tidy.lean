/-
The structure of a legacy node whose columns were named in normal form and never renamed.
-/
import Verif.Lemmas.Legacy.Hist
import Verif.Lemmas.Store.Columns

namespace Toron.Legacy

open Toron.Selectors (PyStr)
open Toron.Space (IndexRec LocRec StructRec nextId asciiLower bitsOf defOf keepCols minimal_whole)
open Toron.Partitions Toron.Spec

/-- The partition definitions. -/
def Node.defs (n : Node) : List (Finset PyStr) := n.partDefs.getD []

theorem foldl_insertStruct {st : List (Finset PyStr)} {n n' : Node} (h : st.foldlM Node.insertStruct n = .ok n') :
    n'.cols = n.cols ∧ n'.partDefs = n.partDefs ∧
      n'.structs.map (·.bits) = n.structs.map (·.bits) ++ st.map (bitsOf n.cols) := by
  induction st generalizing n with
  | nil =>
    rw [List.foldlM_nil] at h
    injection h with h
    subst h
    simp
  | cons d st ih =>
    rw [List.foldlM_cons] at h
    obtain ⟨n1, h1, h⟩ := bind_ok h
    obtain ⟨a, b, c⟩ := ih h
    unfold Node.insertStruct at h1
    obtain ⟨_, h1⟩ := ite_ok h1
    injection h1 with h1
    subst h1
    refine ⟨a, b, ?_⟩
    rw [c]
    simp

theorem setStructure_bits {n n' : Node} {st : List (Finset PyStr)} (h : n.setStructure st = .ok n') :
    n'.cols = n.cols ∧ n'.partDefs = n.partDefs ∧ n'.structure_ = st.map (bitsOf n.cols) := by
  unfold Node.setStructure at h
  obtain ⟨n1, h1, h⟩ := bind_ok h
  injection h with h
  obtain ⟨a, b, c⟩ := foldl_insertStruct h1
  subst h
  refine ⟨a, b, ?_⟩
  unfold Node.structure_ Node.refreshGranularity
  simp only [List.map_map]
  exact c

theorem updateCategories_bits {n n' : Node} {cats : List (Finset PyStr)} {b : Bool}
    (h : n.updateCategories cats b = .ok n') :
    n'.cols = n.cols ∧ n'.partDefs = some (if b then findMinimalGeneratingSet [if cats = [] then n.defs else cats, [n.cols.toFinset]]
      else if cats = [] then n.defs else cats) ∧ n'.structure_ = (makeStructure n'.defs).map (bitsOf n'.cols) := by
  unfold Node.updateCategories at h
  dsimp only at h
  obtain ⟨a, b', c⟩ := setStructure_bits h
  refine ⟨a, b', ?_⟩
  rw [c]
  unfold Node.defs
  rw [b', a]
  rfl

/-- The structure is made from the definitions, which are sets of columns that together are all columns. -/
structure TidyInv (n : Node) : Prop where
  normal : ∀ c ∈ n.cols, normName c = .ok c
  sub : ∀ d ∈ n.defs, d ⊆ n.cols.toFinset
  whole : n.cols ≠ [] → IsUnionOf (· ∈ n.defs) n.cols.toFinset
  bits : n.partDefs ≠ none → n.structure_ = (makeStructure n.defs).map (bitsOf n.cols)
  some_ : n.cols ≠ [] → n.partDefs ≠ none

theorem TidyInv.new : TidyInv Node.new := by
  constructor
  · intro c hc; cases hc
  · intro d hd; cases hd
  · intro h; exact absurd rfl h
  · intro h; exact absurd rfl h
  · intro h; exact absurd rfl h

theorem mapM_normal {l : List PyStr} (h : ∀ c ∈ l, normName c = .ok c) : l.mapM normName = .ok l := by
  induction l with
  | nil => rfl
  | cons c l ih =>
    rw [List.mapM_cons, h c List.mem_cons_self, ih fun x hx => h x (List.mem_cons_of_mem _ hx)]
    rfl

theorem foldl_addColumn {l : List PyStr} {n n' : Node} (h : l.foldlM Node.addColumn n = .ok n') :
    n'.cols = n.cols ++ l ∧ n'.partDefs = n.partDefs := by
  induction l generalizing n with
  | nil =>
    rw [List.foldlM_nil] at h
    injection h with h
    subst h
    simp
  | cons d st ih =>
    rw [List.foldlM_cons] at h
    obtain ⟨n1, h1, h⟩ := bind_ok h
    obtain ⟨a, b⟩ := ih h
    unfold Node.addColumn at h1
    obtain ⟨_, h1⟩ := ite_ok h1
    injection h1 with h1
    subst h1
    refine ⟨?_, b⟩
    rw [a]
    simp

theorem addColumns_cols {names : List PyStr} {n n' : Node} (hn : ∀ c ∈ names, normName c = .ok c)
    (hc : ∀ c ∈ n.cols, normName c = .ok c) (h : n.addColumns names = .ok n') :
    n'.cols = n.cols ++ names.filter (fun c => decide (c ∉ n.cols)) ∧ n'.partDefs = n.partDefs := by
  unfold Node.addColumns at h
  rw [mapM_normal hn, mapM_normal hc] at h
  obtain ⟨x, hx, h⟩ := bind_ok h
  injection hx with hx
  subst hx
  obtain ⟨_, h⟩ := ite_ok h
  obtain ⟨x, hx, h⟩ := bind_ok h
  injection hx with hx
  subst hx
  dsimp only at h
  split at h
  · rename_i he
    injection h with h
    subst h
    rw [he]
    simp
  · obtain ⟨_, h⟩ := ite_ok h
    obtain ⟨n1, h1, h⟩ := bind_ok h
    obtain ⟨_, _, h⟩ := bind_ok h
    injection h with h
    subst h
    exact foldl_addColumn h1

theorem TidyInv.of_minimal {n' : Node} {cats : List (Finset PyStr)} (hnorm : ∀ c ∈ n'.cols, normName c = .ok c)
    (hs : ∀ d ∈ cats, d ⊆ n'.cols.toFinset) (hp : n'.partDefs = some (findMinimalGeneratingSet [cats, [n'.cols.toFinset]]))
    (hb : n'.structure_ = (makeStructure n'.defs).map (bitsOf n'.cols)) : TidyInv n' := by
  have e : n'.defs = findMinimalGeneratingSet [cats, [n'.cols.toFinset]] := by
    unfold Node.defs
    rw [hp]
    rfl
  refine ⟨hnorm, ?_, ?_, fun _ => hb, fun _ => by rw [hp]; simp⟩
  · intro d hd
    rw [e] at hd
    obtain ⟨b, hb, hdb⟩ := C02_minimal_subset _ d hd
    simp only [List.mem_cons, List.not_mem_nil, or_false] at hb
    rcases hb with rfl | rfl
    · exact hs d hdb
    · rw [List.mem_singleton.1 hdb]
  · intro _
    rw [e]
    exact minimal_whole (by simp)

theorem TidyInv.congr {n n' : Node} (h : TidyInv n) (h1 : n'.cols = n.cols) (h2 : n'.partDefs = n.partDefs)
    (h3 : n'.structure_ = n.structure_) : TidyInv n' := by
  have e : n'.defs = n.defs := by unfold Node.defs; rw [h2]
  constructor
  · rw [h1]; exact h.normal
  · rw [e, h1]; exact h.sub
  · rw [e, h1]; exact h.whole
  · rw [e, h1, h2, h3]; exact h.bits
  · rw [h1, h2]; exact h.some_

/-- Writing a generating set that was minimized before. -/
theorem TidyInv.of_cats {n n' : Node} (hi : TidyInv n) {cats : List (Finset PyStr)}
    (h : n.updateCategories (findMinimalGeneratingSet (cats :: [[n.cols.toFinset]])) false = .ok n')
    (hs : ∀ d ∈ cats, d ⊆ n.cols.toFinset) : TidyInv n' := by
  obtain ⟨a, b, c⟩ := updateCategories_bits h
  simp only [Bool.false_eq_true, if_false] at b
  by_cases hc : findMinimalGeneratingSet (cats :: [[n.cols.toFinset]]) = []
  · rw [if_pos hc] at b
    have e : n'.defs = n.defs := by
      show n'.partDefs.getD [] = _
      rw [b]; rfl
    refine ⟨by rw [a]; exact hi.normal, by rw [e, a]; exact hi.sub, by rw [e, a]; exact hi.whole, fun _ => c,
      fun _ => by rw [b]; simp⟩
  · rw [if_neg hc] at b
    rw [← a] at b
    exact TidyInv.of_minimal (by rw [a]; exact hi.normal) (by rw [a]; exact hs) b c

theorem exec_tidy {op : Op} {n n' : Node} (hi : TidyInv n) (ho : TidyOp n op) (h : op.exec n = .ok n') : TidyInv n' := by
  cases op with
  | addIndexColumns names =>
    unfold Op.exec Node.addIndexColumns at h
    obtain ⟨n1, h1, h⟩ := bind_ok h
    obtain ⟨n2, h2, h⟩ := bind_ok h
    obtain ⟨a, b⟩ := addColumns_cols ho hi.normal h1
    obtain ⟨a2, b2, _⟩ := updateCategories_bits h2
    obtain ⟨a3, b3, c3⟩ := setStructure_bits h
    have hcols : n'.cols = n.cols ++ names.filter (fun c => decide (c ∉ n.cols)) := by rw [a3, a2, a]
    have hset : names.toFinset ∪ n.cols.toFinset = n'.cols.toFinset := by
      rw [hcols]
      ext x
      simp only [Finset.mem_union, List.mem_toFinset, List.mem_append, List.mem_filter, decide_eq_true_eq]
      constructor
      · rintro (h | h)
        · by_cases hx : x ∈ n.cols
          · exact Or.inl hx
          · exact Or.inr ⟨h, hx⟩
        · exact Or.inl h
      · rintro (h | h)
        · exact Or.inr h
        · exact Or.inl h.1
    have hdefs : n1.defs = n.defs := by unfold Node.defs; rw [b]
    have hp : n'.partDefs = some (findMinimalGeneratingSet [n.defs, [n'.cols.toFinset]]) := by
      rw [b3, b2, a3, a2, hdefs]
      simp
    refine TidyInv.of_minimal ?_ ?_ hp ?_
    · intro c hc
      rw [hcols] at hc
      rcases List.mem_append.1 hc with hc | hc
      · exact hi.normal c hc
      · exact ho c (List.mem_filter.1 hc).1
    · intro d hd
      refine (hi.sub d hd).trans ?_
      rw [← hset]
      exact Finset.subset_union_right
    · rw [c3, hset, ← a3]
      congr 2
      show _ = n'.partDefs.getD []
      rw [hp]
      rfl
  | removeIndexColumns names ps pg =>
    have h : n.removeIndexColumns names ps pg = .ok n' := h
    unfold Node.removeIndexColumns at h
    split at h
    · injection h with h; exact h ▸ hi
    · rename_i hdrop
      obtain ⟨cats, hcats, h⟩ := bind_ok h
      obtain ⟨hrem, h⟩ := ite_ok h
      obtain ⟨n1, h1, h⟩ := bind_ok h
      obtain ⟨_, h⟩ := ite_ok h
      obtain ⟨n2, h3, h4⟩ := bind_ok h
      obtain ⟨e2, _⟩ := dropColumns_ok h3
      obtain ⟨a, b, c⟩ := updateCategories_bits h4
      have hcols1 : n1.cols = n.cols := by
        unfold Node.mergeRecords at h1
        by_cases hl : n.losesGranularity names = true
        · rw [if_pos hl] at h1
          obtain ⟨_, h1⟩ := ite_ok h1
          cases hcs : n.coarsen names with
          | error e => rw [hcs] at h1; cases h1
          | ok n0 =>
            rw [hcs] at h1
            injection h1 with h1
            subst h1
            unfold Node.coarsen at hcs
            dsimp only at hcs
            obtain ⟨_, hcs⟩ := ite_ok hcs
            injection hcs with hcs
            subst hcs
            rfl
        · rw [if_neg hl] at h1
          injection h1 with h1
          rw [h1]
      have hcols : n'.cols = n.cols.filter fun c => decide (c ∉ names) := by
        rw [a, e2]
        show (n1.cols.filter _) = _
        rw [hcols1]
      have hcne : n.cols ≠ [] := by
        intro e
        apply hdrop
        rw [e]
        rfl
      obtain ⟨c0, hc0⟩ : ∃ c, c ∈ n.cols.filter fun c => decide (c ∉ names) := by
        by_contra hno
        apply hrem
        left
        rw [List.eq_nil_iff_forall_not_mem]
        intro x hx
        exact hno ⟨x, hx⟩
      obtain ⟨hc0n, hc0d⟩ := List.mem_filter.1 hc0
      simp only [decide_eq_true_eq] at hc0d
      have hkey : cats ≠ [] ∧ ∀ d ∈ cats, d ⊆ n'.cols.toFinset := by
        unfold Node.newCategories at hcats
        dsimp only at hcats
        split at hcats
        · rename_i hall
          injection hcats with hcats
          subst hcats
          constructor
          · intro e
            have := List.all_eq_true.1 hall c0 hc0
            rw [e] at this
            cases this
          · intro d hd x hx
            obtain ⟨hd1, hd2⟩ := List.mem_filter.1 hd
            simp only [decide_eq_true_eq] at hd2
            rw [hcols, List.mem_toFinset, List.mem_filter]
            refine ⟨by simpa using hi.sub d hd1 hx, ?_⟩
            simp only [decide_eq_true_eq]
            intro hxn
            exact Finset.disjoint_left.1 hd2 hx (by simpa using hxn)
        · obtain ⟨_, hcats⟩ := ite_ok hcats
          injection hcats with hcats
          subst hcats
          constructor
          · obtain ⟨T, hT, hu⟩ := hi.whole hcne
            obtain ⟨t, ht, hct⟩ := (hu c0).1 (by simpa using hc0n)
            have hm : t \ (names.toFinset ∩ n.cols.toFinset) ∈
                distinct (((n.partDefs.getD []).map fun d => d \ (names.toFinset ∩ n.cols.toFinset)).filter
                  fun d => d ≠ ∅) := by
              rw [mem_distinct, List.mem_filter]
              refine ⟨List.mem_map.2 ⟨t, hT t ht, rfl⟩, ?_⟩
              simp only [decide_eq_true_eq]
              intro he
              have : c0 ∈ t \ (names.toFinset ∩ n.cols.toFinset) := by
                rw [Finset.mem_sdiff, Finset.mem_inter]
                exact ⟨hct, fun h => hc0d (by simpa using h.1)⟩
              rw [he] at this
              exact absurd this (Finset.notMem_empty _)
            intro e
            rw [e] at hm
            cases hm
          · intro d hd x hx
            rw [mem_distinct] at hd
            obtain ⟨d0, hd0, rfl⟩ := List.mem_map.1 (List.mem_filter.1 hd).1
            rw [Finset.mem_sdiff, Finset.mem_inter] at hx
            have hxc := hi.sub d0 hd0 hx.1
            rw [hcols, List.mem_toFinset, List.mem_filter]
            refine ⟨by simpa using hxc, ?_⟩
            simp only [decide_eq_true_eq]
            intro hxn
            exact hx.2 ⟨by simpa using hxn, hxc⟩
      rw [if_neg hkey.1, ← a] at b
      simp only [if_true] at b
      refine TidyInv.of_minimal ?_ hkey.2 b c
      intro x hx
      rw [hcols] at hx
      exact hi.normal x (List.mem_filter.1 hx).1
  | renameIndexColumns f => exact absurd ho id
  | addIndexRecords hd rows =>
    unfold Op.exec Node.addIndexRecords at h
    dsimp only at h
    obtain ⟨_, h⟩ := ite_ok h
    obtain ⟨_, h⟩ := ite_ok h
    obtain ⟨n1, h1, h⟩ := bind_ok h
    injection h with h
    have hk := foldlM_inv (P := fun x : Node => x.cols = n.cols ∧ x.structs = n.structs ∧ x.partDefs = n.partDefs)
      (fun a d b ha hb => by
        unfold Node.insertIndex at hb
        dsimp only at hb
        obtain ⟨_, hb⟩ := ite_ok hb
        obtain ⟨_, hb⟩ := ite_ok hb
        obtain ⟨_, hb⟩ := ite_ok hb
        injection hb with hb
        subst hb
        exact ha) ⟨rfl, rfl, rfl⟩ h1
    subst h
    refine hi.congr hk.1 hk.2.2 ?_
    unfold Node.structure_
    rw [← hk.2.1]
    show (n1.structs.map _).map _ = _
    rw [List.map_map]
    rfl
  | addWeights hd i rows name sel =>
    obtain ⟨a, _, _, c, d, _⟩ := addWeights_keeps h
    exact hi.congr a d (by unfold Node.structure_; rw [c])
  | addPartitionDefinitions defs =>
    have h : n.updateCategories (findMinimalGeneratingSet [n.partDefs.getD [], defs, [n.cols.toFinset]]) false = .ok n' := h
    have e : findMinimalGeneratingSet [n.partDefs.getD [], defs, [n.cols.toFinset]] =
        findMinimalGeneratingSet ((n.partDefs.getD [] ++ defs) :: [[n.cols.toFinset]]) := by
      unfold findMinimalGeneratingSet
      simp
    rw [e] at h
    refine hi.of_cats h ?_
    intro d hd
    rcases List.mem_append.1 hd with hd | hd
    · exact hi.sub d hd
    · exact ho d hd
  | removePartitionDefinitions defs =>
    have h : n.updateCategories (findMinimalGeneratingSet [(n.partDefs.getD []).filter fun d =>
      d ∉ defs.erase n.cols.toFinset, [n.cols.toFinset]]) false = .ok n' := h
    exact hi.of_cats h fun d hd => hi.sub d (List.mem_filter.1 hd).1
  | addQuantities rows =>
    obtain ⟨a, _, _, c, d, _⟩ := addQuantities_keeps h
    exact hi.congr a d (by unfold Node.structure_; rw [c])

theorem ReachableTidily.inv {n : Node} (h : ReachableTidily n) : TidyInv n := by
  induction h with
  | new => exact TidyInv.new
  | step _ ho ih =>
    unfold Node.step
    split
    · rename_i h; exact exec_tidy ih ho h
    · exact ih

end Toron.Legacy
