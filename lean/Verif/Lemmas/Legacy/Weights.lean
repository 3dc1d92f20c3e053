/-
What adding weights to a legacy node does.
-/
import Verif.Lemmas.Legacy.Hist

namespace Toron.Legacy

open Toron.Selectors (PyStr)
open Toron.Space (IndexRec Weight nextId nextId_not_mem lt_nextId)

theorem compress_zip (header labels : List PyStr) (p : PyStr → Bool) :
    (header.filter p).zip (Text.compress labels (header.map p)) = (header.zip labels).filter fun cl => p cl.1 := by
  unfold Text.compress
  induction header generalizing labels with
  | nil => simp
  | cons c header ih =>
    cases labels with
    | nil => simp
    | cons l labels =>
      rw [List.map_cons, List.zip_cons_cons, List.zip_cons_cons, List.filter_cons, List.filter_cons, List.filter_cons]
      by_cases hp : p c = true
      · rw [if_pos hp, if_pos (by simpa using hp), if_pos (by simpa using hp), List.map_cons, List.zip_cons_cons, ih]
      · rw [if_neg hp, if_neg (by simpa using hp), if_neg (by simpa using hp), ih]

theorem lookup_iff {l : List (PyStr × PyStr)} (hn : (l.map (·.1)).Nodup) (c x : PyStr) :
    l.lookup c = some x ↔ (c, x) ∈ l := ⟨lookup_mem, lookup_of_mem hn⟩

theorem zip_fst_nodup {cols labels : List PyStr} (h : cols.Nodup) : ((cols.zip labels).map (·.1)).Nodup := by
  refine h.sublist ?_
  clear h
  induction cols generalizing labels with
  | nil => simp
  | cons c cols ih =>
    cases labels with
    | nil => simp
    | cons l labels => simpa using ih

theorem weightMatches_eq {n : Node} (h2 : Inv2 n) (header : List PyStr) (row : WeightRow) :
    n.weightMatches (header.filter fun c => decide (c ∈ n.cols))
      { row with labels := Text.compress row.labels (header.map fun c => decide (c ∈ n.cols)) } =
    n.recordsLike (n.cells header row.labels) row.id := by
  unfold Node.weightMatches Node.recordsLike Node.cells
  apply List.filter_congr
  intro r _
  dsimp only
  rw [compress_zip header row.labels fun c => decide (c ∈ n.cols)]
  have hz := zip_fst_nodup (labels := r.labels) (nodup_of_lower h2.names)
  rw [Bool.eq_iff_iff]
  simp only [Bool.and_eq_true, decide_eq_true_eq, List.all_eq_true, beq_iff_eq]
  constructor
  · rintro ⟨⟨h1, h3⟩, h4⟩
    refine ⟨by omega, ?_, ?_⟩
    · intro cl hcl
      exact (lookup_iff hz _ _).1 (h3 cl hcl)
    · intro i hi
      rw [hi] at h4
      simpa using h4
  · rintro ⟨h1, h3, h4⟩
    refine ⟨⟨by omega, ?_⟩, ?_⟩
    · intro cl hcl
      exact (lookup_iff hz _ _).2 (h3 cl hcl)
    · cases hid : row.id with
      | none => rfl
      | some i => simpa using h4 i hid

/-- What the rows add. -/
def addedWeights (n : Node) (header : List PyStr) (rows : List WeightRow) : List (Nat × ℚ) :=
  rows.filterMap fun row =>
    match row.value, n.weightMatches header row with
    | some v, [r] => some (r.id, v)
    | _, _ => none

theorem weightMatches_congr {n n' : Node} (h1 : n'.cols = n.cols) (h2 : n'.index = n.index) (header : List PyStr)
    (row : WeightRow) : n'.weightMatches header row = n.weightMatches header row := by
  unfold Node.weightMatches
  rw [h1, h2]

theorem foldl_insertWeight {w : Nat} {header : List PyStr} {rows : List WeightRow} {n n' : Node}
    (h : rows.foldlM (fun n row => n.insertWeight w header row) n = .ok n') :
    n'.cols = n.cols ∧ n'.index = n.index ∧ n'.weightings = n.weightings ∧
    (n'.weights.map fun x => (x.group, x.index, x.value)) =
      (n.weights.map fun x => (x.group, x.index, x.value)) ++ (addedWeights n header rows).map fun p => (w, p.1, p.2) := by
  induction rows generalizing n with
  | nil =>
    rw [List.foldlM_nil] at h
    injection h with h
    subst h
    simp [addedWeights]
  | cons row rows ih =>
    rw [List.foldlM_cons] at h
    obtain ⟨n1, h1, h⟩ := bind_ok h
    obtain ⟨a, b, c, d⟩ := ih h
    have hadd : ∀ m : Node, m.cols = n.cols → m.index = n.index → addedWeights m header rows = addedWeights n header rows := by
      intro m e1 e2
      unfold addedWeights
      apply List.filterMap_congr
      intro x _
      rw [weightMatches_congr e1 e2]
    unfold Node.insertWeight at h1
    split at h1
    · rename_i hv
      injection h1 with h1
      subst h1
      refine ⟨a, b, c, ?_⟩
      rw [d]
      unfold addedWeights
      rw [List.filterMap_cons, hv]
    · rename_i v hv
      split at h1
      · rename_i r hm
        obtain ⟨_, h1⟩ := ite_ok h1
        injection h1 with h1
        rw [hadd n1 (by rw [← h1]) (by rw [← h1])] at d
        subst h1
        refine ⟨a, b, c, ?_⟩
        rw [d]
        have : addedWeights n header (row :: rows) = (r.id, v) :: addedWeights n header rows := by
          unfold addedWeights
          rw [List.filterMap_cons, hv, hm]
        rw [this]
        simp
      · rename_i hm
        injection h1 with h1
        subst h1
        refine ⟨a, b, c, ?_⟩
        rw [d]
        have : addedWeights n header (row :: rows) = addedWeights n header rows := by
          unfold addedWeights
          rw [List.filterMap_cons, hv]
          split
          · rfl
          · rename_i x he
            split at he
            · rename_i v' r hv' hr
              exact absurd hr (hm r)
            · cases he
        rw [this]

theorem addWeights_ok {header : List PyStr} {hasId : Bool} {rows : List WeightRow} {name : PyStr} {sel : List PyStr}
    {n n' : Node} (h2 : Inv2 n) (h : n.addWeights header hasId rows name sel = .ok n') :
    n'.index = n.index ∧
    (n'.weights.map fun x => (x.group, x.index, x.value)) =
      (n.weights.map fun x => (x.group, x.index, x.value)) ++
        ((n.weightsOf header rows).map fun p => (nextId (n.weightings.map (·.id)), p.1, p.2)) ∧
    n'.weightings = n.weightings ++ [⟨nextId (n.weightings.map (·.id)), name, sel,
      n'.weightCount (nextId (n.weightings.map (·.id))) == n'.indexCount⟩] ∧
    n'.default = if n.weightings = [] then some name else n.default := by
  unfold Node.addWeights at h
  dsimp only at h
  obtain ⟨hname, h⟩ := ite_ok h
  obtain ⟨_, h⟩ := ite_ok h
  obtain ⟨n1, h1, h⟩ := bind_ok h
  injection h with h
  have h1' : (rows.map fun row => ({ row with labels := Text.compress row.labels (header.map fun c => decide (c ∈ n.cols)) } : WeightRow)).foldlM
      (fun (n0 : Node) row => n0.insertWeight (nextId (n.weightings.map (·.id))) (header.filter fun c => decide (c ∈ n.cols)) row)
      { n with weightings := n.weightings ++ [(⟨nextId (n.weightings.map (·.id)), name, sel, false⟩ : Weighting)] } = Except.ok n1 := by
    rw [List.foldlM_map]
    exact h1
  obtain ⟨a, b, c, d⟩ := foldl_insertWeight h1'
  have hdef : n1.default = n.default := by
    refine foldlM_inv (P := fun x : Node => x.default = n.default) (fun x r y hx hy => ?_) ?_ h1
    swap
    · rfl
    unfold Node.insertWeight at hy
    split at hy
    · injection hy with hy; exact hy ▸ hx
    · split at hy
      · obtain ⟨_, hy⟩ := ite_ok hy
        injection hy with hy
        subst hy
        exact hx
      · injection hy with hy; exact hy ▸ hx
  have hw : (n1.setComplete (nextId (n.weightings.map (·.id)))).weightings = n.weightings ++
      [⟨nextId (n.weightings.map (·.id)), name, sel,
        n1.weightCount (nextId (n.weightings.map (·.id))) == n1.indexCount⟩] := by
    unfold Node.setComplete
    dsimp only
    rw [c, List.map_append]
    congr 1
    · conv_rhs => rw [← List.map_id n.weightings]
      apply List.map_congr_left
      intro g hg
      rw [if_neg]
      · rfl
      · intro e
        refine nextId_not_mem (n.weightings.map (·.id)) ?_
        rw [← e]
        exact List.mem_map.2 ⟨g, hg, rfl⟩
    · simp
  have key : n'.index = n1.index ∧ n'.weights = n1.weights ∧
      n'.weightings = (n1.setComplete (nextId (n.weightings.map (·.id)))).weightings := by
    rw [← h]
    split <;> exact ⟨rfl, rfl, rfl⟩
  refine ⟨key.1.trans b, ?_, ?_, ?_⟩
  · rw [key.2.1, d]
    congr 2
    unfold addedWeights Node.weightsOf
    rw [List.filterMap_map]
    apply List.filterMap_congr
    intro row _
    dsimp only [Function.comp_apply]
    rw [← weightMatches_eq h2]
    rfl
  · rw [key.2.2, hw]
    unfold Node.weightCount Node.indexCount
    rw [key.2.1, key.1]
  · rw [← h]
    have hlen : (n1.setComplete (nextId (n.weightings.map (·.id)))).weightings.length = 1 ↔ n.weightings = [] := by
      rw [hw, List.length_append, List.length_singleton]
      constructor
      · intro e; exact List.length_eq_zero_iff.1 (by omega)
      · intro e; rw [e]; rfl
    by_cases he : n.weightings = []
    · rw [if_pos (hlen.2 he), if_pos he]
    · rw [if_neg (fun e => he (hlen.1 e)), if_neg he]
      exact hdef

/-- The flag says whether every record has a weight. -/
theorem complete_iff {n : Node} (hi : Inv n) {g : Nat} (hpos : ∀ w ∈ n.weights, w.group = g → 0 < w.index) :
    (n.weightCount g == n.indexCount) = true ↔ n.covers g := by
  rw [beq_iff_eq]
  have hA : ((n.weights.filter fun x => x.group == g).map (·.index)).Nodup := by
    refine List.Nodup.map_on ?_ (hi.pairs.of_map.filter _)
    intro x hx y hy e
    obtain ⟨hx, hgx⟩ := List.mem_filter.1 hx
    obtain ⟨hy, hgy⟩ := List.mem_filter.1 hy
    simp only [beq_iff_eq] at hgx hgy
    exact List.inj_on_of_nodup_map hi.pairs hx hy (by rw [hgx, hgy, e])
  have hB : ((n.index.filter fun r => decide (0 < r.id)).map (·.id)).Nodup :=
    hi.ids.sublist (List.Sublist.map _ List.filter_sublist)
  have hAB : ((n.weights.filter fun x => x.group == g).map (·.index)) ⊆
      ((n.index.filter fun r => decide (0 < r.id)).map (·.id)) := by
    intro i hm
    obtain ⟨w, hw, rfl⟩ := List.mem_map.1 hm
    obtain ⟨hw, hg⟩ := List.mem_filter.1 hw
    simp only [beq_iff_eq] at hg
    obtain ⟨⟨r, hr, e⟩, _⟩ := hi.weightRefs w hw
    exact List.mem_map.2 ⟨r, List.mem_filter.2 ⟨hr, by rw [e]; simpa using hpos w hw hg⟩, e⟩
  have hsub := hA.subperm hAB
  have hl : n.weightCount g = n.indexCount ↔
      ((n.index.filter fun r => decide (0 < r.id)).map (·.id)) ⊆ ((n.weights.filter fun x => x.group == g).map (·.index)) := by
    unfold Node.weightCount Node.indexCount
    constructor
    · intro e
      refine (hsub.perm_of_length_le ?_).symm.subset
      rw [List.length_map, List.length_map, e]
    · intro h
      have := (hsub.antisymm (hB.subperm h)).length_eq
      rwa [List.length_map, List.length_map] at this
  rw [hl]
  unfold Node.covers Node.indexRecords
  constructor
  · intro h r hr hne
    have := h (List.mem_map.2 ⟨r, List.mem_filter.2 ⟨hr, by simpa using Nat.pos_of_ne_zero hne⟩, rfl⟩)
    obtain ⟨w, hw, e⟩ := List.mem_map.1 this
    obtain ⟨hw, hg⟩ := List.mem_filter.1 hw
    exact ⟨w, hw, by simpa using hg, e⟩
  · intro h i hm
    obtain ⟨r, hr, rfl⟩ := List.mem_map.1 hm
    obtain ⟨hr, hp⟩ := List.mem_filter.1 hr
    obtain ⟨w, hw, hg, e⟩ := h r hr (by simp at hp; omega)
    exact List.mem_map.2 ⟨w, List.mem_filter.2 ⟨hw, by simpa using hg⟩, e⟩

end Toron.Legacy
