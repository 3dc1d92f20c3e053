/-
Invariants of all histories of a legacy node.
-/
import Verif.Lemmas.Legacy.Merge
import Verif.Spec.Legacy

namespace Toron.Legacy

open Toron.Selectors (PyStr)
open Toron.Space (IndexRec LocRec StructRec Weight AGroup Quant Attrs nextId nextId_not_mem asciiLower bitsOf defOf keepCols)

/-! ### Programs that may raise -/

theorem bind_ok {α β : Type} {x : Except Err α} {f : α → Except Err β} {b : β} (h : (x >>= f) = .ok b) :
    ∃ a, x = .ok a ∧ f a = .ok b := by
  cases x with
  | error e => cases h
  | ok a => exact ⟨a, rfl, h⟩

theorem ite_ok {α : Type} {c : Prop} [Decidable c] {e : Err} {x : Except Err α} {b : α}
    (h : (if c then .error e else x) = .ok b) : ¬ c ∧ x = .ok b := by
  by_cases hc : c
  · rw [if_pos hc] at h; cases h
  · rw [if_neg hc] at h; exact ⟨hc, h⟩

theorem foldlM_inv {α : Type} {P : Node → Prop} {f : Node → α → Except Err Node}
    (hf : ∀ n a n', P n → f n a = .ok n' → P n') {l : List α} {n n' : Node} (h0 : P n) (h : l.foldlM f n = .ok n') : P n' := by
  induction l generalizing n with
  | nil =>
    rw [List.foldlM_nil] at h
    injection h with h
    exact h ▸ h0
  | cons a l ih =>
    rw [List.foldlM_cons] at h
    obtain ⟨n1, h1, h2⟩ := bind_ok h
    exact ih (hf _ _ _ h0 h1) h2

/-! ### The invariant -/

/-- What holds of the tables after every history. -/
structure Inv (n : Node) : Prop where
  ids : (n.index.map (·.id)).Nodup
  seq : ∀ r ∈ n.index, r.id ≤ n.seq
  len : ∀ r ∈ n.index, r.labels.length = n.cols.length
  labels : (n.index.map (·.labels)).Nodup
  locIds : (n.locs.map (·.id)).Nodup
  locLen : ∀ l ∈ n.locs, l.labels.length = n.cols.length
  locLabels : (n.locs.map (·.labels)).Nodup
  pairs : (n.weights.map fun w => (w.group, w.index)).Nodup
  weightRefs : ∀ w ∈ n.weights, (∃ r ∈ n.index, r.id = w.index) ∧ ∃ g ∈ n.weightings, g.id = w.group
  groupIds : (n.weightings.map (·.id)).Nodup
  groupNames : (n.weightings.map (·.name)).Nodup
  attrIds : (n.attrs.map (·.id)).Nodup
  attrs : (n.attrs.map (·.attrs)).Nodup
  quantRefs : ∀ q ∈ n.quants, (∃ l ∈ n.locs, l.id = q.loc) ∧ ∃ a ∈ n.attrs, a.id = q.ag

theorem Inv.new : Inv Node.new := by
  constructor <;> simp [Node.new]

/-- The invariant does not speak about structure, definitions, hash and default. -/
theorem Inv.congr {n n' : Node} (h : Inv n) (h1 : n'.cols = n.cols) (h2 : n'.index = n.index) (h3 : n'.seq = n.seq)
    (h4 : n'.locs = n.locs) (h5 : n'.weightings = n.weightings) (h6 : n'.weights = n.weights) (h7 : n'.attrs = n.attrs)
    (h8 : n'.quants = n.quants) : Inv n' := by
  constructor
  · rw [h2]; exact h.ids
  · rw [h2, h3]; exact h.seq
  · rw [h2, h1]; exact h.len
  · rw [h2]; exact h.labels
  · rw [h4]; exact h.locIds
  · rw [h4, h1]; exact h.locLen
  · rw [h4]; exact h.locLabels
  · rw [h6]; exact h.pairs
  · rw [h6, h2, h5]; exact h.weightRefs
  · rw [h5]; exact h.groupIds
  · rw [h5]; exact h.groupNames
  · rw [h7]; exact h.attrIds
  · rw [h7]; exact h.attrs
  · rw [h8, h4, h7]; exact h.quantRefs

/-- Only the structure differs. -/
def SameData (n n' : Node) : Prop := n' = { n with structs := n'.structs, partDefs := n'.partDefs }

theorem SameData.inv {n n' : Node} (h : SameData n n') (hi : Inv n) : Inv n' := by
  unfold SameData at h
  apply hi.congr <;> rw [h]

theorem SameData.refl (n : Node) : SameData n n := rfl

theorem SameData.trans {a b c : Node} (h1 : SameData a b) (h2 : SameData b c) : SameData a c := by
  unfold SameData at *
  rw [h2]
  generalize c.structs = x, c.partDefs = y
  rw [h1]

theorem insertStruct_same {n n' : Node} {d : Finset PyStr} (h : n.insertStruct d = .ok n') : SameData n n' := by
  unfold Node.insertStruct at h
  obtain ⟨_, h⟩ := ite_ok h
  injection h with h
  subst h
  rfl

theorem setStructure_same {n n' : Node} {st : List (Finset PyStr)} (h : n.setStructure st = .ok n') : SameData n n' := by
  unfold Node.setStructure at h
  obtain ⟨n1, h1, h2⟩ := bind_ok h
  injection h2 with h2
  have : SameData n n1 := by
    refine foldlM_inv (P := SameData n) (fun a d b ha hb => ha.trans (insertStruct_same hb)) ?_ h1
    rfl
  exact this.trans (by subst h2; rfl)

theorem updateCategories_same {n n' : Node} {cats : List (Finset PyStr)} {b : Bool}
    (h : n.updateCategories cats b = .ok n') : SameData n n' := by
  unfold Node.updateCategories at h
  refine SameData.trans ?_ (setStructure_same h)
  rfl

theorem checkUnique_ok {n : Node} {u : Unit} (h : n.checkUnique = .ok u) :
    (n.index.map (·.labels)).Nodup ∧ (n.locs.map (·.labels)).Nodup ∧ (n.structs.map (·.bits)).Nodup := by
  unfold Node.checkUnique at h
  split at h
  · assumption
  · cases h

/-! ### Columns -/

theorem nodup_snoc {l : List (List PyStr)} (x : PyStr) (h : l.Nodup) : (l.map (· ++ [x])).Nodup :=
  h.map (fun a b e => List.append_inj_left' e rfl)

theorem addColumn_inv {n n' : Node} {c : PyStr} (hi : Inv n) (h : n.addColumn c = .ok n') : Inv n' := by
  unfold Node.addColumn at h
  obtain ⟨_, h⟩ := ite_ok h
  injection h with h
  subst h
  constructor
  · simpa [List.map_map, Function.comp_def] using hi.ids
  · intro r hr
    obtain ⟨x, hx, rfl⟩ := List.mem_map.1 hr
    exact hi.seq x hx
  · intro r hr
    obtain ⟨x, hx, rfl⟩ := List.mem_map.1 hr
    simp [hi.len x hx]
  · have := nodup_snoc ['-'] hi.labels
    simpa [List.map_map, Function.comp_def] using this
  · simpa [List.map_map, Function.comp_def] using hi.locIds
  · intro r hr
    obtain ⟨x, hx, rfl⟩ := List.mem_map.1 hr
    simp [hi.locLen x hx]
  · have := nodup_snoc [] hi.locLabels
    simpa [List.map_map, Function.comp_def] using this
  · exact hi.pairs
  · intro w hw
    obtain ⟨⟨r, hr, e⟩, hg⟩ := hi.weightRefs w hw
    exact ⟨⟨_, List.mem_map.2 ⟨r, hr, rfl⟩, e⟩, hg⟩
  · exact hi.groupIds
  · exact hi.groupNames
  · exact hi.attrIds
  · exact hi.attrs
  · intro q hq
    obtain ⟨⟨l, hl, e⟩, ha⟩ := hi.quantRefs q hq
    exact ⟨⟨_, List.mem_map.2 ⟨l, hl, rfl⟩, e⟩, ha⟩

theorem addColumns_inv {n n' : Node} {names : List PyStr} (hi : Inv n) (h : n.addColumns names = .ok n') : Inv n' := by
  unfold Node.addColumns at h
  obtain ⟨names', _, h⟩ := bind_ok h
  obtain ⟨_, h⟩ := ite_ok h
  obtain ⟨cur, _, h⟩ := bind_ok h
  dsimp only at h
  split at h
  · injection h with h
    exact h ▸ hi
  · obtain ⟨_, h⟩ := ite_ok h
    obtain ⟨n1, h1, h⟩ := bind_ok h
    obtain ⟨_, _, h⟩ := bind_ok h
    injection h with h
    exact h ▸ foldlM_inv (P := Inv) (fun _ _ _ => addColumn_inv) hi h1

theorem addIndexColumns_inv {n n' : Node} {names : List PyStr} (hi : Inv n) (h : n.addIndexColumns names = .ok n') :
    Inv n' := by
  unfold Node.addIndexColumns at h
  obtain ⟨n1, h1, h⟩ := bind_ok h
  obtain ⟨n2, h2, h⟩ := bind_ok h
  exact (setStructure_same h).inv ((updateCategories_same h2).inv (addColumns_inv hi h1))

theorem renameColumn_inv {n n' : Node} {p : PyStr × PyStr} (hi : Inv n) (h : n.renameColumn p = .ok n') : Inv n' := by
  unfold Node.renameColumn at h
  obtain ⟨_, h⟩ := ite_ok h
  obtain ⟨_, h⟩ := ite_ok h
  injection h with h
  subst h
  refine ⟨hi.ids, hi.seq, ?_, hi.labels, hi.locIds, ?_, hi.locLabels, hi.pairs, hi.weightRefs, hi.groupIds, hi.groupNames,
    hi.attrIds, hi.attrs, hi.quantRefs⟩
  · intro r hr
    rw [List.length_map]
    exact hi.len r hr
  · intro r hr
    rw [List.length_map]
    exact hi.locLen r hr

theorem renameIndexColumns_inv {n n' : Node} {f : PyStr → PyStr} (hi : Inv n) (h : n.renameIndexColumns f = .ok n') :
    Inv n' := by
  unfold Node.renameIndexColumns at h
  obtain ⟨_, _, h⟩ := bind_ok h
  obtain ⟨_, _, h⟩ := bind_ok h
  obtain ⟨_, h⟩ := ite_ok h
  exact foldlM_inv (P := Inv) (fun _ _ _ => renameColumn_inv) hi h

/-! ### Records, weights, quantities -/

theorem insertIndex_inv {header : List PyStr} {n n' : Node} {row : List PyStr} (hi : Inv n)
    (h : n.insertIndex header row = .ok n') : Inv n' := by
  unfold Node.insertIndex at h
  dsimp only at h
  obtain ⟨_, h⟩ := ite_ok h
  obtain ⟨_, h⟩ := ite_ok h
  obtain ⟨hl, h⟩ := ite_ok h
  injection h with h
  subst h
  constructor
  · rw [List.map_append, List.nodup_append]
    refine ⟨hi.ids, by simp, ?_⟩
    intro a ha b hb
    obtain ⟨r, hr, rfl⟩ := List.mem_map.1 ha
    simp only [List.map_cons, List.map_nil, List.mem_singleton] at hb
    have := hi.seq r hr
    omega
  · intro r hr
    show r.id ≤ n.seq + 1
    rcases List.mem_append.1 hr with hr | hr
    · exact le_trans (hi.seq r hr) (Nat.le_succ _)
    · rw [List.mem_singleton.1 hr]
  · intro r hr
    rcases List.mem_append.1 hr with hr | hr
    · exact hi.len r hr
    · rw [List.mem_singleton.1 hr]
      simp
  · rw [List.map_append, List.nodup_append]
    refine ⟨hi.labels, by simp, ?_⟩
    intro a ha b hb
    simp only [List.map_cons, List.map_nil, List.mem_singleton] at hb
    rintro rfl
    exact hl (hb ▸ ha)
  · exact hi.locIds
  · exact hi.locLen
  · exact hi.locLabels
  · exact hi.pairs
  · intro w hw
    obtain ⟨⟨r, hr, e⟩, hg⟩ := hi.weightRefs w hw
    exact ⟨⟨r, List.mem_append_left _ hr, e⟩, hg⟩
  · exact hi.groupIds
  · exact hi.groupNames
  · exact hi.attrIds
  · exact hi.attrs
  · exact hi.quantRefs

theorem addIndexRecords_inv {header : List PyStr} {rows : List (List PyStr)} {n n' : Node} (hi : Inv n)
    (h : n.addIndexRecords header rows = .ok n') : Inv n' := by
  unfold Node.addIndexRecords at h
  dsimp only at h
  obtain ⟨_, h⟩ := ite_ok h
  obtain ⟨_, h⟩ := ite_ok h
  obtain ⟨n1, h1, h⟩ := bind_ok h
  injection h with h
  subst h
  have := foldlM_inv (P := Inv) (fun _ _ _ hP => insertIndex_inv hP) hi h1
  exact this.congr rfl rfl rfl rfl rfl rfl rfl rfl

theorem insertWeight_inv {w : Nat} {header : List PyStr} {n n' : Node} {row : WeightRow}
    (hi : Inv n ∧ ∃ g ∈ n.weightings, g.id = w) (h : n.insertWeight w header row = .ok n') :
    Inv n' ∧ ∃ g ∈ n'.weightings, g.id = w := by
  obtain ⟨hi, hw⟩ := hi
  unfold Node.insertWeight at h
  split at h
  · injection h with h
    exact h ▸ ⟨hi, hw⟩
  · split at h
    · rename_i r hm
      obtain ⟨hu, h⟩ := ite_ok h
      injection h with h
      subst h
      have hr : r ∈ n.index := by
        have : r ∈ n.weightMatches header row := by rw [hm]; simp
        exact (List.mem_filter.1 this).1
      refine ⟨⟨hi.ids, hi.seq, hi.len, hi.labels, hi.locIds, hi.locLen, hi.locLabels, ?_, ?_, hi.groupIds, hi.groupNames,
        hi.attrIds, hi.attrs, hi.quantRefs⟩, hw⟩
      · rw [List.map_append, List.nodup_append]
        refine ⟨hi.pairs, by simp, ?_⟩
        intro a ha b hb
        simp only [List.map_cons, List.map_nil, List.mem_singleton] at hb
        rintro rfl
        obtain ⟨x, hx, e⟩ := List.mem_map.1 ha
        rw [hb] at e
        injection e with e1 e2
        exact hu (List.any_eq_true.2 ⟨x, hx, by simp [e1, e2]⟩)
      · intro x hx
        rcases List.mem_append.1 hx with hx | hx
        · exact hi.weightRefs x hx
        · rw [List.mem_singleton.1 hx]
          exact ⟨⟨r, hr, rfl⟩, hw⟩
    · injection h with h
      exact h ▸ ⟨hi, hw⟩

theorem setComplete_inv {n : Node} (hi : Inv n) (w : Nat) : Inv (n.setComplete w) := by
  have hid : ((n.setComplete w).weightings.map (·.id)) = n.weightings.map (·.id) := by
    unfold Node.setComplete
    simp only [List.map_map]
    apply List.map_congr_left
    intro x _
    simp only [Function.comp_apply]
    split <;> rfl
  have hname : ((n.setComplete w).weightings.map (·.name)) = n.weightings.map (·.name) := by
    unfold Node.setComplete
    simp only [List.map_map]
    apply List.map_congr_left
    intro x _
    simp only [Function.comp_apply]
    split <;> rfl
  refine ⟨hi.ids, hi.seq, hi.len, hi.labels, hi.locIds, hi.locLen, hi.locLabels, hi.pairs, ?_, ?_, ?_,
    hi.attrIds, hi.attrs, hi.quantRefs⟩
  · intro x hx
    obtain ⟨hr, g, hg, e⟩ := hi.weightRefs x hx
    refine ⟨hr, ?_⟩
    have : x.group ∈ (n.setComplete w).weightings.map (·.id) := by
      rw [hid]; exact List.mem_map.2 ⟨g, hg, e⟩
    obtain ⟨g', hg', e'⟩ := List.mem_map.1 this
    exact ⟨g', hg', e'⟩
  · rw [hid]; exact hi.groupIds
  · rw [hname]; exact hi.groupNames

theorem addWeights_inv {header : List PyStr} {hasId : Bool} {rows : List WeightRow} {name : PyStr} {sel : List PyStr}
    {n n' : Node} (hi : Inv n) (h : n.addWeights header hasId rows name sel = .ok n') : Inv n' := by
  unfold Node.addWeights at h
  dsimp only at h
  obtain ⟨hname, h⟩ := ite_ok h
  obtain ⟨_, h⟩ := ite_ok h
  obtain ⟨n1, h1, h⟩ := bind_ok h
  injection h with h
  have h0 : Inv { n with weightings := n.weightings ++ [⟨nextId (n.weightings.map (·.id)), name, sel, false⟩] } := by
    refine ⟨hi.ids, hi.seq, hi.len, hi.labels, hi.locIds, hi.locLen, hi.locLabels, hi.pairs, ?_, ?_, ?_,
      hi.attrIds, hi.attrs, hi.quantRefs⟩
    · intro x hx
      obtain ⟨hr, g, hg, e⟩ := hi.weightRefs x hx
      exact ⟨hr, g, List.mem_append_left _ hg, e⟩
    · rw [List.map_append, List.nodup_append]
      refine ⟨hi.groupIds, by simp, ?_⟩
      intro a ha b hb
      simp only [List.map_cons, List.map_nil, List.mem_singleton] at hb
      rintro rfl
      rw [hb] at ha
      exact nextId_not_mem _ ha
    · rw [List.map_append, List.nodup_append]
      refine ⟨hi.groupNames, by simp, ?_⟩
      intro a ha b hb
      simp only [List.map_cons, List.map_nil, List.mem_singleton] at hb
      rintro rfl
      rw [hb] at ha
      exact hname ha
  have h2 := foldlM_inv
    (P := fun x => Inv x ∧ ∃ g ∈ x.weightings, g.id = nextId (n.weightings.map (·.id)))
    (fun _ _ _ hP => insertWeight_inv hP) ⟨h0, ⟨_, List.mem_append_right _ (List.mem_singleton.2 rfl), rfl⟩⟩ h1
  have h3 := setComplete_inv h2.1 (nextId (n.weightings.map (·.id)))
  subst h
  split
  · exact h3.congr rfl rfl rfl rfl rfl rfl rfl rfl
  · exact h3

theorem getLocation_inv {n n' : Node} {labels : List PyStr} {id : Nat} (hi : Inv n) (hl : labels.length = n.cols.length)
    (h : n.getLocation labels = .ok (id, n')) : Inv n' ∧ (∃ l ∈ n'.locs, l.id = id) := by
  unfold Node.getLocation at h
  obtain ⟨_, h⟩ := ite_ok h
  split at h
  · rename_i hf
    injection h with h
    injection h with e h
    subst h
    refine ⟨⟨hi.ids, hi.seq, hi.len, hi.labels, ?_, ?_, ?_, hi.pairs, hi.weightRefs, hi.groupIds, hi.groupNames,
      hi.attrIds, hi.attrs, ?_⟩, ⟨_, List.mem_append_right _ (List.mem_singleton.2 rfl), e⟩⟩
    · rw [List.map_append, List.nodup_append]
      refine ⟨hi.locIds, by simp, ?_⟩
      intro a ha b hb
      simp only [List.map_cons, List.map_nil, List.mem_singleton] at hb
      rintro rfl
      rw [hb] at ha
      exact nextId_not_mem _ ha
    · intro r hr
      rcases List.mem_append.1 hr with hr | hr
      · exact hi.locLen r hr
      · rw [List.mem_singleton.1 hr]; exact hl
    · rw [List.map_append, List.nodup_append]
      refine ⟨hi.locLabels, by simp, ?_⟩
      intro a ha b hb
      simp only [List.map_cons, List.map_nil, List.mem_singleton] at hb
      rintro rfl
      obtain ⟨r, hr, e⟩ := List.mem_map.1 ha
      have : r ∈ n.locs.filter fun l => l.labels == labels := List.mem_filter.2 ⟨hr, by simp [e, hb]⟩
      rw [hf] at this
      cases this
    · intro q hq
      obtain ⟨⟨l, hl, e⟩, ha⟩ := hi.quantRefs q hq
      exact ⟨⟨l, List.mem_append_left _ hl, e⟩, ha⟩
  · rename_i l hf
    injection h with h
    injection h with e h
    subst h
    refine ⟨hi, l, ?_, e⟩
    have : l ∈ n.locs.filter fun l => l.labels == labels := by rw [hf]; simp
    exact (List.mem_filter.1 this).1
  · cases h

theorem getAttribute_inv {n : Node} {a : Attrs} (hi : Inv n) :
    Inv (n.getAttribute a).2 ∧ (n.getAttribute a).2.locs = n.locs ∧ (∃ g ∈ (n.getAttribute a).2.attrs, g.id = (n.getAttribute a).1) := by
  unfold Node.getAttribute
  split
  · rename_i g hf
    exact ⟨hi, rfl, g, List.mem_of_find?_eq_some hf, rfl⟩
  · rename_i hf
    refine ⟨⟨hi.ids, hi.seq, hi.len, hi.labels, hi.locIds, hi.locLen, hi.locLabels, hi.pairs, hi.weightRefs, hi.groupIds,
      hi.groupNames, ?_, ?_, ?_⟩, rfl, ⟨_, List.mem_append_right _ (List.mem_singleton.2 rfl), rfl⟩⟩
    · rw [List.map_append, List.nodup_append]
      refine ⟨hi.attrIds, by simp, ?_⟩
      intro a ha b hb
      simp only [List.map_cons, List.map_nil, List.mem_singleton] at hb
      rintro rfl
      rw [hb] at ha
      exact nextId_not_mem _ ha
    · rw [List.map_append, List.nodup_append]
      refine ⟨hi.attrs, by simp, ?_⟩
      intro x hx b hb
      simp only [List.map_cons, List.map_nil, List.mem_singleton] at hb
      rintro rfl
      obtain ⟨r, hr, e⟩ := List.mem_map.1 hx
      have := List.find?_eq_none.1 hf r hr
      simp [e, hb] at this
    · intro q hq
      obtain ⟨hl, g, hg, e⟩ := hi.quantRefs q hq
      exact ⟨hl, g, List.mem_append_left _ hg, e⟩

theorem addQuantity_inv {n n' : Node} {row : QuantRow} (hi : Inv n) (h : n.addQuantity row = .ok n') : Inv n' := by
  unfold Node.addQuantity at h
  obtain ⟨⟨loc, n1⟩, h1, h⟩ := bind_ok h
  obtain ⟨i1, hl⟩ := getLocation_inv hi (by simp [Node.locLabels]) h1
  dsimp only at h
  split at h
  · injection h with h; exact h ▸ i1
  split at h
  · injection h with h; exact h ▸ i1
  split at h
  · injection h with h; exact h ▸ i1
  · injection h with h
    obtain ⟨i2, e, g, hg, eg⟩ := getAttribute_inv (a := row.attrs) i1
    subst h
    refine ⟨i2.ids, i2.seq, i2.len, i2.labels, i2.locIds, i2.locLen, i2.locLabels, i2.pairs, i2.weightRefs, i2.groupIds,
      i2.groupNames, i2.attrIds, i2.attrs, ?_⟩
    intro q hq
    rcases List.mem_append.1 hq with hq | hq
    · exact i2.quantRefs q hq
    · rw [List.mem_singleton.1 hq]
      refine ⟨?_, g, hg, eg⟩
      show ∃ l ∈ (n1.getAttribute row.attrs).2.locs, l.id = loc
      rw [e]
      exact hl

theorem addQuantities_inv {n n' : Node} {rows : List QuantRow} (hi : Inv n) (h : n.addQuantities rows = .ok n') : Inv n' :=
  foldlM_inv (P := Inv) (fun _ _ _ => addQuantity_inv) hi h

/-! ### Removal -/

theorem mem_mergeAmounts {m : List (Nat × Nat)} (hm : RepOk m) {rows : List Amount} {r : Amount}
    (h : r ∈ mergeAmounts m rows) : rep m r.at_ = r.at_ ∧ ∃ x ∈ rows, x.key = r.key ∧ rep m x.at_ = r.at_ := by
  unfold mergeAmounts at h
  obtain ⟨h1, h2⟩ := List.mem_filter.1 h
  have hrep : rep m r.at_ = r.at_ := by
    by_contra hc
    have := (hm.goes _).2 hc
    simp [this] at h2
  refine ⟨hrep, ?_⟩
  unfold writeSums at h1
  obtain ⟨y, hy, e⟩ := List.mem_map.1 h1
  have e1 : y.key = r.key ∧ y.at_ = r.at_ := by
    split at e <;> subst e <;> exact ⟨rfl, rfl⟩
  obtain ⟨extra, h3, h4, _⟩ := addMissing_eq rows (missing m rows)
  rw [h3] at hy
  rcases List.mem_append.1 hy with hy | hy
  · exact ⟨y, hy, e1.1, by rw [e1.2]; exact hrep⟩
  · have : (y.key, y.at_) ∈ missing m rows := by
      rw [← h4]; exact List.mem_map.2 ⟨y, hy, rfl⟩
    obtain ⟨⟨x, hx, hk, hl⟩, _⟩ := mem_missing.1 this
    refine ⟨x, hx, hk.trans e1.1, ?_⟩
    unfold rep
    rw [hl, ← e1.2]; rfl

theorem mergeAmounts_pairs {m : List (Nat × Nat)} {rows : List Amount} (hn : (rows.map fun r => (r.key, r.at_)).Nodup) :
    ((mergeAmounts m rows).map fun r => (r.key, r.at_)).Nodup := by
  unfold mergeAmounts
  refine List.Nodup.sublist (List.Sublist.map _ List.filter_sublist) ?_
  unfold writeSums
  rw [List.map_map]
  have := merged_pairs (m := m) hn
  refine (List.map_congr_left ?_).symm ▸ this
  intro r _
  simp only [Function.comp_apply]
  split <;> rfl

end Toron.Legacy
