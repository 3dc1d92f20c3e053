/-
More invariants of all histories of a legacy node: the undefined record, ids, names, hash and granularity.
-/
import Verif.Lemmas.Legacy.Removal
import Verif.Lemmas.Store.Split

namespace Toron.Legacy

open Toron.Selectors (PyStr)
open Toron.Space (IndexRec LocRec StructRec Weight AGroup Quant Attrs nextId asciiLower bitsOf defOf keepCols keepCols_length
  keepCols_replicate mem_keepCols mem_defOf)
open Toron.Partitions

/-! ### Calls that only add weights or quantities -/

/-- Columns, records, structure and properties are the same. -/
def Keeps (n n' : Node) : Prop :=
  n'.cols = n.cols ∧ n'.index = n.index ∧ n'.seq = n.seq ∧ n'.structs = n.structs ∧ n'.partDefs = n.partDefs ∧
    n'.indexHash = n.indexHash

theorem Keeps.refl (n : Node) : Keeps n n := ⟨rfl, rfl, rfl, rfl, rfl, rfl⟩

theorem Keeps.trans {a b c : Node} (h : Keeps a b) (h' : Keeps b c) : Keeps a c := by
  obtain ⟨a1, a2, a3, a4, a5, a6⟩ := h
  obtain ⟨b1, b2, b3, b4, b5, b6⟩ := h'
  exact ⟨b1.trans a1, b2.trans a2, b3.trans a3, b4.trans a4, b5.trans a5, b6.trans a6⟩

theorem insertWeight_keeps {w : Nat} {header : List PyStr} {n n' : Node} {row : WeightRow}
    (h : n.insertWeight w header row = .ok n') : Keeps n n' := by
  unfold Node.insertWeight at h
  split at h
  · injection h with h; exact h ▸ Keeps.refl n
  · split at h
    · obtain ⟨_, h⟩ := ite_ok h
      injection h with h
      subst h
      exact Keeps.refl n
    · injection h with h; exact h ▸ Keeps.refl n

theorem addWeights_keeps {header : List PyStr} {hasId : Bool} {rows : List WeightRow} {name : PyStr} {sel : List PyStr}
    {n n' : Node} (h : n.addWeights header hasId rows name sel = .ok n') : Keeps n n' := by
  unfold Node.addWeights at h
  dsimp only at h
  obtain ⟨_, h⟩ := ite_ok h
  obtain ⟨_, h⟩ := ite_ok h
  obtain ⟨n1, h1, h⟩ := bind_ok h
  injection h with h
  have h2 : Keeps n n1 := by
    refine foldlM_inv (P := Keeps n) (fun _ _ _ hP hb => hP.trans (insertWeight_keeps hb)) ?_ h1
    exact Keeps.refl n
  subst h
  split
  · exact h2
  · exact h2

theorem addQuantity_keeps {n n' : Node} {row : QuantRow} (h : n.addQuantity row = .ok n') : Keeps n n' := by
  unfold Node.addQuantity at h
  obtain ⟨⟨loc, n1⟩, h1, h⟩ := bind_ok h
  have k1 : Keeps n n1 := by
    unfold Node.getLocation at h1
    obtain ⟨_, h1⟩ := ite_ok h1
    split at h1
    · injection h1 with h1
      injection h1 with _ h1
      subst h1
      exact Keeps.refl n
    · injection h1 with h1
      injection h1 with _ h1
      subst h1
      exact Keeps.refl n
    · cases h1
  dsimp only at h
  split at h
  · injection h with h; exact h ▸ k1
  split at h
  · injection h with h; exact h ▸ k1
  split at h
  · injection h with h; exact h ▸ k1
  · injection h with h
    subst h
    refine k1.trans ?_
    unfold Node.getAttribute
    split <;> exact Keeps.refl n1

theorem addQuantities_keeps {n n' : Node} {rows : List QuantRow} (h : n.addQuantities rows = .ok n') : Keeps n n' :=
  foldlM_inv (P := Keeps n) (fun _ _ _ hP hb => hP.trans (addQuantity_keeps hb)) (Keeps.refl n) h

/-! ### The invariant -/

/-- The stored granularities are those of the current records. -/
def Fresh (n : Node) : Prop :=
  ∀ r ∈ n.structs, r.gran = calculateGranularitySql false (n.projected (defOf n.cols r.bits))

/-- The hash that belongs to the current records. -/
def Node.hashNow (n : Node) : Option (List Nat) :=
  if ((n.index.map (·.id)).filter fun i => decide (0 < i)) = [] then none
  else some ((n.index.map (·.id)).filter fun i => decide (0 < i))

/-- What else holds after every history. -/
structure Inv2 (n : Node) : Prop where
  first : ∃ rest, n.index = ⟨0, List.replicate n.cols.length ['-']⟩ :: rest ∧ ∀ r ∈ rest, 0 < r.id
  filled : ∀ r ∈ n.index, [] ∉ r.labels
  names : (n.cols.map asciiLower).Nodup
  hash : n.indexHash = n.hashNow

theorem Inv2.new : Inv2 Node.new :=
  ⟨⟨[], rfl, by simp⟩, by simp [Node.new], by simp [Node.new], rfl⟩

theorem Inv2.congr {n n' : Node} (h : Inv2 n) (h1 : n'.cols = n.cols) (h2 : n'.index = n.index)
    (h3 : n'.indexHash = n.indexHash) : Inv2 n' := by
  constructor
  · rw [h1, h2]; exact h.first
  · rw [h2]; exact h.filled
  · rw [h1]; exact h.names
  · unfold Node.hashNow
    rw [h3, h2]; exact h.hash

theorem SameData.inv2 {n n' : Node} (h : SameData n n') (hi : Inv2 n) : Inv2 n' := by
  unfold SameData at h
  apply hi.congr <;> rw [h]

theorem addColumn_inv2 {n n' : Node} {c : PyStr} (hi : Inv2 n) (h : n.addColumn c = .ok n') : Inv2 n' := by
  unfold Node.addColumn at h
  obtain ⟨hc, h⟩ := ite_ok h
  injection h with h
  subst h
  obtain ⟨rest, e, hpos⟩ := hi.first
  constructor
  · refine ⟨rest.map fun r => { r with labels := r.labels ++ [['-']] }, ?_, ?_⟩
    · simp only [e, List.map_cons, List.length_append, List.length_singleton, List.replicate_succ']
    · intro r hr
      obtain ⟨x, hx, rfl⟩ := List.mem_map.1 hr
      exact hpos x hx
  · intro r hr
    obtain ⟨x, hx, rfl⟩ := List.mem_map.1 hr
    simpa using hi.filled x hx
  · show ((n.cols ++ [c]).map asciiLower).Nodup
    rw [List.map_append, List.nodup_append]
    refine ⟨hi.names, by simp, ?_⟩
    intro a ha b hb
    simp only [List.map_cons, List.map_nil, List.mem_singleton] at hb
    rintro rfl
    apply hc
    unfold sqlNames
    rw [List.map_append, ← hb]
    exact List.mem_append_left _ ha
  · have := hi.hash
    unfold Node.hashNow at this ⊢
    simp only [List.map_map, Function.comp_def] at this ⊢
    exact this

theorem addColumns_inv2 {n n' : Node} {names : List PyStr} (hi : Inv2 n) (h : n.addColumns names = .ok n') : Inv2 n' := by
  unfold Node.addColumns at h
  obtain ⟨names', _, h⟩ := bind_ok h
  obtain ⟨_, h⟩ := ite_ok h
  obtain ⟨cur, _, h⟩ := bind_ok h
  dsimp only at h
  split at h
  · injection h with h
    exact h ▸ hi
  · obtain ⟨_, h⟩ := ite_ok h
    obtain ⟨n1, h1, h⟩ := bind_ok h
    obtain ⟨_, _, h⟩ := bind_ok h
    injection h with h
    exact h ▸ foldlM_inv (P := Inv2) (fun _ _ _ => addColumn_inv2) hi h1

theorem map_if_lower (l : List PyStr) (a b : PyStr) :
    (l.map fun c => if asciiLower c = asciiLower a then b else c).map asciiLower =
      (l.map asciiLower).map fun c => if c = asciiLower a then asciiLower b else c := by
  rw [List.map_map, List.map_map]
  apply List.map_congr_left
  intro c _
  simp only [Function.comp_apply]
  split <;> rfl

theorem nodup_replace {l : List PyStr} (h : l.Nodup) {a b : PyStr} (hb : ∀ c ∈ l, c ≠ a → c ≠ b) :
    (l.map fun c => if c = a then b else c).Nodup := by
  refine List.Nodup.map_on ?_ h
  intro x hx y hy e
  by_cases h1 : x = a <;> by_cases h2 : y = a
  · rw [h1, h2]
  · rw [if_pos h1, if_neg h2] at e
    exact absurd e.symm (hb y hy h2)
  · rw [if_neg h1, if_pos h2] at e
    exact absurd e (hb x hx h1)
  · rwa [if_neg h1, if_neg h2] at e

theorem renameColumn_names {n n' : Node} {p : PyStr × PyStr} (hi : (n.cols.map asciiLower).Nodup)
    (h : n.renameColumn p = .ok n') : (n'.cols.map asciiLower).Nodup := by
  unfold Node.renameColumn at h
  obtain ⟨_, h⟩ := ite_ok h
  obtain ⟨hc, h⟩ := ite_ok h
  injection h with h
  subst h
  show ((n.cols.map fun c => if asciiLower c = asciiLower p.1 then p.2 else c).map asciiLower).Nodup
  rw [map_if_lower]
  refine nodup_replace hi ?_
  intro c hcm hne e
  obtain ⟨x, hx, rfl⟩ := List.mem_map.1 hcm
  apply hc
  unfold sqlNames
  rw [List.map_append, ← e]
  exact List.mem_append_left _ (List.mem_map.2 ⟨x, List.mem_filter.2 ⟨hx, by simpa using hne⟩, rfl⟩)

theorem renameColumn_inv2 {n n' : Node} {p : PyStr × PyStr} (hi : Inv2 n) (h : n.renameColumn p = .ok n') : Inv2 n' := by
  have hn := renameColumn_names hi.names h
  unfold Node.renameColumn at h
  obtain ⟨_, h⟩ := ite_ok h
  obtain ⟨_, h⟩ := ite_ok h
  injection h with h
  subst h
  refine ⟨?_, hi.filled, hn, hi.hash⟩
  rw [List.length_map]
  exact hi.first

/-- The parts of the invariant without the hash. -/
def Rows2 (n : Node) : Prop :=
  (∃ rest, n.index = ⟨0, List.replicate n.cols.length ['-']⟩ :: rest ∧ ∀ r ∈ rest, 0 < r.id) ∧
  (∀ r ∈ n.index, [] ∉ r.labels) ∧ (n.cols.map asciiLower).Nodup

theorem insertIndex_rows {header : List PyStr} {n n' : Node} {row : List PyStr} (hi : Rows2 n)
    (h : n.insertIndex header row = .ok n') : Rows2 n' := by
  unfold Node.insertIndex at h
  dsimp only at h
  obtain ⟨_, h⟩ := ite_ok h
  obtain ⟨hne, h⟩ := ite_ok h
  obtain ⟨_, h⟩ := ite_ok h
  injection h with h
  subst h
  obtain ⟨⟨rest, e, hpos⟩, hf, hn⟩ := hi
  refine ⟨⟨rest ++ [⟨n.seq + 1, n.cols.map fun c => ((header.zip row).lookup c).getD ['-']⟩], ?_, ?_⟩, ?_, hn⟩
  · show n.index ++ _ = _
    rw [e]
    rfl
  · intro r hr
    rcases List.mem_append.1 hr with hr | hr
    · exact hpos r hr
    · rw [List.mem_singleton.1 hr]; exact Nat.succ_pos _
  · intro r hr
    rcases List.mem_append.1 hr with hr | hr
    · exact hf r hr
    · rw [List.mem_singleton.1 hr]; exact hne

theorem addIndexRecords_inv2 {header : List PyStr} {rows : List (List PyStr)} {n n' : Node} (hi : Inv2 n)
    (h : n.addIndexRecords header rows = .ok n') : Inv2 n' := by
  unfold Node.addIndexRecords at h
  dsimp only at h
  obtain ⟨_, h⟩ := ite_ok h
  obtain ⟨_, h⟩ := ite_ok h
  obtain ⟨n1, h1, h⟩ := bind_ok h
  injection h with h
  subst h
  obtain ⟨a, b, c⟩ := foldlM_inv (P := Rows2) (fun _ _ _ hP => insertIndex_rows hP) ⟨hi.first, hi.filled, hi.names⟩ h1
  exact ⟨a, b, c, rfl⟩

theorem removed_inv2 {n n' : Node} {drop : List PyStr} {ps pg : Bool} (hi : Inv n) (h2 : Inv2 n)
    (h : n.removeIndexColumns drop ps pg = .ok n') : Inv2 n' := by
  have hR := removed hi h
  obtain ⟨rest, e, hpos⟩ := h2.first
  have hg0 : goes (n.recordMap drop) 0 = false := by
    rw [hR.recordMap_eq]
    rw [not_goes_iff (keepCols n.cols drop) hi.recIds (i := 0) (l := List.replicate n.cols.length ['-'])
      (List.mem_map.2 ⟨⟨0, List.replicate n.cols.length ['-']⟩, by rw [e]; exact List.mem_cons_self, rfl⟩)]
    intro x _ _
    exact Nat.zero_le _
  constructor
  · refine ⟨(rest.filter fun r => !(goes (n.recordMap drop) r.id)).map fun r =>
      { r with labels := keepCols n.cols drop r.labels }, ?_, ?_⟩
    · rw [hR.index, hR.cols, e, List.filter_cons, if_pos (by simp [hg0]), List.map_cons, keepCols_replicate]
    · intro r hr
      obtain ⟨x, hx, rfl⟩ := List.mem_map.1 hr
      exact hpos x (List.mem_filter.1 hx).1
  · intro r hr hm
    rw [hR.index] at hr
    obtain ⟨x, hx, rfl⟩ := List.mem_map.1 hr
    exact h2.filled x (List.mem_filter.1 hx).1 (mem_keepCols hm)
  · rw [hR.cols]
    exact h2.names.sublist (List.Sublist.map _ List.filter_sublist)
  · unfold Node.removeIndexColumns at h
    split at h
    · injection h with h
      exact h ▸ h2.hash
    · obtain ⟨cats, _, h⟩ := bind_ok h
      obtain ⟨_, h⟩ := ite_ok h
      obtain ⟨n1, h1, h⟩ := bind_ok h
      obtain ⟨_, h⟩ := ite_ok h
      obtain ⟨n2, h3, h4⟩ := bind_ok h
      obtain ⟨e2, _⟩ := dropColumns_ok h3
      have e3 := updateCategories_same h4
      unfold SameData at e3
      have hn1 : n1.indexHash = n1.hashNow := by
        unfold Node.mergeRecords at h1
        by_cases hl : n.losesGranularity drop = true
        · rw [if_pos hl] at h1
          obtain ⟨_, h1⟩ := ite_ok h1
          cases hcs : n.coarsen drop with
          | error e => rw [hcs] at h1; cases h1
          | ok n0 =>
            rw [hcs] at h1
            injection h1 with h1
            subst h1
            rfl
        · rw [if_neg hl] at h1
          injection h1 with h1
          subst h1
          exact h2.hash
      have a1 : n'.indexHash = n1.indexHash := by rw [e3, e2]
      have a2 : n'.index.map (·.id) = n1.index.map (·.id) := by
        rw [e3, e2]
        simp only [List.map_map]
        rfl
      rw [a1, hn1]
      unfold Node.hashNow
      rw [a2]

theorem exec_inv2 {op : Op} {n n' : Node} (hi : Inv n) (h2 : Inv2 n) (h : op.exec n = .ok n') : Inv2 n' := by
  cases op with
  | addIndexColumns names =>
    unfold Op.exec Node.addIndexColumns at h
    obtain ⟨n1, h1, h⟩ := bind_ok h
    obtain ⟨n2, h3, h⟩ := bind_ok h
    exact (setStructure_same h).inv2 ((updateCategories_same h3).inv2 (addColumns_inv2 h2 h1))
  | removeIndexColumns names ps pg => exact removed_inv2 hi h2 h
  | renameIndexColumns f =>
    unfold Op.exec Node.renameIndexColumns at h
    obtain ⟨_, _, h⟩ := bind_ok h
    obtain ⟨_, _, h⟩ := bind_ok h
    obtain ⟨_, h⟩ := ite_ok h
    exact foldlM_inv (P := Inv2) (fun _ _ _ => renameColumn_inv2) h2 h
  | addIndexRecords hd rows => exact addIndexRecords_inv2 h2 h
  | addWeights hd i rows name sel =>
    obtain ⟨a, b, _, _, _, c⟩ := addWeights_keeps h
    exact h2.congr a b c
  | addPartitionDefinitions defs => exact (updateCategories_same h).inv2 h2
  | removePartitionDefinitions defs => exact (updateCategories_same h).inv2 h2
  | addQuantities rows =>
    obtain ⟨a, b, _, _, _, c⟩ := addQuantities_keeps h
    exact h2.congr a b c

theorem run_induct {P : Node → Prop} (h0 : P Node.new) (hs : ∀ (op : Op) (n n' : Node), Inv n → P n → op.exec n = .ok n' → P n')
    {n : Node} (h : Reachable n) : P n := by
  obtain ⟨ops, rfl⟩ := h
  unfold Node.run
  suffices ∀ m : Node, Inv m → P m → P (ops.foldl Node.step m) from this _ Inv.new h0
  induction ops with
  | nil => exact fun _ _ h => h
  | cons op ops ih =>
    intro m hm hp
    refine ih _ (step_inv hm) ?_
    unfold Node.step
    split
    · rename_i h; exact hs op m _ hm hp h
    · exact hp

theorem Reachable.inv2 {n : Node} (h : Reachable n) : Inv2 n :=
  run_induct Inv2.new (fun _ _ _ hi h2 h => exec_inv2 hi h2 h) h

/-! ### Granularity -/

theorem refresh_fresh (n : Node) : Fresh n.refreshGranularity := by
  intro r hr
  unfold Node.refreshGranularity at hr
  obtain ⟨x, hx, rfl⟩ := List.mem_map.1 hr
  rfl

theorem setStructure_fresh {n n' : Node} {st : List (Finset PyStr)} (h : n.setStructure st = .ok n') : Fresh n' := by
  unfold Node.setStructure at h
  obtain ⟨n1, _, h⟩ := bind_ok h
  injection h with h
  exact h ▸ refresh_fresh n1

theorem updateCategories_fresh {n n' : Node} {cats : List (Finset PyStr)} {b : Bool}
    (h : n.updateCategories cats b = .ok n') : Fresh n' := by
  unfold Node.updateCategories at h
  exact setStructure_fresh h

/-- The labels of a record in the columns of a set given by bits. -/
theorem project_bits {cols : List PyStr} (hc : cols.Nodup) (bits : List Bool) {labels : List PyStr}
    (hl : labels.length = cols.length) (hb : bits.length = cols.length) :
    ((cols.zip labels).filter fun cl => cl.1 ∈ defOf cols bits).map (·.2) =
      ((bits.zip labels).filter (·.1)).map (·.2) := by
  have hd : ∀ c ∈ cols.zip bits, (c.1 ∈ defOf cols bits ↔ c.2 = true) := by
    intro c hcm
    obtain ⟨i, hi, e⟩ := List.getElem_of_mem hcm
    rw [List.getElem_zip] at e
    have h1 : i < cols.length := by rw [List.length_zip] at hi; omega
    have h2 : i < bits.length := by rw [List.length_zip] at hi; omega
    subst e
    constructor
    · intro hm
      obtain ⟨_, h⟩ := mem_defOf hc h1 hm
      exact h
    · intro h
      unfold defOf
      rw [List.mem_toFinset, List.mem_map]
      exact ⟨(cols[i], bits[i]), List.mem_filter.2 ⟨hcm, h⟩, rfl⟩
  generalize defOf cols bits = d at hd
  clear hc
  induction cols generalizing bits labels with
  | nil =>
    cases labels with
    | nil => cases bits <;> rfl
    | cons a as => simp at hl
  | cons c cols ih =>
    cases labels with
    | nil => simp at hl
    | cons a as =>
      cases bits with
      | nil => simp at hb
      | cons b bits =>
        have h1 := hd (c, b) (by simp)
        have h2 := ih bits (labels := as) (by simpa using hl) (by simpa using hb)
          (fun x hx => hd x (by rw [List.zip_cons_cons]; exact List.mem_cons_of_mem _ hx))
        rw [List.zip_cons_cons, List.zip_cons_cons, List.filter_cons, List.filter_cons]
        by_cases hb1 : b = true
        · rw [if_pos (by simpa using h1.2 hb1), if_pos hb1, List.map_cons, List.map_cons, h2]
        · rw [if_neg (by simpa using fun h => hb1 (h1.1 h)), if_neg hb1, h2]

/-- Granularities are fresh and the bits of a level match the columns. -/
def FreshInv (n : Node) : Prop := Fresh n ∧ ∀ r ∈ n.structs, r.bits.length = n.cols.length

theorem setStructure_len {n n' : Node} {st : List (Finset PyStr)} (h : n.setStructure st = .ok n') :
    ∀ r ∈ n'.structs, r.bits.length = n'.cols.length := by
  unfold Node.setStructure at h
  obtain ⟨n1, h1, h⟩ := bind_ok h
  injection h with h
  have hP := foldlM_inv (P := fun x : Node => ∀ r ∈ x.structs, r.bits.length = x.cols.length)
    (fun a d b ha hb => by
      unfold Node.insertStruct at hb
      obtain ⟨_, hb⟩ := ite_ok hb
      injection hb with hb
      subst hb
      intro r hr
      rcases List.mem_append.1 hr with hr | hr
      · exact ha r hr
      · rw [List.mem_singleton.1 hr]
        unfold bitsOf
        rw [List.length_map]) (by intro r hr; cases hr) h1
  subst h
  intro r hr
  unfold Node.refreshGranularity at hr
  obtain ⟨x, hx, rfl⟩ := List.mem_map.1 hr
  exact hP x hx

theorem nodup_of_lower {l : List PyStr} (h : (l.map asciiLower).Nodup) : l.Nodup := h.of_map

theorem projected_rename {n : Node} (hi : Inv n) (hc : n.cols.Nodup) {cols' : List PyStr} (hc' : cols'.Nodup)
    (hl : cols'.length = n.cols.length) {bits : List Bool} (hb : bits.length = n.cols.length) :
    { n with cols := cols' }.projected (defOf cols' bits) = n.projected (defOf n.cols bits) := by
  unfold Node.projected
  apply List.map_congr_left
  intro r hr
  have hr' := hi.len r (List.mem_filter.1 hr).1
  rw [project_bits hc bits hr' hb]
  exact project_bits hc' bits (by rw [hr', hl]) (by rw [hb, hl])

theorem renameColumn_fresh {n n' : Node} {p : PyStr × PyStr} (hi : Inv n ∧ Inv2 n ∧ FreshInv n)
    (h : n.renameColumn p = .ok n') : Inv n' ∧ Inv2 n' ∧ FreshInv n' := by
  obtain ⟨hi, h2, hf, hl⟩ := hi
  have hn := nodup_of_lower (renameColumn_names h2.names h)
  refine ⟨renameColumn_inv hi h, renameColumn_inv2 h2 h, ?_⟩
  unfold Node.renameColumn at h
  obtain ⟨_, h⟩ := ite_ok h
  obtain ⟨_, h⟩ := ite_ok h
  injection h with h
  subst h
  constructor
  · intro r hr
    rw [hf r hr, ← projected_rename hi (nodup_of_lower h2.names) hn (by simp) (hl r hr)]
  · intro r hr
    rw [List.length_map]
    exact hl r hr

theorem exec_fresh {op : Op} {n n' : Node} (hi : Inv n) (h2 : Inv2 n) (hf : FreshInv n) (h : op.exec n = .ok n') :
    FreshInv n' := by
  cases op with
  | addIndexColumns names =>
    unfold Op.exec Node.addIndexColumns at h
    obtain ⟨n1, h1, h⟩ := bind_ok h
    obtain ⟨n2, h3, h⟩ := bind_ok h
    exact ⟨setStructure_fresh h, setStructure_len h⟩
  | removeIndexColumns names ps pg =>
    have h : n.removeIndexColumns names ps pg = .ok n' := h
    unfold Node.removeIndexColumns at h
    split at h
    · injection h with h; exact h ▸ hf
    · obtain ⟨cats, _, h⟩ := bind_ok h
      obtain ⟨_, h⟩ := ite_ok h
      obtain ⟨n1, h1, h⟩ := bind_ok h
      obtain ⟨_, h⟩ := ite_ok h
      obtain ⟨n2, h3, h4⟩ := bind_ok h
      exact ⟨updateCategories_fresh h4, setStructure_len h4⟩
  | renameIndexColumns f =>
    unfold Op.exec Node.renameIndexColumns at h
    obtain ⟨_, _, h⟩ := bind_ok h
    obtain ⟨_, _, h⟩ := bind_ok h
    obtain ⟨_, h⟩ := ite_ok h
    exact (foldlM_inv (P := fun n => Inv n ∧ Inv2 n ∧ FreshInv n) (fun _ _ _ => renameColumn_fresh) ⟨hi, h2, hf⟩ h).2.2
  | addIndexRecords hd rows =>
    unfold Op.exec Node.addIndexRecords at h
    dsimp only at h
    obtain ⟨_, h⟩ := ite_ok h
    obtain ⟨_, h⟩ := ite_ok h
    obtain ⟨n1, h1, h⟩ := bind_ok h
    injection h with h
    have hk := foldlM_inv (P := fun x : Node => x.cols = n.cols ∧ x.structs = n.structs)
      (fun a d b ha hb => by
        unfold Node.insertIndex at hb
        dsimp only at hb
        obtain ⟨_, hb⟩ := ite_ok hb
        obtain ⟨_, hb⟩ := ite_ok hb
        obtain ⟨_, hb⟩ := ite_ok hb
        injection hb with hb
        subst hb
        exact ha) ⟨rfl, rfl⟩ h1
    subst h
    refine ⟨refresh_fresh n1, ?_⟩
    intro r hr
    have hr : r ∈ n1.refreshGranularity.structs := hr
    unfold Node.refreshGranularity at hr
    obtain ⟨x, hx, rfl⟩ := List.mem_map.1 hr
    rw [hk.2] at hx
    show x.bits.length = n1.cols.length
    rw [hk.1]
    exact hf.2 x hx
  | addWeights hd i rows name sel =>
    obtain ⟨a, b, _, c, _, _⟩ := addWeights_keeps h
    exact fresh_congr hf a b c
  | addPartitionDefinitions defs => exact ⟨updateCategories_fresh h, setStructure_len h⟩
  | removePartitionDefinitions defs => exact ⟨updateCategories_fresh h, setStructure_len h⟩
  | addQuantities rows =>
    obtain ⟨a, b, _, c, _, _⟩ := addQuantities_keeps h
    exact fresh_congr hf a b c
where
  fresh_congr {n n' : Node} (hf : FreshInv n) (a : n'.cols = n.cols) (b : n'.index = n.index)
      (c : n'.structs = n.structs) : FreshInv n' := by
    refine ⟨?_, ?_⟩
    · intro r hr
      rw [c] at hr
      have := hf.1 r hr
      unfold Node.projected at this ⊢
      rw [a, b]
      exact this
    · intro r hr
      rw [c] at hr
      rw [a]
      exact hf.2 r hr

theorem FreshInv.new : FreshInv Node.new := by
  unfold FreshInv Fresh
  constructor <;> (intro r hr; cases hr)

theorem Reachable.fresh {n : Node} (h : Reachable n) : FreshInv n :=
  (run_induct (P := fun n => Inv2 n ∧ FreshInv n) ⟨Inv2.new, FreshInv.new⟩
    (fun _ _ _ hi h2 h => ⟨exec_inv2 hi h2.1 h, exec_fresh hi h2.1 h2.2 h⟩) h).2

/-! ### Ids -/

/-- Ids are old ones or greater than all earlier ones. -/
def IdStep (n n' : Node) : Prop :=
  n.seq ≤ n'.seq ∧ ∀ i ∈ n'.index.map (·.id), i ∈ n.index.map (·.id) ∨ n.seq < i

theorem IdStep.trans {a b c : Node} (h : IdStep a b) (h' : IdStep b c) : IdStep a c := by
  refine ⟨h.1.trans h'.1, fun i hi => ?_⟩
  rcases h'.2 i hi with h1 | h1
  · exact h.2 i h1
  · exact Or.inr (lt_of_le_of_lt h.1 h1)

theorem IdStep.of_eq {n n' : Node} (h1 : n'.seq = n.seq) (h2 : n'.index.map (·.id) = n.index.map (·.id)) :
    IdStep n n' := ⟨h1.ge, fun i hi => Or.inl (h2 ▸ hi)⟩

theorem SameData.ids {n n' : Node} (h : SameData n n') : IdStep n n' := by
  unfold SameData at h
  apply IdStep.of_eq <;> rw [h]

theorem Keeps.ids {n n' : Node} (h : Keeps n n') : IdStep n n' := by
  obtain ⟨_, b, c, _, _, _⟩ := h
  exact IdStep.of_eq c (by rw [b])

theorem exec_ids {op : Op} {n n' : Node} (hi : Inv n) (h : op.exec n = .ok n') : IdStep n n' := by
  cases op with
  | addIndexColumns names =>
    unfold Op.exec Node.addIndexColumns at h
    obtain ⟨n1, h1, h⟩ := bind_ok h
    obtain ⟨n2, h3, h⟩ := bind_ok h
    refine IdStep.trans ?_ ((updateCategories_same h3).ids.trans (setStructure_same h).ids)
    unfold Node.addColumns at h1
    obtain ⟨names', _, h1⟩ := bind_ok h1
    obtain ⟨_, h1⟩ := ite_ok h1
    obtain ⟨cur, _, h1⟩ := bind_ok h1
    dsimp only at h1
    split at h1
    · injection h1 with h1
      exact h1 ▸ IdStep.of_eq rfl rfl
    · obtain ⟨_, h1⟩ := ite_ok h1
      obtain ⟨n0, h0, h1⟩ := bind_ok h1
      obtain ⟨_, _, h1⟩ := bind_ok h1
      injection h1 with h1
      subst h1
      refine foldlM_inv (P := IdStep n) (fun a c b ha hb => ha.trans ?_) (IdStep.of_eq rfl rfl) h0
      unfold Node.addColumn at hb
      obtain ⟨_, hb⟩ := ite_ok hb
      injection hb with hb
      subst hb
      exact IdStep.of_eq rfl (by simp only [List.map_map]; rfl)
  | removeIndexColumns names ps pg =>
    have hR := Toron.Legacy.removed hi h
    refine ⟨hR.seq.ge, fun i hi => Or.inl ?_⟩
    rw [hR.index, List.map_map] at hi
    exact (List.Sublist.map _ List.filter_sublist).subset hi
  | renameIndexColumns f =>
    unfold Op.exec Node.renameIndexColumns at h
    obtain ⟨_, _, h⟩ := bind_ok h
    obtain ⟨_, _, h⟩ := bind_ok h
    obtain ⟨_, h⟩ := ite_ok h
    refine foldlM_inv (P := IdStep n) (fun a c b ha hb => ha.trans ?_) (IdStep.of_eq rfl rfl) h
    unfold Node.renameColumn at hb
    obtain ⟨_, hb⟩ := ite_ok hb
    obtain ⟨_, hb⟩ := ite_ok hb
    injection hb with hb
    subst hb
    exact IdStep.of_eq rfl rfl
  | addIndexRecords hd rows =>
    unfold Op.exec Node.addIndexRecords at h
    dsimp only at h
    obtain ⟨_, h⟩ := ite_ok h
    obtain ⟨_, h⟩ := ite_ok h
    obtain ⟨n1, h1, h⟩ := bind_ok h
    injection h with h
    subst h
    refine IdStep.trans (b := n1) ?_ (IdStep.of_eq rfl rfl)
    refine foldlM_inv (P := IdStep n) (fun a c b ha hb => ha.trans ?_) (IdStep.of_eq rfl rfl) h1
    unfold Node.insertIndex at hb
    dsimp only at hb
    obtain ⟨_, hb⟩ := ite_ok hb
    obtain ⟨_, hb⟩ := ite_ok hb
    obtain ⟨_, hb⟩ := ite_ok hb
    injection hb with hb
    subst hb
    refine ⟨Nat.le_succ _, fun i hi => ?_⟩
    rw [List.map_append] at hi
    rcases List.mem_append.1 hi with hi | hi
    · exact Or.inl hi
    · right
      rw [List.map_cons, List.map_nil, List.mem_singleton] at hi
      rw [hi]
      exact Nat.lt_succ_self _
  | addWeights hd i rows name sel => exact (addWeights_keeps h).ids
  | addPartitionDefinitions defs => exact (updateCategories_same h).ids
  | removePartitionDefinitions defs => exact (updateCategories_same h).ids
  | addQuantities rows => exact (addQuantities_keeps h).ids

theorem run_ids (n : Node) (hi : Inv n) (ops : List Op) : IdStep n (n.run ops) := by
  induction ops generalizing n with
  | nil => exact IdStep.of_eq rfl rfl
  | cons op ops ih =>
    refine IdStep.trans (b := n.step op) ?_ (ih _ (step_inv hi))
    unfold Node.step
    split
    · rename_i h; exact exec_ids hi h
    · exact IdStep.of_eq rfl rfl

end Toron.Legacy
