/-
C129: renaming the columns of a legacy node.
-/
import Verif.Spec.LegacyRename
import Verif.Lemmas.Legacy.Split
import Verif.Lemmas.Legacy.Mapper
import Verif.Model.Legacy.ReadLink

namespace Toron.Legacy

open Toron.Selectors (PyStr)
open Toron.Space (IndexRec asciiLower)

/-! ### Names -/

/-- The names that columns cannot have. -/
def takenNames : List PyStr := (["index_id", "_location_id", "_structure_id", "_granularity"].map String.toList).map asciiLower

theorem takenNames_nodup : takenNames.Nodup := by decide +kernel

theorem mem_sqlNames {cols : List PyStr} {c : PyStr} : c ∈ sqlNames cols ↔ c ∈ cols.map asciiLower ∨ c ∈ takenNames := by
  unfold sqlNames takenNames
  rw [List.map_append, List.mem_append]

/-- No column has such a name. -/
def FreeNames (n : Node) : Prop := ∀ c ∈ n.cols, asciiLower c ∉ takenNames

theorem addColumn_free {n n' : Node} {c : PyStr} (hf : FreeNames n) (h : n.addColumn c = .ok n') : FreeNames n' := by
  unfold Node.addColumn at h
  obtain ⟨hc, h⟩ := ite_ok h
  injection h with h
  subst h
  intro d hd
  rcases List.mem_append.1 hd with hd | hd
  · exact hf d hd
  · rw [List.mem_singleton.1 hd]
    exact fun ht => hc (mem_sqlNames.2 (.inr ht))

theorem addColumns_free {n n' : Node} {names : List PyStr} (hf : FreeNames n) (h : n.addColumns names = .ok n') : FreeNames n' := by
  unfold Node.addColumns at h
  obtain ⟨names', _, h⟩ := bind_ok h
  obtain ⟨_, h⟩ := ite_ok h
  obtain ⟨cur, _, h⟩ := bind_ok h
  dsimp only at h
  split at h
  · injection h with h
    exact h ▸ hf
  · obtain ⟨_, h⟩ := ite_ok h
    obtain ⟨n1, h1, h⟩ := bind_ok h
    obtain ⟨_, _, h⟩ := bind_ok h
    injection h with h
    exact h ▸ foldlM_inv (P := FreeNames) (fun _ _ _ => addColumn_free) hf h1

theorem SameData.free {n n' : Node} (h : SameData n n') (hf : FreeNames n) : FreeNames n' := by
  unfold SameData at h
  rw [h]
  exact hf

theorem renameColumn_free {n n' : Node} {p : PyStr × PyStr} (hf : FreeNames n) (h : n.renameColumn p = .ok n') : FreeNames n' := by
  unfold Node.renameColumn at h
  obtain ⟨_, h⟩ := ite_ok h
  obtain ⟨hc, h⟩ := ite_ok h
  injection h with h
  subst h
  intro d hd
  obtain ⟨c, hcm, rfl⟩ := List.mem_map.1 hd
  split
  · exact fun ht => hc (mem_sqlNames.2 (.inr ht))
  · exact hf c hcm

theorem exec_free {op : Op} {n n' : Node} (hi : Inv n) (hf : FreeNames n) (h : op.exec n = .ok n') : FreeNames n' := by
  cases op with
  | addIndexColumns names =>
    unfold Op.exec Node.addIndexColumns at h
    obtain ⟨n1, h1, h⟩ := bind_ok h
    obtain ⟨n2, h2, h⟩ := bind_ok h
    exact (setStructure_same h).free ((updateCategories_same h2).free (addColumns_free hf h1))
  | removeIndexColumns names ps pg =>
    have hR := Toron.Legacy.removed hi h
    intro c hc
    rw [hR.cols] at hc
    exact hf c (List.mem_filter.1 hc).1
  | renameIndexColumns f =>
    unfold Op.exec Node.renameIndexColumns at h
    obtain ⟨_, _, h⟩ := bind_ok h
    obtain ⟨_, _, h⟩ := bind_ok h
    obtain ⟨_, h⟩ := ite_ok h
    exact foldlM_inv (P := FreeNames) (fun _ _ _ => renameColumn_free) hf h
  | addIndexRecords hd rows =>
    unfold Op.exec Node.addIndexRecords at h
    obtain ⟨_, h⟩ := ite_ok h
    obtain ⟨_, h⟩ := ite_ok h
    obtain ⟨n1, h1, h⟩ := bind_ok h
    injection h with h
    have hP := foldlM_inv (P := fun x : Node => x.cols = n.cols)
      (fun _ _ _ ha hb => (insertIndex_structure hb).1.trans ha) rfl h1
    subst h
    intro c hc
    have hc : c ∈ n1.cols := hc
    rw [hP] at hc
    exact hf c hc
  | addWeights hd i rows name sel =>
    obtain ⟨a, _⟩ := addWeights_keeps h
    intro c hc
    exact hf c (a ▸ hc)
  | addPartitionDefinitions defs => exact (updateCategories_same h).free hf
  | removePartitionDefinitions defs => exact (updateCategories_same h).free hf
  | addQuantities rows =>
    obtain ⟨a, _⟩ := addQuantities_keeps h
    intro c hc
    exact hf c (a ▸ hc)

theorem Reachable.free {n : Node} (h : Reachable n) : FreeNames n :=
  run_induct (P := FreeNames) (fun c hc => by cases hc) (fun _ _ _ hi hp h => exec_free hi hp h) h

/-! ### One column after the other -/

theorem mapM_ok {α β : Type} {f : α → Except Err β} {l : List α} {out : List β} (h : l.mapM f = .ok out) :
    out.length = l.length ∧ ∀ (i : Nat) (a : α), l[i]? = some a → ∃ b, f a = .ok b ∧ out[i]? = some b := by
  induction l generalizing out with
  | nil =>
    rw [List.mapM_nil] at h
    cases h
    exact ⟨rfl, fun i a e => by simp at e⟩
  | cons x xs ih =>
    rw [List.mapM_cons] at h
    obtain ⟨y, hy, h⟩ := bind_ok h
    obtain ⟨ys, hys, h⟩ := bind_ok h
    cases h
    obtain ⟨h1, h2⟩ := ih hys
    refine ⟨by rw [List.length_cons, List.length_cons, h1], fun i a e => ?_⟩
    cases i with
    | zero =>
      rw [List.getElem?_cons_zero, Option.some_inj] at e
      subst e
      exact ⟨y, hy, rfl⟩
    | succ i => exact h2 i a e

theorem mapM_plain {l : List PyStr} (h : ∀ c ∈ l, normName c = .ok c) : l.mapM normName = .ok l := by
  induction l with
  | nil => rfl
  | cons x xs ih =>
    rw [List.mapM_cons, h x List.mem_cons_self, ih fun c hc => h c (List.mem_cons_of_mem _ hc)]
    rfl

theorem rename_run {rest new : List PyStr} : ∀ {done : List PyStr} {n n' : Node}, (n.cols.map asciiLower).Nodup →
    n.cols = done ++ rest → new.length = rest.length →
    ((rest.zip new).filter fun p => decide (p.1 ≠ p.2)).foldlM Node.renameColumn n = .ok n' →
      n' = n.named (done ++ new) := by
  induction rest generalizing new with
  | nil =>
    intro done n n' hn hc hl h
    rw [List.length_nil, List.length_eq_zero_iff] at hl
    subst hl
    cases h
    unfold Node.named
    rw [← hc]
  | cons c rest ih =>
    intro done n n' hn hc hl h
    cases new with
    | nil => simp at hl
    | cons d new =>
      rw [List.length_cons, List.length_cons] at hl
      have hl : new.length = rest.length := by omega
      rw [List.zip_cons_cons] at h
      by_cases hcd : c = d
      · subst hcd
        rw [List.filter_cons_of_neg (by simp)] at h
        have := ih (done := done ++ [c]) hn (by rw [hc, List.append_assoc]; rfl) hl h
        rw [this, List.append_assoc]
        rfl
      · rw [List.filter_cons_of_pos (by simpa using hcd), List.foldlM_cons] at h
        obtain ⟨m, hm, h⟩ := bind_ok h
        have hn' := renameColumn_names hn hm
        have hmc : m = n.named ((done ++ [d]) ++ rest) := by
          unfold Node.renameColumn at hm
          obtain ⟨_, hm⟩ := ite_ok hm
          obtain ⟨_, hm⟩ := ite_ok hm
          injection hm with hm
          rw [← hm]
          unfold Node.named
          congr 1
          rw [hc] at hn ⊢
          rw [List.map_append, List.map_cons, List.nodup_append] at hn
          obtain ⟨_, h2, h3⟩ := hn
          rw [List.nodup_cons] at h2
          rw [List.map_append, List.map_cons, if_pos rfl, List.append_assoc]
          congr 1
          · conv_rhs => rw [← List.map_id done]
            apply List.map_congr_left
            intro x hx
            exact if_neg (h3 _ (List.mem_map.2 ⟨x, hx, rfl⟩) _ List.mem_cons_self)
          · show d :: _ = d :: rest
            congr 1
            conv_rhs => rw [← List.map_id rest]
            apply List.map_congr_left
            intro x hx
            exact if_neg fun (e : asciiLower x = asciiLower c) => h2.1 (e ▸ List.mem_map.2 ⟨x, hx, rfl⟩)
        have := ih (done := done ++ [d]) hn' (by rw [hmc]; rfl) hl h
        rw [this, hmc]
        unfold Node.named
        rw [List.append_assoc]
        rfl

/-- **C129, in part.** If the names of the columns are in normal form: after renaming, every column has its new name at its
place, and nothing else has changed. Missing: names that are not in normal form. -/
theorem C129_renamed_partial {n n' : Node} (hr : Reachable n) (hp : n.PlainNames) {mapper : PyStr → PyStr}
    (h : n.renameIndexColumns mapper = .ok n') : ∃ new, n.NewNames mapper new ∧ n' = n.named new := by
  unfold Node.renameIndexColumns at h
  obtain ⟨old, ho, h⟩ := bind_ok h
  obtain ⟨new, hw, h⟩ := bind_ok h
  rw [mapM_plain hp] at ho
  cases ho
  obtain ⟨h1, h2⟩ := mapM_ok hw
  rw [List.length_map] at h1
  refine ⟨new, ⟨h1, fun i c hc => h2 i (mapper c) (by rw [List.getElem?_map, hc]; rfl)⟩, ?_⟩
  obtain ⟨_, h⟩ := ite_ok h
  exact rename_run (done := []) hr.inv2.names rfl h1 h

/-- **C129.** Whatever the names are: the records are not changed, and links are read as before. -/
theorem C129_links {n n' : Node} {mapper : PyStr → PyStr} (h : n.renameIndexColumns mapper = .ok n') :
    n'.index = n.index ∧ n'.cols.length = n.cols.length ∧ ∀ rels, reconstructed n'.index rels = reconstructed n.index rels := by
  unfold Node.renameIndexColumns at h
  obtain ⟨_, _, h⟩ := bind_ok h
  obtain ⟨_, _, h⟩ := bind_ok h
  obtain ⟨_, h⟩ := ite_ok h
  have := foldlM_inv (P := fun x : Node => x.index = n.index ∧ x.cols.length = n.cols.length) (fun a p b ha hb => by
    unfold Node.renameColumn at hb
    obtain ⟨_, hb⟩ := ite_ok hb
    obtain ⟨_, hb⟩ := ite_ok hb
    injection hb with hb
    subst hb
    exact ⟨ha.1, (List.length_map _).trans ha.2⟩) ⟨rfl, rfl⟩ h
  exact ⟨this.1, this.2, fun rels => by rw [this.1]⟩

/-! ### Old versions of SQLite -/

theorem cellNamed_self {α : Type} {cols : List PyStr} (hn : (cols.map asciiLower).Nodup) {cells : List α}
    (hl : cells.length = cols.length) : cols.filterMap (cellNamed cols cells) = cells := by
  have key : ∀ (names : List PyStr) (cells : List α), names.Nodup → cells.length = names.length →
      names.map (fun c => (names.zip cells).lookup c) = cells.map some := by
    intro names
    induction names with
    | nil =>
      intro cells _ hl
      rw [List.length_nil, List.length_eq_zero_iff] at hl
      rw [hl]
      rfl
    | cons c names ih =>
      intro cells hn hl
      cases cells with
      | nil => simp at hl
      | cons x xs =>
        rw [List.length_cons, List.length_cons] at hl
        rw [List.nodup_cons] at hn
        rw [List.map_cons, List.map_cons, List.zip_cons_cons, ← ih xs hn.2 (by omega)]
        congr 1
        · rw [List.lookup_cons_self]
        · apply List.map_congr_left
          intro d hd
          have hne : (d == c) = false := by
            rw [beq_eq_false_iff_ne]
            rintro rfl
            exact hn.1 hd
          rw [List.lookup_cons, hne]
  have h := key (cols.map asciiLower) cells hn (by rw [List.length_map, hl])
  rw [List.map_map] at h
  have h : cols.map (cellNamed cols cells) = cells.map some := h
  have : cols.filterMap (cellNamed cols cells) = (cols.map (cellNamed cols cells)).filterMap id := by
    rw [List.filterMap_map]
    rfl
  rw [this, h, List.filterMap_map]
  exact List.filterMap_some

theorem rebuilt_self {n : Node} (hr : Reachable n) (new : List PyStr) :
    n.rebuilt n.cols new = { n.named new with seq := n.lastId } := by
  have hn := hr.inv2.names
  have h1 : (n.index.map fun r => { r with labels := n.cols.filterMap (cellNamed n.cols r.labels) }) = n.index := by
    conv_rhs => rw [← List.map_id n.index]
    apply List.map_congr_left
    intro r hri
    rw [cellNamed_self hn (hr.inv.len r hri)]
    rfl
  have h2 : (n.locs.map fun r => { r with labels := n.cols.filterMap (cellNamed n.cols r.labels) }) = n.locs := by
    conv_rhs => rw [← List.map_id n.locs]
    apply List.map_congr_left
    intro r hri
    rw [cellNamed_self hn (hr.inv.locLen r hri)]
    rfl
  have h3 : (n.structs.map fun r => { r with bits := n.cols.filterMap (cellNamed n.cols r.bits) }) = n.structs := by
    conv_rhs => rw [← List.map_id n.structs]
    apply List.map_congr_left
    intro r hri
    rw [cellNamed_self hn (hr.fresh.2 r hri)]
    rfl
  unfold Node.rebuilt Node.named
  rw [h1, h2, h3]

/-- **C129, in part.** With an old version of SQLite, the columns are renamed whenever the new names are allowed and different,
and the node is the same but for the number that ids continue with. -/
theorem C129_rebuilt_partial {n : Node} (hr : Reachable n) (hp : n.PlainNames) (hc : n.cols ≠ []) {mapper : PyStr → PyStr}
    {new : List PyStr} (hw : (n.cols.map mapper).mapM normName = .ok new) :
    (new.Nodup ∧ (sqlNames new).Nodup → n.renameByRebuilding mapper = .ok { n.named new with seq := n.lastId }) ∧
    (¬ (new.Nodup ∧ (sqlNames new).Nodup) → ∃ e, n.renameByRebuilding mapper = .error e) := by
  have hall : (n.cols.all fun c => n.cols.any fun d => asciiLower d == asciiLower c) = true := by
    rw [List.all_eq_true]
    intro c hcm
    rw [List.any_eq_true]
    exact ⟨c, hcm, beq_self_eq_true _⟩
  unfold Node.renameByRebuilding
  rw [mapM_plain hp, hw]
  show (_ → (if ¬ new.Nodup then _ else _) = _) ∧ (_ → ∃ e, (if ¬ new.Nodup then _ else _) = _)
  constructor
  · rintro ⟨h1, h2⟩
    rw [if_neg (not_not.2 h1), if_neg hc, if_neg (not_not.2 h2), if_neg (not_not.2 hall), rebuilt_self hr]
    have hu : Node.checkUnique { n.named new with seq := n.lastId } = .ok () := by
      unfold Node.checkUnique
      exact if_pos ⟨hr.inv.labels, hr.inv.locLabels, hr.structNodup hc⟩
    rw [hu]
    rfl
  · intro hno
    by_cases h1 : new.Nodup
    · have h2 : ¬ (sqlNames new).Nodup := fun h2 => hno ⟨h1, h2⟩
      rw [if_neg (not_not.2 h1), if_neg hc, if_pos h2]
      exact ⟨_, rfl⟩
    · rw [if_pos h1]
      exact ⟨_, rfl⟩

/-- **C129, in part.** What can be renamed with a new version of SQLite can be renamed with an old one, and the node is the same
but for the number that ids continue with. -/
theorem C129_versions_partial {n n' : Node} (hr : Reachable n) (hp : n.PlainNames) (hc : n.cols ≠ []) {mapper : PyStr → PyStr}
    (h : n.renameIndexColumns mapper = .ok n') : n.renameByRebuilding mapper = .ok { n' with seq := n.lastId } := by
  have h0 := h
  unfold Node.renameIndexColumns at h
  obtain ⟨old, ho, h⟩ := bind_ok h
  obtain ⟨new, hw, h⟩ := bind_ok h
  rw [mapM_plain hp] at ho
  cases ho
  obtain ⟨hd, h⟩ := ite_ok h
  have hl : new.length = n.cols.length := by rw [(mapM_ok hw).1, List.length_map]
  have he := rename_run (done := []) hr.inv2.names rfl hl h
  have hf := foldlM_inv (P := FreeNames) (fun _ _ _ => renameColumn_free) hr.free h
  have hn := foldlM_inv (P := fun x => (x.cols.map asciiLower).Nodup) (fun _ _ _ => renameColumn_names) hr.inv2.names h
  rw [he] at hf hn
  have hn : (new.map asciiLower).Nodup := hn
  have hs : (sqlNames new).Nodup := by
    unfold sqlNames
    rw [List.map_append, List.nodup_append]
    refine ⟨hn, takenNames_nodup, ?_⟩
    rintro a ha b hb rfl
    obtain ⟨c, hcm, rfl⟩ := List.mem_map.1 ha
    exact hf c hcm hb
  rw [(C129_rebuilt_partial hr hp hc hw).1 ⟨not_not.1 hd, hs⟩, he]
  rfl

/-! ### Cases -/

namespace RenameDemo

/-- A node with two columns and two records. -/
def node : Node := Node.new.run [.addIndexColumns [['A'], ['B']], .addIndexRecords [['A'], ['B']] [[['x'], ['1']], [['x'], ['2']]]]

theorem node_reachable : Reachable node := ⟨_, rfl⟩

theorem node_plain : node.PlainNames := by
  have h : node.cols.all (fun c => (normName c).toOption == some c) = true := by decide +kernel
  intro c hc
  have := List.all_eq_true.1 h c hc
  rw [beq_iff_eq] at this
  cases e : normName c with
  | error e' => rw [e] at this; cases this
  | ok d => rw [e] at this; exact congrArg _ (Option.some_inj.1 this)

/-- The first column gets another name. -/
def toC (c : PyStr) : PyStr := if c = ['A'] then ['C'] else c

/-- The names of the columns are exchanged. -/
def swap (c : PyStr) : PyStr := if c = ['A'] then ['B'] else if c = ['B'] then ['A'] else c

end RenameDemo

open RenameDemo in
/-- A column is renamed, with a new and with an old version of SQLite. -/
example : ((node.renameIndexColumns toC).toOption.map (·.cols)) = some [['C'], ['B']] ∧
    ((node.renameByRebuilding toC).toOption.map fun m => (m.cols, m.index.map (·.labels))) =
      some ([['C'], ['B']], [[['-'], ['-']], [['x'], ['1']], [['x'], ['2']]]) ∧ node.cols ≠ [] ∧ node.PlainNames :=
  ⟨by decide +kernel, by decide +kernel, by decide +kernel, node_plain⟩

open RenameDemo in
/-- **C129, violated.** Whether names can be exchanged depends on the version of SQLite: columns are renamed one by one with a new
version, so the first name is taken. -/
theorem C129_violated_swap : ¬ ∀ (n : Node), Reachable n → n.PlainNames → ∀ (mapper : PyStr → PyStr) (n' : Node),
    n.renameByRebuilding mapper = .ok n' → ∃ m, n.renameIndexColumns mapper = .ok m := by
  intro hall
  have h1 : (node.renameByRebuilding swap).toBool = true := by decide +kernel
  have h2 : (node.renameIndexColumns swap).toBool = false := by decide +kernel
  cases e : node.renameByRebuilding swap with
  | error x => rw [e] at h1; cases h1
  | ok n' =>
    obtain ⟨m, hm⟩ := hall node node_reachable node_plain swap n' e
    rw [hm] at h2
    cases h2

/-- **C129, violated.** A node without columns can be given a function with a new version of SQLite, and nothing happens; with an
old version the call fails. -/
theorem C129_violated_empty : ¬ ∀ (n : Node), Reachable n → n.PlainNames → ∀ (mapper : PyStr → PyStr) (n' : Node),
    n.renameIndexColumns mapper = .ok n' → ∃ m, n.renameByRebuilding mapper = .ok m := by
  intro hall
  have h0 : Reachable Node.new := ⟨[], rfl⟩
  obtain ⟨m, hm⟩ := hall Node.new h0 (fun c hc => by cases hc) id Node.new rfl
  cases hm

namespace RenameDemo

/-- A node with a column whose name has quotes, and a column with the same name without quotes. -/
def quoted : Node := Node.new.run [.addIndexColumns [['"', '"', '"', 'x', '"', '"', '"'], ['x']]]

/-- The column with quotes gets another name. -/
def toY (c : PyStr) : PyStr := if c = ['"', 'x', '"'] then ['y'] else c

end RenameDemo

open RenameDemo in
/-- **C129, violated.** If the name of a column has quotes, another column is renamed instead of it: the names in the table are
normalized again. -/
theorem C129_violated_names : ¬ ∀ (n n' : Node), Reachable n → ∀ (mapper : PyStr → PyStr),
    n.renameIndexColumns mapper = .ok n' → ∃ new, n.NewNames mapper new ∧ n' = n.named new := by
  intro hall
  have h1 : quoted.cols = [['"', 'x', '"'], ['x']] := by decide +kernel
  have h2 : ((quoted.renameIndexColumns toY).toOption.map (·.cols)) = some [['"', 'x', '"'], ['y']] := by decide +kernel
  cases e : quoted.renameIndexColumns toY with
  | error x => rw [e] at h2; cases h2
  | ok n' =>
    rw [e] at h2
    have h2 : n'.cols = [['"', 'x', '"'], ['y']] := Option.some_inj.1 h2
    obtain ⟨new, ⟨_, hw⟩, hn⟩ := hall quoted n' ⟨_, rfl⟩ toY e
    have hc : n'.cols = new := by rw [hn]; rfl
    obtain ⟨d, hd, hg⟩ := hw 0 ['"', 'x', '"'] (by rw [h1]; rfl)
    rw [← hc, h2] at hg
    have hd' : (normName (toY ['"', 'x', '"'])).toOption = some ['y'] := by decide +kernel
    rw [hd] at hd'
    have hd' : d = ['y'] := Option.some_inj.1 hd'
    rw [hd'] at hg
    exact absurd hg (by decide)

namespace RenameDemo

/-- Two records have become one. -/
def merged : Node := Node.new.run [.addIndexColumns [['A'], ['B']],
  .addIndexRecords [['A'], ['B']] [[['x'], ['1']], [['x'], ['2']]], .removeIndexColumns [['B']] false false]

theorem merged_plain : merged.PlainNames := by
  have h : merged.cols.all (fun c => (normName c).toOption == some c) = true := by decide +kernel
  intro c hc
  have := List.all_eq_true.1 h c hc
  rw [beq_iff_eq] at this
  cases e : normName c with
  | error e' => rw [e] at this; cases this
  | ok d => rw [e] at this; exact congrArg _ (Option.some_inj.1 this)

end RenameDemo

open RenameDemo in
/-- **C129, violated.** With an old version of SQLite, the number of a record that is gone is given to a new record after columns were
renamed; with a new version it is not. -/
theorem C129_violated_ids : ¬ ∀ (n n' : Node), Reachable n → n.PlainNames → ∀ (mapper : PyStr → PyStr),
    n.renameByRebuilding mapper = .ok n' → n'.seq = n.seq := by
  intro hall
  have h1 : ((merged.renameByRebuilding toC).toOption.map fun m => decide (m.seq = merged.seq)) = some false := by decide +kernel
  cases e : merged.renameByRebuilding toC with
  | error x => rw [e] at h1; cases h1
  | ok n' =>
    rw [e] at h1
    have := hall merged n' ⟨_, rfl⟩ merged_plain toC e
    have h1 : decide (n'.seq = merged.seq) = false := Option.some_inj.1 h1
    rw [decide_eq_true this] at h1
    cases h1

end Toron.Legacy
