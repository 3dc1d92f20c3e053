/-
C130: removing columns of a legacy node with old and new versions of SQLite.
-/
import Verif.Model.Legacy.RemoveRebuilt
import Verif.Props.LegacyRename

namespace Toron.Legacy

open Toron.Selectors (PyStr)
open Toron.Space (IndexRec asciiLower)

/-! ### The number that ids continue with -/

/-- The node with another number that ids continue with. -/
def Node.withSeq (k : Nat) (n : Node) : Node := { n with seq := k }

theorem insertStruct_withSeq (k : Nat) (n : Node) (d : Finset PyStr) :
    (n.withSeq k).insertStruct d = (n.insertStruct d).map (Node.withSeq k) := by
  unfold Node.insertStruct
  by_cases h : n.cols ≠ [] ∧ Space.bitsOf n.cols d ∈ n.structs.map (·.bits)
  · rw [if_pos h]
    exact if_pos h
  · rw [if_neg h]
    exact if_neg h

theorem foldlM_withSeq (k : Nat) (st : List (Finset PyStr)) (n : Node) :
    st.foldlM Node.insertStruct (n.withSeq k) = (st.foldlM Node.insertStruct n).map (Node.withSeq k) := by
  induction st generalizing n with
  | nil => rfl
  | cons d st ih =>
    rw [List.foldlM_cons, List.foldlM_cons, insertStruct_withSeq]
    cases n.insertStruct d with
    | error e => rfl
    | ok m => exact ih m

theorem setStructure_withSeq (k : Nat) (n : Node) (st : List (Finset PyStr)) :
    (n.withSeq k).setStructure st = (n.setStructure st).map (Node.withSeq k) := by
  unfold Node.setStructure
  have : ({ n.withSeq k with structs := [] } : Node) = Node.withSeq k { n with structs := [] } := rfl
  rw [this, foldlM_withSeq]
  cases st.foldlM Node.insertStruct { n with structs := [] } with
  | error e => rfl
  | ok m => rfl

theorem updateCategories_withSeq (k : Nat) (n : Node) (cats : List (Finset PyStr)) (b : Bool) :
    (n.withSeq k).updateCategories cats b = (n.updateCategories cats b).map (Node.withSeq k) := by
  exact setStructure_withSeq k { n with partDefs := some (if b then Partitions.findMinimalGeneratingSet
    [if cats = [] then n.partDefs.getD [] else cats, [n.cols.toFinset]] else if cats = [] then n.partDefs.getD [] else cats) } _

theorem dropColumns_withSeq (k : Nat) (n : Node) (drop : List PyStr) :
    (n.withSeq k).dropColumns drop = (n.dropColumns drop).map (Node.withSeq k) := by
  unfold Node.dropColumns
  dsimp only
  unfold Node.checkUnique
  by_cases h : ((n.index.map fun r => ({ r with labels := Space.keepCols n.cols drop r.labels } : IndexRec)).map (·.labels)).Nodup ∧
      ((n.locs.map fun r => ({ r with labels := Space.keepCols n.cols drop r.labels } : Space.LocRec)).map (·.labels)).Nodup ∧
      ((n.structs.map fun r => ({ r with bits := Space.keepCols n.cols drop r.bits } : Space.StructRec)).map (·.bits)).Nodup
  · dsimp only
    rw [if_pos h]
    rw [show ((n.withSeq k).index) = n.index from rfl, show ((n.withSeq k).locs) = n.locs from rfl,
      show ((n.withSeq k).structs) = n.structs from rfl, show ((n.withSeq k).cols) = n.cols from rfl, if_pos h]
    rfl
  · dsimp only
    rw [if_neg h]
    rw [show ((n.withSeq k).index) = n.index from rfl, show ((n.withSeq k).locs) = n.locs from rfl,
      show ((n.withSeq k).structs) = n.structs from rfl, show ((n.withSeq k).cols) = n.cols from rfl, if_neg h]
    rfl

theorem checkKeys_ok {n : Node} (hi : Inv n) : n.checkKeys = .ok () := by
  unfold Node.checkKeys
  rw [if_pos]
  rw [Bool.and_eq_true, List.all_eq_true, List.all_eq_true]
  constructor
  · intro w hw
    obtain ⟨⟨r, hr, e⟩, g, hg, e'⟩ := hi.weightRefs w hw
    rw [Bool.and_eq_true, List.any_eq_true, List.any_eq_true]
    exact ⟨⟨r, hr, by rw [e, beq_self_eq_true]⟩, g, hg, by rw [e', beq_self_eq_true]⟩
  · intro q hq
    obtain ⟨⟨r, hr, e⟩, g, hg, e'⟩ := hi.quantRefs q hq
    rw [Bool.and_eq_true, List.any_eq_true, List.any_eq_true]
    exact ⟨⟨r, hr, by rw [e, beq_self_eq_true]⟩, g, hg, by rw [e', beq_self_eq_true]⟩

theorem foldr_max_ge {l : List Nat} {a : Nat} (h : a ∈ l) : a ≤ l.foldr max 0 := by
  induction l with
  | nil => cases h
  | cons x xs ih =>
    rw [List.foldr_cons]
    rcases List.mem_cons.1 h with rfl | h
    · exact le_max_left _ _
    · exact le_trans (ih h) (le_max_right _ _)

theorem foldr_max_le {l : List Nat} {k : Nat} (h : ∀ a ∈ l, a ≤ k) : l.foldr max 0 ≤ k := by
  induction l with
  | nil => exact Nat.zero_le _
  | cons x xs ih =>
    rw [List.foldr_cons]
    exact max_le (h x List.mem_cons_self) (ih fun a ha => h a (List.mem_cons_of_mem _ ha))

theorem ok_bind {α β : Type} (a : α) (f : α → Except Err β) : (Except.ok a >>= f) = f a := rfl

/-- **C130, in part.** If the names of the columns that are removed need no quotes, an old version of SQLite does what a new one does:
the removal fails with the same error, or the node is the same. The number that ids continue with may be smaller, but not smaller
than the id of a record. Missing: names that need quotes, and that number. -/
theorem C130_same_partial {n : Node} (hr : Reachable n) {drop : List PyStr} (hq : ∀ c ∈ n.cols, c ∈ drop → plainName c = true)
    (ps pg : Bool) :
    (∀ e, n.removeIndexColumns drop ps pg = .error e → n.removeByRebuilding drop ps pg = .error e) ∧
    ∀ n', n.removeIndexColumns drop ps pg = .ok n' →
      ∃ k, n.removeByRebuilding drop ps pg = .ok { n' with seq := k } ∧ (∀ r ∈ n'.index, r.id ≤ k) ∧ k ≤ n.seq := by
  have hinv : ∀ n', n.removeIndexColumns drop ps pg = .ok n' → Inv n' ∧ n'.seq = n.seq := fun n' h =>
    ⟨exec_inv (op := .removeIndexColumns drop ps pg) hr.inv h, (removed hr.inv h).seq⟩
  have hplain : ((n.cols.filter fun c => decide (c ∈ drop)).all plainName) = true := by
    rw [List.all_eq_true]
    intro c hc
    rw [List.mem_filter, decide_eq_true_iff] at hc
    exact hq c hc.1 hc.2
  unfold Node.removeIndexColumns at hinv ⊢
  unfold Node.removeByRebuilding
  by_cases hc : (n.cols.all fun c => decide (c ∉ drop)) = true
  · rw [if_pos hc, if_pos hc, checkKeys_ok hr.inv]
    refine ⟨fun e he => (by cases he), fun n' he => ?_⟩
    cases he
    exact ⟨n.seq, rfl, hr.inv.seq, le_refl _⟩
  · rw [if_neg hc] at hinv ⊢
    rw [if_neg hc]
    cases hcats : n.newCategories drop ps with
    | error e => exact ⟨fun e' he => (by cases he; rfl), fun n' he => by cases he⟩
    | ok cats =>
      rw [hcats] at hinv
      simp only [ok_bind] at hinv ⊢
      by_cases hs : (n.cols.filter fun c => decide (c ∉ drop)) = [] ∨
          ¬ ((n.cols.filter fun c => decide (c ∉ drop)).all plainName) = true
      · rw [if_pos hs, if_pos hs]
        exact ⟨fun e' he => he, fun n' he => by cases he⟩
      · rw [if_neg hs] at hinv ⊢
        rw [if_neg hs]
        cases h1 : n.mergeRecords drop pg with
        | error e => exact ⟨fun e' he => (by cases he; rfl), fun n' he => by cases he⟩
        | ok n1 =>
          rw [h1] at hinv
          simp only [ok_bind] at hinv ⊢
          rw [if_neg (not_not.2 hplain)] at hinv
          have hcopy : ({ n1 with structs := [] } : Node).copyColumns drop =
              (({ n1 with structs := [] } : Node).dropColumns drop).map (Node.withSeq n1.lastId) :=
            dropColumns_withSeq n1.lastId { n1 with structs := [] } drop
          rw [if_neg (not_not.2 hplain), hcopy]
          cases h2 : ({ n1 with structs := [] } : Node).dropColumns drop with
          | error e => exact ⟨fun e' he => (by cases he; rfl), fun n' he => by cases he⟩
          | ok n2 =>
            rw [h2] at hinv
            simp only [ok_bind, Except.map] at hinv ⊢
            rw [updateCategories_withSeq]
            cases h3 : n2.updateCategories cats true with
            | error e => exact ⟨fun e' he => (by cases he; rfl), fun n' he => by cases he⟩
            | ok n3 =>
              obtain ⟨hi3, hs3⟩ := hinv n3 h3
              refine ⟨fun e he => (by cases he), fun n' he => ?_⟩
              cases he
              have hids : n3.index.map (·.id) = n1.index.map (·.id) := by
                have e3 := updateCategories_same h3
                unfold SameData at e3
                obtain ⟨e2, _⟩ := dropColumns_ok h2
                rw [e3, e2]
                show (n1.index.map _).map _ = _
                rw [List.map_map]
                rfl
              refine ⟨n1.lastId, ?_, ?_, ?_⟩
              · have hk : (n3.withSeq n1.lastId).checkKeys = .ok () := (checkKeys_ok hi3 : n3.checkKeys = .ok ())
                show ((n3.withSeq n1.lastId).checkKeys >>= _) = _
                rw [hk]
                rfl
              · intro r hr3
                unfold Node.lastId
                rw [← hids]
                exact foldr_max_ge (List.mem_map.2 ⟨r, hr3, rfl⟩)
              · unfold Node.lastId
                rw [← hids, ← hs3]
                apply foldr_max_le
                intro a ha
                obtain ⟨r, hr3, rfl⟩ := List.mem_map.1 ha
                exact hi3.seq r hr3

/-! ### Cases -/

open RenameDemo in
/-- Two records become one, with a new and with an old version. -/
example : ((node.removeIndexColumns [['B']] false false).toOption.map fun m => (m.cols, m.index.map (·.id))) =
      some ([['A']], [0, 1]) ∧
    ((node.removeByRebuilding [['B']] false false).toOption.map fun m => (m.cols, m.index.map (·.id))) =
      some ([['A']], [0, 1]) ∧ (node.cols.all plainName) = true := by decide +kernel

namespace RebuildDemo

/-- A node with a column whose name has a blank. -/
def blank : Node := Node.new.run [.addIndexColumns [['A'], ['a', ' ', 'b']]]

end RebuildDemo

open RebuildDemo in
/-- **C130, violated.** A column whose name needs quotes can be removed with an old version of SQLite, and not with a new one. -/
theorem C130_violated_names : ¬ ∀ (n : Node), Reachable n → ∀ (drop : List PyStr) (ps pg : Bool) (n' : Node),
    n.removeByRebuilding drop ps pg = .ok n' → ∃ m, n.removeIndexColumns drop ps pg = .ok m := by
  intro hall
  have h1 : (blank.removeByRebuilding [['a', ' ', 'b']] false false).toBool = true := by decide +kernel
  have h2 : (blank.removeIndexColumns [['a', ' ', 'b']] false false).toBool = false := by decide +kernel
  cases e : blank.removeByRebuilding [['a', ' ', 'b']] false false with
  | error x => rw [e] at h1; cases h1
  | ok n' =>
    obtain ⟨m, hm⟩ := hall blank ⟨_, rfl⟩ _ _ _ n' e
    rw [hm] at h2
    cases h2

open RenameDemo in
/-- **C130, violated.** With an old version of SQLite, the next record gets the number of a record that was merged with another one;
with a new version it gets a number that was never given. -/
theorem C130_violated_ids : ¬ ∀ (n n' : Node), Reachable n → ∀ (drop : List PyStr) (ps pg : Bool),
    n.removeByRebuilding drop ps pg = .ok n' → ∀ r ∈ n.index, r.id < n'.seq + 1 := by
  intro hall
  have h1 : ((node.removeByRebuilding [['B']] false false).toOption.map fun m => node.index.any fun r => decide (m.seq + 1 ≤ r.id)) =
      some true := by decide +kernel
  cases e : node.removeByRebuilding [['B']] false false with
  | error x => rw [e] at h1; cases h1
  | ok n' =>
    rw [e] at h1
    have h1 : (node.index.any fun r => decide (n'.seq + 1 ≤ r.id)) = true := Option.some_inj.1 h1
    obtain ⟨r, hr, hle⟩ := List.any_eq_true.1 h1
    rw [decide_eq_true_iff] at hle
    have := hall node n' node_reachable _ _ _ e r hr
    omega

end Toron.Legacy
