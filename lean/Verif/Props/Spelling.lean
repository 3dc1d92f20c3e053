/-
C96: the spelling of labels does not matter. The specification (`Verif/Spec/Spelling.lean`) says what it means to
give all labels of a call, and to find all labels of a dataspace, in another spelling.
-/
import Verif.Lemmas.Store.SpellingRead
import Verif.Demo

namespace Toron.Space

open Toron.Selectors (PyStr Sel CaseMap)

/-- After every history of calls with all labels in another spelling, the dataspace is the one that the same
history in the old spelling makes, in the new spelling. In particular ids, weights, mappings, proportions, amounts,
completeness and the granularity of every partition are the same. Criteria must name label columns: see
`C96_criteria_violated`. -/
theorem C96_store_partial (uid : PyStr) (ops : List Op) (w : Spelling) (h : NamesApart w ops (Store.new uid)) :
    run (ops.map (·.respell w)) (Store.new uid) = (run ops (Store.new uid)).respell w :=
  Spell.run_respell ops (Store.new uid) ⟨uid, [], rfl⟩ h

/-- Every call of the history has the same outcome in both spellings: it succeeds in one if and only if it succeeds
in the other, and fails with the same error. -/
theorem C96_outcomes_partial (uid : PyStr) (ops : List Op) (w : Spelling) (h : NamesApart w ops (Store.new uid)) :
    outcomes (ops.map (·.respell w)) (Store.new uid) = outcomes ops (Store.new uid) :=
  Spell.outcomes_respell ops (Store.new uid) ⟨uid, [], rfl⟩ h

/-- Histories without deletion by criteria and without `reify_mappings` are not restricted. -/
theorem C96_no_criteria (ops : List Op) (w : Spelling) (h : ∀ op ∈ ops, op.criteria = []) (s : Store) : NamesApart w ops s := by
  induction ops generalizing s with
  | nil => trivial
  | cons op ops ih =>
    refine ⟨?_, ih (fun o ho => h o (by simp [ho])) _⟩
    unfold Op.NamesApart
    rw [h op (by simp)]
    simp

/-- Reading the dataspace in another spelling gives the same rows: the same records, attributes and amounts. -/
theorem C96_read (s : Store) (hs : Reachable s) (w : Spelling) (cm : CaseMap) (sel : List Sel) (q : Bool)
    (sumBy : List PyStr) : (s.respell w).reader cm sel q sumBy = s.reader cm sel q sumBy :=
  Spell.reader_respell hs.indexInv.lens cm sel q sumBy

/-- Translating a result does not depend on the spelling of labels in the two dataspaces. -/
theorem C96_translate (r : Reader) (cm : CaseMap) (src trg : Store) (w1 w2 : Spelling) (q : Bool) :
    r.translate cm (src.respell w1) (trg.respell w2) q = r.translate cm src trg q :=
  Spell.translate_respell r w1 w2 cm src trg q

/-- The table that a result prints: the same attributes and sums, each label in the new spelling. -/
theorem C96_output (r : Reader) (s : Store) (w : Spelling) :
    r.output (s.respell w) = (r.output s).map (List.map fun x => (x.1.map w.of, x.2)) :=
  Spell.output_respell r

/-- The same for the pivoted table. -/
theorem C96_pivot (r : Reader) (s : Store) (w : Spelling) (agg : List (Option ℚ) → Option ℚ) (columns : List PyStr) :
    r.pivotRows (s.respell w) agg columns = (r.pivotRows s agg columns).map (List.map fun x => (x.1.map w.of, x.2)) :=
  Spell.pivotRows_respell r agg columns

/-- The letters `x` and `z` exchanged. -/
def Demo.swap (c : Char) : Char := if c = 'x' then 'z' else if c = 'z' then 'x' else c

theorem Demo.swap_swap (c : Char) : Demo.swap (Demo.swap c) = c := by
  unfold Demo.swap
  by_cases h1 : c = 'x'
  · subst h1; decide
  · by_cases h2 : c = 'z'
    · subst h2; decide
    · simp [h1, h2]

/-- A change of spelling. -/
def Demo.spelling : Spelling where
  of := List.map Demo.swap
  inj := List.map_injective_iff.2 (Function.LeftInverse.injective Demo.swap_swap)
  empty := rfl
  dash := by decide

/-- The history of the demonstration in another spelling meets the hypothesis. -/
example : NamesApart Demo.spelling Demo.ops (Store.new ['u']) :=
  C96_no_criteria _ _ (by decide +kernel) _

/-- With deletion by criteria: the criterion names a column. -/
example : NamesApart Demo.spelling (Demo.ops ++ [.deleteWeights Demo.wname (.criteria [(Demo.colA, Demo.lx)])]) (Store.new ['u']) := by
  have h : ∀ (ops : List Op) (s : Store) (op : Op), (∀ o ∈ ops, o.criteria = []) → op.NamesApart Demo.spelling (run ops s) →
      NamesApart Demo.spelling (ops ++ [op]) s := by
    intro ops
    induction ops with
    | nil => intro s op _ h; exact ⟨h, trivial⟩
    | cons o ops ih =>
      intro s op hc h
      refine ⟨?_, ih _ op (fun x hx => hc x (by simp [hx])) h⟩
      unfold Op.NamesApart
      rw [hc o (by simp)]
      simp
  refine h _ _ _ (by decide +kernel) ?_
  intro kv hkv
  obtain rfl : kv = (Demo.colA, Demo.lx) := by simpa [Op.criteria] using hkv
  exact .inl (by decide +kernel)

/-- What it makes. -/
example : (run (Demo.ops.map (·.respell Demo.spelling)) (Store.new ['u'])).index =
    [⟨0, [['-'], ['-']]⟩, ⟨1, [['z'], ['1']]⟩, ⟨2, [['z'], ['2']]⟩, ⟨3, [['y'], ['1']]⟩] := by decide +kernel

/-- A criterion that names no label column is compared as text with the label asked for. So a call that deletes
nothing in one spelling (`z='x'`) deletes in another spelling (`z='z'`), because there the label asked for is
spelled like the misspelled name of the column. -/
theorem C96_criteria_violated : ∃ uid ops, ∃ (w : Spelling),
    (run ops (Store.new uid)).weights.length = 3 ∧ (run (ops.map (·.respell w)) (Store.new uid)).weights = [] :=
  ⟨['u'], Demo.ops ++ [.deleteWeights Demo.wname (.criteria [(['z'], ['x'])])], Demo.spelling, by decide +kernel⟩

end Toron.Space
