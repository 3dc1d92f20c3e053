/-
Specification vocabulary for selectors: the documented string relations, and which key has the
greatest unique specificity. Uses only the model's data types.
-/
import Verif.Model.Selectors

namespace Toron.Selectors.Spec
open Toron.Selectors

/-- `a` is one of the whitespace-separated words of `b`. -/
def IsWord (a b : PyStr) : Prop :=
  a ≠ [] ∧ (∀ c ∈ a, isSpace c = false) ∧
  ∃ l r, b = l ++ a ++ r ∧
    (l = [] ∨ ∃ l' c, l = l' ++ [c] ∧ isSpace c = true) ∧
    (r = [] ∨ ∃ c r', r = c :: r' ∧ isSpace c = true)

/-- The documented relation of each operator between the selector's value `a` and the row's value
`b` (table in the docstring of `SimpleSelector`). -/
def Holds : Option Op → PyStr → PyStr → Prop
  | none, _, b => b ≠ []
  | some .eq, a, b => a = b
  | some .word, a, b => IsWord a b
  | some .dash, a, b => a = b ∨ (a ++ ['-']) <+: b
  | some .prefix, a, b => a <+: b
  | some .suffix, a, b => a <:+ b
  | some .sub, a, b => a <:+: b

/-- The order of specificities: first component first. -/
def SpecLE (a b : Specificity) : Prop := a.1 < b.1 ∨ (a.1 = b.1 ∧ a.2 ≤ b.2)

/-- `sp` is the highest specificity among the selectors in `sels` that match the row. -/
def Level (cm : CaseMap) (r : Row) (sels : List Sel) (sp : Specificity) : Prop :=
  (∃ s ∈ sels, s.eval cm r = .ok true ∧ s.specificity = .ok sp) ∧
  ∀ s ∈ sels, s.eval cm r = .ok true → ∃ sp', s.specificity = .ok sp' ∧ SpecLE sp' sp

/-- `k` is matched at level `sp` and no other key is matched at the same level. -/
def UniqueAt {κ : Type} (cm : CaseMap) (r : Row) (dict : List (κ × Option (List Sel)))
    (k : κ) (sp : Specificity) : Prop :=
  (∃ sels, (k, some sels) ∈ dict ∧ Level cm r sels sp) ∧
  ∀ k' sels', (k', some sels') ∈ dict → Level cm r sels' sp → k' = k

end Toron.Selectors.Spec

namespace Toron.Selectors

mutual
/-- Selectors as the constructors and the grammar build them: an operator goes with a non-empty
value, case is ignored only with a value, containers are non-empty and none contains itself. -/
def Sel.WF : Sel → Prop
  | .simple _ op val ic => op.isSome = truthy val ∧ (ic = true → truthy val = true)
  | .any l => l ≠ [] ∧ Sel.WFL l
  | .neg l => l ≠ [] ∧ Sel.WFL l
  | .whr l => l ≠ [] ∧ Sel.WFL l
  | .compound l => l ≠ [] ∧ Sel.WFL l
  | .loop => False

/-- All members are well-formed. -/
def Sel.WFL : List Sel → Prop
  | [] => True
  | s :: ss => Sel.WF s ∧ Sel.WFL ss
end

mutual
/-- No compound inside the selector lists two equal parts. -/
def Sel.NoRepeats (cm : CaseMap) : Sel → Prop
  | .simple .. => True
  | .any l => Sel.NoRepeatsL cm l
  | .neg l => Sel.NoRepeatsL cm l
  | .whr l => Sel.NoRepeatsL cm l
  | .compound l => Sel.NoRepeatsL cm l ∧ l.Pairwise fun a b => Sel.keyEq cm a b = false
  | .loop => True

/-- All members have this property. -/
def Sel.NoRepeatsL (cm : CaseMap) : List Sel → Prop
  | [] => True
  | s :: ss => Sel.NoRepeats cm s ∧ Sel.NoRepeatsL cm ss
end

end Toron.Selectors
