/-
Notions used to state which names are recorded for the files of a mapping.
-/
import Verif.Model.Files

namespace Toron.Files

open Toron.Selectors (PyStr)

/-- A name of a file or directory that is nothing but a name. -/
def Plain (c : PyStr) : Prop := c ≠ [] ∧ c ≠ ['.'] ∧ c ≠ ['.', '.'] ∧ '/' ∉ c ∧ '\\' ∉ c

instance (c : PyStr) : Decidable (Plain c) := inferInstanceAs (Decidable (_ ∧ _ ∧ _ ∧ _ ∧ _))

/-- The text of a relative path with these components. -/
def relText (cs : List PyStr) : PyStr := List.intercalate ['/'] cs

/-- The text of a path with these components. -/
def pathText (absolute : Bool) (cs : List PyStr) : PyStr := (if absolute then ['/'] else []) ++ relText cs

/-- The name recorded for a file with this path: the path without the extension, and nothing if nothing else is left. -/
def Names (hint : Option PyStr) (path : PyStr) : Prop :=
  (∃ stem, path = stem ++ ".toron".toList ∧ stem ≠ [] ∧ hint = some stem) ∨
    (¬ ".toron".toList <:+ path ∧ path ≠ [] ∧ hint = some path) ∨
    ((path = ".toron".toList ∨ path = []) ∧ hint = none)

end Toron.Files
