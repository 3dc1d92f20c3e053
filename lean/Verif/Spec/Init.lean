/-
Notions used to state what `toron init` does.
-/
import Verif.Spec.Files
import Verif.Model.Init

namespace Toron.Files

open Toron.Selectors (PyStr)

/-- The name has an extension after this stem: a dot and text without dots, and the stem is more than dots. -/
def IsStem (name stem : PyStr) : Prop := (∃ ext, name = stem ++ '.' :: ext ∧ '.' ∉ ext) ∧ ∃ c ∈ stem, c ≠ '.'

end Toron.Files
