/-
What the editing commands should do.
-/
import Verif.Model.CliEdit

namespace Toron.CliEdit

open Toron.Selectors (PyStr Sel)
open Toron.Space
open Toron.LoadMapping (LinkArgs)

/-- The dataspace has a link of that name from the dataspace with the id `other`. -/
def HasLink (s : Store) (other name : PyStr) : Prop := ∃ l ∈ s.links, l.other = other ∧ l.name = name

/-- Links without the one of that name from the dataspace with the id `other`. -/
def without (links : List Link) (other name : PyStr) : List Link :=
  links.filter fun l => !(l.other == other && l.name == name)

/-- `s'` is the file `s` with one link more, at the end. If it is to be the default link from the other dataspace (or
nothing is said and it is the first one), the others are no longer that. Nothing else is changed. -/
def NewLink (a : LinkArgs) (other : PyStr) (hint : Option PyStr) (s s' : Store) : Prop :=
  ∃ id dflt, id ∉ s.links.map (·.id) ∧ dflt = a.isDefault.getD (s.links.all fun l => l.other != other) ∧
    s' = { s with
      links := (s.links.map fun l => if l.other = other ∧ dflt = true then { l with isDefault := false } else l) ++
        [⟨id, other, hint, a.name, a.selectors, dflt, none, false⟩]
      fk := false }

/-- The id of a dataspace means no other one: no file name and no longer id begins with it. -/
def ProperId (s : Store) (other : PyStr) : Prop :=
  other ≠ [] ∧ ∀ l ∈ s.links, l.hint ≠ some other ∧ l.hint ≠ some (other ++ toronExt) ∧ (other <+: l.other → l.other = other)

end Toron.CliEdit
