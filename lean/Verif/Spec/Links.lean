/-
Specification of looking up links by a reference.
-/
import Verif.Model.Store.Tables

namespace Toron.Space

open Toron.Selectors (PyStr)

/-- The reference is the unique id of the other dataspace. -/
def RefId (ref : PyStr) (l : Link) : Prop := l.other = ref

/-- The reference is the recorded filename of the other dataspace; the extension `.toron` may be left out. -/
def RefHint (ref : PyStr) (l : Link) : Prop :=
  l.hint = some ref ∨ (¬ ".toron".toList <:+ ref ∧ l.hint = some (ref ++ ".toron".toList))

/-- The reference is the beginning, at least seven characters, of the unique id of the other dataspace. -/
def RefPrefix (ref : PyStr) (l : Link) : Prop := 7 ≤ ref.length ∧ ref <+: l.other

/-- The links meant by a reference: of the three readings the first one under which there is any link. -/
def Meant (links : List Link) (ref : PyStr) (l : Link) : Prop :=
  l ∈ links ∧ (RefId ref l ∨
    ((∀ x ∈ links, ¬ RefId ref x) ∧ (RefHint ref l ∨
      ((∀ x ∈ links, ¬ RefHint ref x) ∧ RefPrefix ref l))))

end Toron.Space
