/-
What renaming columns does.
-/
import Verif.Model.Legacy.Rename

namespace Toron.Legacy

open Toron.Selectors (PyStr)
open Toron.Space (asciiLower)

/-- The names of the columns are in normal form: reading them again gives the same names. -/
def Node.PlainNames (n : Node) : Prop := ∀ c ∈ n.cols, normName c = .ok c

/-- The new names of the columns, in their order. -/
def Node.NewNames (n : Node) (mapper : PyStr → PyStr) (new : List PyStr) : Prop :=
  new.length = n.cols.length ∧ ∀ (i : Nat) (c : PyStr), n.cols[i]? = some c → ∃ d, normName (mapper c) = .ok d ∧ new[i]? = some d

/-- The node with other names, and otherwise unchanged. -/
def Node.named (n : Node) (new : List PyStr) : Node := { n with cols := new }

end Toron.Legacy
