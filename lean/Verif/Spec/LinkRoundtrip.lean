/-
How the labels of a row of a mapping table come back when the link is read.
-/
import Verif.Spec.ReadLink
import Verif.Spec.LegacyMapper

namespace Toron.Legacy

open Toron.Selectors (PyStr)
open Toron.Space (IndexRec)

/-- The label that was given for a column; nothing if it was left empty. -/
def givenFor (header labels : List PyStr) (c : PyStr) : Option PyStr :=
  ((header.zip labels).find? fun cl => decide (cl.1 = c ∧ cl.2 ≠ [])).map (·.2)

/-- Labels as they come back: if they fit one record, all its labels; otherwise the labels that were given, and nothing in
the columns that were left empty. -/
def Node.comesBack (n : Node) (header labels : List PyStr) : List (Option PyStr) :=
  match n.fitting header labels with
  | [r] => r.labels.map some
  | _ => n.cols.map (givenFor header labels)

end Toron.Legacy
