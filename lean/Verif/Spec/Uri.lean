/-
Which file a path names.
-/
import Verif.Model.Uri
import Mathlib.Logic.Relation

namespace Toron.Uri

open Toron.Selectors (PyStr)

/-- Somewhere two slashes are replaced by one: the path still names the same file. -/
def Shorter (a b : PyStr) : Prop := ∃ x y, a = x ++ '/' :: '/' :: y ∧ b = x ++ '/' :: y

/-- `b` is `a` with all repeated slashes replaced by single ones. -/
def Collapsed (a b : PyStr) : Prop :=
  Relation.ReflTransGen Shorter a b ∧ ¬ ∃ x y, b = x ++ '/' :: '/' :: y

/-- The ways of opening a file. -/
def modes : List PyStr := [['r', 'o'], ['r', 'w'], ['r', 'w', 'c']]

/-- The options that SQLite should find: the mode, if there is one. -/
def modeOption : Option PyStr → List (List UInt8 × List UInt8)
  | none => []
  | some m => [(utf8 ['m', 'o', 'd', 'e'], utf8 m)]

end Toron.Uri
