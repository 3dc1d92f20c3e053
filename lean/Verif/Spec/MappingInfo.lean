/-
What is said about a mapping.
-/
import Verif.Model.MappingInfo
import Verif.Spec.Graph

namespace Toron.MappingInfo

open Toron.Selectors (PyStr)
open Toron.Space

/-- The record of the source is covered by the link. The undefined record always is. -/
def CoveredFrom (trg : Store) (l : Link) (i : Nat) : Prop := i = 0 ∨ trg.mapsFromSource l.id i

/-- The record of the target is reached by the link. The undefined record always is. -/
def ReachedBy (trg : Store) (l : Link) (i : Nat) : Prop := i = 0 ∨ trg.mapsToRecord l.id i

/-- The link has a mapping from something that is no record of the source. -/
def Stale (trg src : Store) (l : Link) (o : Int) : Prop := 0 < o ∧ trg.mapsFromSource l.id o ∧ ∀ i ∈ src.ids, o ≠ (i : Int)

/-- A number in a text. -/
def number (n : Nat) : PyStr := (toString n).toList

/-- The line with the numbers of one side. -/
def numbersLine (called : PyStr) (a b : Nat) : PyStr :=
  "  ".toList ++ called ++ ": matched ".toList ++ number a ++ " of ".toList ++ number b ++ " indexes".toList

/-- The line about mappings from what are no records. -/
def warningLine (n : Nat) (file : PyStr) : PyStr :=
  "  Mapping contains ".toList ++ number n ++ " indexes that no longer exist in ".toList ++ file

/-- The first line. -/
def titleLine (name src trg : PyStr) : PyStr := name ++ ": ".toList ++ src ++ " -> ".toList ++ trg

end Toron.MappingInfo
