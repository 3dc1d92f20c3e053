/-
Model of `src/toron/partitions.py`.
-/
import Verif.Py
import Mathlib.Data.Finset.Card

namespace Toron.Partitions

variable {α : Type} [DecidableEq α]

/-- `set().union(*subsequence)` (`partitions.py` line 68). Python sets of label names are `Finset`s. -/
def unionAll (sub : List (Finset α)) : Finset α := sub.foldl (· ∪ ·) ∅

/-- Body of the inner loop (`partitions.py` lines 68-70): append the union unless present. -/
def addUnion (structure_ : List (Finset α)) (sub : List (Finset α)) : List (Finset α) :=
  let unioned := unionAll sub
  if unioned ∈ structure_ then structure_ else structure_ ++ [unioned]

/-- `make_structure` (`partitions.py` lines 65-71): two nested loops, over lengths and over
combinations of that length. -/
def makeStructure (defs : List (Finset α)) : List (Finset α) :=
  (List.range (defs.length + 1)).foldl
    (fun st len => (combinations len defs).foldl addUnion st) []

/-- Loop body of `find_minimal_partition_generating_set` (`partitions.py` lines 94-97). -/
def addDefinition (definitions : List (Finset α)) (d : Finset α) : List (Finset α) :=
  if d ∈ makeStructure definitions then definitions else definitions ++ [d]

/-- `find_minimal_partition_generating_set(*bases)` (`partitions.py` lines 91-99):
`sorted(chain(*bases), key=len)` followed by the loop. -/
def findMinimalGeneratingSet (bases : List (List (Finset α))) : List (Finset α) :=
  (sortedBy (fun a b => decide (a.card ≤ b.card)) bases.flatten).foldl addDefinition []

end Toron.Partitions
