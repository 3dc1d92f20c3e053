/-
Model of `src/toron/formatters.py`: how partition definitions and granularities are laid out for display.

Floats are rationals; `f'{x:.3f}'` of a float rounds its exact value, half to even, which is what is modelled. `-0.0`,
NaN and infinities are left out.
-/
import Verif.Model.IndexCode
import Verif.Model.Partitions
import Verif.Model.Granularity
import Mathlib.Data.Rat.Floor

namespace Toron.Format

open Toron.Selectors (PyStr)
open Toron.IndexCode (decDigits)

/-! ### Granularities -/

/-- The nearest integer, an even one if there are two. -/
def halfEven (q : ℚ) : ℤ :=
  if q - ⌊q⌋ < 1 / 2 then ⌊q⌋
  else if 1 / 2 < q - ⌊q⌋ then ⌊q⌋ + 1
  else if ⌊q⌋ % 2 = 0 then ⌊q⌋
  else ⌊q⌋ + 1

/-- Zeros in front, up to a width. -/
def zfill (w : Nat) (t : PyStr) : PyStr := List.replicate (w - t.length) '0' ++ t

/-- `t.rjust(w)`. -/
def rjust (w : Nat) (t : PyStr) : PyStr := List.replicate (w - t.length) ' ' ++ t

/-- The number that is written, in units of the last decimal place. -/
def units (p : Nat) (q : ℚ) : Nat := (halfEven (|q| * 10 ^ p)).toNat

/-- `f'{q:.{p}f}'`, with at least one decimal place. -/
def fixed (p : Nat) (q : ℚ) : PyStr :=
  (if q < 0 then ['-'] else []) ++ decDigits (units p q / 10 ^ p) ++ '.' :: zfill p (decDigits (units p q % 10 ^ p))

/-- `f'{x:.{precision}f}' if x is not None else 'None'` (`formatters.py` lines 80-81). -/
def cell (p : Nat) : Option ℚ → PyStr
  | some q => fixed p q
  | none => ['N', 'o', 'n', 'e']

/-- `unique_vals` (line 75). A Python set; the order is of no consequence. -/
def uniqueVals (vs : List (Option ℚ)) : List (Option ℚ) := distinct (vs ++ [some 0])

/-- `max(len(x) for x in ...)`. -/
def maxLen (ts : List PyStr) : Nat := (ts.map List.length).foldl max 0

/-- One round of the loop (lines 79-90). -/
def tryPrecision (vs : List (Option ℚ)) (p : Nat) : Option (List PyStr) :=
  let rounded := distinct ((uniqueVals vs).map (cell p))
  if rounded.length = (uniqueVals vs).length then some (vs.map fun v => rjust (maxLen rounded) (cell p v)) else none

/-- `format_granularity` (lines 45-92). -/
def formatGranularity (vs : List (Option ℚ)) : Except Err (List PyStr) :=
  match ((List.range 15).map (· + 3)).findSome? (tryPrecision vs) with
  | some r => .ok r
  | none => .error (.valueError "cannot find a unique representation")

/-! ### Partition definitions -/

/-- `catkey` (line 33). -/
def catKey (labels : List PyStr) (d : Finset PyStr) : List Bool := labels.map fun x => decide (x ∈ d)

/-- `a <= b` for tuples of truth values of the same length. -/
def keyLe : List Bool → List Bool → Bool
  | [], _ => true
  | _ :: _, [] => false
  | a :: as, b :: bs => if a == b then keyLe as bs else b

/-- `sorted(cat, key=lblkey)` for a set of labels (lines 37-40), `none` if one of them is missing. A repeated label is
found at its last position. -/
def sortLabels (labels : List PyStr) (d : Finset PyStr) : Option (List PyStr) :=
  if ∀ x ∈ d, x ∈ labels then
    some ((distinct labels.reverse).reverse.filter fun x => decide (x ∈ d))
  else none

/-- The definitions with the whole space (lines 28-30). -/
def withWhole (defs : List (Finset PyStr)) (labels : List PyStr) : List (Finset PyStr) :=
  if labels.toFinset ≠ ∅ ∧ labels.toFinset ∉ defs then defs ++ [labels.toFinset] else defs

/-- `sort_partition_definitions` (lines 10-42). (The caller's list gets the whole space appended, too; no caller uses it
afterwards.) -/
def sortDefinitions (defs : List (Finset PyStr)) (labels : List PyStr) : Except Err (List (List PyStr)) :=
  match (sortedBy (fun a b => keyLe (catKey labels b) (catKey labels a)) (withWhole defs labels)).mapM
      (sortLabels labels) with
  | some r => .ok r
  | none => .error (.valueError "partition label missing from given labels")

end Toron.Format
