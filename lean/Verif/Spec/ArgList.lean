/-
What counts as a name on the command line.
-/
import Verif.Model.Selectors

namespace Toron.Csv

open Toron.Selectors (PyStr isSpace)

/-- The characters that end a line. -/
def lineEnds : List Char :=
  ['\n', '\x0b', '\x0c', '\r', '\x1c', '\x1d', '\x1e', '\u0085', '\u2028', '\u2029']

/-- A text on one line. -/
def OneLine (f : PyStr) : Prop := ∀ c ∈ f, c ∉ lineEnds

/-- A name: not empty, on one line, and without blanks at its ends. -/
def IsName (f : PyStr) : Prop :=
  f ≠ [] ∧ OneLine f ∧ (∀ c, f.head? = some c → isSpace c = false) ∧ (∀ c, f.getLast? = some c → isSpace c = false)

/-- Blanks. -/
def Blank (f : PyStr) : Prop := OneLine f ∧ ∀ c ∈ f, isSpace c = true

/-- Texts with commas in between. -/
def commas : List PyStr → PyStr
  | [] => []
  | [f] => f
  | f :: g :: rest => f ++ [','] ++ commas (g :: rest)

/-- Lines with line ends in between. -/
def broken (lineEnd : PyStr) : List PyStr → PyStr
  | [] => []
  | [f] => f
  | f :: g :: rest => f ++ lineEnd ++ broken lineEnd (g :: rest)

/-- Lines written as one, with a blank where a line that ends in a word is followed by one that starts with a word. -/
def unbroken (word : Char → Bool) : List PyStr → PyStr
  | [] => []
  | [f] => f
  | f :: g :: rest => f ++ (if f.getLast?.any word && g.head?.any word then [' '] else []) ++ unbroken word (g :: rest)

end Toron.Csv
