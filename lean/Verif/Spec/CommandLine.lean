/-
What a command line says: `toron [options] FILE [options] COMMAND …`.
-/
import Verif.Model.Selectors

namespace Toron.CommandLine

open Toron.Selectors (PyStr)

/-- A flag that asks for help. -/
def Help (w : PyStr) : Prop := w = "-h".toList ∨ w = "--help".toList

/-- The command line asks for help. -/
def AsksHelp (args : List PyStr) : Prop := ∃ w ∈ args, Help w

/-- A word that is neither an option nor a flag. -/
def Word (w : PyStr) : Prop := ¬ ∃ t, w = '-' :: t

/-- Options that do not ask for help. -/
def Options (ws : List PyStr) : Prop := ∀ w ∈ ws, ¬ Word w ∧ ¬ Help w

/-- `f` is the first word, before any request for help. -/
def StartsWith (args : List PyStr) (f : PyStr) : Prop := ∃ o rest, args = o ++ f :: rest ∧ Options o ∧ Word f

/-- `f` and `c` are the first two words, before any request for help: the parser takes them as FILE and COMMAND. -/
def Reads (args : List PyStr) (f c : PyStr) : Prop :=
  ∃ o o' rest, args = o ++ f :: (o' ++ c :: rest) ∧ Options o ∧ Options o' ∧ Word f ∧ Word c

end Toron.CommandLine
