/-
Model of `_preprocess_args` and of the first part of `parse_args` (`src/toron/cli/main.py` lines 60-106): what is done with the
words of a command line before `argparse` sees them.

`choices` are the names of the commands, `isFile` tells which names are files.
-/
import Verif.Model.Selectors

namespace Toron.CommandLine

open Toron.Selectors (PyStr)

/-- `arg in ('-h', '--help')` (`main.py` lines 71-75). -/
def isHelp (w : PyStr) : Bool := w == ['-', 'h'] || w == ['-', '-', 'h', 'e', 'l', 'p']

/-- `not a.startswith('-')` (`main.py` line 75). -/
def isPositional (w : PyStr) : Bool := w.head? != some '-'

/-- The positional words before the first help flag (`main.py` lines 72-75). -/
def positionals (args : List PyStr) : List PyStr := (args.takeWhile fun w => !isHelp w).filter isPositional

/-- `'<dummy-filename>'` (`main.py` line 85). -/
def dummy : PyStr := ['<', 'd', 'u', 'm', 'm', 'y', '-', 'f', 'i', 'l', 'e', 'n', 'a', 'm', 'e', '>']

/-- `'info'` (`main.py` line 90). -/
def infoWord : PyStr := ['i', 'n', 'f', 'o']

/-- `word in self._choices_ref`; `None` is not a command. -/
def isCommand (choices : List PyStr) (w : Option PyStr) : Bool := w.any fun w => decide (w ∈ choices)

/-- `_preprocess_args` (`main.py` lines 60-92). -/
def preprocess (choices : List PyStr) (isFile : PyStr → Bool) (args : List PyStr) : List PyStr :=
  if args.any isHelp then
    let first := (positionals args)[0]?
    let second := (positionals args)[1]?
    if !isCommand choices second && (isCommand choices first || first.any fun w => decide (w ≠ []) && !isFile w) then
      dummy :: args
    else args
  else if args.length = 1 then args ++ [infoWord]
  else args

/-- `parse_args` (`main.py` lines 94-106) up to the call of `argparse`: nothing for an empty command line, for which the help is
printed. -/
def wordsFor (choices : List PyStr) (isFile : PyStr → Bool) (args : List PyStr) : Option (List PyStr) :=
  if args = [] then none else some (preprocess choices isFile args)

end Toron.CommandLine
