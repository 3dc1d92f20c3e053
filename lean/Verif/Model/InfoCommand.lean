/-
Model of the command `info`: `write_to_stdout` (`src/toron/cli/command_info.py` lines 20-78) with
`get_loaded_attributes` (`src/toron/data_service.py` lines 1048-1068).

The name of the file, the width of the terminal and the date of creation are given.
-/
import Verif.Model.Info
import Verif.Model.Store.Select

namespace Toron.Info

open Toron.Selectors (PyStr)
open Toron.Space

/-- The codes for the terminal that are used here (`src/toron/cli/common.py`, `StyleCodes`). -/
structure Style where
  bright : PyStr
  dim : PyStr
  reset : PyStr

/-- `get_loaded_attributes` (`data_service.py` lines 1048-1068). -/
def loadedAttributes (registered : List PyStr) (s : Store) : Except Err (List PyStr) :=
  if s.attrNames.all fun a => decide (a ∈ registered) then
    .ok (registered.filter fun a => decide (a ∈ s.attrNames))
  else .error (.runtimeError "node contains unregistered attributes")

/-- `formatted_attributes` (`command_info.py` lines 52-56). -/
def attributeTexts (st : Style) (registered loaded : List PyStr) : List PyStr :=
  registered.map fun a => if a ∈ loaded then a else st.dim ++ a ++ st.reset

/-- `'\n  '.join(texts)` (`command_info.py` lines 59-60). -/
def indentJoin : List PyStr → PyStr
  | [] => []
  | [t] => t
  | t :: ts => t ++ '\n' :: ' ' :: ' ' :: indentJoin ts

/-- `'─' * min(len(filename), columns - 1)` (`command_info.py` line 49): nothing if the number is negative. -/
def rule (filename : PyStr) (columns : Nat) : PyStr :=
  List.replicate (min (filename.length : Int) ((columns : Int) - 1)).toNat '─'

/-- `' , '.join(…) or 'None'` (`command_info.py` line 72). -/
def orNone (t : PyStr) : PyStr := if t = [] then noneText else t

/-- The text that is written (`command_info.py` lines 63-77). -/
def outputText (st : Style) (filename : PyStr) (columns : Nat) (created : PyStr) (i : Info) (attrs : List PyStr) : PyStr :=
  let hr := rule filename columns
  hr ++ '\n' :: filename ++ '\n' :: hr ++ '\n' ::
  st.bright ++ ['d', 'o', 'm', 'a', 'i', 'n', ':'] ++ st.reset ++ '\n' ::
  ' ' :: ' ' :: i.domain ++ '\n' ::
  st.bright ++ ['p', 'a', 'r', 't', 'i', 't', 'i', 'o', 'n', 's', ':'] ++ st.reset ++ '\n' ::
  ' ' :: ' ' :: indentJoin i.partitions ++ '\n' ::
  st.bright ++ ['w', 'e', 'i', 'g', 'h', 't', 's', ':'] ++ st.reset ++ '\n' ::
  ' ' :: ' ' :: commas i.weights ++ '\n' ::
  st.bright ++ ['a', 't', 't', 'r', 'i', 'b', 'u', 't', 'e', 's', ':'] ++ st.reset ++ '\n' ::
  ' ' :: ' ' :: orNone (commas attrs) ++ '\n' ::
  st.bright ++ ['i', 'n', 'c', 'o', 'm', 'i', 'n', 'g', ' ', 'l', 'i', 'n', 'k', 's', ':'] ++ st.reset ++ '\n' ::
  ' ' :: ' ' :: indentJoin i.links ++ '\n' ::
  st.bright ++ ['c', 'r', 'e', 'a', 't', 'e', 'd', ':'] ++ st.reset ++ '\n' ::
  ' ' :: ' ' :: created ++ ['\n']

/-- `write_to_stdout` (`command_info.py` lines 20-78): the text that is written. -/
def infoOutput (num : Gran → ℚ) (st : Style) (filename : PyStr) (columns : Nat) (created : PyStr) (s : Store) :
    Except Err PyStr := do
  let i ← infoText num s
  let loaded ← loadedAttributes (s.regAttrs.getD []) s
  .ok (outputText st filename columns created i (attributeTexts st (s.regAttrs.getD []) loaded))

end Toron.Info
