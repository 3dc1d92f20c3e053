/-
Model of text helpers: SQL identifiers (`src/toron/dal1/schema.py`) and the listing of ambiguous fields
(`src/toron/graph.py`, `src/toron/cli/command_mapping.py`).
-/
import Verif.Model.BitFlags
import Verif.Model.Selectors

namespace Toron.Text

open Toron.Selectors (PyStr)

/-- `value.replace('"', '""')` (`schema.py` line 268). -/
def doubleQuotes : PyStr → PyStr
  | [] => []
  | c :: cs => if c = '"' then '"' :: '"' :: doubleQuotes cs else c :: doubleQuotes cs

/-- `format_identifier` (`schema.py` lines 252-269). Lone surrogates, which Python rejects on line 256, are not
`Char`s. -/
def formatIdentifier (value : PyStr) : Except Err PyStr :=
  if '\x00' ∈ value then .error (.valueError "NUL not allowed")
  else .ok ('"' :: doubleQuotes value ++ ['"'])

/-- `', '.join(words)`. -/
def commaJoin : List PyStr → PyStr
  | [] => []
  | [w] => w
  | w :: ws => w ++ [',', ' '] ++ commaJoin ws

/-- `', '.join(format_identifier(x) for x in columns)` (`repositories.py` lines 135 and 318, `schema.py`
line 309). -/
def formatColumns (columns : List PyStr) : Except Err PyStr := do
  return commaJoin (← columns.mapM formatIdentifier)

/-- `itertools.compress(data, selectors)`: stops with the shorter one. -/
def compress {α : Type} (data : List α) (selectors : List Bool) : List α :=
  ((data.zip selectors).filter (·.2)).map (·.1)

/-- The names in `_get_ambiguous_fields` (`graph.py` lines 413-414) and `get_ambiguous_field_text`
(`command_mapping.py` lines 467-468). -/
def ambiguousFields (level : List Byte) (columnNames : List PyStr) : List PyStr :=
  compress columnNames ((BitFlags.ofBytes level).toBits.map not)

/-- `_get_ambiguous_fields` (`graph.py` lines 382-415), the same as `get_ambiguous_field_text`
(`command_mapping.py` lines 448-469): `', '.join(..) or None`. -/
def ambiguousText (level : Option (List Byte)) (columnNames : List PyStr) : Option PyStr :=
  match level with
  | none => none
  | some level =>
    match commaJoin (ambiguousFields level columnNames) with
    | [] => none
    | text => some text

end Toron.Text
