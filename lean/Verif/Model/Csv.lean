/-
Model of how tables are written to standard output and read from standard input on the command line:
`csv_stdout_writer` (`src/toron/cli/common.py` lines 50-72), that is `csv.writer(..., lineterminator='\n')` on a stream
with `newline=''`, and `csv.reader(args.stdin)` (`src/toron/cli/command_index.py` line 31, `command_quantity.py`
line 25, `command_mapping.py` line 395), where `args.stdin` is `sys.stdin` (`cli/main.py` line 549), a text stream that
translates line ends.

The `csv` module is part of Python, not of Toron; it is modelled after its C source (`Modules/_csv.c`), with the
dialect `excel`: delimiter `,`, quote `"`, quotes doubled, minimal quoting, no escape character, not strict. (A lone
carriage return is quoted by the versions of Python from 2024 on.) Encoding and decoding are left out: characters
are written and read as they are. The reader yields rows one by one; here it yields all of them, or an error.
-/
import Verif.Model.Selectors

namespace Toron.Csv

open Toron.Selectors (PyStr)

/-! ### Writing -/

/-- The characters for which a cell is quoted (`join_append_data` in `_csv.c`). -/
def special (c : Char) : Bool := c == ',' || c == '"' || c == '\n' || c == '\r'

/-- A cell with its quotes doubled. -/
def doubled : PyStr → PyStr
  | [] => []
  | c :: t => if c = '"' then '"' :: '"' :: doubled t else c :: doubled t

/-- A cell (`join_append` in `_csv.c`). -/
def writeCell (f : PyStr) : PyStr := if f.any special then '"' :: (doubled f ++ ['"']) else f

/-- The cells with commas in between. -/
def joinCells : List PyStr → PyStr
  | [] => []
  | [f] => writeCell f
  | f :: g :: rest => writeCell f ++ ',' :: joinCells (g :: rest)

/-- `writerow` (`csv_writerow` in `_csv.c`): a row with a single empty cell is written with quotes. -/
def writeRow (row : List PyStr) : PyStr := (if row = [[]] then ['"', '"'] else joinCells row) ++ ['\n']

/-- All rows. -/
def writeRows (rows : List (List PyStr)) : PyStr := rows.flatMap writeRow

/-! ### Reading -/

/-- The translation of line ends by a text stream with `newline=None`. -/
def translate : PyStr → PyStr
  | [] => []
  | '\r' :: '\n' :: t => '\n' :: translate t
  | c :: t => (if c = '\r' then '\n' else c) :: translate t

/-- The lines of a text stream, with their line ends. -/
def lines : PyStr → List PyStr
  | [] => []
  | c :: t => if c = '\n' then [c] :: lines t
    else match lines t with
      | [] => [[c]]
      | l :: ls => (c :: l) :: ls

/-- `ParserState` in `_csv.c` without the states for escape characters. -/
inductive State | startRecord | startField | inField | inQuoted | quoteInQuoted | eatLineEnd
  deriving DecidableEq, Repr

/-- The state, the cell read so far, and the cells of the row before it. -/
structure Parser where
  state : State
  cell : PyStr
  cells : List PyStr
  deriving DecidableEq, Repr

/-- `parse_reset`. -/
def Parser.new : Parser := ⟨.startRecord, [], []⟩

/-- `parse_add_char`. -/
def Parser.add (limit : Nat) (st : State) (c : Char) (p : Parser) : Except String Parser :=
  if limit ≤ p.cell.length then .error "field larger than field limit"
  else .ok { p with state := st, cell := p.cell ++ [c] }

/-- `parse_save_field`. -/
def Parser.save (st : State) (p : Parser) : Parser := ⟨st, [], p.cells ++ [p.cell]⟩

/-- `parse_process_char` in state `START_FIELD`; `none` is the end of the line. -/
def startField (limit : Nat) (p : Parser) : Option Char → Except String Parser
  | none => .ok (p.save .startRecord)
  | some c =>
    if c = '\n' ∨ c = '\r' then .ok (p.save .eatLineEnd)
    else if c = '"' then .ok { p with state := .inQuoted }
    else if c = ',' then .ok (p.save .startField)
    else p.add limit .inField c

/-- `parse_process_char` in state `IN_FIELD`. -/
def inField (limit : Nat) (p : Parser) : Option Char → Except String Parser
  | none => .ok (p.save .startRecord)
  | some c =>
    if c = '\n' ∨ c = '\r' then .ok (p.save .eatLineEnd)
    else if c = ',' then .ok (p.save .startField)
    else p.add limit .inField c

/-- `parse_process_char` in `_csv.c`. -/
def process (limit : Nat) (p : Parser) (c : Option Char) : Except String Parser :=
  match p.state with
  | .startRecord =>
    match c with
    | none => .ok p
    | some c => if c = '\n' ∨ c = '\r' then .ok { p with state := .eatLineEnd } else startField limit p (some c)
  | .startField => startField limit p c
  | .inField => inField limit p c
  | .inQuoted =>
    match c with
    | none => .ok p
    | some c => if c = '"' then .ok { p with state := .quoteInQuoted } else p.add limit .inQuoted c
  | .quoteInQuoted =>
    if c = some '"' then p.add limit .inQuoted '"' else inField limit p c
  | .eatLineEnd =>
    match c with
    | none => .ok { p with state := .startRecord }
    | some c =>
      if c = '\n' ∨ c = '\r' then .ok p else .error "new-line character seen in unquoted field"

/-- The characters of a line, then its end. -/
def processLine (limit : Nat) : PyStr → Parser → Except String Parser
  | [], p => process limit p none
  | c :: t, p => do
    let p ← process limit p (some c)
    processLine limit t p

/-- `Reader_iternext` in `_csv.c`, until the lines are used up. -/
def readLines (limit : Nat) : List PyStr → Parser → Except String (List (List PyStr))
  | [], p => .ok (if p.cell ≠ [] ∨ p.state = .inQuoted then [p.cells ++ [p.cell]] else [])
  | l :: ls, p => do
    let p ← processLine limit l p
    if p.state = .startRecord then do
      let rows ← readLines limit ls .new
      .ok (p.cells :: rows)
    else readLines limit ls p

/-- The rows read from a stream without translation of line ends. -/
def readRows (limit : Nat) (text : PyStr) : Except String (List (List PyStr)) := readLines limit (lines text) .new

/-- The rows read from standard input. -/
def readStdin (limit : Nat) (text : PyStr) : Except String (List (List PyStr)) := readRows limit (translate text)

/-- The default of `csv.field_size_limit`. -/
def fieldLimit : Nat := 131072

end Toron.Csv
