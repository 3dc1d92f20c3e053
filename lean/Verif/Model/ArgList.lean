/-
Model of how names given as arguments on the command line are taken apart
(`normalize_arg_list`, `src/toron/cli/common.py` lines 114-142).
-/
import Verif.Model.Csv
import Verif.Model.IndexCode

namespace Toron.Csv

open Toron.Selectors (PyStr isSpace)
open Toron.IndexCode (strip)

/-- The characters at which `str.splitlines` splits. -/
def isLineBreak (c : Char) : Bool :=
  let n := c.toNat
  (10 ≤ n && n ≤ 13) || (28 ≤ n && n ≤ 30) || n == 133 || n == 8232 || n == 8233

/-- Whether a position is followed by a word. -/
def startsWord (word : Char → Bool) : PyStr → Bool
  | [] => false
  | c :: _ => word c

/-- `re.sub(r'\b\r?\n\b', ' ', value)` (line 135): a line end between two word characters becomes a blank. As `\r` and
`\n` are no word characters, `\b` before them asks for a word character before, and `\b` after `\n` for one after.
`word` tells the word characters (`\w`), `prev` whether the character before is one. -/
def unbreak (word : Char → Bool) (prev : Bool) : PyStr → PyStr
  | [] => []
  | '\r' :: '\n' :: t =>
    if prev && startsWord word t then ' ' :: unbreak word false t else '\r' :: '\n' :: unbreak word false t
  | c :: t =>
    if c = '\n' ∧ (prev && startsWord word t) = true then ' ' :: unbreak word false t
    else c :: unbreak word (word c) t

/-- The line for the CSV reader (lines 135-136). -/
def argLine (word : Char → Bool) (value : PyStr) : PyStr := (unbreak word false value).filter fun c => !isLineBreak c

/-- `next(csv.reader([line]), [])` (line 137). -/
def firstRow (limit : Nat) (line : PyStr) : Except String (List PyStr) := do
  match ← readLines limit [line] .new with
  | [] => .ok []
  | row :: _ => .ok row

/-- The names in one argument (lines 135-140). -/
def argNames (limit : Nat) (word : Char → Bool) (value : PyStr) : Except String (List PyStr) := do
  let row ← firstRow limit (argLine word value)
  .ok ((row.map strip).filter fun f => !f.isEmpty)

/-- `normalize_arg_list` (lines 114-142). -/
def normalizeArgs (limit : Nat) (word : Char → Bool) : List PyStr → Except String (List PyStr)
  | [] => .ok []
  | v :: vs => do
    let names ← argNames limit word v
    let rest ← normalizeArgs limit word vs
    .ok (names ++ rest)

end Toron.Csv
