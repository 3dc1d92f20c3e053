/-
How SQLite reads a quoted identifier, and which fields a mapping level leaves open.
-/
import Verif.Model.Selectors
import Verif.Spec.Bits

namespace Toron.Spec

open Toron.Selectors (PyStr)

/-- The rest of a quoted identifier, after the opening quote: two quotes stand for one, a single quote ends it
(SQLite documentation, "SQLite Keywords"; `tokenize.c`). A NUL ends the SQL text. -/
def readQuotedRest : PyStr → Option (PyStr × PyStr)
  | [] => none
  | '"' :: '"' :: cs => (readQuotedRest cs).map fun p => ('"' :: p.1, p.2)
  | '"' :: cs => some ([], cs)
  | c :: cs => if c = '\x00' then none else (readQuotedRest cs).map fun p => (c :: p.1, p.2)

/-- Read a quoted identifier at the beginning of a text: the name, and the text after it. -/
def readQuoted : PyStr → Option (PyStr × PyStr)
  | '"' :: cs => readQuotedRest cs
  | _ => none

/-- Read `n` + 1 quoted identifiers with a comma and a space between them. -/
def readColumns : Nat → PyStr → Option (List PyStr × PyStr)
  | 0, cs => (readQuoted cs).map fun p => ([p.1], p.2)
  | n + 1, cs =>
    match readQuoted cs with
    | some (name, ',' :: ' ' :: rest) => (readColumns n rest).map fun p => (name :: p.1, p.2)
    | _ => none

/-- The columns that a level (the bits of a byte string) does not contain, in order: position `i` and on. -/
def openColumns (bits : List Bool) (i : Nat) : List PyStr → List PyStr
  | [] => []
  | name :: names => if bitAt bits i then openColumns bits (i + 1) names else name :: openColumns bits (i + 1) names

end Toron.Spec
