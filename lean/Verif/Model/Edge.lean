/-
Model of the shorthand for links in the header of mapping data: `parse_edge_shorthand` (`src/toron/_utils.py` lines
359-443), `name: file1 --> file2 : [selector]`.

The regular expression is modelled by the ways in which its parts match, in the order in which Python's `re` tries
them; the first way in which all parts match is taken. `\s` matches the characters of `str.isspace`.
-/
import Verif.Model.Selectors

namespace Toron.Edge

open Toron.Selectors (PyStr isSpace)

/-- `p*`: what is matched and what is left, longest first. -/
def greedy (p : Char → Bool) : PyStr → List (PyStr × PyStr)
  | [] => [([], [])]
  | c :: t => (if p c then (greedy p t).map fun r => (c :: r.1, r.2) else []) ++ [([], c :: t)]

/-- `p*?`: shortest first. -/
def reluctant (p : Char → Bool) : PyStr → List (PyStr × PyStr)
  | [] => [([], [])]
  | c :: t => ([], c :: t) :: if p c then (reluctant p t).map fun r => (c :: r.1, r.2) else []

/-- `p+` or `p+?`. -/
def plus (star : (Char → Bool) → PyStr → List (PyStr × PyStr)) (p : Char → Bool) : PyStr → List (PyStr × PyStr)
  | [] => []
  | c :: t => if p c then (star p t).map fun r => (c :: r.1, r.2) else []

/-- A given text. -/
def lit (x s : PyStr) : List (PyStr × PyStr) := if x.isPrefixOf s then [(x, s.drop x.length)] else []

/-- `[^<>:"/\\|?*]` (lines 422, 426, 430). -/
def nameChar (c : Char) : Bool := !['<', '>', ':', '"', '/', '\\', '|', '?', '*'].contains c

/-- `->|-->|<->|<-->|<-|<--` (line 428). -/
def directions : List PyStr :=
  [['-', '>'], ['-', '-', '>'], ['<', '-', '>'], ['<', '-', '-', '>'], ['<', '-'], ['<', '-', '-']]

/-- `\[.*\]` (line 435). -/
def selectorWays (s : PyStr) : List (PyStr × PyStr) :=
  (lit ['['] s).flatMap fun a =>
  (greedy (fun c => c != '\n') a.2).flatMap fun b =>
  (lit [']'] b.2).map fun c => ('[' :: b.1 ++ [']'], c.2)

/-- The optional group with the selector (lines 432-436). -/
def tailWays (s : PyStr) : List (Option PyStr × PyStr) :=
  ((lit [':'] s).flatMap fun a =>
    (greedy isSpace a.2).flatMap fun b =>
    (selectorWays b.2).map (fun r => (some r.1, r.2)) ++ [(none, b.2)]) ++ [(none, s)]

/-- `$`. -/
def atEnd (s : PyStr) : Bool := s.isEmpty || s == ['\n']

/-- The result of `parse_edge_shorthand`. -/
structure Edge where
  name : PyStr
  file1 : PyStr
  direction : PyStr
  file2 : PyStr
  selector : Option PyStr
  deriving DecidableEq, Repr

/-- The end of the pattern, from the second file name on (lines 430-438). -/
def endWays (name file1 dir : PyStr) (s : PyStr) : List Edge :=
  (plus reluctant nameChar s).flatMap fun f2 =>
  (greedy isSpace f2.2).flatMap fun i =>
  (tailWays i.2).flatMap fun sel =>
  (greedy isSpace sel.2).flatMap fun j =>
  if atEnd j.2 then [⟨name, file1, dir, f2.1, sel.1⟩] else []

/-- The pattern from the first file name on (lines 426-438). -/
def fileWays (name : PyStr) (s : PyStr) : List Edge :=
  (plus reluctant nameChar s).flatMap fun f1 =>
  (plus greedy isSpace f1.2).flatMap fun g =>
  (directions.flatMap fun d => lit d g.2).flatMap fun dir =>
  (plus greedy isSpace dir.2).flatMap fun h =>
  endWays name f1.1 dir.1 h.2

/-- The whole pattern (lines 419-439). -/
def ways (s : PyStr) : List Edge :=
  (greedy isSpace s).flatMap fun a =>
  (plus reluctant nameChar a.2).flatMap fun e =>
  (greedy isSpace e.2).flatMap fun b =>
  (lit [':'] b.2).flatMap fun c =>
  (greedy isSpace c.2).flatMap fun d =>
  fileWays e.1 d.2

/-- `parse_edge_shorthand` (lines 359-443), `none` for the empty result. -/
def parseEdge (s : PyStr) : Option Edge := (ways s).head?

/-- `parse_edge_shorthand(col).get('edge_name')` (`mapper.py` line 55). -/
def edgeName (s : PyStr) : Option PyStr := (parseEdge s).map (·.name)

end Toron.Edge
