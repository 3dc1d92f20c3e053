/-
Model of the text form of selectors: the grammar (`src/toron/selectors.py` lines 415-466), the transformer
(lines 469-504), `parse_selector` (lines 507-520) and `__str__` of the selector classes.

Lark's LALR parser with its contextual lexer is modelled by recursive descent over characters: the grammar is
deterministic, in each state the lexer only looks for the terminals that can come next, and it takes the longest
identifier. `none` stands for any exception (`UnexpectedInput`, or `TypeError` from `SimpleSelector`).
-/
import Verif.Model.Selectors

namespace Toron.Selectors

/-- `common.WS` (`%ignore WS`, lines 464-465). -/
def isBlank (c : Char) : Bool := c == ' ' || c == '\t' || c == '\x0c' || c == '\r' || c == '\n'

/-- Skip ignored characters. -/
def skipBlanks (t : List Char) : List Char := t.dropWhile isBlank

/-- `_FIRST_CHAR` (line 451). -/
def isFirstChar (c : Char) : Bool :=
  ('a' ≤ c && c ≤ 'z') || ('A' ≤ c && c ≤ 'Z') || (0xA0 ≤ c.toNat && c.toNat ≤ 0xFFFF) || c == '_'

/-- `_OTHER_CHAR` (line 452). -/
def isOtherChar (c : Char) : Bool := isFirstChar c || ('0' ≤ c && c ≤ '9') || c == '-'

/-- `IDENTIFIER` (line 453), the longest one at the beginning of the text. -/
def lexIdentifier : List Char → Option (PyStr × List Char)
  | [] => none
  | c :: cs =>
    if isFirstChar c then some (c :: cs.takeWhile isOtherChar, cs.dropWhile isOtherChar)
    else if c == '-' then
      match cs with
      | d :: ds =>
        if isFirstChar d then some ('-' :: d :: ds.takeWhile isOtherChar, ds.dropWhile isOtherChar)
        else some (['-'], cs)
      | [] => some (['-'], [])
    else none

/-- The inside of `DOUBLE_QUOTED_STRING` and `SINGLE_QUOTED_STRING` (lines 459-462): up to the first quote that
has an even number of backslashes in front of it, on the same line. `odd`: the number of backslashes directly
before is odd. -/
def lexString (q : Char) : Bool → List Char → Option (PyStr × List Char)
  | _, [] => none
  | odd, c :: cs =>
    if c == '\n' then none
    else if c == q && !odd then some ([], cs)
    else (lexString q (c == '\\' && !odd) cs).map fun r => (c :: r.1, r.2)

/-- `s[1:-1].replace('\\"', '"')` and the same with `'` (lines 496-501). -/
def unescape (q : Char) : PyStr → PyStr
  | [] => []
  | c :: cs =>
    if c == '\\' then
      match cs with
      | d :: ds => if d == q then q :: unescape q ds else c :: unescape q (d :: ds)
      | [] => [c]
    else c :: unescape q cs

/-- `operator` (line 439). -/
def lexOperator : List Char → Option (PyStr × List Char)
  | '=' :: r => some (['='], r)
  | c :: '=' :: r =>
    if c == '~' || c == '|' || c == '^' || c == '$' || c == '*' then some ([c, '='], r) else none
  | _ => none

/-- `value` (lines 441, 494-501): an identifier is accepted by the grammar, but the transformer returns `None`
for it. -/
def lexValue : List Char → Option (Option PyStr × List Char)
  | [] => none
  | c :: cs =>
    if c == '"' then (lexString '"' false cs).map fun r => (some (unescape '"' r.1), r.2)
    else if c == '\'' then (lexString '\'' false cs).map fun r => (some (unescape '\'' r.1), r.2)
    else (lexIdentifier (c :: cs)).map fun r => (none, r.2)

/-- `[ignore_case]` (line 443). -/
def lexIgnoreCase : List Char → Bool × List Char
  | [] => (false, [])
  | c :: cs => if c == 'i' || c == 'I' then (true, cs) else (false, c :: cs)

/-- The first alternative of `selector` (line 432), after its `[`. -/
def parseSimple (t : List Char) : Option (Sel × List Char) := do
  let (attr, r) ← lexIdentifier (skipBlanks t)
  match skipBlanks r with
  | [] => none
  | c :: r1 =>
    if c == ']' then (mkSimple attr none none false).toOption.map fun s => (s, r1)
    else do
      let (op, r2) ← lexOperator (c :: r1)
      let (val, r3) ← lexValue (skipBlanks r2)
      let (ic, r4) := lexIgnoreCase (skipBlanks r3)
      match skipBlanks r4 with
      | [] => none
      | d :: r5 =>
        if d == ']' then (mkSimple attr (some op) val ic).toOption.map fun s => (s, r5) else none

/-- The text without the given beginning. -/
def stripPrefix (p : List Char) (t : List Char) : Option (List Char) :=
  if p.isPrefixOf t then some (t.drop p.length) else none

mutual
/-- `selector` (lines 432-435, 473-484). The first argument bounds the depth of calls. -/
def parseOne : Nat → List Char → Option (Sel × List Char)
  | 0, _ => none
  | n + 1, t =>
    let t := skipBlanks t
    match stripPrefix ['['] t with
    | some r => parseSimple r
    | none => match stripPrefix [':', 'i', 's', '('] t with
      | some r => (parseMany n r).map fun x => (mkAny x.1, x.2)
      | none => match stripPrefix [':', 'n', 'o', 't', '('] t with
        | some r => (parseMany n r).map fun x => (mkNeg x.1, x.2)
        | none => match stripPrefix [':', 'w', 'h', 'e', 'r', 'e', '('] t with
          | some r => (parseMany n r).map fun x => (mkWhere x.1, x.2)
          | none => none

/-- `selector ("," selector)* ")"`. -/
def parseMany : Nat → List Char → Option (List Sel × List Char)
  | 0, _ => none
  | n + 1, t =>
    match parseOne n t with
    | none => none
    | some (s, r) => match skipBlanks r with
      | [] => none
      | c :: r1 =>
        if c == ',' then (parseMany n r1).map fun x => (s :: x.1, x.2)
        else if c == ')' then some ([s], r1)
        else none
end

/-- `start: selector+` (lines 430, 470-471). -/
def parseStart : Nat → List Char → Option (List Sel)
  | 0, _ => none
  | n + 1, t =>
    match parseOne n t with
    | none => none
    | some (s, r) =>
      if skipBlanks r = [] then some [s] else (parseStart n r).map fun l => s :: l

/-- `parse_selector` (lines 507-520). -/
def parseSelector (t : List Char) : Option Sel := (parseStart (2 * t.length + 3) t).map mkCompound

/-- The operator as text. -/
def Op.text : Op → PyStr
  | .eq => ['=']
  | .word => ['~', '=']
  | .dash => ['|', '=']
  | .prefix => ['^', '=']
  | .suffix => ['$', '=']
  | .sub => ['*', '=']

/-- `self._val.replace(r'"', r'\"')` (line 224). -/
def escape (v : PyStr) : PyStr := v.flatMap fun c => if c = '"' then ['\\', '"'] else [c]

mutual
/-- `__str__` (lines 212-227, 298-301, 326-329, 354-357, 375-377). -/
def Sel.text : Sel → PyStr
  | .simple attr op val ic =>
    if truthy val then
      ['['] ++ attr ++ (op.map Op.text).getD [] ++ ['"'] ++ escape (val.getD []) ++ ['"'] ++
        (if ic then [' ', 'i'] else []) ++ [']']
    else ['['] ++ attr ++ [']']
  | .any l => [':', 'i', 's', '('] ++ Sel.texts l ++ [')']
  | .neg l => [':', 'n', 'o', 't', '('] ++ Sel.texts l ++ [')']
  | .whr l => [':', 'w', 'h', 'e', 'r', 'e', '('] ++ Sel.texts l ++ [')']
  | .compound l => Sel.concat l
  | .loop => []

/-- `', '.join(str(x) for x in self.selector_list)`. -/
def Sel.texts : List Sel → PyStr
  | [] => []
  | s :: ss => Sel.text s ++ (if ss.isEmpty then [] else [',', ' '] ++ Sel.texts ss)

/-- `''.join(str(x) for x in self.selector_list)`. -/
def Sel.concat : List Sel → PyStr
  | [] => []
  | s :: ss => Sel.text s ++ Sel.concat ss
end

end Toron.Selectors
