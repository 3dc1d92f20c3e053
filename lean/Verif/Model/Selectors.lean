/-
Model of `src/toron/selectors.py` (selector objects and the choice of a key by specificity).

Strings are lists of code points. `str.upper` and `str.lower` are parameters (`CaseMap`): Python's
tables are not modelled. The Lark parser is not modelled here.
-/
import Verif.Py

namespace Toron.Selectors

/-- A Python `str` as a list of code points. -/
abbrev PyStr := List Char

/-- `str.upper` and `str.lower`. -/
structure CaseMap where
  upper : PyStr → PyStr
  lower : PyStr → PyStr

/-- `str.isspace` for one character: the whitespace set that `str.split()` uses. -/
def isSpace (c : Char) : Bool :=
  let n := c.toNat
  (9 ≤ n && n ≤ 13) || (28 ≤ n && n ≤ 32) || n == 133 || n == 160 || n == 5760 ||
    (8192 ≤ n && n ≤ 8202) || n == 8232 || n == 8233 || n == 8239 || n == 8287 || n == 12288

/-- `str.split()` with no argument: maximal runs of non-whitespace. `cur` is the current word. -/
def splitWords (cur : PyStr) : PyStr → List PyStr
  | [] => if cur.isEmpty then [] else [cur]
  | c :: cs =>
    if isSpace c then
      if cur.isEmpty then splitWords [] cs else cur :: splitWords [] cs
    else splitWords (cur ++ [c]) cs

/-- `str.startswith`. -/
def startsWith (b a : PyStr) : Bool := b.take a.length == a

/-- `str.endswith`. -/
def endsWith (b a : PyStr) : Bool := a.length ≤ b.length && b.drop (b.length - a.length) == a

/-- `a in b` for strings. -/
def isSubstring (a : PyStr) : PyStr → Bool
  | [] => a.isEmpty
  | c :: cs => startsWith (c :: cs) a || isSubstring a cs

/-- The operators of `SimpleSelector` (selectors.py 163-177). -/
inductive Op where
  | eq | word | dash | prefix | suffix | sub
  deriving DecidableEq, Repr

/-- The operator strings (selectors.py 165-177); anything else raises `ValueError` (line 179). -/
def Op.ofStr : PyStr → Option Op
  | ['='] => some .eq
  | ['~', '='] => some .word
  | ['|', '='] => some .dash
  | ['^', '='] => some .prefix
  | ['$', '='] => some .suffix
  | ['*', '='] => some .sub
  | _ => none

/-- The lambdas `match_func` (selectors.py 163-177), `a` the selector's value, `b` the row's. -/
def matchFunc : Option Op → PyStr → PyStr → Bool
  | none, _, b => !b.isEmpty
  | some .eq, a, b => a == b
  | some .word, a, b => (splitWords [] b).contains a
  | some .dash, a, b => startsWith b (a ++ ['-']) || a == b
  | some .prefix, a, b => startsWith b a
  | some .suffix, a, b => endsWith b a
  | some .sub, a, b => isSubstring a b

/-- Selector objects. `loop` is a `MatchesAnySelector` or `CompoundSelector` whose `selector_list`
holds only itself, see `mkAny`. -/
inductive Sel where
  | simple (attr : PyStr) (op : Option Op) (val : Option PyStr) (ignoreCase : Bool)
  | any (l : List Sel)
  | neg (l : List Sel)
  | whr (l : List Sel)
  | compound (l : List Sel)
  | loop

/-- Python truth of an optional string. -/
def truthy : Option PyStr → Bool
  | none => false
  | some s => !s.isEmpty

/-- `SimpleSelector.__init__` (selectors.py 144-185). -/
def mkSimple (attr : PyStr) (op val : Option PyStr) (ignoreCase : Bool) : Except Err Sel :=
  if truthy op != truthy val then .error (.typeError "must use `op` and `val` together or not at all")
  else if ignoreCase && !(truthy op && truthy val) then
    .error (.typeError "got `ignore_case`, must also provide `op` and `val`")
  else match op with
    | none => .ok (.simple attr none val ignoreCase)
    | some o => match Op.ofStr o with
      | some o' => .ok (.simple attr (some o') val ignoreCase)
      | none => .error (.valueError "unknown operator")

/-- `MatchesAnySelector.__new__` (selectors.py 286-289). With one item the item itself is returned.
If that item is itself a `MatchesAnySelector`, `type.__call__` then runs `__init__` (lines 64-68) on
it, which sets its `selector_list` to the list holding itself. -/
def mkAny : List Sel → Sel
  | [.any _] => .loop
  | [.loop] => .loop
  | [s] => s
  | l => .any l

/-- `NegationSelector(...)`, `SpecificityAdjustmentSelector(...)` (selectors.py 312, 340). -/
def mkNeg (l : List Sel) : Sel := .neg l
@[inherit_doc mkNeg] def mkWhere (l : List Sel) : Sel := .whr l

/-- `CompoundSelector.__new__` (selectors.py 366-369), with the same re-initialisation. -/
def mkCompound : List Sel → Sel
  | [.compound _] => .loop
  | [s] => s
  | l => .compound l

/-- A row: attribute names and values. -/
abbrev Row := List (PyStr × PyStr)

/-- `dict_row.get(attr, '')` (selectors.py 190). -/
def Row.get (r : Row) (attr : PyStr) : PyStr := (r.lookup attr).getD []

def recursionError : Err := .runtimeError "maximum recursion depth exceeded"

mutual
/-- `__call__` of the selector classes (selectors.py 187-194, 291-296, 319-324, 347-352, 371-373). -/
def Sel.eval (cm : CaseMap) (r : Row) : Sel → Except Err Bool
  | .simple attr op val ic =>
    let a := val.getD []
    let b := r.get attr
    .ok (if ic then matchFunc op (cm.upper a) (cm.upper b) else matchFunc op a b)
  | .any l => Sel.evalAny cm r l
  | .neg l => (Sel.evalAny cm r l).map (!·)
  | .whr l => Sel.evalAny cm r l
  | .compound l => Sel.evalAll cm r l
  | .loop => .error recursionError

/-- The loop `for selector in self.selector_list: if selector(dict_row): return True`. -/
def Sel.evalAny (cm : CaseMap) (r : Row) : List Sel → Except Err Bool
  | [] => .ok false
  | s :: ss => match Sel.eval cm r s with
    | .ok true => .ok true
    | .ok false => Sel.evalAny cm r ss
    | .error e => .error e

/-- `all(selector(dict_row) for selector in self.selector_list)`. -/
def Sel.evalAll (cm : CaseMap) (r : Row) : List Sel → Except Err Bool
  | [] => .ok true
  | s :: ss => match Sel.eval cm r s with
    | .ok true => Sel.evalAll cm r ss
    | .ok false => .ok false
    | .error e => .error e
end

/-- A specificity tuple. -/
abbrev Specificity := Nat × Nat

/-- `<=` on tuples of two integers. -/
def specLe (a b : Specificity) : Bool := decide (a.1 < b.1) || (a.1 == b.1 && decide (a.2 ≤ b.2))

/-- `max(a, b)` on tuples. -/
def specMax (a b : Specificity) : Specificity := if specLe a b then b else a

mutual
/-- The `specificity` properties (selectors.py 237-247, 303-309, 331-337, 359-362, 379-385).
`max()` of an empty sequence raises `ValueError`. Simplified: an empty compound (which the grammar
cannot produce) has specificity `(0, 0)` here, the empty tuple in the code. -/
def Sel.specificity : Sel → Except Err Specificity
  | .simple _ _ val _ => .ok (if truthy val then (1, 1) else (1, 0))
  | .any l => Sel.specMaxL l
  | .neg l => Sel.specMaxL l
  | .whr _ => .ok (0, 0)
  | .compound l => Sel.specSumL l
  | .loop => .error recursionError

/-- `max(x.specificity for x in self.selector_list)`. -/
def Sel.specMaxL : List Sel → Except Err Specificity
  | [] => .error (.valueError "max() arg is an empty sequence")
  | [s] => Sel.specificity s
  | s :: ss => match Sel.specificity s, Sel.specMaxL ss with
    | .ok a, .ok b => .ok (specMax a b)
    | .error e, _ => .error e
    | _, .error e => .error e

/-- `tuple(sum(tup) for tup in zip(*specificity_values))`. -/
def Sel.specSumL : List Sel → Except Err Specificity
  | [] => .ok (0, 0)
  | s :: ss => match Sel.specificity s, Sel.specSumL ss with
    | .ok a, .ok b => .ok (a.1 + b.1, a.2 + b.2)
    | .error e, _ => .error e
    | _, .error e => .error e
end

/-- The value part of a comparison key: lower-cased if case is ignored and the value is truthy
(selectors.py 264-268). -/
def cmpVal (cm : CaseMap) (val : Option PyStr) (ic : Bool) : Option PyStr :=
  if ic && truthy val then val.map cm.lower else val

mutual
/-- `__eq__` (selectors.py 82-84, 229-231): equality of `_get_comparison_key` (lines 250-274), where
containers are compared as (class, frozenset of keys). Simplified: a self-containing selector (whose
key would recurse for ever) is equal to nothing. -/
def Sel.keyEq (cm : CaseMap) : Sel → Sel → Bool
  | .simple a o v i, .simple a' o' v' i' =>
    a == a' && o == o' && cmpVal cm v i == cmpVal cm v' i' && i == i'
  | .any l, .any m => Sel.keySub cm l m && m.all fun y => Sel.keyMem cm l y
  | .neg l, .neg m => Sel.keySub cm l m && m.all fun y => Sel.keyMem cm l y
  | .whr l, .whr m => Sel.keySub cm l m && m.all fun y => Sel.keyMem cm l y
  | .compound l, .compound m => Sel.keySub cm l m && m.all fun y => Sel.keyMem cm l y
  | _, _ => false

/-- Every key of the first list is a key of the second. -/
def Sel.keySub (cm : CaseMap) : List Sel → List Sel → Bool
  | [], _ => true
  | x :: xs, m => m.any (fun y => Sel.keyEq cm x y) && Sel.keySub cm xs m

/-- The key of `y` is among the keys of the list. -/
def Sel.keyMem (cm : CaseMap) : List Sel → Sel → Bool
  | [], _ => false
  | x :: xs, y => Sel.keyEq cm x y || Sel.keyMem cm xs y
end

/-- The inner loop of `get_greatest_unique_specificity` for one key (selectors.py 590-600): the
specificity recorded for the key, if any selector matches. -/
def bestOf (cm : CaseMap) (r : Row) : Option Specificity → List Sel →
    Except Err (Option Specificity)
  | acc, [] => .ok acc
  | acc, s :: ss => match s.eval cm r with
    | .error e => .error e
    | .ok false => bestOf cm r acc ss
    | .ok true => match s.specificity with
      | .error e => .error e
      | .ok sp => bestOf cm r (some (specMax (acc.getD (0, 0)) sp)) ss

variable {κ : Type}

/-- The outer loop (selectors.py 585-600), giving `(specificity, key)` pairs (line 603). Falsy
selector lists are skipped. -/
def matchedItems (cm : CaseMap) (r : Row) : List (κ × Option (List Sel)) →
    Except Err (List (Specificity × κ))
  | [] => .ok []
  | (k, sels) :: rest =>
    match bestOf cm r none (sels.getD []), matchedItems cm r rest with
    | .error e, _ => .error e
    | .ok _, .error e => .error e
    | .ok none, .ok items => .ok items
    | .ok (some sp), .ok items => .ok ((sp, k) :: items)

/-- `itertools.groupby(items, key=get_specificity)`: runs of equal specificity. -/
def groupRuns : List (Specificity × κ) → List (List (Specificity × κ))
  | [] => []
  | x :: xs => match groupRuns xs with
    | (y :: g) :: gs => if y.1 == x.1 then (x :: y :: g) :: gs else [x] :: (y :: g) :: gs
    | gs => [x] :: gs

/-- The final loop (selectors.py 609-618): the key of the first group with a single item. -/
def firstSingle (default : κ) : List (List (Specificity × κ)) → κ
  | [] => default
  | [x] :: _ => x.2
  | _ :: gs => firstSingle default gs

/-- `get_greatest_unique_specificity` (selectors.py 555-618). `selector_dict` is an association list
with distinct keys. -/
def getGreatestUniqueSpecificity (cm : CaseMap) (r : Row)
    (selectorDict : List (κ × Option (List Sel))) (default : κ) : Except Err κ :=
  (matchedItems cm r selectorDict).map fun items =>
    firstSingle default (groupRuns (sortedBy (fun a b => specLe b.1 a.1) items))

/-- `frozenset(v)` of selectors (selectors.py 655): of equal selectors the first one is kept. The
iteration order of the set is unspecified; the order of first insertion is used here. -/
def frozensetSels (cm : CaseMap) : List Sel → List Sel → List Sel
  | acc, [] => acc
  | acc, s :: ss =>
    if Sel.keyMem cm acc s then frozensetSels cm acc ss else frozensetSels cm (acc ++ [s]) ss

/-- `GetMatchingKey` (selectors.py 645-675): construction and call with a `dict` row. -/
def getMatchingKey (cm : CaseMap) (selectors : List (κ × Option (List Sel))) (default : κ)
    (r : Row) : Except Err κ :=
  let dict := (selectors.filter fun kv => !(kv.2.getD []).isEmpty).map fun kv =>
    (kv.1, some (frozensetSels cm [] (kv.2.getD [])))
  getGreatestUniqueSpecificity cm r dict default

end Toron.Selectors
