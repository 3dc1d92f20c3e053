/-
How texts are kept in the file: as JSON. `json.dumps` and `json.loads` of Python's library with the arguments that the
program uses (`dal1/schema.py` lines 61-64 and 86-89, `dal1/repositories.py` lines 359, 414, 566, 592, 605, 839-841,
917-919, 1249, 1270, 1284), and the functions made from them in `dal1/schema.py`. A Python string is a list of code
points, which unlike a Lean `Char` may be a surrogate.
-/
import Verif.Py

namespace Toron.Json

/-- A Python string: its code points. -/
abbrev Text := List Nat

/-- The values that JSON can hold (`JsonTypes`, `data_models.py`). A number with a fraction or an exponent is kept as the
characters it was written with: floats are not modelled. -/
inductive Val where
  | null
  | bool (b : Bool)
  | int (i : Int)
  | float (written : Text)
  | str (s : Text)
  | arr (l : List Val)
  | obj (l : List (Text × Val))

/-! ### Writing -/

/-- A digit in hexadecimal notation (lower case). -/
def hexDigit (n : Nat) : Nat := if n < 10 then 48 + n else 87 + n

/-- `'\\u{0:04x}'.format(n)`. -/
def hex4 (n : Nat) : Text :=
  [92, 117, hexDigit (n / 4096 % 16), hexDigit (n / 256 % 16), hexDigit (n / 16 % 16), hexDigit (n % 16)]

/-- One code point as `json.encoder.encode_basestring_ascii` writes it: printable ASCII as it is, except for the quote and
the backslash; the usual short forms; otherwise one or two groups of four hexadecimal digits. -/
def escape (c : Nat) : Text :=
  if c = 34 then [92, 34]
  else if c = 92 then [92, 92]
  else if c = 10 then [92, 110]
  else if c = 13 then [92, 114]
  else if c = 9 then [92, 116]
  else if c = 12 then [92, 102]
  else if c = 8 then [92, 98]
  else if 32 ≤ c ∧ c ≤ 126 then [c]
  else if c < 0x10000 then hex4 c
  else hex4 (0xD800 + (c - 0x10000) / 1024 % 1024) ++ hex4 (0xDC00 + (c - 0x10000) % 1024)

/-- A string in quotes. -/
def quoted (s : Text) : Text := 34 :: s.flatMap escape ++ [34]

/-- The decimal digits, by division. -/
def digitsAux : Nat → Nat → Text
  | 0, _ => []
  | fuel + 1, n => if n < 10 then [48 + n] else digitsAux fuel (n / 10) ++ [48 + n % 10]

/-- `int.__repr__` of a natural number. -/
def digits (n : Nat) : Text := digitsAux (n + 1) n

/-- `int.__repr__`. -/
def intText : Int → Text
  | .ofNat n => digits n
  | .negSucc n => 45 :: digits (n + 1)

mutual
/-- `json.dumps(value)`: the separators are `', '` and `': '`. -/
def dumps : Val → Text
  | .null => [110, 117, 108, 108]
  | .bool true => [116, 114, 117, 101]
  | .bool false => [102, 97, 108, 115, 101]
  | .int i => intText i
  | .float w => w
  | .str s => quoted s
  | .arr l => 91 :: dumpsList l
  | .obj l => 123 :: dumpsPairs l

/-- The elements of a list, with the closing bracket. -/
def dumpsList : List Val → Text
  | [] => [93]
  | v :: l => dumps v ++ dumpsListRest l

/-- The elements after the first. -/
def dumpsListRest : List Val → Text
  | [] => [93]
  | v :: l => 44 :: 32 :: (dumps v ++ dumpsListRest l)

/-- The items of a dictionary, with the closing brace. -/
def dumpsPairs : List (Text × Val) → Text
  | [] => [125]
  | (k, v) :: l => quoted k ++ 58 :: 32 :: (dumps v ++ dumpsPairsRest l)

/-- The items after the first. -/
def dumpsPairsRest : List (Text × Val) → Text
  | [] => [125]
  | (k, v) :: l => 44 :: 32 :: (quoted k ++ 58 :: 32 :: (dumps v ++ dumpsPairsRest l))
end

/-- `sorted(items)` of a dictionary whose keys are different strings. -/
def sortItems {α : Type} (l : List (Text × α)) : List (Text × α) := sortedBy (fun x y => decide (x.1 ≤ y.1)) l

mutual
/-- The order in which `json.dumps(value, sort_keys=True)` visits dictionaries, at all levels. -/
def sortKeys : Val → Val
  | .arr l => .arr (sortKeysList l)
  | .obj l => .obj (sortItems (sortKeysPairs l))
  | v => v

def sortKeysList : List Val → List Val
  | [] => []
  | v :: l => sortKeys v :: sortKeysList l

def sortKeysPairs : List (Text × Val) → List (Text × Val)
  | [] => []
  | (k, v) :: l => (k, sortKeys v) :: sortKeysPairs l
end

/-- `json.dumps(value, sort_keys=True)`. -/
def dumpsSorted (v : Val) : Text := dumps (sortKeys v)

/-! ### Reading -/

/-- The value of a hexadecimal digit. -/
def hexValue (c : Nat) : Option Nat :=
  if 48 ≤ c ∧ c ≤ 57 then some (c - 48)
  else if 97 ≤ c ∧ c ≤ 102 then some (c - 87)
  else if 65 ≤ c ∧ c ≤ 70 then some (c - 55)
  else none

/-- Four hexadecimal digits. -/
def hexValue4 (a b c d : Nat) : Option Nat := do
  .some ((← hexValue a) * 4096 + (← hexValue b) * 256 + (← hexValue c) * 16 + (← hexValue d))

/-- The characters that may follow a backslash. -/
def unescape (c : Nat) : Option Nat :=
  if c = 34 then some 34
  else if c = 92 then some 92
  else if c = 47 then some 47
  else if c = 98 then some 8
  else if c = 102 then some 12
  else if c = 110 then some 10
  else if c = 114 then some 13
  else if c = 116 then some 9
  else none

/-- The characters of a string up to its closing quote, and what follows; for each character whether it was written with
hexadecimal digits (`json.decoder.scanstring`, strict: control characters are not allowed). -/
def scanUnits : Text → Option (List (Nat × Bool) × Text)
  | [] => none
  | 34 :: rest => some ([], rest)
  | 92 :: 117 :: a :: b :: c :: d :: rest =>
    match hexValue4 a b c d, scanUnits rest with
    | some n, some (l, r) => some ((n, true) :: l, r)
    | _, _ => none
  | 92 :: e :: rest =>
    match unescape e, scanUnits rest with
    | some n, some (l, r) => some ((n, false) :: l, r)
    | _, _ => none
  | c :: rest =>
    if c < 32 ∨ c = 92 then none
    else match scanUnits rest with
      | some (l, r) => some ((c, false) :: l, r)
      | none => none

/-- A high surrogate. -/
def isHigh (n : Nat) : Bool := 0xD800 ≤ n && n ≤ 0xDBFF

/-- A low surrogate. -/
def isLow (n : Nat) : Bool := 0xDC00 ≤ n && n ≤ 0xDFFF

/-- The code point written as two surrogates. -/
def joinPair (h l : Nat) : Nat := 0x10000 + (h - 0xD800) * 1024 + (l - 0xDC00)

/-- A high surrogate and a low surrogate, both written with hexadecimal digits, are one character. -/
def joinUnits : List (Nat × Bool) → Text
  | (h, true) :: (l, true) :: rest =>
    if isHigh h && isLow l then joinPair h l :: joinUnits rest else h :: joinUnits ((l, true) :: rest)
  | (c, _) :: rest => c :: joinUnits rest
  | [] => []

/-- A string after its opening quote. -/
def scanString (s : Text) : Option (Text × Text) :=
  match scanUnits s with
  | some (l, r) => some (joinUnits l, r)
  | none => none

/-- Blanks, tabs and line ends are skipped. -/
def skip (s : Text) : Text := s.dropWhile fun c => c = 32 || c = 9 || c = 10 || c = 13

def isDigit (c : Nat) : Bool := 48 ≤ c && c ≤ 57

/-- The number that the digits mean. -/
def digitsValue (s : Text) : Nat := s.foldl (fun n c => n * 10 + (c - 48)) 0

/-- `(\.\d+)?`. -/
def scanFraction (s : Text) : Text × Text :=
  match s with
  | 46 :: rest => if (rest.takeWhile isDigit).isEmpty then ([], s) else (46 :: rest.takeWhile isDigit, rest.dropWhile isDigit)
  | _ => ([], s)

/-- A sign. -/
def scanSign (plus : Bool) (s : Text) : Text × Text :=
  match s with
  | c :: r => if c = 45 ∨ (plus ∧ c = 43) then ([c], r) else ([], s)
  | [] => ([], s)

/-- `([-+]?\d+)` after the letter of an exponent. -/
def scanSigned (s : Text) : Option (Text × Text) :=
  let x := scanSign true s
  if (x.2.takeWhile isDigit).isEmpty then none else some (x.1 ++ x.2.takeWhile isDigit, x.2.dropWhile isDigit)

/-- `([eE][-+]?\d+)?`. -/
def scanExponent (s : Text) : Text × Text :=
  match s with
  | c :: rest =>
    if c = 101 ∨ c = 69 then
      match scanSigned rest with
      | some (e, r) => (c :: e, r)
      | none => ([], s)
    else ([], s)
  | [] => ([], s)

/-- The digits before the point: `0|[1-9]\d*`. -/
def scanWhole (s : Text) : Option (Text × Text) :=
  match s with
  | 48 :: rest => some ([48], rest)
  | c :: _ => if isDigit c then some (s.takeWhile isDigit, s.dropWhile isDigit) else none
  | [] => none

/-- A number: an `int` if there is neither fraction nor exponent. -/
def scanNumber (s : Text) : Option (Val × Text) :=
  let x := scanSign false s
  match scanWhole x.2 with
  | none => none
  | some (w, r) =>
    let f := scanFraction r
    let e := scanExponent f.2
    if f.1.isEmpty && e.1.isEmpty then
      some (.int (if x.1.isEmpty then digitsValue w else -(digitsValue w : Int)), r)
    else some (.float (x.1 ++ w ++ f.1 ++ e.1), e.2)

/-- Words: `null`, `true`, `false`, `NaN`, `Infinity`, `-Infinity`. -/
def scanWord (s : Text) : Option (Val × Text) :=
  let words : List (Text × Val) :=
    [([110, 117, 108, 108], .null), ([116, 114, 117, 101], .bool true), ([102, 97, 108, 115, 101], .bool false),
     ([78, 97, 78], .float [78, 97, 78]), ([73, 110, 102, 105, 110, 105, 116, 121], .float [73, 110, 102, 105, 110, 105, 116, 121]),
     ([45, 73, 110, 102, 105, 110, 105, 116, 121], .float [45, 73, 110, 102, 105, 110, 105, 116, 121])]
  (words.find? fun w => w.1.isPrefixOf s).map fun w => (w.2, s.drop w.1.length)

/-- A new item of a dictionary: a key that is there keeps its place and gets the new value. -/
def dictSet (d : List (Text × Val)) (k : Text) (v : Val) : List (Text × Val) :=
  if d.any fun x => x.1 == k then d.map fun x => if x.1 == k then (k, v) else x else d ++ [(k, v)]

/-- `dict(pairs)`. -/
def dictOf (pairs : List (Text × Val)) : List (Text × Val) := pairs.foldl (fun d kv => dictSet d kv.1 kv.2) []

mutual
/-- A value (`json.scanner.scan_once`). The first argument bounds the depth and the number of elements; the length of the
text is always enough. -/
def scanVal : Nat → Text → Option (Val × Text)
  | 0, _ => none
  | _ + 1, [] => none
  | n + 1, c :: s =>
    if c = 34 then (scanString s).map fun x => (.str x.1, x.2)
    else if c = 123 then
      match skip s with
      | 125 :: r => some (.obj [], r)
      | s' => (scanPairs n s').map fun x => (.obj (dictOf x.1), x.2)
    else if c = 91 then
      match skip s with
      | 93 :: r => some (.arr [], r)
      | s' => (scanItems n s').map fun x => (.arr x.1, x.2)
    else match scanWord (c :: s) with
      | some x => some x
      | none => scanNumber (c :: s)

/-- The elements of a list, at least one, and the closing bracket. -/
def scanItems : Nat → Text → Option (List Val × Text)
  | 0, _ => none
  | n + 1, s =>
    match scanVal n s with
    | none => none
    | some (v, s1) =>
      match skip s1 with
      | 93 :: r => some ([v], r)
      | 44 :: r => (scanItems n (skip r)).map fun x => (v :: x.1, x.2)
      | _ => none

/-- The items of a dictionary, at least one, and the closing brace. -/
def scanPairs : Nat → Text → Option (List (Text × Val) × Text)
  | 0, _ => none
  | n + 1, s =>
    match s with
    | 34 :: s0 =>
      match scanString s0 with
      | none => none
      | some (k, s1) =>
        match skip s1 with
        | 58 :: s2 =>
          match scanVal n (skip s2) with
          | none => none
          | some (v, s3) =>
            match skip s3 with
            | 125 :: r => some ([(k, v)], r)
            | 44 :: r => (scanPairs n (skip r)).map fun x => ((k, v) :: x.1, x.2)
            | _ => none
        | _ => none
    | _ => none
end

/-- `json.loads(text)`; `none` is a `ValueError`. -/
def loads (s : Text) : Option Val :=
  match scanVal (2 * s.length + 1) (skip s) with
  | some (v, r) => if skip r = [] then some v else none
  | none => none

/-! ### The functions made from them -/

/-- `toron_check_selectors` (`dal1/schema.py` lines 475-485). -/
def checkSelectors (x : Text) : Bool :=
  match loads x with
  | some (.arr l) => l.all fun v => match v with
    | .str _ => true
    | _ => false
  | _ => false

/-- `toron_check_attributes` (`dal1/schema.py` lines 541-551). -/
def checkAttributes (x : Text) : Bool :=
  match loads x with
  | some (.obj l) => l.all fun kv => match kv.2 with
    | .str _ => true
    | _ => false
  | _ => false

/-- `toron_check_user_properties` (`dal1/schema.py` lines 604-609). -/
def checkUserProperties (x : Text) : Bool :=
  match loads x with
  | some (.obj _) => true
  | _ => false

/-- `toron_check_property_value` (`dal1/schema.py` lines 647-652). -/
def checkPropertyValue (x : Text) : Bool := (loads x).isSome

/-- `toron_json_object_keep` (`dal1/schema.py` lines 784-795): `error` is the `ValueError`, also of `json_loads`. The keys of
the new dictionary come in the order of `keys`, without repetition. -/
def objectKeep (x : Text) (keys : List Text) : Except Unit (Option Text) :=
  match loads x with
  | some (.obj l) =>
    if keys.isEmpty then .ok (some (dumpsSorted (.obj l)))
    else
      let sub := dictOf (keys.filterMap fun k => (l.find? fun kv => kv.1 == k).map fun kv => (k, kv.2))
      if sub.isEmpty then .ok none else .ok (some (dumpsSorted (.obj sub)))
  | _ => .error ()

/-- Keys that `json.dumps` accepts in a dictionary (floats left out). -/
inductive Key where
  | str (s : Text)
  | int (i : Int)
  | bool (b : Bool)
  | none
  deriving DecidableEq

/-- The text that `json.dumps` makes of a key (`json.encoder.JSONEncoder.iterencode`). -/
def keyText : Key → Text
  | .str s => s
  | .int i => intText i
  | .bool true => [116, 114, 117, 101]
  | .bool false => [102, 97, 108, 115, 101]
  | .none => [110, 117, 108, 108]

/-- `json.dumps` of a dictionary whose keys need not be strings. -/
def dumpsDict (l : List (Key × Val)) : Text := dumps (.obj (l.map fun kv => (keyText kv.1, kv.2)))

end Toron.Json
