/-
Model of how a file is named when SQLite is asked to open it: `make_sqlite_uri_filepath`
(`src/toron/dal1/data_connector.py` lines 35-61), on systems other than Windows, with `urllib.parse.quote`, and of what
SQLite makes of that name (`sqlite3ParseUri` in its source).

A path is a text that can be encoded in UTF-8; for others (undecodable file names) `quote` raises an error.
-/
import Verif.Model.Selectors

namespace Toron.Uri

open Toron.Selectors (PyStr)

/-! ### Making the name -/

/-- The UTF-8 encoding of a text. -/
def utf8 (t : PyStr) : List UInt8 := t.flatMap String.utf8EncodeChar

/-- The bytes that `quote` leaves as they are: letters, digits, `_.-~` and `/`. -/
def safe (b : UInt8) : Bool :=
  let n := b.toNat
  (65 ≤ n && n ≤ 90) || (97 ≤ n && n ≤ 122) || (48 ≤ n && n ≤ 57) || n == 95 || n == 46 || n == 45 || n == 126 || n == 47

/-- A hexadecimal digit, in upper case. -/
def hexDigit (n : Nat) : Char := if n < 10 then Char.ofNat (48 + n) else Char.ofNat (55 + n)

/-- A byte in a quoted text. -/
def quoteByte (b : UInt8) : PyStr :=
  if safe b then [Char.ofNat b.toNat] else ['%', hexDigit (b.toNat / 16), hexDigit (b.toNat % 16)]

/-- `urllib.parse.quote(path)` (line 55). -/
def quote (path : PyStr) : PyStr := (utf8 path).flatMap quoteByte

/-- `re.sub('/+', '/', path)` (line 57); `prev` tells whether the character before was a slash. -/
def squeeze (prev : Bool) : PyStr → PyStr
  | [] => []
  | c :: t => if c == '/' && prev then squeeze true t else c :: squeeze (c == '/') t

/-- `make_sqlite_uri_filepath` (lines 54-60). -/
def makeUri (path : PyStr) (mode : Option PyStr) : PyStr :=
  ['f', 'i', 'l', 'e', ':'] ++ squeeze false (quote path) ++
    match mode with
    | some m => ['?', 'm', 'o', 'd', 'e', '='] ++ m
    | none => []

/-! ### What SQLite makes of it -/

/-- The file that is opened, and the options. -/
structure Target where
  file : List UInt8
  params : List (List UInt8 × List UInt8)
  deriving DecidableEq, Repr

/-- What is being read (`eState`); `ignored` is an option without a name. -/
inductive Part | file | name | value | ignored
  deriving DecidableEq, Repr

/-- What was read so far. `skip` tells that the rest of the part is left out after `%00`. -/
structure Scan where
  part : Part
  skip : Bool
  file : List UInt8
  name : List UInt8
  value : List UInt8
  params : List (List UInt8 × List UInt8)
  deriving DecidableEq, Repr

/-- The end of the name. -/
def Scan.finish (s : Scan) : Target :=
  match s.part with
  | .file => ⟨s.file, []⟩
  | .name => ⟨s.file, if s.name = [] then s.params else s.params ++ [(s.name, [])]⟩
  | .value => ⟨s.file, s.params ++ [(s.name, s.value)]⟩
  | .ignored => ⟨s.file, s.params⟩

/-- Bytes are added to the part that is being read. -/
def Scan.add (s : Scan) (bs : List UInt8) : Scan :=
  match s.part with
  | .file => { s with file := s.file ++ bs }
  | .name => { s with name := s.name ++ bs }
  | .value => { s with value := s.value ++ bs }
  | .ignored => s

/-- Whether the character ends the part. -/
def Part.ends : Part → Char → Bool
  | .file, c => c == '?'
  | .name, c => c == '=' || c == '&'
  | .value, c => c == '&'
  | .ignored, c => c == '&'

/-- The next part, after a character that ends this one. -/
def Scan.next (s : Scan) (c : Char) : Scan :=
  match s.part with
  | .file => { s with part := .name, skip := false }
  | .name =>
    if s.name = [] then { s with part := if c = '&' then .name else .ignored, skip := false }
    else if c = '&' then { s with skip := false, name := [], params := s.params ++ [(s.name, [])] }
    else { s with part := .value, skip := false }
  | .value => { s with part := .name, skip := false, name := [], value := [], params := s.params ++ [(s.name, s.value)] }
  | .ignored => { s with part := .name, skip := false }

/-- The value of a hexadecimal digit. -/
def hexValue (c : Char) : Option Nat :=
  let n := c.toNat
  if 48 ≤ n && n ≤ 57 then some (n - 48)
  else if 65 ≤ n && n ≤ 70 then some (n - 55)
  else if 97 ≤ n && n ≤ 102 then some (n - 87)
  else none

/-- The loop of `sqlite3ParseUri` over the characters after the authority. -/
def scan (s : Scan) : PyStr → Target
  | [] => s.finish
  | c :: t =>
    if c = '#' then s.finish
    else if s.skip || s.part == .ignored then scan (if s.part.ends c then s.next c else s) t
    else if c = '%' then
      match t with
      | a :: b :: u =>
        match hexValue a, hexValue b with
        | some i, some j => if i * 16 + j = 0 then scan { s with skip := true } u else scan (s.add [UInt8.ofNat (i * 16 + j)]) u
        | _, _ => scan (s.add [37]) (a :: b :: u)
      | [a] => scan (s.add [37]) [a]
      | [] => scan (s.add [37]) []
    else if s.part.ends c then scan (s.next c) t
    else scan (s.add (String.utf8EncodeChar c)) t

/-- `sqlite3ParseUri`: the scheme, the authority, and the rest. `none` for what is no such name or has a host. -/
def parseUri : PyStr → Option Target
  | 'f' :: 'i' :: 'l' :: 'e' :: ':' :: '/' :: '/' :: t =>
    let host := t.takeWhile fun c => c != '/'
    if host = [] ∨ host = ['l', 'o', 'c', 'a', 'l', 'h', 'o', 's', 't'] then
      some (scan ⟨.file, false, [], [], [], []⟩ (t.dropWhile fun c => c != '/'))
    else none
  | 'f' :: 'i' :: 'l' :: 'e' :: ':' :: t => some (scan ⟨.file, false, [], [], [], []⟩ t)
  | _ => none

end Toron.Uri
