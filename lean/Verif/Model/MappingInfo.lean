/-
Model of what is said about a mapping: `_log_load_mapping_stats` (`src/toron/graph.py` lines 223-270), which `load_mapping` calls for
each direction, and `get_mapping_info_str` (`graph.py` lines 513-565).
-/
import Verif.Model.Graph
import Verif.Model.Info

namespace Toron.MappingInfo

open Toron.Selectors (PyStr endsWith)
open Toron.Space

/-- The messages of `_log_load_mapping_stats`: an information, two warnings and an error. The names of the two sides are those of the
source and the target in the direction of the mapping. -/
inductive Message where
  | verified
  | sourceMissing (n : Int)
  | sourceStale (n : Int)
  | targetMissing (n : Int)
  deriving DecidableEq, Repr

/-- A message if the number is not zero. -/
def unlessZero (f : Int → Message) (n : Int) : List Message := if n = 0 then [] else [f n]

/-- The messages for given numbers (`graph.py` lines 249-270). -/
def messages (st : MapStats) : List Message :=
  if st.srcMissing = 0 ∧ st.srcStale = 0 ∧ st.trgMissing = 0 then [.verified]
  else unlessZero .sourceMissing st.srcMissing ++ unlessZero .sourceStale st.srcStale ++
    unlessZero .targetMissing st.trgMissing

/-- `_log_load_mapping_stats` (`graph.py` lines 223-270), in the direction from `src` to `trg`. -/
def mappingLog (trg src : Store) (name : PyStr) : Except Err (List Message) := do
  let l ← getLink trg.links src.uid (some name)
  let st ← trg.mappingStats src l
  .ok (messages st)

/-- `str(n)`. -/
def intChars : Int → PyStr
  | .ofNat n => Nat.toDigits 10 n
  | .negSucc n => '-' :: Nat.toDigits 10 (n + 1)

/-- How a dataspace is called (`graph.py` lines 537-547): its path without the extension, or the beginning of its id. -/
def calledBy (path : Option PyStr) (uid : PyStr) : PyStr :=
  match path with
  | some p => if p ≠ [] ∧ endsWith p toronExt then p.take (p.length - 6) else '[' :: uid.take 7 ++ [']']
  | none => '[' :: uid.take 7 ++ [']']

/-- A line with the numbers of one side (`graph.py` lines 552-555). -/
def matchedLine (called : PyStr) (matched card : Int) : PyStr :=
  [' ', ' '] ++ called ++ [':', ' ', 'm', 'a', 't', 'c', 'h', 'e', 'd', ' '] ++ intChars matched ++ [' ', 'o', 'f', ' '] ++
    intChars card ++ [' ', 'i', 'n', 'd', 'e', 'x', 'e', 's']

/-- The line about ids that are not records any more (`graph.py` lines 558-563). `f'{None}'` is `None`. -/
def staleLine (path : Option PyStr) (n : Int) : PyStr :=
  [' ', ' ', 'M', 'a', 'p', 'p', 'i', 'n', 'g', ' ', 'c', 'o', 'n', 't', 'a', 'i', 'n', 's', ' '] ++ intChars n ++
    [' ', 'i', 'n', 'd', 'e', 'x', 'e', 's', ' ', 't', 'h', 'a', 't', ' ', 'n', 'o', ' ', 'l', 'o', 'n', 'g', 'e', 'r', ' ',
      'e', 'x', 'i', 's', 't', ' ', 'i', 'n', ' '] ++ path.getD Info.noneText

/-- The lines of the description (`graph.py` lines 549-563). -/
def infoLines (name : PyStr) (st : MapStats) (srcPath trgPath : Option PyStr) (srcUid trgUid : PyStr) : List PyStr :=
  [name ++ [':', ' '] ++ calledBy srcPath srcUid ++ [' ', '-', '>', ' '] ++ calledBy trgPath trgUid, [],
    matchedLine (calledBy srcPath srcUid) st.srcMatched st.srcCard,
    matchedLine (calledBy trgPath trgUid) st.trgMatched st.trgCard] ++
  if st.srcStale = 0 then [] else [[], staleLine srcPath st.srcStale]

/-- `get_mapping_info_str` (`graph.py` lines 513-565): the lines, which are joined by line breaks. `get_link` gives a link or raises
an exception. -/
def mappingInfo (trg src : Store) (srcPath trgPath : Option PyStr) (name : Option PyStr) : Except Err (List PyStr) := do
  let l ← getLink trg.links src.uid name
  let st ← trg.mappingStats src l
  .ok (infoLines (if name = none ∨ name = some [] then l.name else name.getD []) st srcPath trgPath src.uid trg.uid)

end Toron.MappingInfo
