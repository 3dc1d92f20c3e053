/-
Model of commands that edit Toron files: `toron add link`, `toron add attribute` (`src/toron/cli/command_add.py`),
`toron remove link` (`src/toron/cli/command_remove.py`) and the selectors in `toron update weight`
(`src/toron/cli/command_update.py`).

A command opens its files first; a file that is opened checks no foreign keys (see `Op.reopen`). Backups and messages
are left out. The two files of a link command are different files.
-/
import Verif.Model.LoadMapping

namespace Toron.CliEdit

open Toron.Selectors (PyStr Sel)
open Toron.Space
open Toron.LoadMapping (Direction LinkArgs Outcome)

/-- `cli_bind_file` (`common.py` lines 75-82). -/
def opened (s : Store) : Store := (step .reopen s).1

/-- `do_add` (`command_add.py` lines 101-108): a link to the dataspace `head` from the one with the id `other`. -/
def doAdd (a : LinkArgs) (other : PyStr) (hint : Option PyStr) (head : Store) : Store × Except Err Unit :=
  step (.addLink other a.name hint a.selectors a.isDefault none false) head

/-- `add_link` (`command_add.py` lines 95-119). `hint1` and `hint2` are the path hints of the two files. With direction
`both` these are two transactions, the one on the second file first. -/
def addLink (a : LinkArgs) (d : Direction) (hint1 hint2 : Option PyStr) (f1 f2 : Store) : Outcome :=
  let s1 := opened f1
  let s2 := opened f2
  match d with
  | .both =>
    match doAdd a s1.uid hint1 s2 with
    | (s2, .error e) => ⟨s1, s2, .error e⟩
    | (s2, .ok _) =>
      let r := doAdd a s2.uid hint2 s1
      ⟨r.1, s2, r.2⟩
  | .right =>
    let r := doAdd a s1.uid hint1 s2
    ⟨s1, r.1, r.2⟩
  | .left =>
    let r := doAdd a s2.uid hint2 s1
    ⟨r.1, s2, r.2⟩

/-- `except ToronError`. -/
def isToron : Err → Bool
  | .toronError _ => true
  | _ => false

/-- `do_remove` (`command_remove.py` line 25) with its `try` statement: whether the link was removed. -/
def tryRemove (other name : PyStr) (s : Store) : Store × Except Err Bool :=
  match step (.dropLink other (some name)) s with
  | (s, .ok _) => (s, .ok true)
  | (s, .error e) => if isToron e then (s, .ok false) else (s, .error e)

/-- `remove_link` (`command_remove.py` lines 19-67). -/
def removeLink (name : PyStr) (d : Direction) (f1 f2 : Store) : Outcome :=
  let s1 := opened f1
  let s2 := opened f2
  match d with
  | .both =>
    match tryRemove s2.uid name s1 with
    | (s1, .error e) => ⟨s1, s2, .error e⟩
    | (s1, .ok left) =>
      match tryRemove s1.uid name s2 with
      | (s2, .error e) => ⟨s1, s2, .error e⟩
      | (s2, .ok right) => ⟨s1, s2, if left || right then .ok () else .error (.toronError "no link in FILE1 or FILE2")⟩
  | .left =>
    match tryRemove s2.uid name s1 with
    | (s1, .error e) => ⟨s1, s2, .error e⟩
    | (s1, .ok left) => ⟨s1, s2, if left then .ok () else .error (.toronError "no link found in FILE1")⟩
  | .right =>
    match tryRemove s1.uid name s2 with
    | (s2, .error e) => ⟨s1, s2, .error e⟩
    | (s2, .ok right) => ⟨s1, s2, if right then .ok () else .error (.toronError "no link found in FILE2")⟩

/-- `add_attribute` (`command_add.py` lines 67-92) after the arguments have been taken apart. -/
def addAttributes (names : List PyStr) (f : Store) : Store × Except Err Unit :=
  let s := opened f
  let old := s.regAttrs.getD []
  let new := names.filter fun n => decide (n ∉ old)
  if new = [] then (s, .ok ()) else step (.setRegisteredAttributes (old ++ new)) s

/-- `x.replace('\n', ' ').replace('\r\n', ' ')` (`command_update.py` line 65). After the first replacement there is
nothing left for the second one. -/
def flatten (t : PyStr) : PyStr := t.map fun c => if c = '\n' then ' ' else c

/-- The order of texts, by code points. -/
def textLe (a b : PyStr) : Bool := decide (a.map Char.toNat ≤ b.map Char.toNat)

/-- The new selectors of a weight group in `update_weight` (`command_update.py` lines 49-68): texts are added at the
end, each text to be removed is taken out once if it is there, and the rest is sorted without repetitions. -/
def updateSelectors (old add remove : List PyStr) : List PyStr :=
  (sortedBy textLe (distinct (remove.foldl (fun l t => l.erase t) (old ++ add)))).map flatten

end Toron.CliEdit
