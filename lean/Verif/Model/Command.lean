/-
Model of the commands that edit one Toron file: `toron FILE add …`, `rename …`, `update …`
(`src/toron/cli/command_add.py`, `command_rename.py`, `command_update.py`) and loading records from standard input
(`command_index.py`, `command_quantity.py`), with `process_backup_option` and the exit code of `main`
(`cli/main.py` lines 535-558).

The arguments have been taken apart (C70) and the table on standard input has been read (C66, C67). Messages and the
descriptions of weight groups are left out.
-/
import Verif.Model.Files

namespace Toron.Files

open Toron.Selectors (PyStr Sel)
open Toron.Space (Store Op Policy IndexRow QuantRow)

/-- A command with its arguments. `left` and `right` are the arguments of `--move-left` and `--move-right`, 0 if not
given (`main.py` lines 292-304, 336-348). -/
inductive Edit where
  | addLabel (names : List PyStr)
  | addWeight (name : PyStr) (selectors : List Sel) (makeDefault : Bool)
  | addPartition (names : List PyStr)
  | addAttribute (names : List PyStr)
  | renameLabel (old new : PyStr)
  | renameDomain (domain : PyStr)
  | updateLabel (label : PyStr) (left right : Nat)
  | updateAttribute (attr : PyStr) (left right : Nat)
  | updateWeight (name : PyStr) (describe : Bool) (selectors : Option (List Sel → List Sel)) (makeDefault : Bool)
  | loadIndex (weights : Option (List PyStr)) (wcols : List PyStr) (pl pw : Policy) (rows : List IndexRow)
  | loadQuantities (allowLabel allowPartition : Bool) (p : Policy) (rows : List QuantRow)

/-- How a command ends: `ExitCode.OK`, `ExitCode.ERR` after an error message, or an exception that is not caught. -/
inductive Exit where
  | ok | err | crash
  deriving DecidableEq, Repr

/-- The offset of `update label` and `update attribute` (`command_update.py` lines 24-31, 85-92). -/
def moveOffset (left right : Nat) : Option Int :=
  if left ≠ 0 ∧ right = 0 then some (-(left : Int))
  else if right ≠ 0 ∧ left = 0 then some (right : Int)
  else none

/-- The calls that the command makes on the opened file, one after the other (`command_add.py` lines 20-92,
`command_rename.py` lines 16-34, `command_update.py` lines 19-95, `command_index.py` lines 52-57,
`command_quantity.py` lines 29-35). `update_weight` makes up to three calls; what the group's selectors are changed to is
a function of those it has (see `CliEdit.updateSelectors`). -/
def Edit.plan (e : Edit) (s : Store) : Except Exit (List Op) :=
  match e with
  | .addLabel names => .ok [.addIndexColumns names]
  | .addWeight name sels d => .ok [.addWeightGroup name sels false (if d then some true else none)]
  | .addPartition names => .ok [.addPartitionDef names.toFinset]
  | .addAttribute names =>
    let new := names.filter fun n => decide (n ∉ s.regAttrs.getD [])
    if new = [] then .ok [] else .ok [.setRegisteredAttributes (s.regAttrs.getD [] ++ new)]
  | .renameLabel old new => .ok [.renameIndexColumns [(old, new)]]
  | .renameDomain d => .ok [.setDomain d]
  | .updateLabel l left right =>
    match moveOffset left right with
    | some o => .ok [.changeLabelOrder l o]
    | none => .error .crash
  | .updateAttribute a left right =>
    match moveOffset left right with
    | some o => .ok [.changeAttributeOrder a o]
    | none => .error .crash
  | .updateWeight name describe sels d =>
    match s.findWGroup name with
    | none => .error .err
    | some g => .ok (
        (if describe then [.editWeightGroup name none none none] else []) ++
        (match sels with
          | some f => [.editWeightGroup name none (some (f g.selectors)) none]
          | none => []) ++
        (if d then [.setDefaultWeightGroup (some g.id)] else []))
  | .loadIndex w wc pl pw rows => .ok [.insertIndex w wc pl pw rows]
  | .loadQuantities al ap p rows => .ok [.insertQuantities2 al ap p rows]

/-- Whether the exception of a call is turned into an error message: `ToronError` always (`main.py` lines 554-558), other
exceptions by the `try` statements of `add_partition` (`command_add.py` lines 57-60), `add_attribute` (lines 83-86) and
the two `read_from_stdin` (`command_index.py` lines 52-71, `command_quantity.py` lines 28-46). -/
def Edit.catches (e : Edit) : FileErr → Bool
  | .call (.toronError _) => true
  | .call (.valueError _) =>
    match e with
    | .addPartition .. => true
    | .addAttribute .. => true
    | .loadIndex .. => true
    | .loadQuantities .. => true
    | _ => false
  | .call (.runtimeError _) =>
    match e with
    | .addPartition .. => true
    | _ => false
  | _ => false

/-- Calls one after the other, up to the first that raises. -/
def World.calls (w : World) (i : Nat) : List Op → World × Except FileErr Unit
  | [] => (w, .ok ())
  | op :: ops =>
    match w.call i op with
    | (w', .ok ()) => w'.calls i ops
    | (w', .error e) => (w', .error e)

/-- What remains when the process has ended. -/
def World.leave (w : World) (spaces : List Handle) : World := { w with spaces := spaces }

/-- The command on the opened file: backup (`process_backup_option`, `common.py` lines 86-111), then the calls. -/
def World.edit (w : World) (i : Nat) (backup : Bool) (e : Edit) : World × Exit :=
  match (if backup then w.backup [i] else (w, .ok ())) with
  | (w, .error _) => (w, .crash)
  | (w, .ok ()) =>
    match (w.spaces[i]?.bind w.shown) with
    | none => (w, .crash)
    | some s =>
      match e.plan s with
      | .error x => (w, x)
      | .ok ops =>
        match w.calls i ops with
        | (w, .ok ()) => (w, .ok)
        | (w, .error er) => (w, if e.catches er then .err else .crash)

/-- `toron FILE COMMAND …`: opens the file (`cli_bind_file`, `common.py` lines 75-83, which turns the errors into
`ToronError`) and runs the command. -/
def World.command (w : World) (path : PyStr) (backup : Bool) (e : Edit) : World × Exit :=
  match w.bindFile path .rw [] with
  | (_, .error _) => (w, .err)
  | (w1, .ok ()) =>
    let r := w1.edit w.spaces.length backup e
    (r.1.leave w.spaces, r.2)

end Toron.Files
