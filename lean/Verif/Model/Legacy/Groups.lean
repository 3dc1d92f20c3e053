/-
Model of reading index records of a legacy node by conditions: `index_records` and `index_records_grouped`
(`src/toron/_dal.py` lines 1258-1329).

The groups of `index_records_grouped` are generators that share one cursor with the generator that gives them, so what is read
depends on the order of the calls of `next`: a session is this state, and an act is one such call.

Simplified: the names of the columns are in normal form, the records are in the order of the table, and the table does not change
while records are read. That the first step of the generator is made with the call (`_utils.py` lines 659-663) is not modelled: it is
an act like the others.
-/
import Verif.Model.Legacy.Disaggregate

namespace Toron.Legacy

open Toron.Selectors (PyStr)
open Toron.Space (IndexRec)

/-- The conditions: `index_id` and labels. -/
structure Where where
  id : Option Nat
  cells : List (PyStr × PyStr)
  deriving DecidableEq, Repr

/-- `_select_index_records` (`_dal.py` lines 1258-1271) with `_format_select_params` (lines 1697-1753). -/
def Node.selected (n : Node) (w : Where) : List IndexRec :=
  (n.recordsWhere w.cells).filter fun r => w.id.all fun i => i == r.id

/-- The check of the keys (`_dal.py` lines 1285-1289, 1321-1324). -/
def Node.knows (n : Node) (w : Where) : Bool := w.cells.all fun cl => decide (cl.1 ∈ n.cols)

/-- `index_records(**where)` (`_dal.py` lines 1273-1291). -/
def Node.indexRecordsWhere (n : Node) (w : Where) : Except Err (List IndexRec) :=
  if n.knows w then .ok (n.selected w) else .error (.keyError "key")

/-- How far the generator of a group is. -/
inductive GroupState where
  | fresh
  | reading
  | finished
  deriving DecidableEq, Repr

/-- A call of `index_records_grouped`: conditions that are left, groups given so far, rows that the cursor has left (`none` if it is
closed). -/
structure Session where
  node : Node
  todo : List Where
  given : List (Where × GroupState)
  cursor : Option (List IndexRec)

/-- A call of `next`: for the groups, or for the records of a group that was given. -/
inductive Act where
  | advance
  | take (i : Nat)
  deriving DecidableEq, Repr

/-- What `next` gives: a group or the end of the groups; a record or the end of a group; an error. -/
inductive Answer where
  | group (w : Where)
  | done
  | row (r : IndexRec)
  | stop
  | keyError
  | closed
  deriving DecidableEq, Repr

/-- The session when the columns have been read (`_dal.py` lines 1317-1318). -/
def Session.start (n : Node) (ws : List Where) : Session := ⟨n, ws, [], some []⟩

/-- The loop over the conditions (`_dal.py` lines 1320-1327). When it ends or fails, the cursor is closed (lines 446-461). -/
def Session.advance (s : Session) : Answer × Session :=
  match s.cursor, s.todo with
  | none, _ => (.done, s)
  | some _, [] => (.done, { s with cursor := none })
  | some rows, w :: rest =>
    if s.node.knows w then (.group w, ⟨s.node, rest, s.given ++ [(w, .fresh)], some rows⟩)
    else (.keyError, { s with cursor := none })

/-- One step of the generator of a group (`_dal.py` lines 1269-1271). A group that was not given has no records. -/
def Session.take (i : Nat) (s : Session) : Answer × Session :=
  match s.given[i]? with
  | none => (.stop, s)
  | some (_, .finished) => (.stop, s)
  | some (w, st) =>
    match s.cursor with
    | none => (.closed, { s with given := s.given.set i (w, .finished) })
    | some rows =>
      match (if st = .fresh then s.node.selected w else rows) with
      | [] => (.stop, { s with given := s.given.set i (w, .finished), cursor := some [] })
      | r :: rest => (.row r, { s with given := s.given.set i (w, .reading), cursor := some rest })

/-- One act. -/
def Session.act (s : Session) : Act → Answer × Session
  | .advance => s.advance
  | .take i => s.take i

/-- The answers to a sequence of acts. -/
def Session.answers (s : Session) : List Act → List Answer
  | [] => []
  | a :: as => (s.act a).1 :: (s.act a).2.answers as

end Toron.Legacy
