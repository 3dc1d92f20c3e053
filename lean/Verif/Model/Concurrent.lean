/-
Several processes that work on the same file: `_managed_transaction` (`src/toron/space.py` lines 228-249) with
`transaction_begin`, `transaction_commit` and `transaction_rollback` (`src/toron/dal1/data_connector.py` lines 344-359)
on connections without implicit transactions (lines 118-133), and SQLite's locks on a file in rollback-journal mode
(https://www.sqlite.org/lockingv3.html; the code never asks for another mode).
-/
import Verif.Model.Store.Ops
import Verif.Model.Store.Read

namespace Toron.Space

open Toron.Selectors (PyStr Sel CaseMap)

/-- The lock a connection holds on the file. PENDING and EXCLUSIVE are held only during COMMIT, which is one step
here. -/
inductive Lock where
  | unlocked | shared | reserved
  deriving DecidableEq, Repr

/-- One SQL statement of a transaction, together with the Python code that leads to it: from the local variables and
the tables as the connection sees them. -/
structure Stmt (σ : Type) where
  writes : Bool
  exec : σ → Store → Except Err (σ × Store)

/-- A call of a public method that runs in one transaction, statement by statement. -/
structure Job (σ : Type) where
  op : Op
  start : σ
  stmts : List (Stmt σ)

/-- Statements one after the other. -/
def runStmts {σ : Type} : List (Stmt σ) → σ → Store → Except Err (σ × Store)
  | [], v, s => .ok (v, s)
  | st :: rest, v, s =>
    match st.exec v s with
    | .ok (v', s') => runStmts rest v' s'
    | .error e => .error e

/-- A transaction in progress. `view` is what the connection sees, including its own uncommitted changes (they are in
its page cache and in the journal, nobody else sees them). -/
structure OpenTx (σ : Type) where
  job : Job σ
  lock : Lock
  vars : σ
  view : Store
  todo : List (Stmt σ)

/-- A process: the calls it will make, and the transaction it is in. -/
structure Process (σ : Type) where
  jobs : List (Job σ)
  cur : Option (OpenTx σ)

/-- The file, the processes, and the calls that have returned (process, call, whether it was successful). -/
structure World (σ : Type) where
  db : Store
  procs : List (Process σ)
  log : List (Nat × Op × Bool)

/-- The lock a process holds. -/
def Process.lock {σ : Type} (p : Process σ) : Lock :=
  match p.cur with
  | some o => o.lock
  | none => .unlocked

/-- Another process holds a RESERVED lock. -/
def World.otherWrites {σ : Type} (w : World σ) (i : Nat) : Bool :=
  (w.procs.eraseIdx i).any fun p => p.lock == .reserved

/-- Another process holds some lock. -/
def World.otherLocked {σ : Type} (w : World σ) (i : Nat) : Bool :=
  (w.procs.eraseIdx i).any fun p => p.lock != .unlocked

/-- The call returns: the locks are released. -/
def World.finish {σ : Type} (w : World σ) (i : Nat) (p : Process σ) (op : Op) (ok : Bool) (db : Store) : World σ :=
  ⟨db, w.procs.set i { p with cur := none }, w.log ++ [(i, op, ok)]⟩

/-- COMMIT (`space.py` line 242). After changes it needs an EXCLUSIVE lock, that is, nobody else may hold a lock; the
deferred foreign keys are checked; if that fails, the transaction is rolled back (line 244). -/
def World.commit {σ : Type} (w : World σ) (i : Nat) (p : Process σ) (o : OpenTx σ) : World σ :=
  if o.lock = .reserved then
    if w.otherLocked i then w
    else if fkOk o.view then w.finish i p o.job.op true o.view
    else w.finish i p o.job.op false w.db
  else w.finish i p o.job.op true w.db

/-- The next statement. Reading needs a SHARED lock, which is available between commits; the first statement fixes
what the connection sees. Writing needs the RESERVED lock, which only one connection can hold. An error ends the
transaction with a rollback (`space.py` lines 243-245). -/
def World.execute {σ : Type} (w : World σ) (i : Nat) (p : Process σ) (o : OpenTx σ) (st : Stmt σ)
    (rest : List (Stmt σ)) : World σ :=
  if st.writes && o.lock != .reserved && w.otherWrites i then w
  else match st.exec o.vars (if o.lock = .unlocked then w.db else o.view) with
    | .error _ => w.finish i p o.job.op false w.db
    | .ok (v, s) =>
      { w with procs := w.procs.set i { p with cur := some { o with
          lock := if st.writes || o.lock == .reserved then .reserved else .shared
          vars := v, view := s, todo := rest } } }

/-- What the scheduler decides: which process moves, and whether it gives up (the busy handler timed out, the user
interrupted it, or the process was killed: the transaction is rolled back, `space.py` lines 246-249). A process that
has to wait does not move. -/
def World.move {σ : Type} (w : World σ) (a : Nat × Bool) : World σ :=
  match w.procs[a.1]? with
  | none => w
  | some p =>
    match p.cur with
    | none =>
      match p.jobs with
      | [] => w
      | j :: js => { w with procs := w.procs.set a.1 ⟨js, some ⟨j, .unlocked, j.start, w.db, j.stmts⟩⟩ }
    | some o =>
      if a.2 then w.finish a.1 p o.job.op false w.db
      else match o.todo with
        | [] => w.commit a.1 p o
        | st :: rest => w.execute a.1 p o st rest

/-- A schedule. -/
def World.play {σ : Type} (w : World σ) (sched : List (Nat × Bool)) : World σ := sched.foldl World.move w

/-! ### Calls that are not one transaction -/

/-- One deletion of `delete_unmatched_quantities` (`space.py` lines 2750-2751), after what others do before it. -/
def deleteAmongStep (others : Nat → List Op) (acc : Store × Except Err Unit) (l : LocRec × Nat) : Store × Except Err Unit :=
  match acc.2 with
  | .error _ => acc
  | .ok _ => runTx (locDelete l.1.id) (run (others l.2) acc.1)

/-- `delete_unmatched_quantities` (`space.py` lines 2731-2760) while others work on the same file: the locations are
found at the start; before each deletion the others may change the file. `others` gives what they do before the deletion of each location (by its place in the list), and before the orphaned groups are looked for. -/
def deleteUnmatchedAmong (others : Nat → List Op) (s : Store) : Store × Except Err Unit :=
  let found := s.nonmatchingLocs
  match found.zipIdx.foldl (deleteAmongStep others) (s, .ok ()) with
  | (s', .error e) => (s', .error e)
  | (s', .ok _) =>
    let s' := run (others found.length) s'
    runAuto ((s'.agroups.filter fun g => !s'.quants.any fun q => q.ag == g.id).map fun g => agDelete g.id) s'

/-- `_disaggregate` (`space.py` lines 2762-2874) while others work on the same file: there is no transaction; the
quantities of one combination are read by one query whose lock ends with it, so others may commit before each. `others`
gives what they do before each combination is read. Simplified: the domain, the default group and the combinations are
read at once at the start, and the selectors of the weight groups with the quantities. -/
def Store.disaggregateAmong (s : Store) (cm : CaseMap) (filter : Option (List Nat)) (quantize : Bool)
    (others : Nat → List Op) : Except Err (List (Nat × Attrs × ℚ)) := do
  let dflt ← s.getDefaultWG
  if !dflt.complete then .error (.runtimeError "default weight group is not complete")
  else match s.structsSorted with
    | [] => .error (.indexError "list index out of range")
    | first :: rest =>
      flatMapE (fun st : StructRec × Nat =>
        let t := run ((List.range (st.2 + 1)).flatMap others) s
        flatMapE (fun lq => t.disaggOne cm dflt.id (granEq st.1.gran first.gran) quantize lq.1 lq.2)
          ((t.quantsByBits st.1.bits).filter fun lq => match filter with
            | none => true
            | some ids => ids.contains lq.2.ag)) ((first :: rest).zipIdx)

end Toron.Space
