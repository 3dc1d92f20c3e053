/-
Model of `DataConnector.save_to_file` (`src/toron/dal1/data_connector.py` lines 360-463) over a small file
system with caches: what a process sees, and what may be left on the drive after a power failure.

The file system is assumed to behave as POSIX describes: `rename` within a directory is atomic, the
contents of a file are on the drive after `fsync` of the file, and the entries of a directory are on the drive
after `fsync` of the directory. Until then a power failure may leave any of the entries a name had since the last
`fsync` of the directory, and any contents of a file.
-/
import Verif.Py

namespace Toron.Save

/-- The file system as far as one directory is concerned. `α` is the type of file contents. -/
structure FS (α : Type) where
  /-- the entries of the directory: names to inodes -/
  dir : Nat → Option Nat
  /-- the directories since (and including) the one that is certainly on the drive -/
  past : List (Nat → Option Nat)
  /-- the contents of an inode -/
  data : Nat → α
  /-- the contents of an inode are on the drive -/
  synced : Nat → Bool
  /-- the next unused inode -/
  next : Nat

variable {α : Type}

/-- What a process reads from a name. -/
def FS.read (s : FS α) (name : Nat) : Option α := (s.dir name).map s.data

/-- System calls. -/
inductive Act (α : Type) where
  /-- `NamedTemporaryFile(..., delete=False)` (lines 382-388) -/
  | create
  /-- bytes written by SQLite for `VACUUM main INTO` or `con.backup` (lines 414-418, 450-454): the file now
  has these contents -/
  | write (contents : α)
  /-- `xSync` of the temporary file by SQLite (lines 408-413), or `best_effort_fsync(tmp_path)` (lines 428-429) -/
  | sync
  /-- `os.chmod(tmp_path, save_permissions)` (lines 432, 458) -/
  | chmod
  /-- `os.replace(tmp_path, dst_path)` (lines 435, 459) -/
  | replace
  /-- `best_effort_fsync(dst_dirname, isdir=True)` (line 441) -/
  | syncDir

/-- A function with one value replaced. -/
def upd {β : Type} (f : Nat → β) (a : Nat) (b : β) : Nat → β := fun x => if x = a then b else f x

/-- The effect of a system call that succeeds. -/
def FS.act (s : FS α) (dst tmp : Nat) (empty : α) : Act α → FS α
  | .create => { s with dir := upd s.dir tmp (some s.next), past := s.dir :: s.past,
                        data := upd s.data s.next empty, synced := upd s.synced s.next false,
                        next := s.next + 1 }
  | .write c => match s.dir tmp with
    | none => s
    | some i => { s with data := upd s.data i c, synced := upd s.synced i false }
  | .sync => match s.dir tmp with
    | none => s
    | some i => { s with synced := upd s.synced i true }
  | .chmod => s
  | .replace => { s with dir := upd (upd s.dir dst (s.dir tmp)) tmp none, past := s.dir :: s.past }
  | .syncDir => { s with past := [] }

/-- `os.unlink(tmp_path)` (line 462); `false` if there is no such file. -/
def FS.unlink (s : FS α) (tmp : Nat) : FS α × Bool :=
  match s.dir tmp with
  | none => (s, false)
  | some _ => ({ s with dir := upd s.dir tmp none, past := s.dir :: s.past }, true)

/-- The circumstances of a call. `chunks` are the contents that the temporary file has while it is
written, including what a failed `VACUUM INTO` leaves before `con.backup` replaces it; `new` are the complete
contents. -/
structure Env (α : Type) where
  /-- `os.access(dst_dirname, os.W_OK)` (line 376) -/
  dirWritable : Bool
  /-- `os.path.isfile(dst_path) and not os.access(dst_path, os.W_OK)` (line 378) -/
  dstReadOnly : Bool
  /-- the argument `fsync` -/
  fsync : Bool
  /-- directories are not synchronised on Windows (lines 161-173) -/
  windows : Bool
  chunks : List α
  new : α
  /-- contents of an empty file -/
  empty : α

/-- The system calls of a save that succeeds (lines 382-459). With `fsync` the temporary file is
synchronised either by SQLite (3.40 or newer, and by the default setting of a connection that receives a backup) or
explicitly. -/
def Env.program (e : Env α) : List (Act α) :=
  .create :: (e.chunks.map .write ++ .write e.new ::
    (if e.fsync then [.sync, .chmod, .replace] ++ (if e.windows then [] else [.syncDir])
     else [.chmod, .replace]))

/-- How a save stops before a system call. -/
inductive Stop where
  /-- the call raises an `OSError` or a `sqlite3.Error` -/
  | error
  /-- the same, and afterwards `os.unlink` fails too -/
  | errorTwice
  /-- an exception that is not an `Exception` (such as `KeyboardInterrupt`), or the process is killed -/
  | interrupt
  deriving DecidableEq

/-- What the caller gets. -/
inductive Outcome where
  | saved
  /-- the error that made the save fail -/
  | raised
  /-- `FileNotFoundError` from `os.unlink` instead of that error -/
  | notFound
  /-- `OSError` from `os.unlink` instead of that error -/
  | unlinkFailed
  /-- `PermissionError` from the checks -/
  | permission
  /-- no outcome: interrupted -/
  | interrupted
  deriving DecidableEq, Repr

/-- The first `n` system calls. -/
def FS.acts (s : FS α) (dst tmp : Nat) (empty : α) (l : List (Act α)) : FS α :=
  l.foldl (fun s a => s.act dst tmp empty a) s

/-- `save_to_file` (lines 360-463), stopped before the system call number `n` (counted from 0) if `stop` is
`some (n, how)` and the program has such a call. A call that fails has no effect. -/
def save (e : Env α) (dst tmp : Nat) (s : FS α) (stop : Option (Nat × Stop)) : FS α × Outcome :=
  if e.dirWritable = false then (s, .permission)
  else if e.dstReadOnly then (s, .permission)
  else match stop with
    | none => (s.acts dst tmp e.empty e.program, .saved)
    | some (n, how) =>
      if e.program.length ≤ n then (s.acts dst tmp e.empty e.program, .saved)
      else
        let s' := s.acts dst tmp e.empty (e.program.take n)
        match how with
        | .interrupt => (s', .interrupted)
        | .error =>
          -- the creation of the temporary file is not inside the `try` (lines 382-391)
          if n = 0 then (s', .raised)
          else match s'.unlink tmp with
            | (s'', true) => (s'', .raised)
            | (s'', false) => (s'', .notFound)
        | .errorTwice => if n = 0 then (s', .raised) else (s', .unlinkFailed)

/-- A power failure and the next start: every name has one of the entries it had since the directory was
last on the drive, only synchronised files have their contents, and what can be read now is on the drive. -/
def PowerLoss (s s' : FS α) : Prop :=
  (∀ name, ∃ d ∈ s.dir :: s.past, s'.dir name = d name) ∧
  (∀ i, s.synced i = true → s'.data i = s.data i) ∧
  s'.past = [] ∧ (∀ i, s'.synced i = true) ∧ s'.next = s.next

/-- What happens to a directory: saves to the name `dst` with any circumstances and any temporary name that is
not in use, and power failures. The list collects the circumstances of the saves. -/
inductive History (dst : Nat) (s : FS α) : FS α → List (Env α) → Prop where
  | start : History dst s s []
  | save {s1 : FS α} {l : List (Env α)} (h : History dst s s1 l) (e : Env α) (tmp : Nat)
      (stop : Option (Nat × Stop)) (hne : tmp ≠ dst) (hfresh : s1.dir tmp = none) :
      History dst s (Save.save e dst tmp s1 stop).1 (e :: l)
  | power {s1 s2 : FS α} {l : List (Env α)} (h : History dst s s1 l) (hp : PowerLoss s1 s2) :
      History dst s s2 l

end Toron.Save
