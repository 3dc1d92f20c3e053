/-
Model of dataspaces and their files: `DataSpace()`, `read_file`, `bind_file` and `to_file` (`src/toron/space.py` lines
160-198, 3011-3082), `DataConnector` (`src/toron/dal1/data_connector.py` lines 264-584) and `process_backup_option`
(`src/toron/cli/common.py` lines 86-111), with several dataspaces open at the same time, on POSIX.

A file is named by the components of its absolute path; symbolic links, and paths that end with a slash, are not
modelled. Each call on a dataspace runs to its end before the next one begins; saving is one step (crashes: C44).
Files of older versions are left out (C45). The journal that SQLite writes next to a file is not modelled.
-/
import Verif.Model.Store.Ops

namespace Toron.Files

open Toron.Selectors (PyStr)
open Toron.Space (Store)

/-! ### Paths -/

/-- The components of an absolute path. -/
abbrev Key := List PyStr

/-- `str.split('/')`. -/
def comps : PyStr → List PyStr
  | [] => [[]]
  | c :: t => if c = '/' then [] :: comps t else
    match comps t with
    | x :: xs => (c :: x) :: xs
    | [] => [[c]]

/-- One component in `os.path.normpath` of an absolute path. -/
def enter (k : Key) (c : PyStr) : Key :=
  if c = [] ∨ c = ['.'] then k else if c = ['.', '.'] then k.dropLast else k ++ [c]

/-- `os.path.abspath`. -/
def absKey (cwd : Key) (path : PyStr) : Key :=
  (comps path).foldl enter (if path.head? = some '/' then [] else cwd)

/-- The second part of `os.path.split`. -/
def basename (path : PyStr) : PyStr := (path.reverse.takeWhile fun c => c ≠ '/').reverse

/-- The first part of `os.path.split`, `os.path.dirname`. -/
def dirname (path : PyStr) : PyStr :=
  let head := path.reverse.dropWhile fun c => c ≠ '/'
  let stripped := head.dropWhile fun c => c = '/'
  (if stripped = [] then head else stripped).reverse

/-- `os.path.join(dir, name)` for a name that does not begin with a slash. -/
def join (dir name : PyStr) : PyStr :=
  if dir = [] ∨ dir.getLast? = some '/' then dir ++ name else dir ++ '/' :: name

/-- `f'backup-{name}'`. -/
def backupName (name : PyStr) : PyStr := ['b', 'a', 'c', 'k', 'u', 'p', '-'] ++ name

/-- The path of a backup (`cli/common.py` lines 109-110). -/
def backupPath (hint : PyStr) : PyStr :=
  join (dirname hint) (backupName (basename hint))

/-! ### The world -/

/-- `'ro'`, `'rw'`, `'rwc'`. -/
inductive Mode where
  | ro | rw | rwc
  deriving DecidableEq, Repr

/-- What is in a file. -/
inductive Content where
  | space (s : Store)
  | other

/-- A file, and whether it may be written. -/
structure File where
  content : Content
  writable : Bool

/-- Where the data of a dataspace is: in memory (or in a temporary file that nobody else knows, with
`cache_to_drive`), or in a file that every call opens again (`acquire_connection`, `data_connector.py` lines 315-329). -/
inductive Place where
  | memory (s : Store)
  | bound (k : Key) (mode : Mode)

/-- A `DataSpace` object: the identity that was read when it was made (`_unique_id`), the place, the path hint. -/
structure Handle where
  uid : PyStr
  place : Place
  hint : Option PyStr

/-- The files, the directories with their write permission, the working directory, and the dataspaces that were made. -/
structure World where
  files : Key → Option File
  dirs : Key → Option Bool
  cwd : Key
  spaces : List Handle

/-- Exceptions. -/
inductive FileErr where
  | notFound
  | permission
  | notToron
  | isDirectory
  | readonly
  | noHint
  | noSuchSpace
  | call (e : Err)
  deriving DecidableEq, Repr

/-- A connection to a file does not check foreign keys, see `Op.reopen`. -/
def closed (s : Store) : Store := { s with fk := false }

/-- The dataspace in a file. -/
def World.stored (w : World) (k : Key) : Option Store :=
  match w.files k with
  | some ⟨.space s, _⟩ => some s
  | _ => none

/-- The data that a `DataSpace` object works on. -/
def World.shown (w : World) (h : Handle) : Option Store :=
  match h.place with
  | .memory s => some s
  | .bound k _ => w.stored k

/-- A file is written. -/
def World.put (w : World) (k : Key) (f : File) : World :=
  { w with files := fun x => if x = k then some f else w.files x }

/-- Another `DataSpace` object. -/
def World.add (w : World) (h : Handle) : World := { w with spaces := w.spaces ++ [h] }

/-- A `DataSpace` object changes. -/
def World.set (w : World) (i : Nat) (h : Handle) : World := { w with spaces := w.spaces.set i h }

/-! ### Calls -/

/-- `DataSpace()`, `DataSpace(cache_to_drive=True)` (`data_connector.py` lines 265-308). -/
def World.create (w : World) (uid : PyStr) (cache : Bool) : World :=
  w.add ⟨uid, .memory (if cache then closed (Store.new uid) else Store.new uid), none⟩

/-- `read_file` (`space.py` lines 3011-3025, `data_connector.py` lines 465-527). -/
def World.readFile (w : World) (path : PyStr) : World × Except FileErr Unit :=
  match w.files (absKey w.cwd path) with
  | none => (w, .error .notFound)
  | some ⟨.other, _⟩ => (w, .error .notToron)
  | some ⟨.space s, _⟩ => (w.add ⟨s.uid, .memory (closed s), some path⟩, .ok ())

/-- `bind_file` (`space.py` lines 3028-3082, `data_connector.py` lines 529-584); `uid` is the identity that a new file
gets. `os.access('', os.W_OK)` is false. -/
def World.bindFile (w : World) (path : PyStr) (mode : Mode) (uid : PyStr) : World × Except FileErr Unit :=
  let k := absKey w.cwd path
  match w.files k with
  | some f =>
    if mode ≠ .ro ∧ f.writable = false then (w, .error .permission)
    else match f.content with
      | .other => (w, .error .notToron)
      | .space s => (w.add ⟨s.uid, .bound k mode, some path⟩, .ok ())
  | none =>
    if mode ≠ .rwc then (w, .error .notFound)
    else if dirname path = [] then (w, .error .permission)
    else if w.dirs (absKey w.cwd (dirname path)) ≠ some true then (w, .error .permission)
    else ((w.put k ⟨.space (closed (Store.new uid)), true⟩).add ⟨uid, .bound k mode, some path⟩, .ok ())

/-- A call that changes the dataspace. With a file opened read-only SQLite refuses to write; it is simplified that every
such call raises. -/
def World.call (w : World) (i : Nat) (op : Space.Op) : World × Except FileErr Unit :=
  match w.spaces[i]? with
  | none => (w, .error .noSuchSpace)
  | some h =>
    match h.place with
    | .memory s =>
      (w.set i { h with place := .memory (Space.step op s).1 }, (Space.step op s).2.mapError .call)
    | .bound k mode =>
      match w.files k with
      | some ⟨.space s, wr⟩ =>
        if mode = .ro then (w, .error .readonly)
        else (w.put k ⟨.space (Space.step op s).1, wr⟩, (Space.step op s).2.mapError .call)
      | _ => (w, .error .notFound)

/-- `to_file` (`space.py` lines 191-198, `data_connector.py` lines 360-463). -/
def World.save (w : World) (i : Nat) (path : PyStr) : World × Except FileErr Unit :=
  let k := absKey w.cwd path
  match w.spaces[i]? with
  | none => (w, .error .noSuchSpace)
  | some h =>
    if w.dirs k.dropLast ≠ some true then (w, .error .permission)
    else if (w.files k).any fun f => !f.writable then (w, .error .permission)
    else match w.shown h with
      | none => (w, .error .notFound)
      | some s =>
        if (w.dirs k).isSome then (w, .error .isDirectory)
        else ((w.put k ⟨.space (closed s), true⟩).set i
          { h with hint := if h.hint.getD [] = [] then some path else h.hint }, .ok ())

/-- `process_backup_option` with the option set (`cli/common.py` lines 102-111). -/
def World.backup (w : World) : List Nat → World × Except FileErr Unit
  | [] => (w, .ok ())
  | i :: is =>
    match w.spaces[i]? with
    | none => (w, .error .noSuchSpace)
    | some h =>
      match h.hint with
      | none => (w, .error .noHint)
      | some hint =>
        match w.save i (backupPath hint) with
        | (w', .ok ()) => w'.backup is
        | (w', .error e) => (w', .error e)

/-- What a program can do. -/
inductive Act where
  | create (uid : PyStr) (cache : Bool)
  | read (path : PyStr)
  | bind (path : PyStr) (mode : Mode) (uid : PyStr)
  | call (i : Nat) (op : Space.Op)
  | save (i : Nat) (path : PyStr)
  | setHint (i : Nat) (path : PyStr)
  | backup (is : List Nat)
  | chdir (path : PyStr)

/-- The effect of an action. -/
def World.act (w : World) : Act → World × Except FileErr Unit
  | .create uid cache => (w.create uid cache, .ok ())
  | .read path => w.readFile path
  | .bind path mode uid => w.bindFile path mode uid
  | .call i op => w.call i op
  | .save i path => w.save i path
  | .setHint i path =>
    match w.spaces[i]? with
    | none => (w, .error .noSuchSpace)
    | some h => (w.set i { h with hint := some path }, .ok ())
  | .backup is => w.backup is
  | .chdir path =>
    if (w.dirs (absKey w.cwd path)).isSome then ({ w with cwd := absKey w.cwd path }, .ok ())
    else (w, .error .notFound)

/-- A program. -/
def World.run (w : World) (acts : List Act) : World := acts.foldl (fun w a => (w.act a).1) w

end Toron.Files
