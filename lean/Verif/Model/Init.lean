/-
The command `toron init FILE` (`src/toron/cli/command_init.py`). The command first looks whether the file exists and
saves the new dataspace later; other programs may run in between.
-/
import Verif.Model.Files

namespace Toron.Files

open Toron.Selectors (PyStr isSpace)
open Toron.Space (Store)

/-- The first part of `os.path.splitext(name)` for a name without slashes: without the last dot and what follows it, if
there is a character other than a dot before it. -/
def splitRoot (name : PyStr) : PyStr :=
  match name.reverse.dropWhile fun c => c ≠ '.' with
  | [] => name
  | _ :: r => if r.any fun c => c ≠ '.' then r.reverse else name

/-- `os.path.exists(path)`. -/
def World.pathExists (w : World) (path : PyStr) : Bool :=
  (w.files (absKey w.cwd path)).isSome || (w.dirs (absKey w.cwd path)).isSome

/-- The two checks (`cli/command_init.py` lines 15-21). -/
def World.initAllowed (w : World) (path : PyStr) : Bool :=
  (basename path).any (fun c => !isSpace c) && !w.pathExists path

/-- The domain of the new dataspace (`cli/command_init.py` lines 25-28). -/
def initDomain (path : PyStr) (domain : Option PyStr) : PyStr :=
  if domain.getD [] = [] then splitRoot (basename path) else domain.getD []

/-- `node = DataSpace()`, `node.set_domain(…)`, `node.to_file(…)` (`cli/command_init.py` lines 23-34). -/
def World.initSave (w : World) (path : PyStr) (domain : Option PyStr) (uid : PyStr) : World × Except FileErr Unit :=
  (((w.create uid false).call w.spaces.length (.setDomain (initDomain path domain))).1).save w.spaces.length path

/-- `create_file` (`cli/command_init.py` lines 13-39): the result is the exit code, `true` for OK. `later` is what other
programs do between the check and the saving. -/
def World.init (w : World) (later : List Act) (path : PyStr) (domain : Option PyStr) (uid : PyStr) : World × Bool :=
  if w.initAllowed path then
    match (w.run later).initSave path domain uid with
    | (w', .ok ()) => (w', true)
    | (w', .error _) => (w', false)
  else (w, false)

end Toron.Files
