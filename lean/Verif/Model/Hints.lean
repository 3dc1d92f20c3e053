/-
Model of `normalize_filename_hints` (`src/toron/graph.py` lines 110-146): what `load_mapping` records as the names of the two
files. The functions of `os.path` are those for POSIX.
-/
import Verif.Model.Files

namespace Toron.Files

open Toron.Selectors (PyStr endsWith)
open Toron.Space (toronExt)

/-- `'/'.join(...)`, and `os.path.join(...)` of names that do not begin with a slash. -/
def joinAll (cs : List PyStr) : PyStr := List.intercalate ['/'] cs

/-- `str.replace('\\', '/')` (`graph.py` lines 122-123). -/
def slashes (p : PyStr) : PyStr := p.map fun c => if c = '\\' then '/' else c

/-- The components that `os.path.commonpath` compares. -/
def shownComps (p : PyStr) : List PyStr := (comps p).filter fun c => decide (c ≠ [] ∧ c ≠ ['.'])

/-- The longest common beginning, for `os.path.commonpath` and `os.path.commonprefix` of two lists. -/
def commonStart : List PyStr → List PyStr → List PyStr
  | a :: as, b :: bs => if a = b then a :: commonStart as bs else []
  | _, _ => []

/-- `os.path.commonpath` of two paths. -/
def commonPath (p q : PyStr) : Except Err PyStr :=
  if decide (p.head? = some '/') = decide (q.head? = some '/') then
    .ok ((if p.head? = some '/' then ['/'] else []) ++ joinAll (commonStart (shownComps p) (shownComps q)))
  else .error (.valueError "Can't mix absolute and relative paths")

/-- `os.path.relpath`. -/
def relPath (cwd : Key) (path start : PyStr) : Except Err PyStr :=
  if path = [] then .error (.valueError "no path specified")
  else
    let s := absKey cwd start
    let p := absKey cwd path
    let i := (commonStart s p).length
    let rel := List.replicate (s.length - i) ['.', '.'] ++ p.drop i
    .ok (if rel = [] then ['.'] else joinAll rel)

/-- Without the common directory (`graph.py` lines 125-140). If the second call of `relpath` raised, the first path would be
changed already; it cannot raise, as a path with a common beginning is not empty. -/
def withoutCommon (cwd : Key) (p q : PyStr) : PyStr × PyStr :=
  match commonPath p q with
  | .error _ => (p, q)
  | .ok c =>
    if c = [] then (p, q)
    else match relPath cwd p c, relPath cwd q c with
      | .ok p', .ok q' => (p', q')
      | _, _ => (p, q)

/-- `str.removesuffix('.toron')`, and `or None` (`graph.py` lines 142-146). -/
def shortHint (p : PyStr) : Option PyStr :=
  let h := if endsWith p toronExt then p.take (p.length - 6) else p
  if h = [] then none else some h

/-- `normalize_filename_hints` (`graph.py` lines 110-146). -/
def filenameHints (cwd : Key) (left right : Option PyStr) : Option PyStr × Option PyStr :=
  let r := withoutCommon cwd (slashes (left.getD [])) (slashes (right.getD []))
  (shortHint r.1, shortHint r.2)

end Toron.Files
