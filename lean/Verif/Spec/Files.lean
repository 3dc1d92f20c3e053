/-
Notions used to state what happens to dataspaces and files.
-/
import Verif.Model.Files

namespace Toron.Files

open Toron.Selectors (PyStr)
open Toron.Space (Store)

/-- A world before the program does anything: no dataspaces, no files with dataspaces. -/
def World.Fresh (w : World) : Prop := w.spaces = [] ∧ ∀ k, w.stored k = none

/-- What programs can make of such worlds. -/
def World.Made (w : World) : Prop := ∃ w0 acts, World.Fresh w0 ∧ w = w0.run acts

/-- The data that the `DataSpace` object number `i` works on. -/
def World.data (w : World) (i : Nat) : Option Store := w.spaces[i]?.bind w.shown

/-- The object works on data in memory. -/
def World.inMemory (w : World) (i : Nat) : Prop := ∃ h s, w.spaces[i]? = some h ∧ h.place = .memory s

/-- The object works on this file, in this mode. -/
def World.boundTo (w : World) (i : Nat) (k : Key) (mode : Mode) : Prop :=
  ∃ h, w.spaces[i]? = some h ∧ h.place = .bound k mode

/-- The same data; connections differ in whether they check foreign keys. -/
def SameData (s t : Store) : Prop := ({ s with fk := false } : Store) = { t with fk := false }

/-- The file that is written as the backup of object `i`. -/
def World.backupKey (w : World) (i : Nat) : Option Key :=
  (w.spaces[i]?.bind (·.hint)).map fun p => absKey w.cwd (backupPath p)

/-- The action may write the file `k`. -/
def World.mayWrite (w : World) (k : Key) : Act → Prop
  | .bind path mode _ => absKey w.cwd path = k ∧ mode = .rwc ∧ w.files k = none
  | .call i _ => w.boundTo i k .rw ∨ w.boundTo i k .rwc
  | .save _ path => absKey w.cwd path = k
  | .backup is => ∃ i ∈ is, w.backupKey i = some k
  | _ => False

end Toron.Files
