/-
What the command `info` writes.
-/
import Verif.Spec.Info
import Verif.Spec.QuantCsv
import Verif.Model.InfoCommand

namespace Toron.Info

open Toron.Selectors (PyStr)
open Toron.Space

/-- Some stored quantity has a value for this attribute. -/
def Loaded (s : Store) (a : PyStr) : Prop := ∃ q ∈ s.quants, ∃ g ∈ s.agroups, g.id = q.ag ∧ ∃ v, (a, v) ∈ g.attrs

/-- A section: a bright title, and below it lines that are indented by two blanks. -/
def sectionLines (st : Style) (title : String) (lines : List PyStr) : List PyStr :=
  (st.bright ++ title.toList ++ ":".toList ++ st.reset) :: lines.map fun l => "  ".toList ++ l

/-- The lines of the report. -/
def reportLines (st : Style) (hr filename : PyStr) (domain : PyStr) (partitions : List PyStr) (weights attributes : PyStr)
    (links : List PyStr) (created : PyStr) : List PyStr :=
  [hr, filename, hr] ++ sectionLines st "domain" [domain] ++ sectionLines st "partitions" partitions ++
    sectionLines st "weights" [weights] ++ sectionLines st "attributes" [attributes] ++
    sectionLines st "incoming links" links ++ sectionLines st "created" [created]

/-- Lines, each with a line break at its end. -/
def asText (lines : List PyStr) : PyStr := lines.flatMap fun l => l ++ "\n".toList

/-- The call registers all attributes that are registered already, and loads no quantities with attributes that are not
registered. -/
def Registering (s : Store) : Op → Prop
  | .setRegisteredAttributes as => ∀ a ∈ s.regAttrs.getD [], a ∈ as
  | .insertQuantities names _ => ∀ a ∈ names, a ∈ s.regAttrs.getD []
  | _ => True

/-- Histories of such calls. -/
def ReachableRegistering (s : Store) : Prop :=
  ∃ uid ops, (∀ pre op post, ops = pre ++ op :: post → Registering (run pre (Store.new uid)) op) ∧
    s = run ops (Store.new uid)

end Toron.Info
