/-
What the summary of a dataspace says.
-/
import Verif.Spec.Columns
import Verif.Spec.Format

namespace Toron.Info

open Toron.Selectors (PyStr)
open Toron.Space

/-- Texts with `, ` in between. -/
def joined (ts : List PyStr) : PyStr := List.intercalate ", ".toList ts

/-- Remarks in parentheses after a blank, nothing if there are none. -/
def remarks (rs : List PyStr) : PyStr := if rs = [] then [] else " (".toList ++ joined rs ++ ")".toList

/-- The text about a weight group. -/
def groupText (isDefault : Bool) (g : WGroup) : PyStr :=
  g.name ++ remarks ((if isDefault then ["default".toList] else []) ++ (if g.complete then [] else ["incomplete".toList]))

/-- The text about a link. -/
def linkText (l : Link) : PyStr :=
  l.name ++ remarks ((if l.isDefault then ["default".toList] else []) ++
    (if l.complete then [] else ["locally incomplete".toList]))

/-- The order of texts by the codes of their characters. -/
def TextLe (a b : PyStr) : Prop := ¬ List.Lex (· < ·) (b.map Char.toNat) (a.map Char.toNat)

/-- The name of the file that a link comes from, or the beginning of the id of its dataspace in brackets. -/
def originText (l : Link) : PyStr :=
  match l.hint with
  | some (c :: t) => c :: t
  | _ => "[".toList ++ l.other.take 7 ++ "]".toList

/-- Histories in which only a weight group that exists is made the default. -/
def ReachableDefaulted (s : Store) : Prop :=
  ∃ uid ops, (∀ pre g post, ops = pre ++ .setDefaultWeightGroup g :: post →
      ∃ w ∈ (run pre (Store.new uid)).wgroups, g = some w.id) ∧
    s = run ops (Store.new uid)

end Toron.Info
