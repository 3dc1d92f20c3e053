/-
What the commands that edit one file are for, in terms of the calls of the programming interface.
-/
import Verif.Model.Command
import Verif.Spec.Files

namespace Toron.Files

open Toron.Selectors (PyStr Sel)
open Toron.Space (Store Op step)

/-- The call succeeds on `s` and gives `s'`. -/
def Gives (op : Op) (s s' : Store) : Prop := step op s = (s', .ok ())

/-- What the command is meant to do to the dataspace. -/
inductive Edit.Meant : Edit → Store → Store → Prop
  | addLabel {names s s'} : Gives (.addIndexColumns names) s s' → Meant (.addLabel names) s s'
  | addWeight {name sels s s'} : Gives (.addWeightGroup name sels false none) s s' →
      Meant (.addWeight name sels false) s s'
  | addDefault {name sels s s'} : Gives (.addWeightGroup name sels false (some true)) s s' →
      Meant (.addWeight name sels true) s s'
  | addPartition {names s s'} {d : Finset PyStr} : (∀ n, n ∈ d ↔ n ∈ names) → Gives (.addPartitionDef d) s s' →
      Meant (.addPartition names) s s'
  | addAttribute {names s s'} : (∃ n ∈ names, n ∉ s.regAttrs.getD []) →
      Gives (.setRegisteredAttributes (s.regAttrs.getD [] ++ names.filter fun n => n ∉ s.regAttrs.getD [])) s s' →
      Meant (.addAttribute names) s s'
  | noAttribute {names s} : (∀ n ∈ names, n ∈ s.regAttrs.getD []) → Meant (.addAttribute names) s s
  | renameLabel {old new s s'} : Gives (.renameIndexColumns [(old, new)]) s s' → Meant (.renameLabel old new) s s'
  | renameDomain {d s} : Meant (.renameDomain d) s { s with domain := some d }
  | labelLeft {l s s'} {n : Nat} : n ≠ 0 → Gives (.changeLabelOrder l (-(n : Int))) s s' → Meant (.updateLabel l n 0) s s'
  | labelRight {l s s'} {n : Nat} : n ≠ 0 → Gives (.changeLabelOrder l (n : Int)) s s' → Meant (.updateLabel l 0 n) s s'
  | attrLeft {a s s'} {n : Nat} : n ≠ 0 → Gives (.changeAttributeOrder a (-(n : Int))) s s' → Meant (.updateAttribute a n 0) s s'
  | attrRight {a s s'} {n : Nat} : n ≠ 0 → Gives (.changeAttributeOrder a (n : Int)) s s' → Meant (.updateAttribute a 0 n) s s'
  | updateWeight {name b f d s g} : g ∈ s.wgroups → g.name = name →
      Meant (.updateWeight name b f d) s { s with
        wgroups := s.wgroups.map fun x => if x.name = name then { x with selectors := (f.getD id) x.selectors } else x
        defaultWG := if d then some (some g.id) else s.defaultWG }
  | loadIndex {w wc pl pw rows s s'} : Gives (.insertIndex w wc pl pw rows) s s' →
      Meant (.loadIndex w wc pl pw rows) s s'
  | loadQuantities {al ap p rows s s'} : Gives (.insertQuantities2 al ap p rows) s s' →
      Meant (.loadQuantities al ap p rows) s s'

end Toron.Files
