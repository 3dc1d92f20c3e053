/-
A concrete history of a dataspace, used beside the theorems to show that their hypotheses can be met.
-/
import Verif.Model.Store.Read
import Verif.Model.Store.Ops
import Verif.Spec.Store

namespace Toron.Space.Demo

open Toron.Selectors (PyStr Sel)

/-- Column names, labels and other text. -/
def colA : PyStr := ['A']
def colB : PyStr := ['B']
def lx : PyStr := ['x']
def ly : PyStr := ['y']
def l1 : PyStr := ['1']
def l2 : PyStr := ['2']
def wname : PyStr := ['w']
def other : PyStr := ['o', 't', 'h', 'e', 'r']

/-- Two columns, the partition {A}, a weight group, three index records with weights, two quantities, a link
with mappings. -/
def ops : List Op :=
  [.addIndexColumns [colA, colB],
   .addPartitionDef {colA},
   .addWeightGroup wname [] false none,
   .insertIndex none [wname] .abort .abort
     [⟨none, some [lx, l1], [some 3]⟩, ⟨none, some [lx, l2], [some 1]⟩, ⟨none, some [ly, l1], [some 5]⟩],
   .setRegisteredAttributes [['c']],
   .insertQuantities2 false false .abort
     [⟨none, [lx, []], [(['c'], ['m'])], 100⟩, ⟨none, [ly, l1], [(['c'], ['m'])], 7⟩],
   .addLink other ['l'] none [] none none false,
   .insertMappings2 other none
     [⟨1, 10, 1, [], some [0xC0#8]⟩, ⟨1, 30, 2, [], some [0xC0#8]⟩, ⟨2, 30, 3, [], some [0xC0#8]⟩]]

/-- The dataspace after this history. -/
def store : Store := run ops (Store.new ['u'])

theorem reachable : Reachable store := ⟨['u'], ops, rfl⟩

theorem reachableFk : ReachableFk store :=
  ⟨['u'], ops, by simp [ops], rfl⟩

/-- Every call of the history succeeded, and the dataspace is not trivial. -/
theorem index_eq : store.index = [⟨0, [['-'], ['-']]⟩, ⟨1, [lx, l1]⟩, ⟨2, [lx, l2]⟩, ⟨3, [ly, l1]⟩] := by
  decide +kernel

theorem weights_eq : store.weights = [⟨1, 1, 1, 3⟩, ⟨2, 1, 2, 1⟩, ⟨3, 1, 3, 5⟩] := by decide +kernel

theorem maps_eq : store.maps =
    [⟨1, 1, 1, 1, [0xC0#8], 10, some (1/4)⟩, ⟨2, 1, 1, 2, [0xC0#8], 30, some (3/4)⟩,
     ⟨3, 1, 2, 3, [0xC0#8], 30, some 1⟩] := by decide +kernel

theorem quants_eq : store.quants = [⟨1, 1, 1, 100⟩, ⟨2, 2, 1, 7⟩] := by decide +kernel

end Toron.Space.Demo
