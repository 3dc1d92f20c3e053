/-
C29, C30: what the completeness flags of weight groups and links mean.
-/
import Verif.Lemmas.Store.Complete
import Verif.Demo

namespace Toron.Space

open Toron.Selectors (PyStr Sel)

/-- After every history without a call that itself sets a completeness flag to true: a weight group marked
complete has a weight for every index record other than the undefined one. -/
theorem C29_group_complete {s : Store} (h : ReachableUnflagged s) :
    ∀ g ∈ s.wgroups, g.complete = true → s.groupCovers g.id := h.groupsOk

/-- After every such history: a link marked complete reaches every index record other than the undefined
one. -/
theorem C30_link_complete {s : Store} (h : ReachableUnflagged s) :
    ∀ l ∈ s.links, l.complete = true → s.linkReaches l.id := h.linksTrue

/-- The history of `Demo` sets no flag itself, and ends with a complete group and a complete link. -/
example : ReachableUnflagged Demo.store ∧ (∃ g ∈ Demo.store.wgroups, g.complete = true) ∧
    ∃ l ∈ Demo.store.links, l.complete = true :=
  ⟨⟨['u'], Demo.ops, by simp [Demo.ops, Op.setsFlag], rfl⟩, by decide +kernel, by decide +kernel⟩

/-- A longer history: the flags are lost when records are inserted, and regained when the others are deleted
or merged. -/
example : let ops := Demo.ops ++ [.insertIndex none [] .abort .abort [⟨none, some [Demo.ly, Demo.l2], []⟩]]
    let s := run ops (Store.new ['u'])
    let s' := run [.reopen, .updateIndex true [(3, [Demo.ly, Demo.l2])]] s
    s.wgroups.map (·.complete) = [false] ∧ s.links.map (·.complete) = [false] ∧
      s'.wgroups.map (·.complete) = [true] ∧ s'.links.map (·.complete) = [true] ∧ s'.index.length = 4 := by
  decide +kernel

end Toron.Space
