/-
C21, C22: ids and labels of index records over all histories.
-/
import Verif.Lemmas.Store.Inv2
import Verif.Demo

namespace Toron.Space

open Toron.Selectors (PyStr)

/-- In every reachable dataspace the ids of index records are distinct. -/
theorem C21_ids_distinct {s : Store} (h : Reachable s) : s.ids.Nodup := h.indexInv.idsNodup

/-- In every reachable dataspace the undefined record is present: id 0 and every label a dash. As it is
there before and after every call, no call changes or deletes it. -/
theorem C21_undefined_permanent {s : Store} (h : Reachable s) :
    ∃ r ∈ s.index, r.id = 0 ∧ r.labels = List.replicate s.cols.length ['-'] :=
  ⟨_, h.indexInv.undef, rfl, rfl⟩

/-- It is the only record with id 0. -/
theorem C21_undefined_unique {s : Store} (h : Reachable s) {r : IndexRec} (hr : r ∈ s.index)
    (h0 : r.id = 0) : r = s.undefinedRecord :=
  List.inj_on_of_nodup_map h.indexInv.idsNodup hr h.indexInv.undef h0

/-- An id that appears with a call (successful or not) was not the id of any record at any earlier time in
the history. -/
theorem C21_ids_never_reused (uid : PyStr) (ops : List Op) (op : Op) (r : IndexRec)
    (hr : r ∈ (step op (run ops (Store.new uid))).1.index)
    (hnew : r.id ∉ (run ops (Store.new uid)).ids) :
    ∀ before, before <+: ops → r.id ∉ (run before (Store.new uid)).ids := by
  rintro before ⟨rest, rfl⟩ hmem
  have hmono : ∀ (l : List Op) (s : Store), s.seq ≤ (run l s).seq := by
    intro l
    induction l with
    | nil => intro s; exact le_refl _
    | cons o os ih =>
      intro s
      exact (IdsFresh.of_steps (step_steps o s)).1.trans (ih _)
  have hinv := (Reachable.indexInv ⟨uid, before, rfl⟩ : IndexInv (run before (Store.new uid)))
  obtain ⟨x, hx, hxe⟩ := List.mem_map.1 hmem
  have h1 := hinv.idsLe x hx
  have h2 := hmono rest (run before (Store.new uid))
  have h3 := (IdsFresh.of_steps (step_steps op (run (before ++ rest) (Store.new uid)))).2 r hr
  rcases h3 with ⟨y, hy, hye⟩ | hlt
  · exact hnew (List.mem_map.2 ⟨y, hy, hye⟩)
  · have : run (before ++ rest) (Store.new uid) = run rest (run before (Store.new uid)) := by
      unfold run; rw [List.foldl_append]
    rw [this] at hlt
    have hxe' : x.id = r.id := hxe
    omega

/-- The history of `Demo` followed by a deletion of the last record and an insertion: the id 3 is not
given again. -/
example :
    let s := run (Demo.ops ++ [.deleteIndex (.rows [(3, [Demo.ly, Demo.l1])]),
      .insertIndex none [] .abort .abort [⟨none, some [Demo.ly, Demo.l2], []⟩]]) (Store.new ['u'])
    s.index = [⟨0, [['-'], ['-']]⟩, ⟨1, [Demo.lx, Demo.l1]⟩, ⟨2, [Demo.lx, Demo.l2]⟩,
      ⟨4, [Demo.ly, Demo.l2]⟩] := by decide +kernel

/-- In every reachable dataspace no two index records have the same labels. -/
theorem C22_labels_unique {s : Store} (h : Reachable s) {r r' : IndexRec} (hr : r ∈ s.index)
    (hr' : r' ∈ s.index) (hl : r.labels = r'.labels) : r = r' :=
  List.inj_on_of_nodup_map h.indexInv.labels hr hr' hl

/-- In every reachable dataspace every record has one label for each column, and none is empty. -/
theorem C22_labels_nonempty {s : Store} (h : Reachable s) {r : IndexRec} (hr : r ∈ s.index) :
    r.labels.length = s.cols.length ∧ [] ∉ r.labels :=
  ⟨h.indexInv.lens r hr, h.indexInv.nonempty r hr⟩

example : Reachable Demo.store ∧ Demo.store.ids = [0, 1, 2, 3] :=
  ⟨Demo.reachable, by decide +kernel⟩

end Toron.Space
