/-
C23: the stored fingerprint of the index.
-/
import Verif.Lemmas.Store.Frames
import Verif.Lemmas.Py
import Verif.Demo

namespace Toron.Space

/-- In every reachable dataspace the ids that were hashed into the stored fingerprint are, in ascending
order, exactly the ids of the current index records. (Every call, successful or not, leads from a
reachable dataspace to a reachable dataspace: `step` in `Reachable`.) -/
theorem C23_fingerprint_current {s : Store} (h : Reachable s) :
    s.indexHash.Pairwise (· < ·) ∧ ∀ i, i ∈ s.indexHash ↔ i ∈ s.ids := by
  have he : s.indexHash = sortedBy (fun a b => decide (a ≤ b)) s.ids := h.hashOk
  have hnd : (sortedBy (fun a b => decide (a ≤ b)) s.ids).Nodup :=
    (sortedBy_perm _ _).nodup_iff.2 h.indexInv.idsNodup
  have hle := sortedBy_pairwise (fun a b : Nat => decide (a ≤ b))
    (fun a b c h1 h2 => by simp at *; omega) (fun a b => by simp; omega) s.ids
  refine ⟨?_, fun i => by rw [he]; simp⟩
  rw [he]
  refine (List.pairwise_and_iff.2 ⟨hle, hnd⟩).imp ?_
  intro a b hab
  simp only [decide_eq_true_eq] at hab
  omega

example : Reachable Demo.store ∧ Demo.store.indexHash = [0, 1, 2, 3] :=
  ⟨Demo.reachable, by decide +kernel⟩

/-- Deleting a record and inserting another changes the fingerprint. -/
example : (run (Demo.ops ++ [.deleteIndex (.rows [(3, [Demo.ly, Demo.l1])])])
    (Store.new ['u'])).indexHash = [0, 1, 2] := by decide +kernel

end Toron.Space
