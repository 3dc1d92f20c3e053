/-
From the outcome of a call to the run of its body.
-/
import Verif.Lemmas.Store.Exact

namespace Toron.Space

theorem call_ok {op : Op} {m : M Unit} {s s' : Store} (h : step op s = (s', .ok ())) (hb : op.body = some m) :
    m s = .ok ((), s') := by
  have := step_ok hb (s := s) (by rw [h])
  rw [h] at this
  exact this

theorem step_fst {op : Op} {s : Store} (h : (step op s).2 = .ok ()) : step op s = ((step op s).1, .ok ()) := by
  rw [← h]

end Toron.Space
