/-
What it means that calls of several processes have the effect of calls one after the other.
-/
import Verif.Model.Concurrent

namespace Toron.Space

/-- The statements of a job carry out its call: statements that only read change nothing, and all of them in a row, on
whatever dataspace, do what the body of the call does. -/
structure Job.Faithful {σ : Type} (j : Job σ) : Prop where
  reads : ∀ st ∈ j.stmts, st.writes = false → ∀ v s v' s', st.exec v s = .ok (v', s') → s' = s
  same : ∃ m, j.op.body = some m ∧ ∀ s,
    match runStmts j.stmts j.start s, m s with
    | .ok x, .ok y => x.2 = y.2
    | .error _, .error _ => True
    | _, _ => False

/-- The log is what happens when the calls are made one after the other: each call that reports success is carried out
completely and with success on the dataspace that the calls before it left, each call that reports failure does
nothing. -/
inductive Serial : Store → List (Nat × Op × Bool) → Store → Prop
  | nil (s : Store) : Serial s [] s
  | done {s s' t : Store} {i : Nat} {op : Op} {rest : List (Nat × Op × Bool)} (h : step op s = (s', .ok ()))
      (hrest : Serial s' rest t) : Serial s ((i, op, true) :: rest) t
  | failed {s t : Store} {i : Nat} {op : Op} {rest : List (Nat × Op × Bool)} (hrest : Serial s rest t) :
      Serial s ((i, op, false) :: rest) t

/-- The calls that process `i` has made, is making and will make, in order. -/
def World.callsOf {σ : Type} (w : World σ) (i : Nat) : List Op :=
  (w.log.filter fun x => x.1 == i).map (·.2.1) ++
    match w.procs[i]? with
    | none => []
    | some p => (p.cur.map fun o => o.job.op).toList ++ p.jobs.map (·.op)

/-- Nothing has happened yet. -/
structure World.Fresh {σ : Type} (w : World σ) : Prop where
  log : w.log = []
  idle : ∀ p ∈ w.procs, p.cur = none
  jobs : ∀ p ∈ w.procs, ∀ j ∈ p.jobs, j.Faithful

/-- The other processes are not in a transaction. -/
def World.Alone {σ : Type} (w : World σ) (i : Nat) : Prop :=
  ∀ k p, k ≠ i → w.procs[k]? = some p → p.cur = none

end Toron.Space
