/-
C91: several processes that work on the same file.
-/
import Verif.Lemmas.Store.Concurrent
import Verif.Demo
import Verif.Lemmas.SelectorsEq
import Verif.Spec.Policies
import Verif.Model.Legacy.Concurrent
import Verif.Spec.Legacy

namespace Toron.Space

open Toron.Selectors (PyStr Sel CaseMap asciiCase)

/-- Whatever the processes do and in whatever order their statements are executed, wherever they are interrupted or
killed: the file is what the successful calls make of it one after the other, in the order in which they return, each
as a whole; calls that fail have no effect; and every process makes its calls in its order, none lost, none twice. -/
theorem C91_serializable_partial {σ : Type} {w : World σ} (hw : w.Fresh) (hr : Reachable w.db) (sched : List (Nat × Bool)) :
    Serial w.db (w.play sched).log (w.play sched).db ∧ Reachable (w.play sched).db ∧
      ∀ i, (w.play sched).callsOf i = w.callsOf i := by
  have h := (hw.ok hr).play sched
  exact ⟨h.serial, h.reachable, play_callsOf w sched⟩

/-- A process that has the file for itself is not disturbed by what the others did before: its next call returns, with
the outcome and the effect it has on the file as it is. -/
theorem C91_alone {σ : Type} {w : World σ} (hw : w.Fresh) (hr : Reachable w.db) (sched : List (Nat × Bool)) {i : Nat}
    (ha : (w.play sched).Alone i) {p : Process σ} (hp : (w.play sched).procs[i]? = some p) (hc : p.cur = none) {j : Job σ}
    {js : List (Job σ)} (hj : p.jobs = j :: js) :
    ∃ k ≤ j.stmts.length + 2,
      (w.play (sched ++ List.replicate k (i, false))).log =
        (w.play sched).log ++ [(i, j.op, (step j.op (w.play sched).db).2.toBool)] ∧
      (w.play (sched ++ List.replicate k (i, false))).db = (step j.op (w.play sched).db).1 := by
  have h := (hw.ok hr).play sched
  have hplay : ∀ k, w.play (sched ++ List.replicate k (i, false)) = (w.play sched).play (List.replicate k (i, false)) := by
    intro k
    unfold World.play
    rw [List.foldl_append]
  simp only [hplay]
  generalize w.play sched = w' at *
  have hi := (List.getElem?_eq_some_iff.1 hp).1
  have hmove : w'.move (i, false) = { w' with procs := w'.procs.set i ⟨js, some ⟨j, .unlocked, j.start, w'.db, j.stmts⟩⟩ } := by
    unfold World.move
    rw [hp]
    dsimp only
    rw [hc]
    dsimp only
    rw [hj]
  have hok := h.move (i, false)
  have ha' : (w'.move (i, false)).Alone i := by
    rw [hmove]
    intro k q hk hq
    dsimp only at hq
    rw [List.getElem?_set_ne (Ne.symm hk)] at hq
    exact ha k q hk hq
  obtain ⟨k, hk, h1, h2⟩ := open_finishes (o := ⟨j, .unlocked, j.start, w'.db, j.stmts⟩)
    (p := ⟨js, some ⟨j, .unlocked, j.start, w'.db, j.stmts⟩⟩) j.stmts.length hok ha'
    (by rw [hmove]; exact List.getElem?_set_self hi) rfl rfl
  refine ⟨k + 1, by omega, ?_⟩
  have hp' : w'.play (List.replicate (k + 1) (i, false)) = (w'.move (i, false)).play (List.replicate k (i, false)) := by
    rw [List.replicate_succ]
    rfl
  have hdb : (w'.move (i, false)).db = w'.db := by rw [hmove]
  have hlog : (w'.move (i, false)).log = w'.log := by rw [hmove]
  rw [hp', h1, h2, hdb, hlog]
  exact ⟨rfl, rfl⟩

/-- A call as a statement that reads and one that writes: calls look up what is there before they change it. -/
def Job.readThenWrite (op : Op) (m : M Unit) : Job Unit :=
  ⟨op, (), [⟨false, fun v s => .ok (v, s)⟩, ⟨true, fun _ s => match m s with
    | .ok x => .ok x
    | .error e => .error e⟩]⟩

theorem Job.readThenWrite_faithful {op : Op} {m : M Unit} (h : op.body = some m) : (Job.readThenWrite op m).Faithful where
  reads := by
    intro st hst hw v s v' s' he
    simp only [Job.readThenWrite, List.mem_cons, List.not_mem_nil, or_false] at hst
    rcases hst with rfl | rfl
    · cases he; rfl
    · cases hw
  same := by
    refine ⟨m, h, fun s => ?_⟩
    simp only [Job.readThenWrite, runStmts]
    cases m s with
    | error e => trivial
    | ok x => rfl

/-- Two processes that read and then write can get into each other's way: neither can go on until one of them gives up
(`database is locked`), because transactions start without a lock for writing. Then the other one can commit. -/
theorem C91_mutual_wait {op op' : Op} {m m' : M Unit} {s t : Store} (h : m s = .ok ((), t)) (hfk : fkOk t = true) :
    let w : World Unit := (World.mk s [⟨[.readThenWrite op m], none⟩, ⟨[.readThenWrite op' m'], none⟩] []).play
      [(0, false), (1, false), (0, false), (1, false), (0, false)]
    w.move (0, false) = w ∧ w.move (1, false) = w ∧ w.log = [] ∧
      (w.play [(1, true), (0, false)]).log = [(1, op', false), (0, op, true)] ∧ (w.play [(1, true), (0, false)]).db = t := by
  simp [World.play, World.move, World.execute, World.commit, World.finish, World.otherWrites, World.otherLocked, Process.lock,
    Job.readThenWrite, h, hfk]

/-! ### Calls that are not one transaction -/

namespace Demo

/-- A dataspace with a quantity for labels that match no record, opened from a file. -/
def shared : Store := run [.insertQuantities2 true true .abort [⟨none, [['z'], []], [(['c'], ['m'])], 1⟩], .reopen] store

theorem shared_reachable : Reachable shared := (reachable.step _).step _

/-- What another process does meanwhile: the same, and it loads a quantity for a record. -/
def meanwhile : List Op := [.deleteUnmatchedQuantities,
  .insertQuantities2 false false .abort [⟨none, [lx, l1], [(['c'], ['n'])], 9⟩]]

end Demo

/-- Deleting unmatched quantities is not one transaction: the locations to delete are looked up first, so when another
process meanwhile does the same and then loads a quantity for an existing record, its location may get the id of a
deleted one, and the quantity is lost. It is there if the calls are made one after the other, in whatever order. -/
theorem C91_unmatched_violated : ∃ s : Store, ∃ others : List Op, Reachable s ∧
    (step .deleteUnmatchedQuantities s).2 = .ok () ∧
    (deleteUnmatchedAmong (fun n => if n = 0 then others else []) s).2 = .ok () ∧
    ∃ a b : Op, others = [a, b] ∧ (step b (step a s).1).2 = .ok () ∧
    ∃ labels attrs x, (∃ r ∈ s.index, r.labels = labels) ∧
      (∀ ops ∈ [[.deleteUnmatchedQuantities, a, b], [a, .deleteUnmatchedQuantities, b],
        [a, b, .deleteUnmatchedQuantities]], (run ops s).HasQuantity labels attrs x) ∧
      ¬ (deleteUnmatchedAmong (fun n => if n = 0 then others else []) s).1.HasQuantity labels attrs x := by
  refine ⟨Demo.shared, Demo.meanwhile, Demo.shared_reachable, by decide +kernel, by decide +kernel, _, _, rfl,
    by decide +kernel, [Demo.lx, Demo.l1], [(['c'], ['n'])], 9, by decide +kernel, ?_, ?_⟩
  · unfold Store.HasQuantity
    decide +kernel
  · unfold Store.HasQuantity
    decide +kernel

/-- When nobody interferes, this is the call. -/
theorem C91_unmatched_undisturbed (s : Store) : deleteUnmatchedAmong (fun _ => []) s = deleteUnmatchedQuantities s := by
  have hfold : ∀ (ls : List LocRec) (n : Nat) (s : Store),
      (ls.zipIdx n).foldl (deleteAmongStep fun _ => []) (s, .ok ()) =
      runAuto (ls.map fun l => locDelete l.id) s := by
    have herr : ∀ (ls : List (LocRec × Nat)) (s : Store) (e : Err), ls.foldl (deleteAmongStep fun _ => []) (s, .error e) = (s, .error e) := by
      intro ls s e
      induction ls with
      | nil => rfl
      | cons l ls ih => exact ih
    intro ls
    induction ls with
    | nil => intro n s; rfl
    | cons l ls ih =>
      intro n s
      rw [List.zipIdx_cons, List.foldl_cons, List.map_cons, runAuto]
      show List.foldl _ (runTx (locDelete l.id) s) _ = _
      rcases hx : runTx (locDelete l.id) s with ⟨s', e | u⟩
      · exact herr _ _ _
      · exact ih (n + 1) s'
  unfold deleteUnmatchedAmong deleteUnmatchedQuantities
  dsimp only
  rw [hfold]
  rcases runAuto (s.nonmatchingLocs.map fun l => locDelete l.id) s with ⟨s', e | u⟩
  · rfl
  · rfl

namespace Demo

/-- What another process does between two queries of a reader: it loads a quantity for a record, and then, in a second
call, one for a district. -/
def between : Nat → List Op := fun n => if n = 1 then
  [.insertQuantities2 false false .abort [⟨none, [ly, l1], [(['c'], ['n'])], 5⟩],
   .insertQuantities2 false false .abort [⟨none, [lx, []], [(['c'], ['n'])], 6⟩]] else []

end Demo

/-- Reading is not one transaction either: while another process makes two calls, a reader may see the effect of the
second and not that of the first. What it reads is the content of the file at no time: the totals at the three times
are 107, 112 and 118, the total read is 113. -/
theorem C91_read_violated : Reachable Demo.store ∧ ∃ a b : Op, Demo.between 1 = [a, b] ∧
    (step a Demo.store).2 = .ok () ∧ (step b (step a Demo.store).1).2 = .ok () ∧
    ((Demo.store.disaggregateAmong asciiCase none false Demo.between).toOption.map fun rows =>
      (rows.map fun x => x.2.2).sum) = some 113 ∧
    ∀ t ∈ [Demo.store, (step a Demo.store).1, (step b (step a Demo.store).1).1],
      ((t.disaggregate asciiCase none false).toOption.map fun rows => (rows.map fun x => x.2.2).sum) ≠ some 113 :=
  ⟨Demo.reachable, _, _, rfl, by decide +kernel, by decide +kernel, by decide +kernel, by decide +kernel⟩

/-- When nobody interferes, this is the call. -/
theorem C91_read_undisturbed (s : Store) (cm : CaseMap) (filter : Option (List Nat)) (quantize : Bool) :
    s.disaggregateAmong cm filter quantize (fun _ => []) = s.disaggregate cm filter quantize := by
  unfold Store.disaggregateAmong Store.disaggregate
  have hrun : ∀ n, run ((List.range n).flatMap fun _ => []) s = s := by
    intro n
    have : ((List.range n).flatMap fun _ => ([] : List Op)) = [] := by simp
    rw [this]
    rfl
  simp only [hrun]
  have hz : ∀ (f : StructRec → Except Err (List (Nat × Attrs × ℚ))) (l : List StructRec) (n : Nat),
      flatMapE (fun st : StructRec × Nat => f st.1) (l.zipIdx n) = flatMapE f l := by
    intro f l
    induction l with
    | nil => intro n; rfl
    | cons x xs ih => intro n; rw [List.zipIdx_cons, flatMapE, flatMapE, ih]
  cases s.getDefaultWG with
  | error e => rfl
  | ok d =>
    simp only [bind, Except.bind]
    by_cases hc : (!d.complete) = true
    · rw [if_pos hc, if_pos hc]
    rw [if_neg hc, if_neg hc]
    cases s.structsSorted with
    | nil => rfl
    | cons first rest =>
      exact hz (fun st => flatMapE (fun lq => s.disaggOne cm d.id (granEq st.gran first.gran) quantize lq.1 lq.2)
          ((s.quantsByBits st.bits).filter fun lq => match filter with
            | none => true
            | some ids => ids.contains lq.2.ag)) (first :: rest) 0

/-! ### Examples -/

namespace Demo

/-- Two processes with two calls each. -/
def twoProcesses : World Unit :=
  ⟨store, [⟨[.readThenWrite (.setDomain ['p']) (setDomain ['p']),
      .readThenWrite (.insertWeights ['g'] .abort []) (insertWeights ['g'] .abort [])], none⟩,
    ⟨[.readThenWrite (.setDomain ['q']) (setDomain ['q']), .readThenWrite (.dropLink other none) (dropLink other none)], none⟩],
    []⟩

theorem twoProcesses_fresh : twoProcesses.Fresh where
  log := rfl
  idle := by simp [twoProcesses]
  jobs := by
    simp only [twoProcesses, List.mem_cons, List.not_mem_nil, or_false, forall_eq_or_imp, forall_eq]
    refine ⟨⟨?_, ?_⟩, ⟨?_, ?_⟩⟩ <;> exact Job.readThenWrite_faithful rfl

theorem twoProcesses_reachable : Reachable twoProcesses.db := by
  dsimp only [twoProcesses]
  exact reachable

/-- A schedule in which the calls overlap: the second process fails once and then succeeds. -/
def overlap : List (Nat × Bool) :=
  [(0, false), (1, false), (0, false), (1, false), (0, false), (1, false), (0, false), (1, true), (0, false),
   (1, false), (0, false), (1, false), (1, false), (1, false)]

example : (twoProcesses.play overlap).log.map (fun x => (x.1, x.2.2)) = [(1, false), (0, true), (1, true)] ∧
    (twoProcesses.play overlap).db.domain = some ['p'] ∧ (twoProcesses.play overlap).db.links = [] := by
  decide +kernel

example : Serial twoProcesses.db (twoProcesses.play overlap).log (twoProcesses.play overlap).db :=
  (C91_serializable_partial twoProcesses_fresh twoProcesses_reachable overlap).1

example : (twoProcesses.play []).Alone 0 ∧ ∃ p, (twoProcesses.play []).procs[0]? = some p ∧ p.cur = none ∧ p.jobs.length = 2 := by
  refine ⟨?_, _, rfl, rfl, rfl⟩
  intro k p _ hp
  exact twoProcesses_fresh.idle p (List.mem_of_getElem? hp)

example : (setDomain ['p'] store).toBool = true := by decide +kernel

end Demo

end Toron.Space

namespace Toron.Legacy

/-- In the legacy class two calls that add partition definitions can overlap, and then the definition of the one that
is written first is lost without notice. One after the other, in either order, both are there. -/
theorem C91_legacy_violated : ∃ n : Node, Reachable n ∧ ∃ d d' : Finset Toron.Selectors.PyStr,
    (∃ m, n.addPartitionDefinitionsAmong [d] (n.run [.addPartitionDefinitions [d']]) = .ok m ∧
      d ∈ m.partDefs.getD [] ∧ d' ∉ m.partDefs.getD []) ∧
    (∀ ops ∈ [[Op.addPartitionDefinitions [d'], .addPartitionDefinitions [d]],
        [.addPartitionDefinitions [d], .addPartitionDefinitions [d']]],
      d ∈ (n.run ops).partDefs.getD [] ∧ d' ∈ (n.run ops).partDefs.getD []) := by
  have key : ∀ {α : Type} {x : Except Err α} {P : α → Prop}, (∃ a ∈ x.toOption, P a) → ∃ a, x = .ok a ∧ P a := by
    intro α x P h
    obtain ⟨a, ha, hp⟩ := h
    cases x with
    | error e => cases ha
    | ok b => cases ha; exact ⟨_, rfl, hp⟩
  refine ⟨Node.new.run [.addIndexColumns [['A'], ['B'], ['C']]], ⟨_, rfl⟩, {['A']}, {['B']}, key ?_, ?_⟩
  · decide +kernel
  · decide +kernel

/-- Nobody in between: the call is the one of the sequential model. -/
example (defs : List (Finset Toron.Selectors.PyStr)) (n : Node) :
    n.addPartitionDefinitionsAmong defs n = n.addPartitionDefinitions defs := rfl

end Toron.Legacy
