/-
Invariants of processes that work on the same file.
-/
import Verif.Spec.Concurrent
import Verif.Lemmas.Store.Inv2

namespace Toron.Space

variable {σ : Type}

theorem runStmts_append (a b : List (Stmt σ)) (v : σ) (s : Store) :
    runStmts (a ++ b) v s = match runStmts a v s with
      | .ok (v', s') => runStmts b v' s'
      | .error e => .error e := by
  induction a generalizing v s with
  | nil => rfl
  | cons st rest ih =>
    rw [List.cons_append, runStmts, runStmts]
    cases st.exec v s with
    | error e => rfl
    | ok x => exact ih x.1 x.2

theorem Serial.append {s t u : Store} {a b : List (Nat × Op × Bool)} (h : Serial s a t) (h' : Serial t b u) :
    Serial s (a ++ b) u := by
  induction h with
  | nil => exact h'
  | done h _ ih => exact .done h (ih h')
  | failed _ ih => exact .failed (ih h')

theorem Serial.reachable {s t : Store} {a : List (Nat × Op × Bool)} (h : Serial s a t) (hs : Reachable s) : Reachable t := by
  induction h with
  | nil => exact hs
  | done h _ ih =>
    refine ih ?_
    have := hs.step ‹Op›
    rw [h] at this
    exact this
  | failed _ ih => exact ih hs

/-- A transaction in progress, relative to what is in the file. -/
structure OpenTx.Ok (o : OpenTx σ) (db : Store) : Prop where
  faithful : o.job.Faithful
  fresh : o.lock = .unlocked → o.todo = o.job.stmts ∧ o.vars = o.job.start
  sofar : o.lock ≠ .unlocked → ∃ done, o.job.stmts = done ++ o.todo ∧
    runStmts done o.job.start db = .ok (o.vars, o.view)
  clean : o.lock = .shared → o.view = db

structure World.Ok (w : World σ) (s0 : Store) : Prop where
  open_ok : ∀ p ∈ w.procs, ∀ o, p.cur = some o → o.Ok w.db
  jobs : ∀ p ∈ w.procs, ∀ j ∈ p.jobs, j.Faithful
  reachable : Reachable w.db
  serial : Serial s0 w.log w.db

theorem mem_eraseIdx {α : Type} {l : List α} {i k : Nat} {x : α} (hk : k ≠ i) (h : l[k]? = some x) : x ∈ l.eraseIdx i :=
  List.mem_eraseIdx_iff_getElem?.2 ⟨k, hk, h⟩

/-- A process after a step of another one or its own. -/
theorem mem_set_cases {l : List (Process σ)} {i : Nat} {q p : Process σ} (h : p ∈ l.set i q) :
    p = q ∨ ∃ k, k ≠ i ∧ l[k]? = some p := by
  obtain ⟨k, hk⟩ := List.mem_iff_getElem?.1 h
  by_cases hki : k = i
  · subst hki
    rw [List.getElem?_set_self'] at hk
    cases hl : l[k]? with
    | none => rw [hl] at hk; cases hk
    | some x => rw [hl] at hk; exact .inl (by simpa using hk.symm)
  · rw [List.getElem?_set_ne (Ne.symm hki)] at hk
    exact .inr ⟨k, hki, hk⟩

theorem World.Ok.finish_false {w : World σ} {s0 : Store} (h : w.Ok s0) {i : Nat} {p : Process σ} (hp : w.procs[i]? = some p)
    (op : Op) : (w.finish i p op false w.db).Ok s0 where
  open_ok := by
    intro q hq o ho
    rcases mem_set_cases hq with rfl | ⟨k, _, hk⟩
    · cases ho
    · exact h.open_ok q (List.mem_of_getElem? hk) o ho
  jobs := by
    intro q hq j hj
    rcases mem_set_cases hq with rfl | ⟨k, _, hk⟩
    · exact h.jobs p (List.mem_of_getElem? hp) j hj
    · exact h.jobs q (List.mem_of_getElem? hk) j hj
  reachable := h.reachable
  serial := h.serial.append (.failed (.nil _))

theorem World.Ok.finish_true {w : World σ} {s0 db : Store} (h : w.Ok s0) {i : Nat} {p : Process σ}
    (hp : w.procs[i]? = some p) (op : Op) (hstep : step op w.db = (db, .ok ()))
    (hothers : db = w.db ∨ ∀ k q, k ≠ i → w.procs[k]? = some q → q.lock = .unlocked) :
    (w.finish i p op true db).Ok s0 where
  open_ok := by
    intro q hq o ho
    rcases mem_set_cases hq with rfl | ⟨k, hki, hk⟩
    · cases ho
    · have hq' := h.open_ok q (List.mem_of_getElem? hk) o ho
      rcases hothers with he | hu
      · show o.Ok db
        rw [he]
        exact hq'
      · have hl : o.lock = .unlocked := by
          have := hu k q hki hk
          unfold Process.lock at this
          rw [ho] at this
          exact this
        exact ⟨hq'.faithful, hq'.fresh, fun hn => absurd hl hn, fun hs => by rw [hl] at hs; cases hs⟩
  jobs := by
    intro q hq j hj
    rcases mem_set_cases hq with rfl | ⟨k, _, hk⟩
    · exact h.jobs p (List.mem_of_getElem? hp) j hj
    · exact h.jobs q (List.mem_of_getElem? hk) j hj
  reachable := by
    have := h.reachable.step op
    rw [hstep] at this
    exact this
  serial := h.serial.append (.done hstep (.nil _))

/-- A finished transaction is the call. -/
theorem Job.Faithful.step {j : Job σ} (h : j.Faithful) {s s' : Store} {v : σ} (hrun : runStmts j.stmts j.start s = .ok (v, s')) :
    Space.step j.op s = if fkOk s' then (s', .ok ()) else (s, .error (.integrityError "FOREIGN KEY")) := by
  obtain ⟨m, hm, hs⟩ := h.same
  have := hs s
  rw [hrun] at this
  rw [step_of_body hm]
  unfold runTx
  cases hms : m s with
  | error e => rw [hms] at this; exact this.elim
  | ok y =>
    rw [hms] at this
    obtain ⟨u, t⟩ := y
    dsimp only at this ⊢
    rw [this]

theorem World.Ok.commit {w : World σ} {s0 : Store} (h : w.Ok s0) {i : Nat} {p : Process σ} {o : OpenTx σ}
    (hp : w.procs[i]? = some p) (ho : p.cur = some o) (htodo : o.todo = []) : (w.commit i p o).Ok s0 := by
  have hok := h.open_ok p (List.mem_of_getElem? hp) o ho
  unfold World.commit
  by_cases hl : o.lock = .reserved
  · rw [if_pos hl]
    by_cases hb : w.otherLocked i = true
    · rw [if_pos hb]; exact h
    rw [if_neg hb]
    by_cases hfk : fkOk o.view = true
    · rw [if_pos hfk]
      obtain ⟨done, hd, hrun⟩ := hok.sofar (by rw [hl]; simp)
      rw [htodo, List.append_nil] at hd
      rw [← hd] at hrun
      refine h.finish_true hp _ ?_ (.inr fun k q hk hq => ?_)
      · rw [hok.faithful.step hrun, if_pos hfk]
      · by_contra hne
        exact hb (List.any_eq_true.2 ⟨q, mem_eraseIdx hk hq, by simpa using hne⟩)
    · rw [if_neg hfk]
      exact h.finish_false hp _
  · rw [if_neg hl]
    have hrun : ∃ v, runStmts o.job.stmts o.job.start w.db = .ok (v, w.db) := by
      by_cases hu : o.lock = .unlocked
      · obtain ⟨h1, h2⟩ := hok.fresh hu
        rw [← h1, htodo]
        exact ⟨_, rfl⟩
      · obtain ⟨done, hd, hrun⟩ := hok.sofar hu
        rw [htodo, List.append_nil] at hd
        have hs : o.lock = .shared := by
          cases hx : o.lock with
          | unlocked => exact absurd hx hu
          | shared => rfl
          | reserved => exact absurd hx hl
        rw [hok.clean hs] at hrun
        exact ⟨_, by rw [hd]; exact hrun⟩
    obtain ⟨v, hrun⟩ := hrun
    refine h.finish_true hp _ ?_ (.inl rfl)
    rw [hok.faithful.step hrun, if_pos h.reachable.fkOk]

theorem World.Ok.execute {w : World σ} {s0 : Store} (h : w.Ok s0) {i : Nat} {p : Process σ} {o : OpenTx σ}
    (hp : w.procs[i]? = some p) (ho : p.cur = some o) {st : Stmt σ} {rest : List (Stmt σ)} (htodo : o.todo = st :: rest) :
    (w.execute i p o st rest).Ok s0 := by
  have hok := h.open_ok p (List.mem_of_getElem? hp) o ho
  unfold World.execute
  by_cases hb : (st.writes && o.lock != .reserved && w.otherWrites i) = true
  · rw [if_pos hb]; exact h
  rw [if_neg hb]
  rcases he : st.exec o.vars (if o.lock = .unlocked then w.db else o.view) with e | ⟨v, s⟩
  · exact h.finish_false hp _
  have hsofar : ∃ done, o.job.stmts = done ++ o.todo ∧
      runStmts done o.job.start w.db = .ok (o.vars, if o.lock = .unlocked then w.db else o.view) := by
    by_cases hu : o.lock = .unlocked
    · obtain ⟨h1, h2⟩ := hok.fresh hu
      exact ⟨[], by rw [h1]; rfl, by rw [if_pos hu, h2]; rfl⟩
    · rw [if_neg hu]
      exact hok.sofar hu
  obtain ⟨done, hd, hrun⟩ := hsofar
  have hmem : st ∈ o.job.stmts := by rw [hd, htodo]; simp
  refine ⟨?_, ?_, h.reachable, h.serial⟩
  · intro q hq o' ho'
    rcases mem_set_cases hq with rfl | ⟨k, _, hk⟩
    · cases ho'
      refine ⟨hok.faithful, fun hu => ?_, fun _ => ⟨done ++ [st], ?_, ?_⟩, fun hs => ?_⟩
      · dsimp only at hu
        split at hu <;> cases hu
      · dsimp only
        rw [hd, htodo, List.append_assoc]; rfl
      · dsimp only
        rw [runStmts_append, hrun]
        dsimp only
        rw [runStmts, he]
        rfl
      · dsimp only at hs ⊢
        have hnw : st.writes = false ∧ o.lock ≠ .reserved := by
          split at hs
          · cases hs
          · rename_i hx
            simpa using hx
        have := hok.faithful.reads st hmem hnw.1 _ _ _ _ he
        rw [this]
        by_cases hu : o.lock = .unlocked
        · rw [if_pos hu]
        · rw [if_neg hu]
          refine hok.clean ?_
          cases hx : o.lock with
          | unlocked => exact absurd hx hu
          | shared => rfl
          | reserved => exact absurd hx hnw.2
    · exact h.open_ok q (List.mem_of_getElem? hk) o' ho'
  · intro q hq j hj
    rcases mem_set_cases hq with rfl | ⟨k, _, hk⟩
    · exact h.jobs p (List.mem_of_getElem? hp) j hj
    · exact h.jobs q (List.mem_of_getElem? hk) j hj

theorem World.Ok.move {w : World σ} {s0 : Store} (h : w.Ok s0) (a : Nat × Bool) : (w.move a).Ok s0 := by
  unfold World.move
  cases hp : w.procs[a.1]? with
  | none => exact h
  | some p =>
    dsimp only
    cases hc : p.cur with
    | none =>
      dsimp only
      cases hj : p.jobs with
      | nil => exact h
      | cons j js =>
        dsimp only
        have hjf : ∀ x ∈ p.jobs, x.Faithful := h.jobs p (List.mem_of_getElem? hp)
        rw [hj] at hjf
        refine ⟨?_, ?_, h.reachable, h.serial⟩
        · intro q hq o ho
          rcases mem_set_cases hq with rfl | ⟨k, _, hk⟩
          · cases ho
            exact ⟨hjf j (by simp), fun _ => ⟨rfl, rfl⟩, fun hn => absurd rfl hn, fun hs => by cases hs⟩
          · exact h.open_ok q (List.mem_of_getElem? hk) o ho
        · intro q hq x hx
          rcases mem_set_cases hq with rfl | ⟨k, _, hk⟩
          · exact hjf x (List.mem_cons_of_mem _ hx)
          · exact h.jobs q (List.mem_of_getElem? hk) x hx
    | some o =>
      dsimp only
      by_cases hg : a.2 = true
      · rw [if_pos hg]
        exact h.finish_false hp _
      rw [if_neg hg]
      cases ht : o.todo with
      | nil => exact h.commit hp hc ht
      | cons st rest => exact h.execute hp hc ht

theorem World.Ok.play {w : World σ} {s0 : Store} (h : w.Ok s0) (sched : List (Nat × Bool)) : (w.play sched).Ok s0 := by
  induction sched generalizing w with
  | nil => exact h
  | cons a as ih => exact ih (h.move a)

/-! ### Alone with the file -/

theorem Job.Faithful.step_error {j : Job σ} (h : j.Faithful) {s : Store} {e : Err} (hrun : runStmts j.stmts j.start s = .error e) :
    ∃ e', Space.step j.op s = (s, .error e') := by
  obtain ⟨m, hm, hs⟩ := h.same
  have := hs s
  rw [hrun] at this
  rw [step_of_body hm]
  unfold runTx
  cases hms : m s with
  | error e => exact ⟨e, rfl⟩
  | ok y => rw [hms] at this; exact this.elim

theorem alone_any {w : World σ} {i : Nat} (h : w.Alone i) {f : Process σ → Bool} (hf : ∀ p, p.cur = none → f p = false) :
    (w.procs.eraseIdx i).any f = false := by
  rw [List.any_eq_false]
  intro p hp
  obtain ⟨k, hk, hk'⟩ := List.mem_eraseIdx_iff_getElem?.1 hp
  rw [hf p (h k p hk hk')]
  simp

/-- A transaction in progress comes to its end when nobody else is in one. -/
theorem open_finishes {s0 : Store} {i : Nat} (n : Nat) : ∀ {w : World σ} {p : Process σ} {o : OpenTx σ}, w.Ok s0 → w.Alone i →
    w.procs[i]? = some p → p.cur = some o → o.todo.length = n →
    ∃ k ≤ n + 1, (w.play (List.replicate k (i, false))).log = w.log ++ [(i, o.job.op, (step o.job.op w.db).2.toBool)] ∧
      (w.play (List.replicate k (i, false))).db = (step o.job.op w.db).1 := by
  induction n with
  | zero =>
    intro w p o h ha hp ho hn
    have htodo := List.length_eq_zero_iff.1 hn
    have hok := h.open_ok p (List.mem_of_getElem? hp) o ho
    refine ⟨1, le_rfl, ?_⟩
    have hmove : w.play (List.replicate 1 (i, false)) = w.commit i p o := by
      show w.move (i, false) = _
      unfold World.move
      rw [hp]
      dsimp only
      rw [ho]
      dsimp only
      rw [if_neg (by simp), htodo]
    rw [hmove]
    have hol : w.otherLocked i = false := alone_any ha fun q hq => by simp [Process.lock, hq]
    unfold World.commit
    rw [hol]
    by_cases hl : o.lock = .reserved
    · obtain ⟨done, hd, hrun⟩ := hok.sofar (by rw [hl]; simp)
      rw [htodo, List.append_nil] at hd
      rw [← hd] at hrun
      rw [hok.faithful.step hrun, if_pos hl, if_neg (by simp)]
      by_cases hfk : fkOk o.view = true
      · rw [if_pos hfk, if_pos hfk]
        exact ⟨rfl, rfl⟩
      · rw [if_neg hfk, if_neg hfk]
        exact ⟨rfl, rfl⟩
    · rw [if_neg hl]
      have hs := (h.commit hp ho htodo).serial
      have hrun : ∃ v, runStmts o.job.stmts o.job.start w.db = .ok (v, w.db) := by
        by_cases hu : o.lock = .unlocked
        · obtain ⟨h1, h2⟩ := hok.fresh hu
          rw [← h1, htodo]
          exact ⟨_, rfl⟩
        · obtain ⟨done, hd, hrun⟩ := hok.sofar hu
          rw [htodo, List.append_nil] at hd
          have hs : o.lock = .shared := by
            cases hx : o.lock with
            | unlocked => exact absurd hx hu
            | shared => rfl
            | reserved => exact absurd hx hl
          rw [hok.clean hs] at hrun
          exact ⟨_, by rw [hd]; exact hrun⟩
      obtain ⟨v, hrun⟩ := hrun
      rw [hok.faithful.step hrun, if_pos h.reachable.fkOk]
      exact ⟨rfl, rfl⟩
  | succ n ih =>
    intro w p o h ha hp ho hn
    have hok := h.open_ok p (List.mem_of_getElem? hp) o ho
    cases htodo : o.todo with
    | nil => rw [htodo] at hn; cases hn
    | cons st rest =>
      have hi := (List.getElem?_eq_some_iff.1 hp).1
      have hmove : w.move (i, false) = w.execute i p o st rest := by
        unfold World.move
        rw [hp]
        dsimp only
        rw [ho]
        dsimp only
        rw [if_neg (by simp), htodo]
      have how : w.otherWrites i = false := alone_any ha fun q hq => by simp [Process.lock, hq]
      have hnext := h.execute hp ho htodo
      rcases he : st.exec o.vars (if o.lock = .unlocked then w.db else o.view) with e | ⟨v, s⟩
      · refine ⟨1, by omega, ?_⟩
        have hm : w.play (List.replicate 1 (i, false)) = w.finish i p o.job.op false w.db := by
          show w.move (i, false) = _
          rw [hmove]
          unfold World.execute
          rw [how, if_neg (by simp), he]
        have herr : ∃ e', runStmts o.job.stmts o.job.start w.db = .error e' := by
          by_cases hu : o.lock = .unlocked
          · obtain ⟨h1, h2⟩ := hok.fresh hu
            rw [if_pos hu] at he
            rw [← h1, htodo, ← h2, runStmts, he]
            exact ⟨e, rfl⟩
          · rw [if_neg hu] at he
            obtain ⟨done, hd, hrun⟩ := hok.sofar hu
            rw [hd, runStmts_append, hrun]
            dsimp only
            rw [htodo, runStmts, he]
            exact ⟨e, rfl⟩
        obtain ⟨e', herr⟩ := herr
        obtain ⟨e2, hs⟩ := hok.faithful.step_error herr
        rw [hm, hs]
        exact ⟨rfl, rfl⟩
      · have hw : w.execute i p o st rest = { w with procs := w.procs.set i { p with cur := some { o with
            lock := if st.writes || o.lock == .reserved then .reserved else .shared
            vars := v, view := s, todo := rest } } } := by
          unfold World.execute
          rw [how, if_neg (by simp), he]
        have ha' : (w.execute i p o st rest).Alone i := by
          rw [hw]
          intro k q hk hq
          dsimp only at hq
          rw [List.getElem?_set_ne (Ne.symm hk)] at hq
          exact ha k q hk hq
        obtain ⟨k, hk, h1, h2⟩ := ih (o := { o with
            lock := if st.writes || o.lock == .reserved then .reserved else .shared
            vars := v, view := s, todo := rest }) (p := { p with cur := some { o with
            lock := if st.writes || o.lock == .reserved then .reserved else .shared
            vars := v, view := s, todo := rest } }) hnext ha' (by rw [hw]; exact List.getElem?_set_self hi) rfl (by
              rw [htodo] at hn
              simpa using hn)
        refine ⟨k + 1, by omega, ?_⟩
        have hp' : w.play (List.replicate (k + 1) (i, false)) =
            (w.execute i p o st rest).play (List.replicate k (i, false)) := by
          rw [List.replicate_succ]
          show (w.move (i, false)).play _ = _
          rw [hmove]
        have hdb : (w.execute i p o st rest).db = w.db := by rw [hw]
        have hlog : (w.execute i p o st rest).log = w.log := by rw [hw]
        rw [hp', h1, h2, hdb, hlog]
        exact ⟨rfl, rfl⟩

theorem World.Fresh.ok {w : World σ} (h : w.Fresh) (hr : Reachable w.db) : w.Ok w.db where
  open_ok := by
    intro p hp o ho
    rw [h.idle p hp] at ho
    cases ho
  jobs := h.jobs
  reachable := hr
  serial := by rw [h.log]; exact .nil _

/-! ### The order of calls -/

theorem finish_callsOf {w : World σ} {i : Nat} {p : Process σ} {o : OpenTx σ} (hp : w.procs[i]? = some p)
    (ho : p.cur = some o) (b : Bool) (db : Store) (k : Nat) : (w.finish i p o.job.op b db).callsOf k = w.callsOf k := by
  unfold World.callsOf World.finish
  have hi := (List.getElem?_eq_some_iff.1 hp).1
  by_cases hk : k = i
  · subst hk
    dsimp only
    rw [hp, List.getElem?_set_self hi, List.filter_append]
    simp [ho]
  · dsimp only
    rw [List.getElem?_set_ne (Ne.symm hk), List.filter_append]
    simp [Ne.symm hk]

theorem move_callsOf (w : World σ) (a : Nat × Bool) (k : Nat) : (w.move a).callsOf k = w.callsOf k := by
  unfold World.move
  cases hp : w.procs[a.1]? with
  | none => rfl
  | some p =>
    have hi := (List.getElem?_eq_some_iff.1 hp).1
    dsimp only
    cases hc : p.cur with
    | none =>
      dsimp only
      cases hj : p.jobs with
      | nil => rfl
      | cons j js =>
        dsimp only
        unfold World.callsOf
        by_cases hk : k = a.1
        · subst hk
          dsimp only
          rw [hp, List.getElem?_set_self hi]
          simp [hc, hj]
        · dsimp only
          rw [List.getElem?_set_ne (Ne.symm hk)]
    | some o =>
      dsimp only
      by_cases hg : a.2 = true
      · rw [if_pos hg]
        exact finish_callsOf hp hc ..
      rw [if_neg hg]
      cases ht : o.todo with
      | nil =>
        dsimp only
        unfold World.commit
        split_ifs <;> first | rfl | exact finish_callsOf hp hc ..
      | cons st rest =>
        dsimp only
        unfold World.execute
        by_cases hb : (st.writes && o.lock != .reserved && w.otherWrites a.1) = true
        · rw [if_pos hb]
        rw [if_neg hb]
        rcases st.exec o.vars (if o.lock = .unlocked then w.db else o.view) with e | x
        · exact finish_callsOf hp hc ..
        · unfold World.callsOf
          by_cases hk : k = a.1
          · subst hk
            dsimp only
            rw [hp, List.getElem?_set_self hi]
            simp [hc]
          · dsimp only
            rw [List.getElem?_set_ne (Ne.symm hk)]

theorem play_callsOf (w : World σ) (sched : List (Nat × Bool)) (k : Nat) : (w.play sched).callsOf k = w.callsOf k := by
  induction sched generalizing w with
  | nil => rfl
  | cons a as ih => exact (ih (w.move a)).trans (move_callsOf w a k)

end Toron.Space
