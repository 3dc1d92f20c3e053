/-
C126: index records of a legacy node read by conditions, one group or several.
-/
import Verif.Spec.Groups
import Verif.Props.LegacyMapper

namespace Toron.Legacy

open Toron.Selectors (PyStr)
open Toron.Space (IndexRec)

open Classical in
theorem selected_eq {n : Node} (hr : Reachable n) (w : Where) :
    n.selected w = n.index.filter fun r => decide (n.Has w r) := by
  unfold Node.selected Node.recordsWhere
  rw [List.filter_filter]
  apply List.filter_congr
  intro r _
  rw [Bool.eq_iff_iff, Bool.and_eq_true, decide_eq_true_iff, List.all_eq_true]
  unfold Node.Has
  refine and_congr ?_ ?_
  · cases w.id with
    | none => simp
    | some i =>
      simp only [Option.all_some, beq_iff_eq, Option.some_inj]
      exact ⟨fun h j hj => hj ▸ h.symm, fun h => (h i rfl).symm⟩
  · refine forall₂_congr fun cl _ => ?_
    rw [beq_iff_eq, lookup_zip_iff hr.colsNodup]

open Classical in
/-- **C126.** Reading records with conditions gives exactly the records that meet all of them, among them the undefined record if it
does; it is refused if a key is not a column. -/
theorem C126_records {n : Node} (hr : Reachable n) (w : Where) :
    ((∀ cl ∈ w.cells, cl.1 ∈ n.cols) → n.indexRecordsWhere w = .ok (n.index.filter fun r => decide (n.Has w r))) ∧
      ((∃ cl ∈ w.cells, cl.1 ∉ n.cols) → ∃ tag, n.indexRecordsWhere w = .error (.keyError tag)) := by
  unfold Node.indexRecordsWhere
  constructor
  · intro h
    have hk : n.knows w = true := List.all_eq_true.2 fun cl hcl => decide_eq_true (h cl hcl)
    rw [if_pos hk, selected_eq hr]
  · rintro ⟨cl, hcl, hnot⟩
    refine ⟨"key", if_neg fun h => hnot ?_⟩
    exact of_decide_eq_true (List.all_eq_true.1 h cl hcl)

/-- The session while it is open: what has been given and what is left. -/
structure Session.Sound (s : Session) (n : Node) (ws : List Where) (i given : Nat) : Prop where
  node : s.node = n
  isOpen : s.cursor ≠ none
  all : s.given.map (·.1) ++ s.todo = ws
  len : s.given.length = given
  fresh : ∀ x, s.given[i]? = some x → x.2 = .fresh

/-- The session after some acts. -/
def Session.after (s : Session) : List Act → Session
  | [] => s
  | a :: as => (s.act a).2.after as

theorem answers_append (s : Session) (as bs : List Act) : s.answers (as ++ bs) = s.answers as ++ (s.after as).answers bs := by
  induction as generalizing s with
  | nil => rfl
  | cons a as ih =>
    show (s.act a).1 :: (s.act a).2.answers (as ++ bs) =
      (s.act a).1 :: ((s.act a).2.answers as ++ ((s.act a).2.after as).answers bs)
    rw [ih]

theorem answers_length (s : Session) (as : List Act) : (s.answers as).length = as.length := by
  induction as generalizing s with
  | nil => rfl
  | cons a as ih => rw [Session.answers, List.length_cons, ih, List.length_cons]

/-- Taking another group. -/
theorem Session.Sound.take {s : Session} {n : Node} {ws : List Where} {i k : Nat} (h : s.Sound n ws i k) {j : Nat} (hj : j ≠ i) :
    (s.take j).2.Sound n ws i k := by
  have hset : ∀ (w : Where) (st st' : GroupState) (c : Option (List IndexRec)), s.given[j]? = some (w, st) → c ≠ none →
      Session.Sound ⟨s.node, s.todo, s.given.set j (w, st'), c⟩ n ws i k := by
    intro w st st' c hg hc
    refine ⟨h.node, hc, ?_, ?_, ?_⟩
    · rw [← h.all]
      dsimp only
      congr 1
      apply List.ext_getElem?
      intro m
      rw [List.getElem?_map, List.getElem?_map]
      by_cases hm : j = m
      · subst hm
        rw [List.getElem?_set_self (List.getElem?_eq_some_iff.1 hg).1, hg]
        rfl
      · rw [List.getElem?_set_ne hm]
    · rw [← h.len]; simp
    · intro x hx
      dsimp only at hx
      rw [List.getElem?_set_ne hj] at hx
      exact h.fresh x hx
  unfold Session.take
  cases hg : s.given[j]? with
  | none => exact h
  | some x =>
    obtain ⟨w, st⟩ := x
    cases hc : s.cursor with
    | none => exact absurd hc h.isOpen
    | some rows =>
      cases st with
      | finished => exact h
      | fresh =>
        dsimp only
        cases (if GroupState.fresh = .fresh then s.node.selected w else rows) with
        | nil => exact hset w _ _ _ hg (by simp)
        | cons r rest => exact hset w _ _ _ hg (by simp)
      | reading =>
        dsimp only
        cases (if GroupState.reading = .fresh then s.node.selected w else rows) with
        | nil => exact hset w _ _ _ hg (by simp)
        | cons r rest => exact hset w _ _ _ hg (by simp)

/-- The next group. -/
theorem Session.Sound.advance {s : Session} {n : Node} {ws : List Where} {i k : Nat} (h : s.Sound n ws i k)
    (h1 : s.advance.1 ≠ .done) (h2 : s.advance.1 ≠ .keyError) : s.advance.2.Sound n ws i (k + 1) ∧ ∃ w, s.advance.1 = .group w := by
  obtain ⟨sn, todo, given, cursor⟩ := s
  unfold Session.advance at *
  cases cursor with
  | none => exact absurd rfl h1
  | some rows =>
    cases todo with
    | nil => exact absurd rfl h1
    | cons w rest =>
      dsimp only at *
      by_cases hk : sn.knows w = true
      · rw [if_pos hk]
        refine ⟨⟨h.node, by simp, ?_, ?_, ?_⟩, w, rfl⟩
        · rw [← h.all]; simp
        · rw [← h.len]; simp
        · intro x hx
          dsimp only at hx
          rw [List.getElem?_append] at hx
          split_ifs at hx with hlt
          · exact h.fresh x hx
          · rw [List.getElem?_singleton] at hx
            split_ifs at hx
            cases hx
            rfl
      · rw [if_neg hk] at h2
        exact absurd rfl h2

/-- Acts before a group is read. -/
theorem Session.Sound.after {s : Session} {n : Node} {ws : List Where} {i k : Nat} (h : s.Sound n ws i k) {acts : List Act}
    (h1 : .done ∉ s.answers acts) (h2 : .keyError ∉ s.answers acts) (h3 : .take i ∉ acts) :
    (s.after acts).Sound n ws i (k + acts.count .advance) := by
  induction acts generalizing s k with
  | nil => exact h
  | cons a as ih =>
    rw [Session.answers, List.mem_cons, not_or] at h1 h2
    rw [List.mem_cons, not_or] at h3
    show ((s.act a).2.after as).Sound _ _ _ _
    cases a with
    | advance =>
      have := ih (h.advance (Ne.symm h1.1) (Ne.symm h2.1)).1 h1.2 h2.2 h3.2
      rw [List.count_cons_self]
      rwa [Nat.add_right_comm] at this
    | take j =>
      have := ih (h.take (j := j) (fun e => h3.1 (by rw [e]))) h1.2 h2.2 h3.2
      rwa [List.count_cons_of_ne (by simp)]

/-- The records that the generator of a group has left. -/
def Session.left (s : Session) (w : Where) (rows : List IndexRec) : GroupState → List IndexRec
  | .fresh => s.node.selected w
  | .reading => rows
  | .finished => []

theorem iterated_nil (k : Nat) : iterated [] k = List.replicate k .stop := by simp [iterated]

theorem iterated_succ_nil (k : Nat) : iterated [] (k + 1) = .stop :: iterated [] k := by
  rw [iterated_nil, iterated_nil, List.replicate_succ]

theorem iterated_succ_cons (r : IndexRec) (rs : List IndexRec) (k : Nat) :
    iterated (r :: rs) (k + 1) = .row r :: iterated rs k := by
  simp [iterated]

theorem reading_alone {s : Session} {i : Nat} {w : Where} {st : GroupState} {rows : List IndexRec}
    (hg : s.given[i]? = some (w, st)) (hc : s.cursor = some rows) {acts : List Act}
    (h1 : .done ∉ s.answers acts) (h2 : .keyError ∉ s.answers acts) (h3 : ∀ a ∈ acts, a = .advance ∨ a = .take i) :
    (s.answers acts).filter Answer.ofGroup = iterated (s.left w rows st) (acts.count (.take i)) := by
  induction acts generalizing s st rows with
  | nil => simp [Session.answers, iterated]
  | cons a as ih =>
    rw [Session.answers, List.mem_cons, not_or] at h1 h2
    have h3' : ∀ a ∈ as, a = .advance ∨ a = .take i := fun x hx => h3 x (List.mem_cons_of_mem _ hx)
    have hlt : i < s.given.length := (List.getElem?_eq_some_iff.1 hg).1
    rcases h3 a List.mem_cons_self with rfl | rfl
    · obtain ⟨sn, todo, given, cursor⟩ := s
      dsimp only at hg hc hlt
      subst hc
      rw [List.count_cons_of_ne (by simp), Session.answers]
      unfold Session.act Session.advance at *
      cases todo with
      | nil => exact absurd rfl h1.1
      | cons w' rest =>
        dsimp only at *
        by_cases hk : sn.knows w' = true
        · rw [if_pos hk] at h1 h2 ⊢
          rw [List.filter_cons_of_neg (by simp [Answer.ofGroup])]
          exact ih (s := ⟨sn, rest, given ++ [(w', .fresh)], some rows⟩) (by
            dsimp only
            rw [List.getElem?_append_left hlt]
            exact hg) rfl h1.2 h2.2 h3'
        · rw [if_neg hk] at h2
          exact absurd rfl h2.1
    · rw [List.count_cons_self, Session.answers]
      have hself : ∀ st', (s.given.set i (w, st'))[i]? = some (w, st') := by
        intro st'
        rw [List.getElem?_set_self hlt]
      cases st with
      | finished =>
        have e : s.act (.take i) = (.stop, s) := by
          show s.take i = _
          unfold Session.take
          rw [hg]
        rw [e] at h1 h2 ⊢
        rw [List.filter_cons_of_pos (by simp [Answer.ofGroup]), ih hg hc h1.2 h2.2 h3']
        exact (iterated_succ_nil _).symm
      | fresh =>
        cases hsel : s.node.selected w with
        | nil =>
          have e : s.act (.take i) = (.stop, { s with given := s.given.set i (w, .finished), cursor := some [] }) := by
            show s.take i = _
            unfold Session.take
            rw [hg]
            dsimp only
            rw [hc]
            dsimp only
            rw [if_pos rfl, hsel]
          rw [e] at h1 h2 ⊢
          rw [List.filter_cons_of_pos (by simp [Answer.ofGroup]), ih (hself _) rfl h1.2 h2.2 h3']
          show _ = iterated (s.node.selected w) _
          rw [hsel]
          exact (iterated_succ_nil _).symm
        | cons r rest =>
          have e : s.act (.take i) = (.row r, { s with given := s.given.set i (w, .reading), cursor := some rest }) := by
            show s.take i = _
            unfold Session.take
            rw [hg]
            dsimp only
            rw [hc]
            dsimp only
            rw [if_pos rfl, hsel]
          rw [e] at h1 h2 ⊢
          rw [List.filter_cons_of_pos (by simp [Answer.ofGroup]), ih (hself _) rfl h1.2 h2.2 h3']
          show _ = iterated (s.node.selected w) _
          rw [hsel]
          exact (iterated_succ_cons _ _ _).symm
      | reading =>
        cases rows with
        | nil =>
          have e : s.act (.take i) = (.stop, { s with given := s.given.set i (w, .finished), cursor := some [] }) := by
            show s.take i = _
            unfold Session.take
            rw [hg]
            dsimp only
            rw [hc]
            dsimp only
            rw [if_neg (by simp)]
          rw [e] at h1 h2 ⊢
          rw [List.filter_cons_of_pos (by simp [Answer.ofGroup]), ih (hself _) rfl h1.2 h2.2 h3']
          exact (iterated_succ_nil _).symm
        | cons r rest =>
          have e : s.act (.take i) = (.row r, { s with given := s.given.set i (w, .reading), cursor := some rest }) := by
            show s.take i = _
            unfold Session.take
            rw [hg]
            dsimp only
            rw [hc]
            dsimp only
            rw [if_neg (by simp)]
          rw [e] at h1 h2 ⊢
          rw [List.filter_cons_of_pos (by simp [Answer.ofGroup]), ih (hself _) rfl h1.2 h2.2 h3']
          exact (iterated_succ_cons _ _ _).symm

open Classical in
/-- **C126, partial.** Whatever was done before, with the same or with other groups: from the first time that a group is read, it
gives exactly the records that meet its conditions, and then it ends, as long as no other group is read (more groups may be asked for)
and the end of the groups has not been reached. Otherwise see `C126_violated_turns` and `C126_violated_end`. -/
theorem C126_group_partial {n : Node} (hr : Reachable n) {ws : List Where} {before acts : List Act} {i : Nat} {w : Where}
    (hw : ws[i]? = some w) (hgiven : i < before.count .advance) (hnew : .take i ∉ before)
    (hown : ∀ a ∈ acts, a = .advance ∨ a = .take i)
    (hdone : .done ∉ (Session.start n ws).answers (before ++ acts))
    (hkey : .keyError ∉ (Session.start n ws).answers (before ++ acts)) :
    (((Session.start n ws).answers (before ++ acts)).drop before.length).filter Answer.ofGroup =
      iterated (n.index.filter fun r => decide (n.Has w r)) (acts.count (.take i)) := by
  rw [answers_append, List.mem_append, not_or] at hdone hkey
  rw [answers_append, List.drop_left' (answers_length _ _)]
  have h0 : (Session.start n ws).Sound n ws i 0 := ⟨rfl, by simp [Session.start], rfl, rfl, by simp [Session.start]⟩
  have hs := h0.after hdone.1 hkey.1 hnew
  generalize (Session.start n ws).after before = s at *
  have hlt : i < s.given.length := by rw [hs.len]; omega
  obtain ⟨rows, hc⟩ := Option.ne_none_iff_exists'.1 hs.isOpen
  have hg : s.given[i]? = some (w, .fresh) := by
    have e1 : s.given[i]? = some s.given[i] := List.getElem?_eq_getElem hlt
    have e2 := hs.fresh _ e1
    have e3 : (s.given.map (·.1) ++ s.todo)[i]? = some w := by rw [hs.all]; exact hw
    rw [List.getElem?_append_left (by simpa using hlt), List.getElem?_map, e1, Option.map_some, Option.some_inj] at e3
    rw [e1, Option.some_inj]
    exact Prod.ext e3 e2
  rw [reading_alone hg hc hdone.2 hkey.2 hown, ← selected_eq hr, ← hs.node]
  rfl

/-- The conditions of two groups: the county `x`, and the town `1`. -/
def Demo.counties : List Where := [⟨none, [(['A'], ['x'])]⟩, ⟨none, [(['B'], ['1'])]⟩]

/-- The hypotheses of `C126_group_partial` can be met: the first group was read in part; the second is read to its end and beyond,
although the first one was not. -/
example : Reachable Demo.counted ∧ Demo.counties[1]? = some ⟨none, [(['B'], ['1'])]⟩ ∧
    (Session.start Demo.counted Demo.counties).answers
        ([.advance, .take 0, .advance] ++ [.take 1, .take 1, .take 1]) =
      [.group ⟨none, [(['A'], ['x'])]⟩, .row ⟨1, [['x'], ['1']]⟩, .group ⟨none, [(['B'], ['1'])]⟩,
        .row ⟨1, [['x'], ['1']]⟩, .row ⟨3, [['y'], ['1']]⟩, .stop] ∧
    1 < ([.advance, .take 0, .advance] : List Act).count .advance ∧ Act.take 1 ∉ ([.advance, .take 0, .advance] : List Act) :=
  ⟨⟨_, rfl⟩, rfl, by decide +kernel, by decide, by decide⟩

/-- **C126, violated.** Two groups that are read in turns: the group of the county `x` gives a record of the county `y`, and its
second record is missing. -/
theorem C126_violated_turns : Reachable Demo.counted ∧
    (Demo.counted.indexRecordsWhere ⟨none, [(['A'], ['x'])]⟩).toOption = some [⟨1, [['x'], ['1']]⟩, ⟨2, [['x'], ['2']]⟩] ∧
    (Session.start Demo.counted Demo.counties).answers [.advance, .advance, .take 0, .take 1, .take 0, .take 0] =
      [.group ⟨none, [(['A'], ['x'])]⟩, .group ⟨none, [(['B'], ['1'])]⟩, .row ⟨1, [['x'], ['1']]⟩,
        .row ⟨1, [['x'], ['1']]⟩, .row ⟨3, [['y'], ['1']]⟩, .stop] :=
  ⟨⟨_, rfl⟩, by decide +kernel, by decide +kernel⟩

/-- **C126, violated.** Groups that are collected in a list first cannot be read any more. -/
theorem C126_violated_end (n : Node) (w : Where) (hw : n.knows w = true) :
    (Session.start n [w]).answers [.advance, .advance, .take 0] = [.group w, .done, .closed] := by
  simp [Session.answers, Session.act, Session.advance, Session.take, Session.start, hw]

/-- The hypothesis of `C126_violated_end` can be met. -/
example : Reachable Demo.counted ∧ Demo.counted.knows ⟨none, [(['A'], ['x'])]⟩ = true := ⟨⟨_, rfl⟩, by decide +kernel⟩

end Toron.Legacy
