/-
Lemmas about the commands that edit one file.
-/
import Verif.Spec.Command
import Verif.Props.Files
import Verif.Props.StoreManage
import Verif.Lemmas.Store.Call
import Verif.Lemmas.Store.Inv2
import Verif.Lemmas.Store.Exact

namespace Toron.Files

open Toron.Selectors (PyStr Sel)
open Toron.Space (Store Op step)

/-- Calls on a dataspace, up to the first that raises. -/
def seqOps : List Op → Store → Store × Except Err Unit
  | [], s => (s, .ok ())
  | op :: ops, s =>
    match step op s with
    | (s', .ok ()) => seqOps ops s'
    | (s', .error e) => (s', .error e)

theorem calls_bound (ops : List Op) : ∀ {w : World} {i : Nat} {h : Handle} {k : Key} {s : Store} {wr : Bool},
    w.spaces[i]? = some h → h.place = .bound k .rw → w.files k = some ⟨.space s, wr⟩ →
    (w.calls i ops).1.files k = some ⟨.space (seqOps ops s).1, wr⟩ ∧
    (∀ k', k' ≠ k → (w.calls i ops).1.files k' = w.files k') ∧
    (w.calls i ops).2 = (seqOps ops s).2.mapError .call ∧ (w.calls i ops).1.dirs = w.dirs ∧
    (w.calls i ops).1.cwd = w.cwd := by
  induction ops with
  | nil => intro w i h k s wr _ _ hf; exact ⟨hf, fun _ _ => rfl, rfl, rfl, rfl⟩
  | cons op ops ih =>
    intro w i h k s wr hi hp hf
    have hc : w.call i op = (w.put k ⟨.space (step op s).1, wr⟩, (step op s).2.mapError .call) := by
      unfold World.call
      simp only [hi, hp, hf, reduceCtorEq, if_false]
    unfold World.calls seqOps
    rw [hc]
    rcases hst : step op s with ⟨s', r⟩
    cases r with
    | error e =>
      refine ⟨?_, ?_, rfl, rfl, rfl⟩
      · change (w.put k _).files k = _
        rw [put_files, if_pos rfl]
      · intro k' hk'
        change (w.put k _).files k' = _
        rw [put_files, if_neg hk']
    | ok u =>
      obtain ⟨g1, g2, g3, g4, g5⟩ := ih (w := w.put k ⟨.space s', wr⟩) (i := i) (h := h) (k := k) (s := s') (wr := wr) hi hp
        (by rw [put_files, if_pos rfl])
      refine ⟨g1, ?_, g3, g4, g5⟩
      intro k' hk'
      refine (g2 k' hk').trans ?_
      rw [put_files, if_neg hk']

/-! ### On a dataspace -/

theorem op_failed {op : Op} {m : Space.M Unit} (hb : op.body = some m) {s : Store} {e : Err}
    (h : (step op s).2 = .error e) : (step op s).1 = s := by
  rw [Space.step_of_body hb] at h ⊢
  exact Space.runTx_error h

theorem seq_single {op : Op} {s : Store} : seqOps [op] s = step op s := by
  unfold seqOps
  rcases step op s with ⟨s', _ | _⟩
  · rfl
  · rfl

/-- One call: it gives its result or changes nothing. -/
theorem single_cases {op : Op} {m : Space.M Unit} (hb : op.body = some m) (s : Store) :
    (∃ s', seqOps [op] s = (s', .ok ()) ∧ Gives op s s') ∨ ∃ e, seqOps [op] s = (s, .error e) := by
  rw [seq_single]
  rcases h : (step op s).2 with e | u
  · right
    exact ⟨e, Prod.ext (op_failed hb h) h⟩
  · left
    exact ⟨(step op s).1, Prod.ext rfl h, Prod.ext rfl h⟩

/-- Changing the selectors of a group that is there. -/
theorem edit_group {s : Store} (hr : Space.Reachable s) {g : Space.WGroup} (hg : g ∈ s.wgroups) (sels : Option (List Sel)) :
    step (.editWeightGroup g.name none sels none) s = ({ s with wgroups := s.wgroups.map fun x =>
      if x.name = g.name then { x with selectors := sels.getD x.selectors } else x }, .ok ()) := by
  obtain ⟨h1, h2⟩ := ((Space.C83_edit_group hr g.name none sels none).2 g hg rfl).1
    (fun x hx hxn => List.inj_on_of_nodup_map hr.weightInv.names hx hg hxn)
  exact Prod.ext h2 h1

/-- The groups after their selectors were changed. -/
def reselect (s : Store) (name : PyStr) (f : List Sel → List Sel) : Store :=
  { s with wgroups := s.wgroups.map fun x => if x.name = name then { x with selectors := f x.selectors } else x }

theorem reselect_id (s : Store) (name : PyStr) : reselect s name id = s := by
  unfold reselect
  have : (s.wgroups.map fun x => if x.name = name then { x with selectors := id x.selectors } else x) = s.wgroups := by
    conv_rhs => rw [← List.map_id s.wgroups]
    refine List.map_congr_left fun x _ => ?_
    split <;> rfl
  rw [this]

theorem describe_group {s : Store} (hr : Space.Reachable s) {g : Space.WGroup} (hg : g ∈ s.wgroups) :
    step (.editWeightGroup g.name none none none) s = (s, .ok ()) := by
  rw [edit_group hr hg none]
  exact congrArg (·, _) (reselect_id s g.name)

theorem select_group {s : Store} (hr : Space.Reachable s) {g : Space.WGroup} (hg : g ∈ s.wgroups)
    (f : List Sel → List Sel) :
    step (.editWeightGroup g.name none (some (f g.selectors)) none) s = (reselect s g.name f, .ok ()) := by
  rw [edit_group hr hg]
  unfold reselect
  refine congrArg (fun l => (({ s with wgroups := l } : Store), _)) (List.map_congr_left fun x hx => ?_)
  by_cases hn : x.name = g.name
  · rw [if_pos hn, if_pos hn, List.inj_on_of_nodup_map hr.weightInv.names hx hg hn]
    rfl
  · rw [if_neg hn, if_neg hn]

theorem default_group {s : Store} (hr : Space.Reachable s) (g : Option Nat) :
    step (.setDefaultWeightGroup g) s = ({ s with defaultWG := some g }, .ok ()) := by
  have := Space.runTx_of_ok (m := Space.setDefaultWeightGroup g) (s := s)
    (s' := { s with defaultWG := some g }) rfl hr.fkOk
  exact Prod.ext this.2 this.1

theorem weight_runs {s : Store} (hr : Space.Reachable s) {g : Space.WGroup} (hg : g ∈ s.wgroups) (describe : Bool)
    (sels : Option (List Sel → List Sel)) (d : Bool) :
    ∃ ops, (Edit.updateWeight g.name describe sels d).plan s = .ok ops ∧
      seqOps ops s = ({ reselect s g.name (sels.getD id) with
        defaultWG := if d then some (some g.id) else s.defaultWG }, .ok ()) := by
  have hf : s.findWGroup g.name = some g := by
    obtain ⟨x, hx⟩ := Option.isSome_iff_exists.1 (show (s.findWGroup g.name).isSome from by
      unfold Store.findWGroup
      rw [List.find?_isSome]
      exact ⟨g, hg, by simp⟩)
    have h1 := List.mem_of_find?_eq_some hx
    have h2 := List.find?_some hx
    rw [hx, List.inj_on_of_nodup_map hr.weightInv.names h1 hg (by simpa using h2)]
  unfold Edit.plan
  dsimp only
  rw [hf]
  refine ⟨_, rfl, ?_⟩
  have hdef : ∀ t, Space.Reachable t → seqOps (if d then [.setDefaultWeightGroup (some g.id)] else []) t =
      ({ t with defaultWG := if d then some (some g.id) else t.defaultWG }, .ok ()) := by
    intro t ht
    cases d
    · rfl
    · rw [if_pos rfl, seq_single, default_group ht]
      rfl
  have hsel : seqOps ((match sels with
      | some f => [.editWeightGroup g.name none (some (f g.selectors)) none]
      | none => []) ++ (if d then [.setDefaultWeightGroup (some g.id)] else [])) s =
      ({ reselect s g.name (sels.getD id) with
        defaultWG := if d then some (some g.id) else s.defaultWG }, .ok ()) := by
    cases sels with
    | none =>
      rw [Option.getD_none, reselect_id]
      exact hdef s hr
    | some f =>
      rw [List.singleton_append]
      unfold seqOps
      have hs := select_group hr hg f
      rw [hs]
      refine hdef (reselect s g.name f) ?_
      have := hr.step (.editWeightGroup g.name none (some (f g.selectors)) none)
      rw [hs] at this
      exact this
  cases describe
  · exact hsel
  · rw [if_pos rfl, List.append_assoc, List.singleton_append]
    unfold seqOps
    rw [describe_group hr hg]
    exact hsel

theorem plan_cases (e : Edit) {s : Store} (hr : Space.Reachable s) :
    (∃ x, e.plan s = .error x ∧ x ≠ .ok) ∨
    ∃ ops, e.plan s = .ok ops ∧
      ((∃ s', seqOps ops s = (s', .ok ()) ∧ e.Meant s s') ∨ ∃ er, seqOps ops s = (s, .error er)) := by
  cases e with
  | addLabel names =>
    right
    refine ⟨_, rfl, (single_cases rfl s).imp (fun ⟨s', h1, h2⟩ => ⟨s', h1, .addLabel h2⟩) id⟩
  | addWeight name sels d =>
    right
    refine ⟨_, rfl, (single_cases rfl s).imp (fun ⟨s', h1, h2⟩ => ⟨s', h1, ?_⟩) id⟩
    cases d
    · exact .addWeight h2
    · exact .addDefault h2
  | addPartition names =>
    right
    exact ⟨_, rfl, (single_cases rfl s).imp (fun ⟨s', h1, h2⟩ => ⟨s', h1, .addPartition (by simp) h2⟩) id⟩
  | addAttribute names =>
    right
    unfold Edit.plan
    dsimp only
    by_cases hn : (names.filter fun n => decide (n ∉ s.regAttrs.getD [])) = []
    · rw [if_pos hn]
      refine ⟨_, rfl, .inl ⟨s, rfl, .noAttribute ?_⟩⟩
      intro n hn'
      have := List.filter_eq_nil_iff.1 hn n hn'
      simpa using this
    · rw [if_neg hn]
      refine ⟨_, rfl, (single_cases rfl s).imp (fun ⟨s', h1, h2⟩ => ⟨s', h1, ?_⟩) id⟩
      refine .addAttribute ?_ h2
      obtain ⟨n, hn⟩ := List.exists_mem_of_ne_nil _ hn
      rw [List.mem_filter] at hn
      exact ⟨n, hn.1, by simpa using hn.2⟩
  | renameLabel old new =>
    right
    exact ⟨_, rfl, (single_cases rfl s).imp (fun ⟨s', h1, h2⟩ => ⟨s', h1, .renameLabel h2⟩) id⟩
  | renameDomain d =>
    right
    refine ⟨_, rfl, (single_cases rfl s).imp (fun ⟨s', h1, h2⟩ => ⟨s', h1, ?_⟩) id⟩
    have h3 := Space.call_ok h2 rfl
    have : s' = { s with domain := some d } := by
      have h4 : (Except.ok ((), ({ s with domain := some d } : Store)) : Except Err (Unit × Store)) = .ok ((), s') := h3
      injection h4 with h4
      injection h4 with _ h4
      exact h4.symm
    rw [this]
    exact .renameDomain
  | updateLabel l left right =>
    unfold Edit.plan moveOffset
    dsimp only
    by_cases h1 : left ≠ 0 ∧ right = 0
    · rw [if_pos h1]
      obtain ⟨h1, rfl⟩ := h1
      right
      exact ⟨_, rfl, (single_cases rfl s).imp (fun ⟨s', a, b⟩ => ⟨s', a, .labelLeft h1 b⟩) id⟩
    · rw [if_neg h1]
      by_cases h2 : right ≠ 0 ∧ left = 0
      · rw [if_pos h2]
        obtain ⟨h2, rfl⟩ := h2
        right
        exact ⟨_, rfl, (single_cases rfl s).imp (fun ⟨s', a, b⟩ => ⟨s', a, .labelRight h2 b⟩) id⟩
      · rw [if_neg h2]
        exact .inl ⟨_, rfl, by decide⟩
  | updateAttribute l left right =>
    unfold Edit.plan moveOffset
    dsimp only
    by_cases h1 : left ≠ 0 ∧ right = 0
    · rw [if_pos h1]
      obtain ⟨h1, rfl⟩ := h1
      right
      exact ⟨_, rfl, (single_cases rfl s).imp (fun ⟨s', a, b⟩ => ⟨s', a, .attrLeft h1 b⟩) id⟩
    · rw [if_neg h1]
      by_cases h2 : right ≠ 0 ∧ left = 0
      · rw [if_pos h2]
        obtain ⟨h2, rfl⟩ := h2
        right
        exact ⟨_, rfl, (single_cases rfl s).imp (fun ⟨s', a, b⟩ => ⟨s', a, .attrRight h2 b⟩) id⟩
      · rw [if_neg h2]
        exact .inl ⟨_, rfl, by decide⟩
  | updateWeight name describe sels d =>
    unfold Edit.plan
    dsimp only
    cases hf : s.findWGroup name with
    | none => exact .inl ⟨_, rfl, by decide⟩
    | some g =>
      obtain ⟨hg, rfl⟩ : g ∈ s.wgroups ∧ g.name = name := by
        have h1 := List.mem_of_find?_eq_some hf
        have h2 := List.find?_some hf
        exact ⟨h1, by simpa using h2⟩
      right
      refine ⟨_, rfl, .inl ⟨_, ?_, .updateWeight hg rfl⟩⟩
      obtain ⟨ops, h1, h2⟩ := weight_runs hr hg describe sels d
      unfold Edit.plan at h1
      dsimp only at h1
      rw [hf] at h1
      injection h1 with h1
      rw [← h1] at h2
      exact h2
  | loadIndex w wc pl pw rows =>
    right
    exact ⟨_, rfl, (single_cases rfl s).imp (fun ⟨s', h1, h2⟩ => ⟨s', h1, .loadIndex h2⟩) id⟩
  | loadQuantities al ap p rows =>
    right
    exact ⟨_, rfl, (single_cases rfl s).imp (fun ⟨s', h1, h2⟩ => ⟨s', h1, .loadQuantities h2⟩) id⟩

/-- What is meant is what is done. -/
theorem meant_runs {e : Edit} {s s' : Store} (hr : Space.Reachable s) (h : e.Meant s s') :
    ∃ ops, e.plan s = .ok ops ∧ seqOps ops s = (s', .ok ()) := by
  cases h with
  | addLabel h | addWeight h | addDefault h | renameLabel h | loadIndex h | loadQuantities h =>
    exact ⟨_, rfl, by rw [seq_single]; exact h⟩
  | @addPartition names _ _ d hd h =>
    have : d = names.toFinset := by ext n; simp [hd]
    subst this
    exact ⟨_, rfl, by rw [seq_single]; exact h⟩
  | @addAttribute names _ _ hn h =>
    refine ⟨_, if_neg ?_, by rw [seq_single]; exact h⟩
    obtain ⟨n, h1, h2⟩ := hn
    exact List.ne_nil_of_mem (List.mem_filter.2 ⟨h1, by simpa using h2⟩)
  | noAttribute hn =>
    refine ⟨[], if_pos ?_, rfl⟩
    rw [List.filter_eq_nil_iff]
    intro n h
    simpa using hn n h
  | @renameDomain d =>
    refine ⟨_, rfl, ?_⟩
    rw [seq_single]
    have := Space.runTx_of_ok (m := (modify fun s => { s with domain := some d } : Space.M Unit)) (s := s)
      (s' := { s with domain := some d }) rfl hr.fkOk
    exact Prod.ext this.2 this.1
  | @labelLeft l _ _ n hn h =>
    exact ⟨[.changeLabelOrder l (-(n : Int))], by simp [Edit.plan, moveOffset, hn], by rw [seq_single]; exact h⟩
  | @labelRight l _ _ n hn h =>
    exact ⟨[.changeLabelOrder l (n : Int)], by simp [Edit.plan, moveOffset, hn], by rw [seq_single]; exact h⟩
  | @attrLeft l _ _ n hn h =>
    exact ⟨[.changeAttributeOrder l (-(n : Int))], by simp [Edit.plan, moveOffset, hn], by rw [seq_single]; exact h⟩
  | @attrRight l _ _ n hn h =>
    exact ⟨[.changeAttributeOrder l (n : Int)], by simp [Edit.plan, moveOffset, hn], by rw [seq_single]; exact h⟩
  | updateWeight hg hn =>
    subst hn
    exact weight_runs hr hg _ _ _

/-! ### On the files -/

/-- What the command works on after its file was opened. -/
structure Open (w : World) (i : Nat) (k : Key) (s : Store) (wr : Bool) : Prop where
  handle : ∃ h, w.spaces[i]? = some h ∧ h.place = .bound k .rw
  file : w.files k = some ⟨.space s, wr⟩

theorem edit_opened {w : World} {i : Nat} {k : Key} {s : Store} {wr : Bool}
    (ho : Open w i k s wr) (hr : Space.Reachable s) (e : Edit) :
    ∃ s', (w.edit i false e).1.files k = some ⟨.space s', wr⟩ ∧
      (∀ k', k' ≠ k → (w.edit i false e).1.files k' = w.files k') ∧
      ((w.edit i false e).2 = .ok → e.Meant s s') ∧ ((w.edit i false e).2 ≠ .ok → s' = s) ∧
      ∀ s0, e.Meant s s0 → (w.edit i false e).2 = .ok ∧ s' = s0 := by
  obtain ⟨h, hi, hp⟩ := ho.handle
  have hsh : w.spaces[i]?.bind w.shown = some s := by
    rw [hi, Option.bind_some]
    unfold World.shown
    rw [hp]
    dsimp only
    unfold World.stored
    rw [ho.file]
  unfold World.edit
  rw [if_neg (by simp)]
  dsimp only
  rw [hsh]
  dsimp only
  rcases plan_cases e hr with ⟨x, hx, hne⟩ | ⟨ops, hops, hc⟩
  · rw [hx]
    refine ⟨s, ho.file, fun _ _ => rfl, fun h => absurd h hne, fun _ => rfl, ?_⟩
    intro s0 h0
    obtain ⟨ops, h1, _⟩ := meant_runs hr h0
    rw [hx] at h1
    cases h1
  · rw [hops]
    dsimp only
    obtain ⟨g1, g2, g3, g4, g5⟩ := calls_bound ops hi hp ho.file
    rcases hcs : w.calls i ops with ⟨w', r⟩
    rw [hcs] at g1 g2 g3
    dsimp only at g1 g2 g3
    rcases hc with ⟨s', h1, h2⟩ | ⟨er, h1⟩
    · rw [h1] at g1 g3
      subst g3
      refine ⟨s', g1, g2, fun _ => h2, fun h => absurd rfl h, ?_⟩
      intro s0 h0
      obtain ⟨ops', h3, h4⟩ := meant_runs hr h0
      rw [hops] at h3
      injection h3 with h3
      rw [← h3, h1] at h4
      injection h4 with h4
      exact ⟨rfl, h4⟩
    · rw [h1] at g1 g3
      subst g3
      refine ⟨s, g1, g2, fun h => ?_, fun _ => rfl, ?_⟩
      · change (if e.catches (.call er) then Exit.err else .crash) = .ok at h
        split at h <;> cases h
      · intro s0 h0
        obtain ⟨ops', h3, h4⟩ := meant_runs hr h0
        rw [hops] at h3
        injection h3 with h3
        rw [← h3, h1] at h4
        injection h4 with _ h4
        cases h4

theorem edit_backup {w : World} {i : Nat} {path : PyStr} {k : Key} {s : Store} {wr : Bool}
    (ho : Open w i k s wr) (e : Edit) (hint : ∀ h, w.spaces[i]? = some h → h.hint = some path)
    (hk : absKey w.cwd (backupPath path) ≠ k) :
    ((∃ er, (w.save i (backupPath path)).2 = .error er) ∧ w.edit i true e = (w, .crash)) ∨
    (∃ w', (w.save i (backupPath path)).2 = .ok () ∧ Open w' i k s wr ∧ w.edit i true e = w'.edit i false e ∧
      ∀ k', w'.files k' = if k' = absKey w.cwd (backupPath path) then some ⟨.space (closed s), true⟩ else w.files k') := by
  obtain ⟨h, hi, hp⟩ := ho.handle
  have hh := hint h hi
  have hbk : w.backup [i] = w.save i (backupPath path) := by
    unfold World.backup
    rw [hi]
    dsimp only
    rw [hh]
    dsimp only
    rcases w.save i (backupPath path) with ⟨w', _ | _⟩ <;> rfl
  rcases save_cases w i (backupPath path) with ⟨er, he⟩ | ⟨hd, t, h1, h2, h3⟩
  · left
    refine ⟨⟨er, by rw [he]⟩, ?_⟩
    unfold World.edit
    rw [if_pos rfl, hbk, he]
  · right
    rw [hi] at h1
    injection h1 with h1
    subst h1
    have ht : t = s := by
      unfold World.shown at h2
      rw [hp] at h2
      dsimp only at h2
      unfold World.stored at h2
      rw [ho.file] at h2
      injection h2 with h2
      exact h2.symm
    subst ht
    have hlt := (List.getElem?_eq_some_iff.1 hi).1
    refine ⟨(w.put (absKey w.cwd (backupPath path)) ⟨.space (closed t), true⟩).set i
        { h with hint := if h.hint.getD [] = [] then some (backupPath path) else h.hint }, by rw [h3],
      ⟨⟨_, List.getElem?_set_self hlt, hp⟩, ?_⟩, ?_, ?_⟩
    · change (w.put _ _).files k = _
      rw [put_files, if_neg (Ne.symm hk)]
      exact ho.file
    · unfold World.edit
      rw [if_pos rfl, hbk, h3]
      rfl
    · intro k'
      change (w.put _ _).files k' = _
      rw [put_files]

end Toron.Files
