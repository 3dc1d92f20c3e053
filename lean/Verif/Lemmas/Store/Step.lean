/-
Every operation is a sequence of primitive changes; invariants of histories.
-/
import Verif.Lemmas.Store.DoesOps

set_option linter.unusedSimpArgs false

namespace Toron.Space

open Toron.Selectors (PyStr Sel)
open Toron.Partitions

section
variable {α β : Type}

/-- A loop, with a condition `P` that is kept by the body. -/
theorem forM_inv {l : List α} {f : α → M Unit} {P : Store → Prop} {K : List Kind}
    (hf : ∀ a ∈ l, ∀ s s', P s → f a s = .ok ((), s') → Steps K s s' ∧ P s') {s s' : Store}
    (hP : P s) (h : l.forM f s = .ok ((), s')) : Steps K s s' ∧ P s' := by
  induction l generalizing s with
  | nil => cases h; exact ⟨Steps.refl _, hP⟩
  | cons x xs ih =>
    obtain ⟨_, t, h1, h2⟩ := bind_ok.1 h
    obtain ⟨hs, hPt⟩ := hf x (by simp) s t hP h1
    obtain ⟨hs', hP'⟩ := ih (fun a ha => hf a (by simp [ha])) hPt h2
    exact ⟨hs.trans hs', hP'⟩

theorem forM_cons_ok {x : α} {xs : List α} {f : α → M Unit} {s s' : Store} :
    (x :: xs).forM f s = .ok ((), s') ↔ ∃ t, f x s = .ok ((), t) ∧ xs.forM f t = .ok ((), s') := by
  constructor
  · intro h
    obtain ⟨_, t, h1, h2⟩ := bind_ok.1 h
    exact ⟨t, h1, h2⟩
  · rintro ⟨t, h1, h2⟩
    exact bind_ok.2 ⟨(), t, h1, h2⟩

end

theorem validateNewColumns_ok {names : List PyStr} {s s' : Store} {u : Unit}
    (h : validateNewColumns names s = .ok (u, s')) :
    s' = s ∧ ∀ c ∈ names, c ∉ reservedNames ∧ c ∉ s.cols ∧ c ∉ s.regAttrs.getD [] := by
  simp only [validateNewColumns, bind_ok, get_ok] at h
  obtain ⟨_, _, he, h⟩ := h
  cases he
  have key : ∀ (l : List PyStr) (t t' : Store),
      l.forM (fun c =>
        if c ∈ reservedNames then (throw (Err.toronError "reserved name") : M Unit)
        else if c ∈ s.cols then throw (.toronError "index label column already exists")
        else if c ∈ s.regAttrs.getD [] then throw (.toronError "used as an attribute name")
        else pure ()) t = .ok ((), t') →
      t' = t ∧ ∀ c ∈ l, c ∉ reservedNames ∧ c ∉ s.cols ∧ c ∉ s.regAttrs.getD [] := by
    intro l
    induction l with
    | nil => intro t t' h; cases h; simp
    | cons x xs ih =>
      intro t t' h
      rw [forM_cons_ok] at h
      obtain ⟨t1, h1, h2⟩ := h
      simp only [ite_ok, throw_ok, pure_ok] at h1
      obtain ⟨ht, hall⟩ := ih _ _ h2
      obtain ⟨_, h⟩ | ⟨a1, h1⟩ := h1
      · exact h.elim
      obtain ⟨_, h⟩ | ⟨a2, h1⟩ := h1
      · exact h.elim
      obtain ⟨_, h⟩ | ⟨a3, h1⟩ := h1
      · exact h.elim
      cases h1
      refine ⟨ht, ?_⟩
      intro c hc
      rcases List.mem_cons.1 hc with rfl | hc
      · exact ⟨a1, a2, a3⟩
      · exact hall c hc
  exact key names s s' h

theorem addColumn_ok {c : PyStr} {s s' : Store} {u : Unit} (h : addColumn c s = .ok (u, s')) :
    asciiLower c ∉ s.sqlNames ∧ s' = s.addCol c := by
  simp only [addColumn, bind_ok, get_ok, ite_ok, throw_ok, put_ok] at h
  obtain ⟨_, _, he, h⟩ := h
  cases he
  obtain ⟨_, h⟩ | ⟨h1, h⟩ := h
  · exact h.elim
  cases h
  exact ⟨h1, rfl⟩

theorem renameColumn_ok {old new : PyStr} {s s' : Store} {u : Unit}
    (h : renameColumn old new s = .ok (u, s')) :
    old ∈ s.cols ∧
      asciiLower new ∉ ({ s with cols := s.cols.filter (fun c => c ≠ old) } : Store).sqlNames ∧
      s' = { s with cols := s.cols.map fun c => if c = old then new else c } := by
  simp only [renameColumn, bind_ok, get_ok, ite_ok, throw_ok, put_ok] at h
  obtain ⟨_, _, he, h⟩ := h
  cases he
  obtain ⟨_, h⟩ | ⟨h1, h⟩ := h
  · exact h.elim
  obtain ⟨_, h⟩ | ⟨h2, h⟩ := h
  · exact h.elim
  cases h
  exact ⟨not_not.1 h1, h2, rfl⟩

theorem addIndexColumns_does (names : List PyStr) :
    Does [.colAdd, .pdefs, .structs] (addIndexColumns names) := by
  refine ⟨fun s a s' h => ?_⟩
  unfold addIndexColumns at h
  rw [bind_ok] at h
  obtain ⟨_, s1, hv, h⟩ := h
  obtain ⟨rfl, hall⟩ := validateNewColumns_ok hv
  rw [bind_ok] at h
  obtain ⟨_, _, he, h⟩ := h
  rw [get_ok] at he
  cases he
  dsimp only at h
  rw [bind_ok] at h
  obtain ⟨_, s2, h1, h⟩ := h
  have hcols : Steps [.colAdd, .pdefs, .structs] s1 s2 := by
    refine (forM_inv (P := fun t => t.regAttrs = s1.regAttrs) (fun c hc t t' ht htt => ?_) rfl h1).1
    obtain ⟨hn, rfl⟩ := addColumn_ok htt
    refine ⟨Steps.single (.colAdd t c (hall c hc).1 (by rw [ht]; exact (hall c hc).2.2) hn) (by simp), ht⟩
  refine hcols.trans (Does.steps (K := [.colAdd, .pdefs, .structs]) ?_ _ _ _ h)
  does

theorem renameIndexColumns_does (mapping : List (PyStr × PyStr)) :
    Does [.colRen, .pdefs] (renameIndexColumns mapping) := by
  refine ⟨fun s a s' h => ?_⟩
  unfold renameIndexColumns at h
  simp only [bind_ok, get_ok, ite_ok, throw_ok] at h
  obtain ⟨_, _, he, h⟩ := h
  cases he
  obtain ⟨_, h⟩ | ⟨_, h⟩ := h
  · exact h.elim
  obtain ⟨_, s1, hv, _, s2, h1, h⟩ := h
  obtain ⟨rfl, hall⟩ := validateNewColumns_ok hv
  have hcols : Steps [.colRen, .pdefs] s1 s2 := by
    refine (forM_inv (P := fun t => t.regAttrs = s1.regAttrs) (fun p hp t t' ht htt => ?_) rfl h1).1
    obtain ⟨ho, hn, rfl⟩ := renameColumn_ok htt
    have := hall p.2 (List.mem_map_of_mem hp)
    exact ⟨Steps.single (.colRen t p.1 p.2 this.1 (by rw [ht]; exact this.2.2) ho hn) (by simp), ht⟩
  rw [modify_ok] at h
  cases h
  exact hcols.trans (Steps.single (.pdefs s2 _) (by simp))

theorem checkUnique_ok {s s' : Store} {u : Unit} (h : checkUnique s = .ok (u, s')) :
    s' = s ∧ (s.cols ≠ [] → (s.index.map (·.labels)).Nodup ∧ (s.locs.map (·.labels)).Nodup ∧
      (s.structs.map (·.bits)).Nodup) := by
  simp only [checkUnique, bind_ok, get_ok, ite_ok, throw_ok, pure_ok] at h
  obtain ⟨_, _, he, h⟩ := h
  cases he
  obtain ⟨_, h⟩ | ⟨h1, h⟩ := h
  · exact h.elim
  cases h
  refine ⟨rfl, fun hne => ?_⟩
  by_contra hcon
  exact h1 ⟨hne, hcon⟩

theorem dropIndexColumns_does (names : List PyStr) : Does [.colDrop] (dropIndexColumns names) := by
  refine ⟨fun s a s' h => ?_⟩
  simp only [dropIndexColumns, bind_ok, get_ok, ite_ok, throw_ok, put_ok] at h
  obtain ⟨_, _, he, h⟩ := h
  cases he
  obtain ⟨_, h⟩ | ⟨h1, h⟩ := h
  · exact h.elim
  obtain ⟨_, h⟩ | ⟨h2, h⟩ := h
  · exact h.elim
  obtain ⟨_, t, he, h⟩ := h
  cases he
  obtain ⟨rfl, hu⟩ := checkUnique_ok h
  push Not at h2
  have hne : (s.dropCols names).cols ≠ [] := by
    obtain ⟨c, hc, hcn⟩ := h2
    exact List.ne_nil_of_mem (List.mem_filter.2 ⟨hc, by simpa using hcn⟩)
  have := hu hne
  exact Steps.single (.colDrop s names h2 this.1 this.2.1 this.2.2) (by simp)

/-- All kinds of changes except switching foreign keys off. -/
def opKinds : List Kind :=
  [.idxAdd, .idxUpd, .idxDel, .locAdd, .locDel, .agAdd, .agDel, .qAdd, .qSet, .qDel,
   .wgAdd, .wgUpd, .wgDel, .wAdd, .wSet, .wDel, .lAdd, .lUpd, .lDel, .mAdd, .mUpd, .mDel,
   .hash, .structs, .pdefs, .attrs, .display, .domain, .defwg, .colAdd, .colRen, .colDrop]

/-- All kinds of changes. -/
def allKinds : List Kind := .fkOff :: opKinds

theorem mem_allKinds (k : Kind) : k ∈ allKinds := by cases k <;> decide

theorem body_does (op : Op) (m : M Unit) (h : op.body = some m) : Does opKinds m := by
  cases op <;> simp only [Op.body, Option.some.injEq, reduceCtorEq] at h <;> subst h <;>
    unfold opKinds <;> does

theorem runTx_steps {α : Type} {K : List Kind} {m : M α} (hm : Does K m) (s : Store) :
    Steps K s (runTx m s).1 := by
  unfold runTx
  split
  · rename_i heq
    split
    · exact hm.steps _ _ _ heq
    · exact Steps.refl _
  · exact Steps.refl _

theorem runAuto_steps {K : List Kind} {ms : List (M Unit)} (hm : ∀ m ∈ ms, Does K m) (s : Store) :
    Steps K s (runAuto ms s).1 := by
  induction ms generalizing s with
  | nil => exact Steps.refl _
  | cons m ms ih =>
    have h1 := runTx_steps (hm m (by simp)) s
    unfold runAuto
    split
    · rename_i s1 u heq
      rw [heq] at h1
      exact h1.trans (ih (fun m hm' => hm m (by simp [hm'])) s1)
    · rename_i s1 e heq
      rw [heq] at h1
      exact h1

theorem reifyMappings_steps (ref : PyStr) (name : Option PyStr) (cs : List (PyStr × PyStr)) (s : Store) :
    Steps [.mUpd] s (reifyMappings ref name cs s).1 := by
  unfold reifyMappings
  split
  · exact Steps.refl _
  · apply runAuto_steps
    intro m hm
    simp only [reifySteps, List.mem_map] at hm
    obtain ⟨_, _, rfl⟩ := hm
    does

theorem deleteUnmatchedQuantities_steps (s : Store) :
    Steps [.locDel, .agDel] s (deleteUnmatchedQuantities s).1 := by
  have hl : ∀ ls : List LocRec, ∀ m ∈ ls.map (fun l => locDelete l.id), Does [.locDel, .agDel] m := by
    intro ls m hm
    simp only [List.mem_map] at hm
    obtain ⟨_, _, rfl⟩ := hm
    does
  have ha : ∀ ls : List AGroup, ∀ m ∈ ls.map (fun l => agDelete l.id), Does [.locDel, .agDel] m := by
    intro ls m hm
    simp only [List.mem_map] at hm
    obtain ⟨_, _, rfl⟩ := hm
    does
  have h1 := runAuto_steps (hl s.nonmatchingLocs) s
  unfold deleteUnmatchedQuantities
  split
  · rename_i heq
    rw [heq] at h1
    exact h1
  · rename_i s' u heq
    rw [heq] at h1
    exact h1.trans (runAuto_steps (ha _) s')

theorem step_of_body {op : Op} {m : M Unit} (h : op.body = some m) (s : Store) : step op s = runTx m s := by
  cases op <;> simp only [Op.body, Option.some.injEq, reduceCtorEq] at h <;> subst h <;> rfl

theorem step_steps (op : Op) (s : Store) : Steps allKinds s (step op s).1 := by
  have hsub : opKinds ⊆ allKinds := by decide
  rcases hb : op.body with _ | m
  · cases op <;> simp only [Op.body, reduceCtorEq] at hb
    · exact (reifyMappings_steps _ _ _ s).mono (by decide)
    · exact (deleteUnmatchedQuantities_steps s).mono (by decide)
    · exact Steps.single (.fkOff s) (by decide)
  · rw [step_of_body hb]
    exact (runTx_steps (body_does _ _ hb) s).mono hsub

theorem step_steps_fk (op : Op) (hop : op ≠ .reopen) (s : Store) : Steps opKinds s (step op s).1 := by
  rcases hb : op.body with _ | m
  · cases op <;> simp only [Op.body, reduceCtorEq] at hb
    · exact (reifyMappings_steps _ _ _ s).mono (by decide)
    · exact (deleteUnmatchedQuantities_steps s).mono (by decide)
    · exact absurd rfl hop
  · rw [step_of_body hb]
    exact runTx_steps (body_does _ _ hb) s

/-- A property of a new dataspace kept by every operation holds after every history. -/
theorem Reachable.induction {P : Store → Prop} (h0 : ∀ uid, P (Store.new uid))
    (hs : ∀ s op, Reachable s → P s → P (step op s).1) {s : Store} (h : Reachable s) : P s := by
  obtain ⟨uid, ops, rfl⟩ := h
  induction ops using List.reverseRecOn with
  | nil => exact h0 uid
  | append_singleton ops op ih =>
    rw [run, List.foldl_append, List.foldl_cons, List.foldl_nil]
    exact hs _ _ ⟨uid, ops, rfl⟩ ih

/-- The same for histories without reopening. -/
theorem ReachableFk.induction {P : Store → Prop} (h0 : ∀ uid, P (Store.new uid))
    (hs : ∀ s op, ReachableFk s → op ≠ .reopen → P s → P (step op s).1) {s : Store}
    (h : ReachableFk s) : P s := by
  obtain ⟨uid, ops, hops, rfl⟩ := h
  induction ops using List.reverseRecOn with
  | nil => exact h0 uid
  | append_singleton ops op ih =>
    rw [run, List.foldl_append, List.foldl_cons, List.foldl_nil]
    simp only [List.mem_append, List.mem_singleton, not_or] at hops
    exact hs _ _ ⟨uid, ops, hops.1, rfl⟩ (Ne.symm hops.2) (ih hops.1)

/-- A property of a new dataspace that every primitive change keeps holds after every history. -/
theorem Reachable.of_prim {P : Store → Prop} (h0 : ∀ uid, P (Store.new uid))
    (hs : ∀ k s s', Prim k s s' → P s → P s') {s : Store} (h : Reachable s) : P s :=
  h.induction h0 fun s op _ hP => (step_steps op s).invariant (fun k _ => hs k) hP

theorem ReachableFk.reachable {s : Store} (h : ReachableFk s) : Reachable s := by
  obtain ⟨uid, ops, _, rfl⟩ := h
  exact ⟨uid, ops, rfl⟩

theorem Reachable.step {s : Store} (h : Reachable s) (op : Op) : Reachable (step op s).1 := by
  obtain ⟨uid, ops, rfl⟩ := h
  exact ⟨uid, ops ++ [op], by rw [run, run, List.foldl_append, List.foldl_cons, List.foldl_nil]⟩

theorem ReachableFk.step {s : Store} (h : ReachableFk s) (op : Op) (hop : op ≠ .reopen) :
    ReachableFk (Space.step op s).1 := by
  obtain ⟨uid, ops, hops, rfl⟩ := h
  exact ⟨uid, ops ++ [op], by simp [hops, hop.symm],
    by rw [run, run, List.foldl_append, List.foldl_cons, List.foldl_nil]⟩

/-- In a history without reopening foreign keys stay on. -/
theorem ReachableFk.fk {s : Store} (h : ReachableFk s) : s.fk = true :=
  h.induction (fun _ => rfl) fun s op _ hop hP => by
    refine (step_steps_fk op hop s).invariant (P := fun s => s.fk = true) ?_ hP
    intro k hk s s' hprim hfk
    cases hprim <;> first | exact hfk | (exfalso; revert hk; decide)

theorem ReachableTidy.reachable {s : Store} (h : ReachableTidy s) : Reachable s := by
  obtain ⟨uid, ops, _, rfl⟩ := h
  exact ⟨uid, ops, rfl⟩

theorem ReachableFk.tidy {s : Store} (h : ReachableFk s) : ReachableTidy s := by
  obtain ⟨uid, ops, hops, rfl⟩ := h
  refine ⟨uid, ops, ?_, rfl⟩
  rw [List.pairwise_iff_forall_sublist]
  intro a b hab ha
  exact absurd (hab.subset (by simp [ha])) hops

theorem ReachableTidy.induction {P : Store → Prop} (h0 : ∀ uid, P (Store.new uid))
    (hs : ∀ s op, ReachableTidy s → (s.fk = true ∨ op.dropsOwner = false) → P s → P (Space.step op s).1)
    {s : Store} (h : ReachableTidy s) : P s := by
  obtain ⟨uid, ops, hops, rfl⟩ := h
  induction ops using List.reverseRecOn with
  | nil => exact h0 uid
  | append_singleton ops op ih =>
    rw [run, List.foldl_append, List.foldl_cons, List.foldl_nil]
    rw [List.pairwise_append] at hops
    refine hs _ _ ⟨uid, ops, hops.1, rfl⟩ ?_ (ih hops.1)
    by_cases hr : Op.reopen ∈ ops
    · exact .inr (hops.2.2 _ hr op (by simp) rfl)
    · exact .inl (ReachableFk.fk ⟨uid, ops, hr, rfl⟩)

theorem ReachableTidy.step {s : Store} (h : ReachableTidy s) (op : Op)
    (hop : s.fk = true ∨ op.dropsOwner = false) : ReachableTidy (Space.step op s).1 := by
  obtain ⟨uid, ops, hops, rfl⟩ := h
  refine ⟨uid, ops ++ [op], ?_, by rw [run, run, List.foldl_append, List.foldl_cons, List.foldl_nil]⟩
  rw [List.pairwise_append]
  refine ⟨hops, by simp, ?_⟩
  intro a ha b hb hae
  rw [List.mem_singleton.1 hb]
  rcases hop with hfk | hop
  · exfalso
    subst hae
    have hstay : ∀ (ops : List Op) (s : Store), s.fk = false → (run ops s).fk = false := by
      intro ops
      induction ops with
      | nil => intro s h; exact h
      | cons x xs ih =>
        intro s h
        refine ih _ ?_
        refine (step_steps x s).invariant (P := fun s => s.fk = false) ?_ h
        intro k _ a b hp hf
        cases hp <;> first | exact hf | rfl
    obtain ⟨l1, l2, rfl⟩ := List.append_of_mem ha
    rw [run, List.foldl_append, List.foldl_cons] at hfk
    have := hstay l2 (Space.step .reopen (run l1 (Store.new uid))).1 rfl
    rw [run] at this
    rw [show (List.foldl (fun s op => (Space.step op s).1) (Store.new uid) l1) = run l1 (Store.new uid) from rfl,
      this] at hfk
    cases hfk
  · exact hop

end Toron.Space
