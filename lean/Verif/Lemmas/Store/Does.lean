/-
Which primitive changes each function of the model makes.
-/
import Verif.Lemmas.Store.Prim
import Verif.Lemmas.Distinct
import Lean.Elab.Tactic
import Mathlib.Tactic.SplitIfs

set_option linter.unusedSimpArgs false

namespace Toron.Space

open Toron.Selectors (PyStr Sel)

/-! ### Runs of programs -/

section
variable {α β : Type}

theorem bind_ok {x : M α} {f : α → M β} {s : Store} {r : β × Store} :
    (x >>= f) s = .ok r ↔ ∃ a t, x s = .ok (a, t) ∧ f a t = .ok r := by
  simp only [Bind.bind, StateT.bind, Except.bind]
  constructor
  · intro h
    split at h
    · cases h
    · rename_i v heq
      exact ⟨v.1, v.2, heq, h⟩
  · rintro ⟨a, t, h1, h2⟩
    rw [h1]
    exact h2

theorem get_ok {s : Store} {r : Store × Store} : (get : M Store) s = .ok r ↔ r = (s, s) :=
  ⟨fun h => by cases h; rfl, fun h => by cases h; rfl⟩

theorem pure_ok {a : α} {s : Store} {r : α × Store} : (pure a : M α) s = .ok r ↔ r = (a, s) :=
  ⟨fun h => by cases h; rfl, fun h => by cases h; rfl⟩

theorem throw_ok {e : Err} {s : Store} {r : α × Store} : (throw e : M α) s = .ok r ↔ False :=
  ⟨fun h => (by cases h), fun h => False.elim h⟩

theorem put_ok {t s : Store} {r : Unit × Store} : put t s = .ok r ↔ r = ((), t) :=
  ⟨fun h => by cases h; rfl, fun h => by cases h; rfl⟩

theorem modify_ok {g : Store → Store} {s : Store} {r : Unit × Store} :
    (modify g : M Unit) s = .ok r ↔ r = ((), g s) :=
  ⟨fun h => by cases h; rfl, fun h => by cases h; rfl⟩

theorem liftE_ok {e : Except Err α} {s : Store} {r : α × Store} :
    liftE e s = .ok r ↔ ∃ a, e = .ok a ∧ r = (a, s) := by
  cases e with
  | error e => exact ⟨fun h => (by cases h), fun ⟨_, h, _⟩ => (by cases h)⟩
  | ok a =>
    exact ⟨fun h => (by cases h; exact ⟨a, rfl, rfl⟩), fun ⟨_, h, h'⟩ => (by cases h; cases h'; rfl)⟩

theorem ite_ok {p : Prop} [Decidable p] {x y : M α} {s : Store} {r : α × Store} :
    (if p then x else y) s = .ok r ↔ (p ∧ x s = .ok r) ∨ (¬ p ∧ y s = .ok r) := by
  by_cases h : p <;> simp [h]

end

theorem Does.ite {α : Type} {K : List Kind} {p : Prop} [Decidable p] {x y : M α} (hx : Does K x)
    (hy : Does K y) : Does K (if p then x else y) := by
  by_cases h : p <;> simp [h, hx, hy]

theorem Does.whenM {K : List Kind} {b : Bool} {m : M Unit} (hm : Does K m) : Does K (whenM b m) :=
  Does.ite hm (Does.pure _)

theorem whenM_ok {b : Bool} {m : M Unit} {s s' : Store} {u : Unit} :
    whenM b m s = .ok (u, s') ↔ (b = true ∧ m s = .ok (u, s')) ∨ (b = false ∧ s' = s) := by
  unfold whenM
  rw [ite_ok, pure_ok]
  cases b <;> simp

open Lean Elab Tactic Meta in
/-- One step of the tactic `does`: look at the head of the program. For a function `f` of the model the
lemma `f_does` is used. -/
elab "does_step" : tactic => withMainContext do
  let g ← getMainTarget
  let g ← instantiateMVars g
  if g.isForall then
    evalTactic (← `(tactic| intro _))
  else
    unless g.isAppOfArity ``Does 3 do throwError "not a `Does` goal"
    let m := g.appArg!.headBeta
    match m with
    | .letE _ _ v b _ =>
      let g' := mkApp g.appFn! (b.instantiate1 v).headBeta
      replaceMainGoal [← (← getMainGoal).change g']
    | _ =>
      unless m == g.appArg! do
        replaceMainGoal [← (← getMainGoal).change (mkApp g.appFn! m)]
      let .const n _ := m.getAppFn | throwError "no head constant"
      if n == ``Bind.bind then evalTactic (← `(tactic| with_reducible apply Does.bind))
      else if n == ``Pure.pure then evalTactic (← `(tactic| with_reducible exact Does.pure _))
      else if n == ``MonadExcept.throw || n == ``throw || n == ``throwThe then
        evalTactic (← `(tactic| with_reducible exact Does.throw _))
      else if n == ``MonadState.get || n == ``getThe then
        evalTactic (← `(tactic| with_reducible exact Does.get))
      else if n == ``liftE then evalTactic (← `(tactic| with_reducible exact Does.liftE _))
      else if n == ``ite then evalTactic (← `(tactic| with_reducible apply Does.ite))
      else if n == ``whenM then
        evalTactic (← `(tactic| with_reducible apply Does.whenM))
      else if n == ``List.forM then evalTactic (← `(tactic| with_reducible apply Does.forM))
      else if n == ``List.foldlM then evalTactic (← `(tactic| with_reducible apply Does.foldlM))
      else if n == ``List.mapM then evalTactic (← `(tactic| with_reducible apply Does.mapM))
      else
        let lem := n.appendAfter "_does"
        if (← getEnv).contains lem then
          evalTactic (← `(tactic| exact Does.mono (by decide) ($(mkIdent lem) ..)))
        else evalTactic (← `(tactic| split))

/-- Decompose a program and use the lemmas about its parts. -/
macro "does" : tactic => `(tactic| repeat' does_step)

/-! ### Repositories -/

theorem indexAdd_does (labels : List PyStr) : Does [.idxAdd] (indexAdd labels) := by
  refine ⟨fun s a s' h => ?_⟩
  simp only [indexAdd, bind_ok, get_ok, ite_ok, throw_ok, put_ok, pure_ok] at h
  obtain ⟨_, _, he, h⟩ := h
  cases he
  push Not at h
  obtain ⟨_, h⟩ | ⟨h1, h⟩ := h
  · exact h.elim
  obtain ⟨_, h⟩ | ⟨h2, h⟩ := h
  · exact h.elim
  obtain ⟨_, h⟩ | ⟨h3, h⟩ := h
  · exact h.elim
  obtain ⟨_, _, he, h⟩ := h
  cases he
  cases h
  exact Steps.single (.idxAdd s labels h1.1 h1.2 h2 h3) (by simp)

theorem indexGet_does (id : Nat) : Does [] (indexGet id) := by
  unfold indexGet; does

theorem indexUpdate_does (r : IndexRec) : Does [.idxUpd] (indexUpdate r) := by
  refine ⟨fun s a s' h => ?_⟩
  simp only [indexUpdate, bind_ok, get_ok, ite_ok, throw_ok, put_ok, pure_ok] at h
  obtain ⟨_, _, he, h⟩ := h
  cases he
  obtain ⟨_, h⟩ | ⟨h1, h⟩ := h
  · exact h.elim
  obtain ⟨_, h⟩ | ⟨h2, h⟩ := h
  · exact h.elim
  obtain ⟨_, h⟩ | ⟨h3, h⟩ := h
  · cases h; exact Steps.refl _
  obtain ⟨_, h⟩ | ⟨h4, h⟩ := h
  · exact h.elim
  obtain ⟨_, h⟩ | ⟨h5, h⟩ := h
  · exact h.elim
  obtain ⟨_, h⟩ | ⟨h6, h⟩ := h
  · exact h.elim
  cases h
  push Not at h2
  refine Steps.single (.idxUpd s r (by simpa using h1) h2.1 h2.2 (by simpa using h3) h4 h5 ?_) (by simp)
  intro x hx hne heq
  apply h6
  simp only [List.any_eq_true]
  exact ⟨x, hx, by simp [hne, heq]⟩

theorem indexDelete_does (id : Nat) : Does [.idxDel] (indexDelete id) := by
  refine ⟨fun s a s' h => ?_⟩
  simp only [indexDelete, bind_ok, get_ok, ite_ok, throw_ok, put_ok, pure_ok] at h
  obtain ⟨_, _, he, h⟩ := h
  cases he
  obtain ⟨_, h⟩ | ⟨h1, h⟩ := h
  · exact h.elim
  cases h
  refine Steps.single (.idxDel s id ?_) (by simp)
  intro h0 x hx hx0
  apply h1
  refine ⟨h0, ?_⟩
  simp only [List.any_eq_true]
  exact ⟨x, hx, by simp [hx0]⟩

theorem locAdd_does (labels : List PyStr) : Does [.locAdd] (locAdd labels) := by
  refine ⟨fun s a s' h => ?_⟩
  simp only [locAdd, bind_ok, get_ok, ite_ok, throw_ok, put_ok, pure_ok] at h
  obtain ⟨_, _, he, h⟩ := h
  cases he
  obtain ⟨_, h⟩ | ⟨h1, h⟩ := h
  · exact h.elim
  obtain ⟨_, h⟩ | ⟨h2, h⟩ := h
  · exact h.elim
  cases h
  push Not at h1
  exact Steps.single (.locAdd s labels h1.1 h1.2 h2) (by simp)

theorem locDelete_does (id : Nat) : Does [.locDel] (locDelete id) :=
  Does.modify fun s => Steps.single (.locDel s id) (by simp)

theorem locGetOrAdd_does (labels : List PyStr) : Does [.locAdd] (locGetOrAdd labels) := by
  unfold locGetOrAdd; does

theorem QuantRow.pick_keys (row : QuantRow) (names : List PyStr) : ((row.pick names).map (·.1)).Nodup := by
  refine (nodup_distinct names).sublist ?_
  unfold QuantRow.pick
  induction distinct names with
  | nil => exact .slnil
  | cons k ks ih =>
    rw [List.filterMap_cons]
    split
    · exact ih.cons k
    · rename_i kv hkv
      have : kv.1 = k := by
        split at hkv
        · split at hkv
          · cases hkv
          · cases hkv; rfl
        · cases hkv
      rw [List.map_cons, this]
      exact ih.cons₂ k

theorem agAdd_does (attrs : Attrs) (hn : attrs ≠ []) (hk : (attrs.map (·.1)).Nodup) : Does [.agAdd] (agAdd attrs) := by
  refine ⟨fun s a s' h => ?_⟩
  simp only [agAdd, bind_ok, get_ok, ite_ok, throw_ok, put_ok, pure_ok] at h
  obtain ⟨_, _, he, h⟩ := h
  cases he
  obtain ⟨_, h⟩ | ⟨h1, h⟩ := h
  · exact h.elim
  obtain ⟨_, h⟩ | ⟨h2, h⟩ := h
  · exact h.elim
  cases h
  refine Steps.single (.agAdd s attrs hn hk ?_ h2) (by simp)
  intro kv hkv
  simp only [List.any_eq_true, not_exists, not_and, Bool.or_eq_true, List.isEmpty_iff, not_or] at h1
  exact h1 kv hkv

theorem agGetOrAdd_pick_does (row : QuantRow) (names : List PyStr) (hn : row.pick names ≠ []) :
    Does [.agAdd] (agGetOrAdd (row.pick names)) := by
  have := agAdd_does _ hn (row.pick_keys names)
  unfold agGetOrAdd
  refine Does.bind Does.get fun s => ?_
  split
  · does
  · exact Does.bind this fun _ => by does

theorem agDelete_does (id : Nat) : Does [.agDel] (agDelete id) :=
  Does.modify fun s => Steps.single (.agDel s id) (by simp)

theorem quantAdd_does (loc ag : Nat) (value : ℚ) : Does [.qAdd] (quantAdd loc ag value) := by
  refine ⟨fun s a s' h => ?_⟩
  simp only [quantAdd, bind_ok, get_ok, ite_ok, throw_ok, put_ok, pure_ok] at h
  obtain ⟨_, _, he, h⟩ := h
  cases he
  obtain ⟨_, h⟩ | ⟨h1, h⟩ := h
  · exact h.elim
  obtain ⟨_, h⟩ | ⟨h2, h⟩ := h
  · exact h.elim
  cases h
  refine Steps.single (.qAdd s loc ag value ?_ ?_) (by simp)
  · intro hfk
    simpa only [hfk, List.any_eq_true, beq_iff_eq, true_and, not_not, and_true] using h1
  · intro q hq hq'
    exact h2 (List.any_eq_true.2 ⟨q, hq, by simp [hq']⟩)

theorem quantSetValue_does (id : Nat) (value : ℚ) : Does [.qSet] (quantSetValue id value) :=
  Does.modify fun s => Steps.single (.qSet s id value) (by simp)

theorem quantDelete_does (id : Nat) : Does [.qDel] (quantDelete id) :=
  Does.modify fun s => Steps.single (.qDel s id) (by simp)

theorem wgroupGetByName_does (name : PyStr) : Does [] (wgroupGetByName name) := by
  unfold wgroupGetByName; does

theorem wgroupAdd_does (name : PyStr) (selectors : List Sel) (complete : Bool) :
    Does [.wgAdd] (wgroupAdd name selectors complete) := by
  refine ⟨fun s a s' h => ?_⟩
  simp only [wgroupAdd, bind_ok, get_ok, ite_ok, throw_ok, put_ok, pure_ok] at h
  obtain ⟨_, _, he, h⟩ := h
  cases he
  obtain ⟨_, h⟩ | ⟨h1, h⟩ := h
  · exact h.elim
  cases h
  refine Steps.single (.wgAdd s name selectors complete ?_) (by simp)
  intro g hg hn
  exact h1 (List.any_eq_true.2 ⟨g, hg, by simp [hn]⟩)

theorem wgroupUpdate_does (g : WGroup) : Does [.wgUpd] (wgroupUpdate g) := by
  refine ⟨fun s a s' h => ?_⟩
  simp only [wgroupUpdate, bind_ok, get_ok, ite_ok, throw_ok, put_ok, pure_ok] at h
  obtain ⟨_, _, he, h⟩ := h
  cases he
  obtain ⟨_, h⟩ | ⟨h1, h⟩ := h
  · cases h; exact Steps.refl _
  obtain ⟨_, h⟩ | ⟨h2, h⟩ := h
  · exact h.elim
  cases h
  refine Steps.single (.wgUpd s g (by simpa using h1) ?_) (by simp)
  intro x hx hne heq
  exact h2 (List.any_eq_true.2 ⟨x, hx, by simp [hne, heq]⟩)

theorem wgroupDelete_does (id : Nat) : Does [.wgDel] (wgroupDelete id) :=
  Does.modify fun s => Steps.single (.wgDel s id) (by simp)

theorem weightAdd_does (group index : Nat) (value : ℚ) : Does [.wAdd] (weightAdd group index value) := by
  refine ⟨fun s a s' h => ?_⟩
  simp only [weightAdd, bind_ok, get_ok, ite_ok, throw_ok, put_ok, pure_ok] at h
  obtain ⟨_, _, he, h⟩ := h
  cases he
  obtain ⟨_, h⟩ | ⟨h1, h⟩ := h
  · exact h.elim
  obtain ⟨_, h⟩ | ⟨h2, h⟩ := h
  · exact h.elim
  obtain ⟨_, h⟩ | ⟨h3, h⟩ := h
  · exact h.elim
  obtain ⟨_, h⟩ | ⟨h4, h⟩ := h
  · exact h.elim
  cases h
  refine Steps.single (.wAdd s group index value h1 (not_lt.1 h2) ?_ ?_) (by simp)
  · intro w hw hw'
    exact h3 (List.any_eq_true.2 ⟨w, hw, by simp [hw']⟩)
  · intro hfk
    simpa [hfk] using h4

theorem weightSetValue_does (id : Nat) (value : ℚ) : Does [.wSet] (weightSetValue id value) := by
  refine ⟨fun s a s' h => ?_⟩
  simp only [weightSetValue, bind_ok, get_ok, ite_ok, throw_ok, put_ok, pure_ok] at h
  obtain ⟨_, _, he, h⟩ := h
  cases he
  obtain ⟨_, h⟩ | ⟨h1, h⟩ := h
  · exact h.elim
  cases h
  exact Steps.single (.wSet s id value (not_lt.1 h1)) (by simp)

theorem weightDelete_does (id : Nat) : Does [.wDel] (weightDelete id) :=
  Does.modify fun s => Steps.single (.wDel s id) (by simp)

theorem linkAdd_does (l : Link) : Does [.lAdd] (linkAdd l) := by
  refine ⟨fun s a s' h => ?_⟩
  simp only [linkAdd, bind_ok, get_ok, ite_ok, throw_ok, put_ok, pure_ok] at h
  obtain ⟨_, _, he, h⟩ := h
  cases he
  obtain ⟨_, h⟩ | ⟨h1, h⟩ := h
  · exact h.elim
  cases h
  refine Steps.single (.lAdd s l ?_) (by simp)
  intro x hx ho
  constructor
  · intro hn
    exact h1 (List.any_eq_true.2 ⟨x, hx, by simp [ho, hn]⟩)
  · intro hd
    exact h1 (List.any_eq_true.2 ⟨x, hx, by simp [ho, hd]⟩)

theorem linkUpdate_does (l : Link) : Does [.lUpd] (linkUpdate l) := by
  refine ⟨fun s a s' h => ?_⟩
  simp only [linkUpdate, bind_ok, get_ok, ite_ok, throw_ok, put_ok, pure_ok] at h
  obtain ⟨_, _, he, h⟩ := h
  cases he
  obtain ⟨_, h⟩ | ⟨h1, h⟩ := h
  · cases h; exact Steps.refl _
  obtain ⟨_, h⟩ | ⟨h2, h⟩ := h
  · exact h.elim
  cases h
  refine Steps.single (.lUpd s l (by simpa using h1) ?_) (by simp)
  intro x hx hne ho
  constructor
  · intro hn
    exact h2 (List.any_eq_true.2 ⟨x, hx, by simp [ho, hn, hne]⟩)
  · intro hd
    exact h2 (List.any_eq_true.2 ⟨x, hx, by simp [ho, hd, hne]⟩)

theorem linkDelete_does (id : Nat) : Does [.lDel] (linkDelete id) :=
  Does.modify fun s => Steps.single (.lDel s id) (by simp)

theorem mappingAdd_does (link : Nat) (other : Int) (index : Nat) (level : Option (List Byte)) (value : ℚ)
    (prop : Option ℚ) : Does [.mAdd] (mappingAdd link other index level value prop) := by
  refine ⟨fun s a s' h => ?_⟩
  simp only [mappingAdd, bind_ok, get_ok, ite_ok, throw_ok, put_ok, pure_ok] at h
  obtain ⟨_, _, he, h⟩ := h
  cases he
  obtain ⟨_, h⟩ | ⟨h1, h⟩ := h
  · exact h.elim
  cases level with
  | none => exact absurd h (by simp [throw_ok])
  | some lv =>
    simp only [ite_ok, throw_ok, put_ok] at h
    obtain ⟨_, h⟩ | ⟨h2, h⟩ := h
    · exact h.elim
    obtain ⟨_, h⟩ | ⟨h3, h⟩ := h
    · exact h.elim
    obtain ⟨_, h⟩ | ⟨h4, h⟩ := h
    · exact h.elim
    cases h
    refine Steps.single (.mAdd s _ rfl (by simpa using h2) ?_ ?_) (by simp)
    · intro x hx hx'
      exact h3 (List.any_eq_true.2 ⟨x, hx, by simpa [and_assoc] using hx'⟩)
    · intro hfk
      simpa [hfk] using h4

theorem mappingUpdate_does (m : Mapping) : Does [.mUpd] (mappingUpdate m) := by
  refine ⟨fun s a s' h => ?_⟩
  simp only [mappingUpdate, bind_ok, get_ok, ite_ok, throw_ok, put_ok, pure_ok] at h
  obtain ⟨_, _, he, h⟩ := h
  cases he
  obtain ⟨_, h⟩ | ⟨h1, h⟩ := h
  · cases h; exact Steps.refl _
  obtain ⟨_, h⟩ | ⟨h2, h⟩ := h
  · exact h.elim
  obtain ⟨_, h⟩ | ⟨h3, h⟩ := h
  · exact h.elim
  obtain ⟨_, h⟩ | ⟨h4, h⟩ := h
  · exact h.elim
  cases h
  refine Steps.single (.mUpd s m (by simpa using h1) (by simpa using h2) ?_ ?_) (by simp)
  · intro x hx hne hx'
    exact h3 (List.any_eq_true.2 ⟨x, hx, by simpa [and_assoc, hne] using hx'⟩)
  · intro hfk
    simpa [hfk] using h4

theorem mappingDelete_does (id : Nat) : Does [.mDel] (mappingDelete id) :=
  Does.modify fun s => Steps.single (.mDel s id) (by simp)

end Toron.Space
