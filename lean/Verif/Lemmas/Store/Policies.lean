/-
Conflict policies for weights.
-/
import Verif.Spec.Policies
import Verif.Lemmas.Store.Listing

namespace Toron.Space

open Toron.Selectors (PyStr)

/-! ### Policies -/

theorem Policy.after_nil (p : Policy) (old : Option ℚ) : p.after old [] = old := by
  cases p <;> cases old <;> simp [Policy.after]

theorem Policy.after_cons (p : Policy) (old : Option ℚ) (v : ℚ) (vs : List ℚ) :
    p.after (p.after old [v]) vs = p.after old (v :: vs) := by
  cases p
  case sum => cases old <;> simp [Policy.after, add_assoc]
  case replace =>
    cases vs with
    | nil => cases old <;> simp [Policy.after]
    | cons w ws => cases old <;> simp [Policy.after]
  all_goals cases old <;> simp [Policy.after]

theorem Policy.allows_nil (p : Policy) (old : Option ℚ) : p.Allows old [] := by
  intro _
  cases old <;> simp

theorem Policy.allows_cons (p : Policy) (old : Option ℚ) (v : ℚ) (vs : List ℚ) :
    p.Allows old (v :: vs) ↔ p.Allows old [v] ∧ p.Allows (p.after old [v]) vs := by
  unfold Policy.Allows
  cases p <;> cases old <;> simp [Policy.after]

theorem Policy.allows_one {p : Policy} {old : Option ℚ} {v : ℚ} : p.Allows old [v] ↔ ¬ (p = .abort ∧ old ≠ none) := by
  unfold Policy.Allows
  cases p <;> cases old <;> simp

theorem Policy.after_none (p : Policy) (v : ℚ) : p.after none [v] = some v := by
  cases p <;> simp [Policy.after]

/-! ### Weights as a function of group and record -/

theorem weightOf_iff {s : Store} (hp : (s.weights.map fun w => (w.group, w.index)).Nodup) {g i : Nat} {x : ℚ} :
    s.weightOf g i = some x ↔ ∃ w ∈ s.weights, w.group = g ∧ w.index = i ∧ w.value = x := by
  unfold Store.weightOf Store.findWeight
  rcases hf : s.weights.find? (fun w => w.group == g && w.index == i) with _ | w
  · simp only [hf, Option.map_none, reduceCtorEq, false_iff]
    rintro ⟨w, hw, h1, h2, _⟩
    exact absurd (List.find?_eq_none.1 hf w hw) (by simp [h1, h2])
  · simp only [hf, Option.map_some, Option.some.injEq]
    have hwm := List.mem_of_find?_eq_some hf
    have hwp : w.group = g ∧ w.index = i := by simpa using List.find?_some hf
    constructor
    · rintro rfl
      exact ⟨w, hwm, hwp.1, hwp.2, rfl⟩
    · rintro ⟨w', hw', h1, h2, rfl⟩
      rw [List.inj_on_of_nodup_map hp hwm hw' (by rw [hwp.1, hwp.2, h1, h2])]

theorem findWeight_some {s : Store} {g i : Nat} {w : Weight} (h : s.findWeight g i = some w) :
    w ∈ s.weights ∧ w.group = g ∧ w.index = i := by
  unfold Store.findWeight at h
  exact ⟨List.mem_of_find?_eq_some h, by simpa using List.find?_some h⟩

theorem weightOf_add {s : Store} {g i g' i' : Nat} {v : ℚ} {id : Nat} (hn : s.findWeight g i = none) :
    Store.weightOf { s with weights := s.weights ++ [⟨id, g, i, v⟩] } g' i' =
      if g' = g ∧ i' = i then some v else s.weightOf g' i' := by
  unfold Store.weightOf Store.findWeight at *
  rw [List.find?_append]
  by_cases h : g' = g ∧ i' = i
  · obtain ⟨rfl, rfl⟩ := h
    rw [hn]
    simp
  · rw [if_neg h]
    rcases hf : s.weights.find? (fun w => w.group == g' && w.index == i') with _ | w
    · have : ¬ (g = g' ∧ i = i') := fun ⟨a, b⟩ => h ⟨a.symm, b.symm⟩
      rw [hf]
      simp [this]
    · rw [hf]; simp

theorem weightOf_set {s : Store} (hw : WeightInv s) {g i g' i' : Nat} {v : ℚ} {w : Weight}
    (hf : s.findWeight g i = some w) :
    Store.weightOf { s with weights := s.weights.map fun x => if x.id = w.id then { x with value := v } else x } g' i' =
      if g' = g ∧ i' = i then some v else s.weightOf g' i' := by
  obtain ⟨hm, h1, h2⟩ := findWeight_some hf
  have hkey : ∀ x : Weight, (if x.id = w.id then { x with value := v } else x).group = x.group ∧
      (if x.id = w.id then { x with value := v } else x).index = x.index := by
    intro x; split <;> exact ⟨rfl, rfl⟩
  have e : (fun x : Weight => (if x.id = w.id then { x with value := v } else x).group == g' &&
      (if x.id = w.id then { x with value := v } else x).index == i') = fun x => x.group == g' && x.index == i' := by
    funext x
    rw [(hkey x).1, (hkey x).2]
  unfold Store.weightOf Store.findWeight at *
  dsimp only
  rw [List.find?_map]
  unfold Function.comp
  rw [e]
  by_cases h : g' = g ∧ i' = i
  · obtain ⟨rfl, rfl⟩ := h
    rw [hf]
    simp
  · rw [if_neg h]
    rcases hx : s.weights.find? (fun w => w.group == g' && w.index == i') with _ | x
    · rw [hx]; simp
    · have hxm := List.mem_of_find?_eq_some hx
      have hxp : x.group = g' ∧ x.index = i' := by simpa using List.find?_some hx
      have : x.id ≠ w.id := by
        intro he
        have := List.inj_on_of_nodup_map hw.ids hxm hm he
        subst this
        exact h ⟨hxp.1.symm.trans h1, hxp.2.symm.trans h2⟩
      rw [hx]
      simp [this]

/-- What one attempt to load a weight does. -/
theorem weightAddOrResolve_spec {s : Store} (hw : WeightInv s) {g i : Nat} {v : ℚ} {p : Policy}
    (hg : ∃ x ∈ s.wgroups, x.id = g) (hi : i ≠ 0) (hp : p ≠ .other) :
    (0 ≤ v ∧ p.Allows (s.weightOf g i) [v] ∧ ∃ c ws,
      weightAddOrResolve g i v p s = .ok (c, { s with weights := ws }) ∧
      WeightInv { s with weights := ws } ∧
      (∀ w ∈ ws, w.index = i ∨ ∃ w' ∈ s.weights, w'.index = w.index) ∧
      ∀ g' i', Store.weightOf { s with weights := ws } g' i' =
        if g' = g ∧ i' = i then p.after (s.weightOf g i) [v] else s.weightOf g' i') ∨
    (¬ (0 ≤ v ∧ p.Allows (s.weightOf g i) [v]) ∧ ∃ e, weightAddOrResolve g i v p s = .error e) := by
  have hgany : (s.wgroups.any fun x => x.id == g) = true := by
    obtain ⟨x, hx, he⟩ := hg
    exact List.any_eq_true.2 ⟨x, hx, by simp [he]⟩
  by_cases hv : v < 0
  · refine .inr ⟨fun h => absurd h.1 (not_le.2 hv), .valueError "value cannot be negative", ?_⟩
    have : weightAdd g i v s = .error (.valueError "value cannot be negative") := by
      unfold weightAdd
      simp only [bind, StateT.bind, get, getThe, MonadStateOf.get, StateT.get, pure, Except.pure, Except.bind]
      rw [if_neg hi, if_pos hv]
      rfl
    unfold weightAddOrResolve
    rw [this]
    simp [hv]
  have hv' := not_lt.1 hv
  rcases hf : s.findWeight g i with _ | w
  · -- nothing stored yet
    have hany : (s.weights.any fun w => w.group == g && w.index == i) = false := by
      rw [Bool.eq_false_iff]
      intro h
      obtain ⟨w, hw, h⟩ := List.any_eq_true.1 h
      unfold Store.findWeight at hf
      exact List.find?_eq_none.1 hf w hw h
    have hadd : weightAdd g i v s = .ok ((), { s with
        weights := s.weights ++ [⟨nextId (s.weights.map (·.id)), g, i, v⟩] }) := by
      unfold weightAdd
      simp only [bind, StateT.bind, get, getThe, MonadStateOf.get, StateT.get, pure, Except.pure, Except.bind]
      rw [if_neg hi, if_neg hv, if_neg (by simp [hany]), if_neg (by simp [hgany])]
      rfl
    have hold : s.weightOf g i = none := by unfold Store.weightOf; rw [hf]; rfl
    refine .inl ⟨hv', by rw [Policy.allows_one, hold]; simp, .inserted, s.weights ++ [⟨nextId (s.weights.map (·.id)), g, i, v⟩],
      ?_, ?_, ?_, ?_⟩
    · unfold weightAddOrResolve
      rw [hadd]
    · exact ((weightAdd_does g i v).steps _ _ _ hadd).invariant (fun _ _ _ _ hp h => h.prim hp) hw
    · intro w hw
      rcases List.mem_append.1 hw with h | h
      · exact .inr ⟨w, h, rfl⟩
      · rw [List.mem_singleton] at h
        subst h
        exact .inl rfl
    · intro g' i'
      rw [weightOf_add hf, hold, Policy.after_none]
  · have hwm := findWeight_some hf
    have herr : weightAdd g i v s = .error (.valueError "a weight already exists") := by
      unfold weightAdd
      simp only [bind, StateT.bind, get, getThe, MonadStateOf.get, StateT.get, pure, Except.pure, Except.bind]
      rw [if_neg hi, if_neg hv, if_pos (List.any_eq_true.2 ⟨w, hwm.1, by simp [hwm.2]⟩)]
      rfl
    have hold : s.weightOf g i = some w.value := by unfold Store.weightOf; rw [hf]; rfl
    have hset : ∀ x : ℚ, 0 ≤ x → weightSetValue w.id x s = .ok ((), { s with
        weights := s.weights.map fun y => if y.id = w.id then { y with value := x } else y }) := by
      intro x hx
      unfold weightSetValue
      simp only [bind, StateT.bind, get, getThe, MonadStateOf.get, StateT.get, pure, Except.pure, Except.bind]
      rw [if_neg (not_lt.2 hx)]
      rfl
    have hinv : ∀ x : ℚ, 0 ≤ x → WeightInv { s with
        weights := s.weights.map fun y => if y.id = w.id then { y with value := x } else y } := by
      intro x hx
      exact ((weightSetValue_does w.id x).steps _ _ _ (hset x hx)).invariant (fun _ _ _ _ hp h => h.prim hp) hw
    have hidx : ∀ x : ℚ, ∀ y ∈ s.weights.map fun y => if y.id = w.id then { y with value := x } else y,
        y.index = i ∨ ∃ w' ∈ s.weights, w'.index = y.index := by
      intro x y hy
      obtain ⟨z, hz, rfl⟩ := List.mem_map.1 hy
      exact .inr ⟨z, hz, by split <;> rfl⟩
    cases p with
    | other => exact absurd rfl hp
    | abort =>
      refine .inr ⟨fun h => ?_, .exception "a weight record already exists", ?_⟩
      · have := Policy.allows_one.1 h.2
        rw [hold] at this
        simp at this
      · unfold weightAddOrResolve
        rw [herr]
        simp [hi, hv, hf]
    | ignore =>
      refine .inl ⟨hv', by rw [Policy.allows_one]; simp, .skipped, s.weights, ?_, hw, fun w h => .inr ⟨w, h, rfl⟩, ?_⟩
      · unfold weightAddOrResolve
        rw [herr]
        simp [hi, hv]
      · intro g' i'
        split
        · next h => rw [h.1, h.2, hold]; rfl
        · rfl
    | replace =>
      refine .inl ⟨hv', by rw [Policy.allows_one]; simp, .overwritten,
        s.weights.map (fun y => if y.id = w.id then { y with value := v } else y), ?_, hinv v hv', hidx v, ?_⟩
      · unfold weightAddOrResolve
        rw [herr]
        simp only [hi, hv, or_self, if_false, reduceCtorEq, hf]
        simp only [bind, StateT.bind, hset v hv', Except.bind]
        rfl
      · intro g' i'
        rw [weightOf_set hw hf, hold]
        simp [Policy.after]
    | sum =>
      have hx : 0 ≤ w.value + v := add_nonneg (hw.nonneg w hwm.1) hv'
      refine .inl ⟨hv', by rw [Policy.allows_one]; simp, .summed,
        s.weights.map (fun y => if y.id = w.id then { y with value := w.value + v } else y), ?_, hinv _ hx, hidx _, ?_⟩
      · unfold weightAddOrResolve
        rw [herr]
        simp only [hi, hv, or_self, if_false, reduceCtorEq, hf]
        simp only [bind, StateT.bind, hset _ hx, Except.bind]
        rfl
      · intro g' i'
        rw [weightOf_set hw hf, hold]
        simp [Policy.after]

theorem find_nodup_iff {α β : Type} [BEq β] [LawfulBEq β] {l : List α} {f : α → β} (hn : (l.map f).Nodup) {b : β} {r : α} :
    l.find? (fun x => f x == b) = some r ↔ r ∈ l ∧ f r = b := by
  constructor
  · intro h
    exact ⟨List.mem_of_find?_eq_some h, by simpa using List.find?_some h⟩
  · rintro ⟨hm, he⟩
    rcases hf : l.find? (fun x => f x == b) with _ | x
    · exact absurd (List.find?_eq_none.1 hf r hm) (by simp [he])
    · have h1 := List.mem_of_find?_eq_some hf
      have h2 : f x = b := by simpa using List.find?_some hf
      rw [List.inj_on_of_nodup_map hn h1 hm (h2.trans he.symm)]

theorem weightRowRecord_iff {s : Store} (hi : IndexInv s) {row : WeightRow} {r : IndexRec} :
    s.weightRowRecord row = some r ↔ r ∈ s.index ∧ r.labels = row.labels ∧ (row.idv = none ∨ row.idv = some r.id) := by
  unfold Store.weightRowRecord
  cases row.idv with
  | none =>
    unfold Store.findByLabels
    simp only [true_or, and_true]
    exact find_nodup_iff hi.labels
  | some i =>
    simp only [Option.filter_eq_some_iff, beq_iff_eq, reduceCtorEq, Option.some.injEq, false_or]
    rw [find_nodup_iff hi.idsNodup]
    constructor
    · rintro ⟨⟨h1, rfl⟩, h2⟩
      exact ⟨h1, h2, rfl⟩
    · rintro ⟨h1, h2, rfl⟩
      exact ⟨⟨h1, rfl⟩, h2⟩

theorem weightsFor_cons_some {s : Store} (hi : IndexInv s) {row : WeightRow} {rows : List WeightRow} {r : IndexRec}
    (h : s.weightRowRecord row = some r) (hr : r.id ≠ 0) {v : ℚ} (hv : row.value = some v) (i : Nat) :
    s.weightsFor (row :: rows) i = if i = r.id then v :: s.weightsFor rows i else s.weightsFor rows i := by
  obtain ⟨h1, h2, h3⟩ := (weightRowRecord_iff hi).1 h
  unfold Store.weightsFor
  rw [List.filter_cons]
  by_cases hir : i = r.id
  · subst hir
    rw [if_pos rfl, if_pos (by
      rw [decide_eq_true_eq]
      exact ⟨by rw [← h2]; exact h1, hr, h3⟩), List.filterMap_cons, hv]
  · rw [if_neg hir, if_neg]
    rw [decide_eq_true_eq]
    rintro ⟨h4, _, _⟩
    have := List.inj_on_of_nodup_map hi.labels h4 h1 h2.symm
    rw [← this] at hir
    exact hir rfl

theorem weightsFor_cons_none {s : Store} (hi : IndexInv s) {row : WeightRow} {rows : List WeightRow}
    (h : ∀ r, s.weightRowRecord row = some r → row.value ≠ none → r.id = 0) (i : Nat) :
    s.weightsFor (row :: rows) i = s.weightsFor rows i := by
  unfold Store.weightsFor
  rw [List.filter_cons]
  split
  · next hc =>
    rw [decide_eq_true_eq] at hc
    obtain ⟨h1, h2, h3⟩ := hc
    rw [List.filterMap_cons]
    rcases hv : row.value with _ | v
    · rfl
    · exact absurd (h ⟨i, row.labels⟩ ((weightRowRecord_iff hi).2 ⟨h1, rfl, h3⟩) (by simp [hv])) h2
  · rfl

/-- All rows of weight data. -/
theorem insertWeightRows_spec {p : Policy} (hp : p ≠ .other) {g : Nat} (rows : List WeightRow) :
    ∀ {s : Store} (_ : WeightInv s) (_ : IndexInv s) (_ : ∃ x ∈ s.wgroups, x.id = g) (b : Bool),
    ((∀ i, (∀ v ∈ s.weightsFor rows i, 0 ≤ v) ∧ p.Allows (s.weightOf g i) (s.weightsFor rows i)) ∧
      ∃ c ws, rows.foldlM (insertWeightRow g p) b s = .ok (c, { s with weights := ws }) ∧
        WeightInv { s with weights := ws } ∧
        (∀ w ∈ ws, (∃ r ∈ s.index, r.id = w.index) ∨ ∃ w' ∈ s.weights, w'.index = w.index) ∧
        ∀ g' i, Store.weightOf { s with weights := ws } g' i =
          if g' = g then p.after (s.weightOf g i) (s.weightsFor rows i) else s.weightOf g' i) ∨
    (¬ (∀ i, (∀ v ∈ s.weightsFor rows i, 0 ≤ v) ∧ p.Allows (s.weightOf g i) (s.weightsFor rows i)) ∧
      ∃ e, rows.foldlM (insertWeightRow g p) b s = .error e) := by
  induction rows with
  | nil =>
    intro s hw hi hg b
    refine .inl ⟨fun i => ⟨by simp [Store.weightsFor], Policy.allows_nil p (s.weightOf g i)⟩, b, s.weights, rfl, hw,
      fun w h => .inr ⟨w, h, rfl⟩, fun g' i => ?_⟩
    split
    · next h => rw [h]; exact (Policy.after_nil ..).symm
    · rfl
  | cons row rows ih =>
    intro s hw hi hg b
    by_cases hskip : ∀ r, s.weightRowRecord row = some r → row.value ≠ none → r.id = 0
    · have hstep : insertWeightRow g p b row s = .ok (b, s) := by
        unfold insertWeightRow
        rcases hv : row.value with _ | v
        · rfl
        · simp only [bind, StateT.bind, get, getThe, MonadStateOf.get, StateT.get, pure, Except.pure, Except.bind]
          rcases hr : s.weightRowRecord row with _ | r
          · rfl
          · simp only [hskip r hr (by simp [hv]), if_true]
            rfl
      have hfold : (row :: rows).foldlM (insertWeightRow g p) b s = rows.foldlM (insertWeightRow g p) b s := by
        rw [List.foldlM_cons]
        simp only [bind, StateT.bind, hstep, Except.bind]
      rw [hfold]
      simp only [weightsFor_cons_none hi hskip]
      exact ih hw hi hg b
    · push Not at hskip
      obtain ⟨r, hr, hv, h0⟩ := hskip
      obtain ⟨v, hv⟩ := Option.ne_none_iff_exists'.1 hv
      have hrow : insertWeightRow g p b row s = match weightAddOrResolve g r.id v p s with
          | .ok (.inserted, s') => .ok (true, s')
          | .ok (_, s') => .ok (b, s')
          | .error _ => .error (.exception "this error occured on record") := by
        unfold insertWeightRow
        rw [hv]
        simp only [bind, StateT.bind, get, getThe, MonadStateOf.get, StateT.get, pure, Except.pure, Except.bind, hr,
          h0, if_false]
        rcases weightAddOrResolve g r.id v p s with e | ⟨c, s'⟩
        · rfl
        · cases c <;> rfl
      have hcons := weightsFor_cons_some hi (rows := rows) hr h0 hv
      rcases weightAddOrResolve_spec hw (v := v) (p := p) hg h0 hp with ⟨hv0, hal, c, ws, hok, hinv, hidx, hof⟩ |
        ⟨hbad, e, herr⟩
      · obtain ⟨b', hb'⟩ : ∃ b', insertWeightRow g p b row s = .ok (b', { s with weights := ws }) := by
          rw [hrow, hok]
          cases c <;> exact ⟨_, rfl⟩
        have hfold : (row :: rows).foldlM (insertWeightRow g p) b s =
            rows.foldlM (insertWeightRow g p) b' { s with weights := ws } := by
          rw [List.foldlM_cons]
          simp only [bind, StateT.bind, hb', Except.bind]
        have hi' : IndexInv { s with weights := ws } := ⟨hi.1, hi.2, hi.3, hi.4, hi.5, hi.6⟩
        have hcond : (∀ i, (∀ v ∈ s.weightsFor (row :: rows) i, 0 ≤ v) ∧
              p.Allows (s.weightOf g i) (s.weightsFor (row :: rows) i)) ↔
            ∀ i, (∀ v ∈ Store.weightsFor { s with weights := ws } rows i, 0 ≤ v) ∧
              p.Allows (Store.weightOf { s with weights := ws } g i) (Store.weightsFor { s with weights := ws } rows i) := by
          apply forall_congr'
          intro i
          show _ ↔ (∀ v ∈ s.weightsFor rows i, 0 ≤ v) ∧ p.Allows _ (s.weightsFor rows i)
          rw [hcons i, hof g i]
          by_cases hir : i = r.id
          · rw [if_pos hir, if_pos ⟨rfl, hir⟩, hir, Policy.allows_cons]
            simp [hv0, hal]
          · rw [if_neg hir, if_neg (fun h => hir h.2)]
        rw [hfold, hcond]
        rcases ih hinv hi' hg b' with ⟨h1, c2, ws2, h2, h3, h4, h5⟩ | ⟨h1, e, h2⟩
        · refine .inl ⟨h1, c2, ws2, h2, h3, ?_, ?_⟩
          · intro w hw2
            rcases h4 w hw2 with h | ⟨w', hw', he⟩
            · exact .inl h
            · rcases hidx w' hw' with h | ⟨w2, hw2, he2⟩
              · exact .inl ⟨r, ((weightRowRecord_iff hi).1 hr).1, h.symm.trans he⟩
              · exact .inr ⟨w2, hw2, he2.trans he⟩
          · intro g' i
            have := h5 g' i
            rw [hof g' i, hof g i] at this
            have e : Store.weightsFor { s with weights := ws } rows i = s.weightsFor rows i := rfl
            rw [e] at this
            refine this.trans ?_
            by_cases hg' : g' = g
            · rw [if_pos hg', if_pos hg', hcons i]
              by_cases hir : i = r.id
              · rw [if_pos ⟨rfl, hir⟩, if_pos hir, hir, Policy.after_cons]
              · rw [if_neg (fun h => hir h.2), if_neg hir]
            · rw [if_neg hg', if_neg hg', if_neg (fun h => hg' h.1)]
        · exact .inr ⟨h1, e, h2⟩
      · refine .inr ⟨fun h => hbad ?_, .exception "this error occured on record", ?_⟩
        · have := h r.id
          rw [hcons r.id, if_pos rfl, Policy.allows_cons] at this
          exact ⟨this.1 v (by simp), this.2.1⟩
        · rw [List.foldlM_cons]
          simp only [bind, StateT.bind, hrow, herr, Except.bind]

end Toron.Space

namespace Toron.Space

open Toron.Selectors (PyStr)

/-- `insert_weights` on a group that exists. -/
theorem insertWeights_group {s : Store} (hw : WeightInv s) {g : WGroup} (hg : g ∈ s.wgroups) :
    wgroupGetOrAdd g.name s = .ok (g, s) := by
  have hfind : s.findWGroup g.name = some g := (find_nodup_iff hw.names).2 ⟨hg, rfl⟩
  unfold wgroupGetOrAdd wgroupGetByName
  simp only [bind, StateT.bind, get, getThe, MonadStateOf.get, StateT.get, pure, Except.pure, Except.bind, hfind,
    Option.isNone_some, whenM, Bool.false_eq_true, if_false, StateT.pure]

theorem insertWeights_newGroup {s : Store} {name : PyStr} (hn : ∀ g ∈ s.wgroups, g.name ≠ name) :
    wgroupGetOrAdd name s = .ok (⟨nextId (s.wgroups.map (·.id)), name, [], false⟩,
      { s with wgroups := s.wgroups ++ [⟨nextId (s.wgroups.map (·.id)), name, [], false⟩] }) := by
  have hfind : s.findWGroup name = none := by
    unfold Store.findWGroup
    rw [List.find?_eq_none]
    intro g hg
    simpa using hn g hg
  have hany : (s.wgroups.any fun g => g.name == name) = false := by
    rw [Bool.eq_false_iff]
    intro h
    obtain ⟨g, hg, h⟩ := List.any_eq_true.1 h
    exact hn g hg (by simpa using h)
  have hfind' : Store.findWGroup { s with
      wgroups := s.wgroups ++ [⟨nextId (s.wgroups.map (·.id)), name, [], false⟩] } name =
      some ⟨nextId (s.wgroups.map (·.id)), name, [], false⟩ := by
    unfold Store.findWGroup at *
    rw [List.find?_append, hfind]
    simp
  unfold wgroupGetOrAdd
  refine bind_ok.2 ⟨s, s, rfl, bind_ok.2 ⟨(), { s with
    wgroups := s.wgroups ++ [⟨nextId (s.wgroups.map (·.id)), name, [], false⟩] }, ?_, ?_⟩⟩
  · refine whenM_ok.2 (.inl ⟨by rw [hfind]; rfl, ?_⟩)
    unfold wgroupAdd
    exact bind_ok.2 ⟨s, s, rfl, ite_ok.2 (.inr ⟨by simp [hany], rfl⟩)⟩
  · unfold wgroupGetByName
    refine bind_ok.2 ⟨_, _, rfl, ?_⟩
    rw [hfind']
    rfl

theorem afterWeights_run {s : Store} (hw : WeightInv s) {g : WGroup} (hg : g ∈ s.wgroups) (b : Bool) :
    ∃ gs, afterWeights g b s = .ok ((), { s with wgroups := gs }) ∧
      gs.map (fun g => (g.id, g.name)) = s.wgroups.map fun g => (g.id, g.name) := by
  unfold afterWeights whenM
  simp only [bind, StateT.bind, get, getThe, MonadStateOf.get, StateT.get, pure, Except.pure, Except.bind]
  by_cases hc : (b && s.wgroupIsComplete g.id) = true
  · rw [if_pos hc]
    refine ⟨s.wgroups.map fun x => if x.id = g.id then { g with complete := true } else x, ?_, ?_⟩
    · unfold wgroupUpdate
      simp only [bind, StateT.bind, get, getThe, MonadStateOf.get, StateT.get, pure, Except.pure, Except.bind]
      rw [if_neg, if_neg]
      · rfl
      · intro h
        obtain ⟨x, hx, h⟩ := List.any_eq_true.1 h
        rw [Bool.and_eq_true, bne_iff_ne, beq_iff_eq] at h
        exact h.1 (congrArg WGroup.id (List.inj_on_of_nodup_map hw.names hx hg h.2))
      · rw [not_not]
        exact List.any_eq_true.2 ⟨g, hg, by simp⟩
    · rw [List.map_map]
      apply List.map_congr_left
      intro x hx
      show ((if x.id = g.id then { g with complete := true } else x : WGroup).id, _) = _
      by_cases he : x.id = g.id
      · have := List.inj_on_of_nodup_map hw.gids hx hg he
        subst this
        simp
      · simp [he]
  · rw [if_neg hc]
    exact ⟨s.wgroups, rfl, rfl⟩

end Toron.Space

namespace Toron.Space

open Toron.Selectors (PyStr)

theorem hasWeight_iff {s : Store} (hp : (s.weights.map fun w => (w.group, w.index)).Nodup) {name : PyStr} {i : Nat}
    {x : ℚ} : s.HasWeight name i x ↔ ∃ g ∈ s.wgroups, g.name = name ∧ s.weightOf g.id i = some x := by
  unfold Store.HasWeight
  simp only [weightOf_iff hp]

theorem hasWeight_congr {s t : Store} (hp : (s.weights.map fun w => (w.group, w.index)).Nodup)
    (hp' : (t.weights.map fun w => (w.group, w.index)).Nodup)
    (hg : t.wgroups.map (fun g => (g.id, g.name)) = s.wgroups.map fun g => (g.id, g.name)) {name : PyStr} {i : Nat}
    (he : ∀ g ∈ s.wgroups, g.name = name → t.weightOf g.id i = s.weightOf g.id i) {x : ℚ} :
    t.HasWeight name i x ↔ s.HasWeight name i x := by
  rw [hasWeight_iff hp, hasWeight_iff hp']
  have hmem : ∀ {a b : List WGroup}, a.map (fun g => (g.id, g.name)) = b.map (fun g => (g.id, g.name)) →
      ∀ g ∈ a, ∃ g' ∈ b, g'.id = g.id ∧ g'.name = g.name := by
    intro a b h g hg
    have : (g.id, g.name) ∈ b.map fun g => (g.id, g.name) := by
      rw [← h]
      exact List.mem_map_of_mem (f := fun g : WGroup => (g.id, g.name)) hg
    obtain ⟨g', hg', he⟩ := List.mem_map.1 this
    exact ⟨g', hg', congrArg Prod.fst he, congrArg Prod.snd he⟩
  constructor
  · rintro ⟨g, hgm, hn, h⟩
    obtain ⟨g', hg', h1, h2⟩ := hmem hg g hgm
    refine ⟨g', hg', h2.trans hn, ?_⟩
    rw [← he g' hg' (h2.trans hn), h1]
    exact h
  · rintro ⟨g, hgm, hn, h⟩
    obtain ⟨g', hg', h1, h2⟩ := hmem hg.symm g hgm
    refine ⟨g', hg', h2.trans hn, ?_⟩
    rw [h1, he g hgm hn]
    exact h

theorem weightIs_iff {s : Store} (hw : WeightInv s) {g : WGroup} (hg : g ∈ s.wgroups) {i : Nat} {v : Option ℚ} :
    s.WeightIs g.name i v ↔ v = s.weightOf g.id i := by
  have key : ∀ x, s.HasWeight g.name i x ↔ s.weightOf g.id i = some x := by
    intro x
    rw [hasWeight_iff hw.pairs]
    constructor
    · rintro ⟨g', hg', hn, h⟩
      rwa [List.inj_on_of_nodup_map hw.names hg' hg hn] at h
    · intro h
      exact ⟨g, hg, rfl, h⟩
  unfold Store.WeightIs
  simp only [key]
  constructor
  · intro h
    exact Option.ext fun x => h x
  · rintro rfl x
    rfl

theorem fkOk_weights {s : Store} {ws : List Weight} {gs : List WGroup} (h : fkOk s = true)
    (hidx : ∀ w ∈ ws, (∃ r ∈ s.index, r.id = w.index) ∨ ∃ w' ∈ s.weights, w'.index = w.index) :
    fkOk { s with weights := ws, wgroups := gs } = true := by
  unfold fkOk at *
  rw [Bool.or_eq_true, Bool.and_eq_true] at *
  refine h.imp id fun ⟨h1, h2⟩ => ⟨List.all_eq_true.2 fun w hw => ?_, h2⟩
  rcases hidx w hw with ⟨r, hr, he⟩ | ⟨w', hw', he⟩
  · exact List.any_eq_true.2 ⟨r, hr, by simp [he]⟩
  · rw [← he]
    exact List.all_eq_true.1 h1 w' hw'

/-- The call as a whole. -/
theorem insertWeights_spec {s s0 : Store} {name : PyStr} {g : WGroup} (h0 : wgroupGetOrAdd name s = .ok (g, s0))
    (hw : WeightInv s0) (hi : IndexInv s0) (hg : g ∈ s0.wgroups) (hfk : fkOk s0 = true) {p : Policy}
    (hp : p ≠ .other) (rows : List WeightRow) :
    ((∀ i, (∀ v ∈ s0.weightsFor rows i, 0 ≤ v) ∧ p.Allows (s0.weightOf g.id i) (s0.weightsFor rows i)) ∧
      ∃ ws gs, step (.insertWeights name p rows) s = ({ s0 with weights := ws, wgroups := gs }, .ok ()) ∧
        gs.map (fun g => (g.id, g.name)) = s0.wgroups.map (fun g => (g.id, g.name)) ∧
        WeightInv { s0 with weights := ws } ∧
        ∀ g' i, Store.weightOf { s0 with weights := ws } g' i =
          if g' = g.id then p.after (s0.weightOf g.id i) (s0.weightsFor rows i) else s0.weightOf g' i) ∨
    (¬ (∀ i, (∀ v ∈ s0.weightsFor rows i, 0 ≤ v) ∧ p.Allows (s0.weightOf g.id i) (s0.weightsFor rows i)) ∧
      ∃ e, step (.insertWeights name p rows) s = (s, .error e)) := by
  have hstep : step (.insertWeights name p rows) s = runTx (insertWeights name p rows) s := rfl
  rw [hstep]
  have hrun : ∀ b t, rows.foldlM (insertWeightRow g.id p) false s0 = .ok (b, t) →
      insertWeights name p rows s = afterWeights g b t := by
    intro b t h
    unfold insertWeights
    rw [if_neg hp]
    show (wgroupGetOrAdd name >>= _) s = _
    simp only [bind, StateT.bind, h0, h, Except.bind]
  rcases insertWeightRows_spec hp rows hw hi ⟨g, hg, rfl⟩ false with ⟨hc, c, ws, hok, hinv, hidx, hof⟩ | ⟨hc, e, herr⟩
  · obtain ⟨gs, ha, hgs⟩ := afterWeights_run hinv hg c
    refine .inl ⟨hc, ws, gs, ?_, hgs, hinv, hof⟩
    unfold runTx
    rw [hrun _ _ hok, ha]
    show (if fkOk { s0 with weights := ws, wgroups := gs } = true then _ else _) = _
    rw [if_pos (fkOk_weights hfk hidx)]
  · refine .inr ⟨hc, e, ?_⟩
    have : insertWeights name p rows s = .error e := by
      unfold insertWeights
      rw [if_neg hp]
      show (wgroupGetOrAdd name >>= _) s = _
      simp only [bind, StateT.bind, h0, herr, Except.bind]
    unfold runTx
    rw [this]

/-- In terms of stored weights. -/
theorem weights_result {s s0 : Store} {g : WGroup} (h0 : wgroupGetOrAdd g.name s = .ok (g, s0))
    (hw : WeightInv s0) (hi : IndexInv s0) (hg : g ∈ s0.wgroups) (hfk : fkOk s0 = true) {p : Policy}
    (hp : p ≠ .other) (rows : List WeightRow) :
    ((∀ i, (∀ v ∈ s0.weightsFor rows i, 0 ≤ v) ∧ p.Allows (s0.weightOf g.id i) (s0.weightsFor rows i)) →
      (step (.insertWeights g.name p rows) s).2 = .ok () ∧
      (∀ i, (step (.insertWeights g.name p rows) s).1.WeightIs g.name i
        (p.after (s0.weightOf g.id i) (s0.weightsFor rows i))) ∧
      ∀ n ≠ g.name, ∀ i x, (step (.insertWeights g.name p rows) s).1.HasWeight n i x ↔ s0.HasWeight n i x) ∧
    (¬ (∀ i, (∀ v ∈ s0.weightsFor rows i, 0 ≤ v) ∧ p.Allows (s0.weightOf g.id i) (s0.weightsFor rows i)) →
      (step (.insertWeights g.name p rows) s).2 ≠ .ok () ∧ (step (.insertWeights g.name p rows) s).1 = s) := by
  rcases insertWeights_spec h0 hw hi hg hfk hp rows with ⟨hc, ws, gs, hs, hgs, hinv, hof⟩ | ⟨hc, e, hs⟩
  · refine ⟨fun _ => ?_, fun h => absurd hc h⟩
    rw [hs]
    refine ⟨rfl, fun i x => ?_, fun n hn i x => ?_⟩
    · have h1 : Store.HasWeight { s0 with weights := ws, wgroups := gs } g.name i x ↔
          Store.HasWeight { s0 with weights := ws } g.name i x :=
        hasWeight_congr (s := { s0 with weights := ws }) (t := { s0 with weights := ws, wgroups := gs })
          hinv.pairs hinv.pairs hgs (fun _ _ _ => rfl)
      rw [h1, ← (weightIs_iff hinv hg).2 rfl, hof, if_pos rfl]
    · refine hasWeight_congr (s := s0) (t := { s0 with weights := ws, wgroups := gs }) hw.pairs hinv.pairs hgs
        fun g' hg' hn' => ?_
      have := hof g'.id i
      rw [if_neg] at this
      · exact this
      · intro he
        exact hn (hn' ▸ congrArg WGroup.name (List.inj_on_of_nodup_map hw.gids hg' hg he))
  · refine ⟨fun h => absurd h hc, fun _ => ?_⟩
    rw [hs]
    exact ⟨(by intro h; cases h), rfl⟩

end Toron.Space
