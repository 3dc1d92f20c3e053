/-
C32: conflict policies do what they say.
-/
import Verif.Lemmas.Store.Policies2
import Verif.Demo

namespace Toron.Space

open Toron.Selectors (PyStr)

/-- Loading weights into an existing group: the call succeeds exactly if no value for a record is negative and the
policy allows the values; then every weight of the group is what the policy says, and the weights of other groups
stay; otherwise nothing changes. -/
theorem C32_weights {s : Store} (hr : Reachable s) {name : PyStr} (hg : ∃ g ∈ s.wgroups, g.name = name) {p : Policy}
    (hp : p ≠ .other) (rows : List WeightRow) {old : Nat → Option ℚ} (hold : ∀ i, s.WeightIs name i (old i)) :
    ((∀ i, (∀ v ∈ s.weightsFor rows i, 0 ≤ v) ∧ p.Allows (old i) (s.weightsFor rows i)) →
      (step (.insertWeights name p rows) s).2 = .ok () ∧
      (∀ i, (step (.insertWeights name p rows) s).1.WeightIs name i (p.after (old i) (s.weightsFor rows i))) ∧
      ∀ n ≠ name, ∀ i x, (step (.insertWeights name p rows) s).1.HasWeight n i x ↔ s.HasWeight n i x) ∧
    (¬ (∀ i, (∀ v ∈ s.weightsFor rows i, 0 ≤ v) ∧ p.Allows (old i) (s.weightsFor rows i)) →
      (step (.insertWeights name p rows) s).2 ≠ .ok () ∧ (step (.insertWeights name p rows) s).1 = s) := by
  obtain ⟨g, hg, rfl⟩ := hg
  have hw := hr.weightInv
  have hold' : ∀ i, old i = s.weightOf g.id i := fun i => (weightIs_iff hw hg).1 (hold i)
  simp only [hold']
  exact weights_result (insertWeights_group hw hg) hw hr.indexInv hg hr.fkOk hp rows

/-- The same for a new group: the call makes the group. (The dataspace must not have been reopened: see C27.) -/
theorem C32_weights_new_group {s : Store} (hr : ReachableFk s) {name : PyStr} (hn : ∀ g ∈ s.wgroups, g.name ≠ name)
    {p : Policy} (hp : p ≠ .other) (rows : List WeightRow) :
    ((∀ i, (∀ v ∈ s.weightsFor rows i, 0 ≤ v) ∧ p.Allows none (s.weightsFor rows i)) →
      (step (.insertWeights name p rows) s).2 = .ok () ∧
      (∀ i, (step (.insertWeights name p rows) s).1.WeightIs name i (p.after none (s.weightsFor rows i))) ∧
      ∀ n ≠ name, ∀ i x, (step (.insertWeights name p rows) s).1.HasWeight n i x ↔ s.HasWeight n i x) ∧
    (¬ (∀ i, (∀ v ∈ s.weightsFor rows i, 0 ≤ v) ∧ p.Allows none (s.weightsFor rows i)) →
      (step (.insertWeights name p rows) s).2 ≠ .ok () ∧ (step (.insertWeights name p rows) s).1 = s) := by
  have hw := hr.reachable.weightInv
  have h0 := insertWeights_newGroup hn
  have hw0 : WeightInv { s with wgroups := s.wgroups ++ [⟨nextId (s.wgroups.map (·.id)), name, [], false⟩] } :=
    ((wgroupGetOrAdd_does name).steps _ _ _ h0).invariant (fun _ _ _ _ hp h => h.prim hp) hw
  have hi0 : IndexInv { s with wgroups := s.wgroups ++ [⟨nextId (s.wgroups.map (·.id)), name, [], false⟩] } :=
    ((wgroupGetOrAdd_does name).steps _ _ _ h0).invariant (fun _ _ _ _ hp h => h.prim hp) hr.reachable.indexInv
  have hnone : ∀ i, s.weightOf (nextId (s.wgroups.map (·.id))) i = none := by
    intro i
    rw [Option.eq_none_iff_forall_not_mem]
    intro x hx
    obtain ⟨w, hwm, h1, _⟩ := (weightOf_iff hw.pairs).1 hx
    obtain ⟨g, hg, he⟩ := hr.refInv.weights w hwm
    exact absurd (he.trans h1) (lt_nextId (List.mem_map_of_mem hg)).ne
  have hres := weights_result h0 hw0 hi0 (List.mem_append_right _ (List.mem_singleton.2 rfl)) hr.reachable.fkOk hp rows
  have hof : ∀ i, Store.weightOf { s with
      wgroups := s.wgroups ++ [⟨nextId (s.wgroups.map (·.id)), name, [], false⟩] }
      (nextId (s.wgroups.map (·.id))) i = none := hnone
  have hfor : ∀ i, Store.weightsFor { s with
      wgroups := s.wgroups ++ [⟨nextId (s.wgroups.map (·.id)), name, [], false⟩] } rows i = s.weightsFor rows i :=
    fun _ => rfl
  simp only [hof, hfor] at hres
  refine ⟨fun h => ?_, hres.2⟩
  obtain ⟨h1, h2, h3⟩ := hres.1 h
  refine ⟨h1, h2, fun n hne i x => (h3 n hne i x).trans ?_⟩
  unfold Store.HasWeight
  constructor
  · rintro ⟨g, hg, hgn, h⟩
    rcases List.mem_append.1 hg with hg | hg
    · exact ⟨g, hg, hgn, h⟩
    · rw [List.mem_singleton] at hg
      subst hg
      exact absurd hgn.symm hne
  · rintro ⟨g, hg, hgn, h⟩
    exact ⟨g, List.mem_append_left _ hg, hgn, h⟩

/-- Any other text for the policy is refused. -/
theorem C32_weights_unknown (s : Store) (name : PyStr) (rows : List WeightRow) :
    step (.insertWeights name .other rows) s = (s, .error (.valueError "on_conflict")) := rfl

/-! ### Quantities -/

theorem quantities_result {s : Store} (hr : Reachable s) (ha : s.Anchored) (hat : s.regAttrs.getD [] ≠ [])
    (hne : [] ∉ s.regAttrs.getD []) {al ap : Bool} {p : Policy} (hp : p ≠ .other) (rows : List QuantRow)
    {old : List PyStr → Attrs → Option ℚ} (hold : ∀ l a, s.QuantityIs l a (old l a)) :
    (((∀ row ∈ rows, s.Accepts al ap row) ∧ ∀ l a, p.Allows (old l a) (s.quantitiesFor rows l a)) ∧
      (step (.insertQuantities2 al ap p rows) s).2 = .ok () ∧
      (p = .sum → ((step (.insertQuantities2 al ap p rows) s).1.quants.map (·.value)).sum =
        (s.quants.map (·.value)).sum + s.loadedTotal rows) ∧
      ∀ l a, (step (.insertQuantities2 al ap p rows) s).1.QuantityIs l a
        (p.after (old l a) (s.quantitiesFor rows l a))) ∨
    (¬ ((∀ row ∈ rows, s.Accepts al ap row) ∧ ∀ l a, p.Allows (old l a) (s.quantitiesFor rows l a)) ∧
      (step (.insertQuantities2 al ap p rows) s).2 ≠ .ok () ∧ (step (.insertQuantities2 al ap p rows) s).1 = s) := by
  have hstep : step (.insertQuantities2 al ap p rows) s = runTx (insertQuantities2 al ap p rows) s := rfl
  have hrun : insertQuantities2 al ap p rows s = rows.forM (insertQuantity2Row al ap p) s := by
    unfold insertQuantities2
    simp only [bind, StateT.bind, get, getThe, MonadStateOf.get, StateT.get, pure, Except.pure, Except.bind]
    rw [if_neg hat]
  rcases insertQuantities2Rows_spec (al := al) (ap := ap) hp rows hr.structLens hr.colInv.cols hr.indexInv.lens hne
    hr.quantInv ha hold with ⟨hc, L, G, Q, h1, h2, h3⟩ | ⟨hc, e, h1⟩
  · have : step (.insertQuantities2 al ap p rows) s = ({ s with locs := L, agroups := G, quants := Q }, .ok ()) := by
      rw [hstep]
      unfold runTx
      rw [hrun, h1]
      exact if_pos hr.fkOk
    rw [this]
    exact .inl ⟨hc, rfl, h2, h3⟩
  · have : step (.insertQuantities2 al ap p rows) s = (s, .error e) := by
      rw [hstep]
      unfold runTx
      rw [hrun, h1]
    rw [this]
    exact .inr ⟨hc, (by intro h; cases h), rfl⟩

/-- Loading quantities: the call succeeds exactly if every row is acceptable and the policy allows the values; then
the quantity stored for any labels and attributes is what the policy says; otherwise nothing changes. -/
theorem C32_quantities {s : Store} (hr : Reachable s) (ha : s.Anchored) (hat : s.regAttrs.getD [] ≠ [])
    (hne : [] ∉ s.regAttrs.getD []) {al ap : Bool} {p : Policy} (hp : p ≠ .other) (rows : List QuantRow)
    {old : List PyStr → Attrs → Option ℚ} (hold : ∀ l a, s.QuantityIs l a (old l a)) :
    (((∀ row ∈ rows, s.Accepts al ap row) ∧ ∀ l a, p.Allows (old l a) (s.quantitiesFor rows l a)) →
      (step (.insertQuantities2 al ap p rows) s).2 = .ok () ∧
      ∀ l a, (step (.insertQuantities2 al ap p rows) s).1.QuantityIs l a
        (p.after (old l a) (s.quantitiesFor rows l a))) ∧
    (¬ ((∀ row ∈ rows, s.Accepts al ap row) ∧ ∀ l a, p.Allows (old l a) (s.quantitiesFor rows l a)) →
      (step (.insertQuantities2 al ap p rows) s).2 ≠ .ok () ∧ (step (.insertQuantities2 al ap p rows) s).1 = s) := by
  rcases quantities_result hr ha hat hne (al := al) (ap := ap) hp rows hold with ⟨h1, h2, _, h3⟩ | ⟨h1, h2⟩
  · exact ⟨fun _ => ⟨h2, h3⟩, fun h => absurd h1 h⟩
  · exact ⟨fun h => absurd h h1, fun _ => h2⟩

/-- Every dataspace has such a table `old`, so the theorem applies to all. -/
theorem C32_quantities_table {s : Store} (hr : Reachable s) :
    ∃ old : List PyStr → Attrs → Option ℚ, ∀ l a, s.QuantityIs l a (old l a) := by
  choose old h using fun l a => quantityIs_exists hr.quantInv l a
  exact ⟨old, h⟩

/-- While foreign keys are on, every quantity has its location and attribute group. -/
theorem C32_anchored {s : Store} (hr : ReachableFk s) : s.Anchored :=
  fun q hq => ⟨hr.refInv.locs q hq, hr.refInv.ags q hq⟩

/-- With the summing policy, a successful call adds the sum of the loaded rows to the total of all quantities. -/
theorem C33_sum {s : Store} (hr : Reachable s) (ha : s.Anchored) (hne : [] ∉ s.regAttrs.getD []) {al ap : Bool}
    {rows : List QuantRow} (h : (step (.insertQuantities2 al ap .sum rows) s).2 = .ok ()) :
    ((step (.insertQuantities2 al ap .sum rows) s).1.quants.map (·.value)).sum =
      (s.quants.map (·.value)).sum + s.loadedTotal rows := by
  obtain ⟨old, hold⟩ := C32_quantities_table hr
  by_cases hat : s.regAttrs.getD [] = []
  · have : insertQuantities2 al ap .sum rows s = .error (.toronError "no attributes registered") := by
      unfold insertQuantities2
      simp only [bind, StateT.bind, get, getThe, MonadStateOf.get, StateT.get, pure, Except.pure, Except.bind]
      rw [if_pos hat]
      rfl
    have hstep : step (.insertQuantities2 al ap .sum rows) s = runTx (insertQuantities2 al ap .sum rows) s := rfl
    rw [hstep] at h
    unfold runTx at h
    rw [this] at h
    cases h
  · rcases quantities_result hr ha hat hne (al := al) (ap := ap) (p := .sum) (by simp) rows hold with
      ⟨_, _, h3, _⟩ | ⟨_, h2, _⟩
    · exact h3 rfl
    · exact absurd h h2

/-! ### Examples -/

/-- Weights: record 1 has weight 3 in the group; two rows for it and one for record 2, under each policy. -/
example : ∃ rows : List WeightRow, Demo.store.weightsFor rows 1 = [4, 6] ∧ Demo.store.weightsFor rows 2 = [7] ∧
    (step (.insertWeights Demo.wname .sum rows) Demo.store).1.weights =
      [⟨1, 1, 1, 13⟩, ⟨2, 1, 2, 8⟩, ⟨3, 1, 3, 5⟩] ∧
    (step (.insertWeights Demo.wname .replace rows) Demo.store).1.weights =
      [⟨1, 1, 1, 6⟩, ⟨2, 1, 2, 7⟩, ⟨3, 1, 3, 5⟩] ∧
    (step (.insertWeights Demo.wname .ignore rows) Demo.store).1.weights = Demo.store.weights ∧
    (step (.insertWeights Demo.wname .abort rows) Demo.store).2.toBool = false :=
  ⟨[⟨some 1, [['x'], ['1']], some 4⟩, ⟨none, [['x'], ['1']], some 6⟩, ⟨none, [['x'], ['2']], some 7⟩,
    ⟨some 2, [['x'], ['1']], some 9⟩, ⟨none, [['x'], ['1']], none⟩], by decide +kernel⟩

/-- Quantities: the first is stored already (100), the second is new. -/
example : ∃ rows : List QuantRow, (∀ row ∈ rows, Demo.store.Accepts false false row) ∧
    Demo.store.quantitiesFor rows [['x'], []] [(['c'], ['m'])] = [1, 2] ∧
    Demo.store.loadedTotal rows = 8 ∧
    (step (.insertQuantities2 false false .sum rows) Demo.store).1.quants =
      [⟨1, 1, 1, 103⟩, ⟨2, 2, 1, 7⟩, ⟨3, 3, 1, 5⟩] := by
  refine ⟨[⟨none, [['x'], []], [(['c'], ['m'])], 1⟩, ⟨none, [['x'], []], [(['c'], ['m'])], 2⟩,
    ⟨none, [['x'], ['2']], [(['c'], ['m'])], 5⟩, ⟨none, [['x'], ['2']], [(['c'], [])], 50⟩], ?_, by decide +kernel,
    by decide +kernel, by decide +kernel⟩
  have hs : Demo.store.structs.map (·.bits) = [[false, false], [true, false], [true, true]] := by decide +kernel
  have hst : ∀ b ∈ [[true, false], [true, true]], ∃ st ∈ Demo.store.structs, st.bits = b := by
    intro b hb
    have : b ∈ Demo.store.structs.map (·.bits) := by
      rw [hs]
      exact List.mem_cons_of_mem _ hb
    simpa using this
  have hix := Demo.index_eq
  intro row hrow
  have h1 : (⟨1, [Demo.lx, Demo.l1]⟩ : IndexRec) ∈ Demo.store.index := by rw [hix]; simp
  have h2 : (⟨2, [Demo.lx, Demo.l2]⟩ : IndexRec) ∈ Demo.store.index := by rw [hix]; simp
  simp only [List.mem_cons, List.not_mem_nil, or_false] at hrow
  rcases hrow with rfl | rfl | rfl | rfl
  · refine ⟨.inl rfl, .inr ⟨by decide +kernel, by decide +kernel, .inr (hst [true, false] (by simp)),
      .inr ⟨_, h1, .cons (.inr rfl) (.cons (.inl rfl) .nil)⟩⟩⟩
  · refine ⟨.inl rfl, .inr ⟨by decide +kernel, by decide +kernel, .inr (hst [true, false] (by simp)),
      .inr ⟨_, h1, .cons (.inr rfl) (.cons (.inl rfl) .nil)⟩⟩⟩
  · refine ⟨.inl rfl, .inr ⟨by decide +kernel, by decide +kernel, .inr (hst [true, true] (by simp)),
      .inr ⟨_, h2, .cons (.inr rfl) (.cons (.inr rfl) .nil)⟩⟩⟩
  · exact ⟨.inl rfl, .inl (by decide +kernel)⟩

end Toron.Space
