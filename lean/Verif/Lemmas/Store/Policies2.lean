/-
Conflict policies for quantities.
-/
import Verif.Lemmas.Store.Policies

namespace Toron.Space

open Toron.Selectors (PyStr)

theorem QuantityIs.unique {s : Store} {labels : List PyStr} {attrs : Attrs} {v v' : Option ℚ}
    (h : s.QuantityIs labels attrs v) (h' : s.QuantityIs labels attrs v') : v = v' :=
  Option.ext fun x => (h x).trans (h' x).symm

theorem hasQuantity_unique {s : Store} (hq : QuantInv s) {labels : List PyStr} {attrs : Attrs} {q q' : Quant}
    (hm : q ∈ s.quants) (hl : ∃ l ∈ s.locs, l.id = q.loc ∧ l.labels = labels)
    (hg : ∃ g ∈ s.agroups, g.id = q.ag ∧ g.attrs = attrs)
    (hm' : q' ∈ s.quants) (hl' : ∃ l ∈ s.locs, l.id = q'.loc ∧ l.labels = labels)
    (hg' : ∃ g ∈ s.agroups, g.id = q'.ag ∧ g.attrs = attrs) : q = q' := by
  obtain ⟨l, hlm, h1, h2⟩ := hl
  obtain ⟨g, hgm, h3, h4⟩ := hg
  obtain ⟨l', hlm', h1', h2'⟩ := hl'
  obtain ⟨g', hgm', h3', h4'⟩ := hg'
  have e1 := List.inj_on_of_nodup_map hq.locLabels hlm hlm' (h2.trans h2'.symm)
  have e2 := List.inj_on_of_nodup_map hq.agAttrs hgm hgm' (h4.trans h4'.symm)
  subst e1 e2
  exact List.inj_on_of_nodup_map hq.pairs hm hm' (by rw [← h1, ← h3, h1', h3'])

theorem quantityIs_exists {s : Store} (hq : QuantInv s) (labels : List PyStr) (attrs : Attrs) :
    ∃ v, s.QuantityIs labels attrs v := by
  by_cases h : ∃ x, s.HasQuantity labels attrs x
  · obtain ⟨x, q, hm, hl, hg, he⟩ := h
    refine ⟨some x, fun y => ⟨?_, ?_⟩⟩
    · intro hxy
      cases hxy
      exact ⟨q, hm, hl, hg, he⟩
    · rintro ⟨q', hm', hl', hg', he'⟩
      rw [← he, ← he', hasQuantity_unique hq hm hl hg hm' hl' hg']
  · exact ⟨none, fun y => ⟨fun h => (by cases h), fun hy => absurd ⟨y, hy⟩ h⟩⟩

/-! ### Locations and attribute groups -/

theorem locGetOrAdd_run {s : Store} (hq : QuantInv s) {labels : List PyStr} (hl : labels.length = s.cols.length)
    (hc : s.cols ≠ []) : ∃ l L, locGetOrAdd labels s = .ok (l, { s with locs := L }) ∧ l ∈ L ∧ l.labels = labels ∧
      (∀ x ∈ s.locs, x ∈ L) ∧ (∀ x ∈ L, x ∈ s.locs ∨ (x = l ∧ ∀ y ∈ s.locs, y.id ≠ l.id)) ∧
      QuantInv { s with locs := L } := by
  rcases hf : s.findLoc labels with _ | l
  · refine ⟨⟨nextId (s.locs.map (·.id)), labels⟩, s.locs ++ [⟨nextId (s.locs.map (·.id)), labels⟩], ?_, by simp, rfl,
      fun x hx => List.mem_append_left _ hx, ?_, ?_⟩
    · unfold locGetOrAdd
      refine bind_ok.2 ⟨s, s, rfl, ite_ok.2 (.inr ⟨by simp [hl], ite_ok.2 (.inr ⟨hc, ?_⟩)⟩)⟩
      rw [hf]
      refine bind_ok.2 ⟨(), { s with locs := s.locs ++ [⟨nextId (s.locs.map (·.id)), labels⟩] }, ?_,
        bind_ok.2 ⟨_, _, rfl, ?_⟩⟩
      · unfold locAdd
        refine bind_ok.2 ⟨s, s, rfl, ite_ok.2 (.inr ⟨?_, ite_ok.2 (.inr ⟨?_, rfl⟩)⟩)⟩
        · rintro (h | h)
          · exact h hl
          · rw [h] at hl
            exact hc (List.length_eq_zero_iff.1 hl.symm)
        · intro h
          obtain ⟨x, hx, he⟩ := List.mem_map.1 h
          unfold Store.findLoc at hf
          exact List.find?_eq_none.1 hf x hx (by simp [he])
      · have : Store.findLoc { s with locs := s.locs ++ [⟨nextId (s.locs.map (·.id)), labels⟩] } labels =
            some ⟨nextId (s.locs.map (·.id)), labels⟩ := by
          unfold Store.findLoc at *
          rw [List.find?_append, hf]
          simp
        rw [this]
        rfl
    · intro x hx
      rcases List.mem_append.1 hx with hx | hx
      · exact .inl hx
      · exact .inr ⟨List.mem_singleton.1 hx, fun y hy => (lt_nextId (List.mem_map_of_mem hy)).ne⟩
    · have hn : ∀ x ∈ s.locs, x.labels ≠ labels := by
        intro x hx he
        unfold Store.findLoc at hf
        exact List.find?_eq_none.1 hf x hx (by simp [he])
      refine ⟨hq.ids, hq.pairs, ?_, ?_, ?_, hq.agIds, hq.agAttrs⟩
      · simp only [List.map_append, List.map_cons, List.map_nil]
        refine List.Nodup.append hq.locIds (List.nodup_singleton _) ?_
        intro i hi hi'
        rw [List.mem_singleton] at hi'
        subst hi'
        exact absurd rfl (lt_nextId hi).ne
      · simp only [List.map_append, List.map_cons, List.map_nil]
        refine List.Nodup.append hq.locLabels (List.nodup_singleton _) ?_
        intro i hi hi'
        rw [List.mem_singleton] at hi'
        subst hi'
        obtain ⟨x, hx, he⟩ := List.mem_map.1 hi
        exact hn x hx he
      · intro x hx
        rcases List.mem_append.1 hx with hx | hx
        · exact hq.locLens x hx
        · rw [List.mem_singleton.1 hx]
          exact hl
  · have hm : l ∈ s.locs ∧ l.labels = labels := by
      unfold Store.findLoc at hf
      exact ⟨List.mem_of_find?_eq_some hf, by simpa using List.find?_some hf⟩
    refine ⟨l, s.locs, ?_, hm.1, hm.2, fun x hx => hx, fun x hx => .inl hx, hq⟩
    unfold locGetOrAdd
    refine bind_ok.2 ⟨s, s, rfl, ite_ok.2 (.inr ⟨by simp [hl], ite_ok.2 (.inr ⟨hc, ?_⟩)⟩)⟩
    rw [hf]
    rfl

theorem agGetOrAdd_run {s : Store} (hq : QuantInv s) {attrs : Attrs} (ha : ∀ kv ∈ attrs, kv.1 ≠ [] ∧ kv.2 ≠ []) :
    ∃ g G, agGetOrAdd attrs s = .ok (g, { s with agroups := G }) ∧ g ∈ G ∧ g.attrs = canonAttrs attrs ∧
      (∀ x ∈ s.agroups, x ∈ G) ∧ (∀ x ∈ G, x ∈ s.agroups ∨ (x = g ∧ ∀ y ∈ s.agroups, y.id ≠ g.id)) ∧
      QuantInv { s with agroups := G } := by
  rcases hf : s.findAg attrs with _ | g
  · have hn : ∀ x ∈ s.agroups, x.attrs ≠ canonAttrs attrs := by
      intro x hx he
      unfold Store.findAg at hf
      exact List.find?_eq_none.1 hf x hx (by simp [he])
    refine ⟨⟨nextId (s.agroups.map (·.id)), canonAttrs attrs⟩,
      s.agroups ++ [⟨nextId (s.agroups.map (·.id)), canonAttrs attrs⟩], ?_, by simp, rfl,
      fun x hx => List.mem_append_left _ hx, ?_, ?_⟩
    · unfold agGetOrAdd
      refine bind_ok.2 ⟨s, s, rfl, ?_⟩
      rw [hf]
      refine bind_ok.2 ⟨(), { s with agroups := s.agroups ++ [⟨nextId (s.agroups.map (·.id)), canonAttrs attrs⟩] },
        ?_, bind_ok.2 ⟨_, _, rfl, ?_⟩⟩
      · unfold agAdd
        refine bind_ok.2 ⟨s, s, rfl, ite_ok.2 (.inr ⟨?_, ite_ok.2 (.inr ⟨?_, rfl⟩)⟩)⟩
        · intro h
          obtain ⟨kv, hkv, h⟩ := List.any_eq_true.1 h
          rw [Bool.or_eq_true, List.isEmpty_iff, List.isEmpty_iff] at h
          exact h.elim (ha kv hkv).1 (ha kv hkv).2
        · intro h
          obtain ⟨x, hx, he⟩ := List.mem_map.1 h
          exact hn x hx he
      · have : Store.findAg { s with agroups := s.agroups ++ [⟨nextId (s.agroups.map (·.id)), canonAttrs attrs⟩] } attrs =
            some ⟨nextId (s.agroups.map (·.id)), canonAttrs attrs⟩ := by
          unfold Store.findAg at *
          rw [List.find?_append, hf]
          simp
        rw [this]
        rfl
    · intro x hx
      rcases List.mem_append.1 hx with hx | hx
      · exact .inl hx
      · exact .inr ⟨List.mem_singleton.1 hx, fun y hy => (lt_nextId (List.mem_map_of_mem hy)).ne⟩
    · refine ⟨hq.ids, hq.pairs, hq.locIds, hq.locLabels, hq.locLens, ?_, ?_⟩
      · simp only [List.map_append, List.map_cons, List.map_nil]
        refine List.Nodup.append hq.agIds (List.nodup_singleton _) ?_
        intro i hi hi'
        rw [List.mem_singleton] at hi'
        subst hi'
        exact absurd rfl (lt_nextId hi).ne
      · simp only [List.map_append, List.map_cons, List.map_nil]
        refine List.Nodup.append hq.agAttrs (List.nodup_singleton _) ?_
        intro i hi hi'
        rw [List.mem_singleton] at hi'
        subst hi'
        obtain ⟨x, hx, he⟩ := List.mem_map.1 hi
        exact hn x hx he
  · have hm : g ∈ s.agroups ∧ g.attrs = canonAttrs attrs := by
      unfold Store.findAg at hf
      exact ⟨List.mem_of_find?_eq_some hf, by simpa using List.find?_some hf⟩
    refine ⟨g, s.agroups, ?_, hm.1, hm.2, fun x hx => hx, fun x hx => .inl hx, hq⟩
    unfold agGetOrAdd
    refine bind_ok.2 ⟨s, s, rfl, ?_⟩
    rw [hf]
    rfl

/-- Adding locations and attribute groups with new ids does not change what is stored. -/
theorem hasQuantity_grow {s : Store} (ha : s.Anchored) {L : List LocRec} {G : List AGroup}
    (hL : ∀ x ∈ s.locs, x ∈ L) (hG : ∀ x ∈ s.agroups, x ∈ G)
    (hL' : ∀ x ∈ L, x ∈ s.locs ∨ ∀ y ∈ s.locs, y.id ≠ x.id)
    (hG' : ∀ x ∈ G, x ∈ s.agroups ∨ ∀ y ∈ s.agroups, y.id ≠ x.id) {labels : List PyStr} {attrs : Attrs} {x : ℚ} :
    Store.HasQuantity { s with locs := L, agroups := G } labels attrs x ↔ s.HasQuantity labels attrs x := by
  constructor
  · rintro ⟨q, hq, ⟨l, hl, h1, h2⟩, ⟨g, hg, h3, h4⟩, he⟩
    obtain ⟨⟨l', hl', h1'⟩, ⟨g', hg', h3'⟩⟩ := ha q hq
    refine ⟨q, hq, ⟨l, ?_, h1, h2⟩, ⟨g, ?_, h3, h4⟩, he⟩
    · exact (hL' l hl).elim id fun h => absurd (h1'.trans h1.symm) (h l' hl')
    · exact (hG' g hg).elim id fun h => absurd (h3'.trans h3.symm) (h g' hg')
  · rintro ⟨q, hq, ⟨l, hl, h1, h2⟩, ⟨g, hg, h3, h4⟩, he⟩
    exact ⟨q, hq, ⟨l, hL l hl, h1, h2⟩, ⟨g, hG g hg, h3, h4⟩, he⟩

/-! ### One quantity -/

/-- Add a quantity or resolve the conflict (the last part of `insertQuantity2Row`). -/
def quantPut (p : Policy) (loc ag : Nat) (v : ℚ) : M Unit := fun s =>
  match quantAdd loc ag v s with
  | .ok (_, s') => .ok ((), s')
  | .error e =>
    match s.findQuant loc ag with
    | none => .error e
    | some q =>
      match p with
      | .abort => .error (.valueError "already been loaded")
      | .ignore => .ok ((), s)
      | .replace => quantSetValue q.id v s
      | .sum => quantSetValue q.id (q.value + v) s
      | .other => .error (.valueError "on_existing")

theorem sum_set {l : List Quant} (hn : (l.map (·.id)).Nodup) {q : Quant} (hq : q ∈ l) {v : ℚ} :
    ((l.map fun z => if z.id = q.id then { z with value := q.value + v } else z).map (·.value)).sum =
      (l.map (·.value)).sum + v := by
  induction l with
  | nil => cases hq
  | cons x l ih =>
    rw [List.map_cons, List.nodup_cons] at hn
    rw [List.map_cons, List.map_cons, List.map_cons, List.sum_cons, List.sum_cons]
    by_cases hx : x.id = q.id
    · have hxq : x = q := by
        rcases List.mem_cons.1 hq with h | h
        · exact h.symm
        · exact absurd (hx ▸ List.mem_map_of_mem h) hn.1
      subst hxq
      have : (l.map fun z => if z.id = x.id then { z with value := x.value + v } else z) = l := by
        conv_rhs => rw [← List.map_id l]
        apply List.map_congr_left
        intro z hz
        rw [if_neg]
        · rfl
        · intro h
          exact hn.1 (h ▸ List.mem_map_of_mem hz)
      rw [this, if_pos rfl]
      ring
    · rw [if_neg hx, ih hn.2]
      · ring
      · rcases List.mem_cons.1 hq with h | h
        · exact absurd (h ▸ rfl) hx
        · exact h

theorem quantPut_spec {s : Store} (hq : QuantInv s) (ha : s.Anchored) {l : LocRec} {g : AGroup} (hl : l ∈ s.locs)
    (hg : g ∈ s.agroups) {p : Policy} (hp : p ≠ .other) {v : ℚ} {old : Option ℚ}
    (hold : s.QuantityIs l.labels g.attrs old) :
    (p.Allows old [v] ∧ ∃ Q, quantPut p l.id g.id v s = .ok ((), { s with quants := Q }) ∧
      QuantInv { s with quants := Q } ∧ Store.Anchored { s with quants := Q } ∧
      Store.QuantityIs { s with quants := Q } l.labels g.attrs (p.after old [v]) ∧
      (p = .sum → (Q.map (·.value)).sum = (s.quants.map (·.value)).sum + v) ∧
      ∀ labels attrs, ¬ (labels = l.labels ∧ attrs = g.attrs) → ∀ x,
        Store.HasQuantity { s with quants := Q } labels attrs x ↔ s.HasQuantity labels attrs x) ∨
    (¬ p.Allows old [v] ∧ ∃ e, quantPut p l.id g.id v s = .error e) := by
  have hfk : ¬ (s.fk = true ∧ ¬ ((s.locs.any fun x => x.id == l.id) = true ∧
      (s.agroups.any fun x => x.id == g.id) = true)) := by
    rintro ⟨_, h⟩
    exact h ⟨List.any_eq_true.2 ⟨l, hl, by simp⟩, List.any_eq_true.2 ⟨g, hg, by simp⟩⟩
  have hkey : ∀ q : Quant, q.loc = l.id → q.ag = g.id → ∀ labels attrs,
      ((∃ l ∈ s.locs, l.id = q.loc ∧ l.labels = labels) ∧ ∃ g ∈ s.agroups, g.id = q.ag ∧ g.attrs = attrs) ↔
        labels = l.labels ∧ attrs = g.attrs := by
    intro q h1 h2 labels attrs
    constructor
    · rintro ⟨⟨l', hl', e1, rfl⟩, ⟨g', hg', e2, rfl⟩⟩
      rw [List.inj_on_of_nodup_map hq.locIds hl' hl (e1.trans h1),
        List.inj_on_of_nodup_map hq.agIds hg' hg (e2.trans h2)]
      exact ⟨rfl, rfl⟩
    · rintro ⟨rfl, rfl⟩
      exact ⟨⟨l, hl, h1.symm, rfl⟩, ⟨g, hg, h2.symm, rfl⟩⟩
  rcases hf : s.findQuant l.id g.id with _ | q
  · have hno : ∀ q ∈ s.quants, ¬ (q.loc = l.id ∧ q.ag = g.id) := by
      intro q hq h
      unfold Store.findQuant at hf
      exact List.find?_eq_none.1 hf q hq (by simp [h])
    have hold0 : old = none := by
      rw [Option.eq_none_iff_forall_not_mem]
      intro x hx
      obtain ⟨q, hqm, ⟨l', hl', e1, e2⟩, ⟨g', hg', e3, e4⟩, _⟩ := (hold x).1 hx
      refine hno q hqm ⟨?_, ?_⟩
      · rw [← e1, List.inj_on_of_nodup_map hq.locLabels hl' hl e2]
      · rw [← e3, List.inj_on_of_nodup_map hq.agAttrs hg' hg e4]
    refine .inl ⟨by rw [Policy.allows_one, hold0]; simp, s.quants ++ [⟨nextId (s.quants.map (·.id)), l.id, g.id, v⟩],
      ?_, ?_, ?_, ?_, fun _ => by simp, ?_⟩
    · have : quantAdd l.id g.id v s = .ok ((), { s with
          quants := s.quants ++ [⟨nextId (s.quants.map (·.id)), l.id, g.id, v⟩] }) := by
        unfold quantAdd
        refine bind_ok.2 ⟨s, s, rfl, ite_ok.2 (.inr ⟨hfk, ite_ok.2 (.inr ⟨?_, rfl⟩)⟩)⟩
        intro h
        obtain ⟨q, hqm, h⟩ := List.any_eq_true.1 h
        rw [Bool.and_eq_true, beq_iff_eq, beq_iff_eq] at h
        exact hno q hqm h
      unfold quantPut
      rw [this]
    · refine ⟨?_, ?_, hq.locIds, hq.locLabels, hq.locLens, hq.agIds, hq.agAttrs⟩
      · simp only [List.map_append, List.map_cons, List.map_nil]
        refine List.Nodup.append hq.ids (List.nodup_singleton _) ?_
        intro i hi hi'
        rw [List.mem_singleton] at hi'
        subst hi'
        exact absurd rfl (lt_nextId hi).ne
      · simp only [List.map_append, List.map_cons, List.map_nil]
        refine List.Nodup.append hq.pairs (List.nodup_singleton _) ?_
        intro i hi hi'
        rw [List.mem_singleton] at hi'
        subst hi'
        obtain ⟨q, hqm, he⟩ := List.mem_map.1 hi
        exact hno q hqm ⟨congrArg Prod.fst he, congrArg Prod.snd he⟩
    · intro q hqm
      rcases List.mem_append.1 hqm with h | h
      · exact ha q h
      · rw [List.mem_singleton.1 h]
        exact ⟨⟨l, hl, rfl⟩, ⟨g, hg, rfl⟩⟩
    · rw [hold0, Policy.after_none]
      intro x
      constructor
      · intro h
        cases h
        exact ⟨_, List.mem_append_right _ (List.mem_singleton.2 rfl), ⟨l, hl, rfl, rfl⟩, ⟨g, hg, rfl, rfl⟩, rfl⟩
      · rintro ⟨q, hqm, h1, h2, he⟩
        rcases List.mem_append.1 hqm with h | h
        · have := (hold x).2 ⟨q, h, h1, h2, he⟩
          rw [hold0] at this
          cases this
        · rw [List.mem_singleton.1 h] at he
          rw [← he]
    · intro labels attrs hne x
      constructor
      · rintro ⟨q, hqm, h1, h2, he⟩
        rcases List.mem_append.1 hqm with h | h
        · exact ⟨q, h, h1, h2, he⟩
        · rw [List.mem_singleton] at h
          subst h
          exact absurd ((hkey _ rfl rfl labels attrs).1 ⟨h1, h2⟩) hne
      · rintro ⟨q, hqm, h1, h2, he⟩
        exact ⟨q, List.mem_append_left _ hqm, h1, h2, he⟩
  · have hqm : q ∈ s.quants ∧ q.loc = l.id ∧ q.ag = g.id := by
      unfold Store.findQuant at hf
      exact ⟨List.mem_of_find?_eq_some hf, by simpa using List.find?_some hf⟩
    have hq2 := (hkey q hqm.2.1 hqm.2.2 l.labels g.attrs).2 ⟨rfl, rfl⟩
    have hold0 : old = some q.value := (hold q.value).2 ⟨q, hqm.1, hq2.1, hq2.2, rfl⟩
    have herr : quantAdd l.id g.id v s = .error (.integrityError "quantity: UNIQUE") := by
      unfold quantAdd
      simp only [bind, StateT.bind, get, getThe, MonadStateOf.get, StateT.get, pure, Except.pure, Except.bind]
      rw [if_neg hfk, if_pos (List.any_eq_true.2 ⟨q, hqm.1, by simp [hqm.2]⟩)]
      rfl
    have hset : ∀ y : ℚ,
        QuantInv { s with quants := s.quants.map fun z => if z.id = q.id then { z with value := y } else z } ∧
        Store.Anchored { s with quants := s.quants.map fun z => if z.id = q.id then { z with value := y } else z } ∧
        Store.QuantityIs { s with quants := s.quants.map fun z => if z.id = q.id then { z with value := y } else z }
          l.labels g.attrs (some y) ∧
        ∀ labels attrs, ¬ (labels = l.labels ∧ attrs = g.attrs) → ∀ x,
          Store.HasQuantity { s with quants := s.quants.map fun z => if z.id = q.id then { z with value := y } else z }
            labels attrs x ↔ s.HasQuantity labels attrs x := by
      intro y
      have hmap : ∀ (β : Type) (f : Quant → β) , (∀ z : Quant, f { z with value := y } = f z) →
          (s.quants.map fun z => if z.id = q.id then { z with value := y } else z).map f = s.quants.map f := by
        intro β f hfz
        rw [List.map_map]
        apply List.map_congr_left
        intro z _
        show f (if z.id = q.id then { z with value := y } else z) = f z
        split
        · exact hfz z
        · rfl
      refine ⟨⟨?_, ?_, hq.locIds, hq.locLabels, hq.locLens, hq.agIds, hq.agAttrs⟩, ?_, ?_, ?_⟩
      · show (List.map Quant.id (List.map _ s.quants)).Nodup
        rw [hmap Nat (·.id) fun _ => rfl]
        exact hq.ids
      · show (List.map (fun q : Quant => (q.loc, q.ag)) (List.map _ s.quants)).Nodup
        rw [hmap (Nat × Nat) (fun q => (q.loc, q.ag)) fun _ => rfl]
        exact hq.pairs
      · intro z hz
        obtain ⟨z', hz', rfl⟩ := List.mem_map.1 hz
        have := ha z' hz'
        split
        · exact this
        · exact this
      · intro x
        constructor
        · intro h
          cases h
          exact ⟨{ q with value := y }, List.mem_map.2 ⟨q, hqm.1, by simp⟩, hq2.1, hq2.2, rfl⟩
        · rintro ⟨z, hz, h1, h2, he⟩
          obtain ⟨z', hz', rfl⟩ := List.mem_map.1 hz
          by_cases hid : z'.id = q.id
          · rw [if_pos hid] at he
            rw [← he]
          · rw [if_neg hid] at h1 h2
            exact absurd (congrArg Quant.id (hasQuantity_unique hq hz' h1 h2 hqm.1 hq2.1 hq2.2)) hid
      · intro labels attrs hne x
        constructor
        · rintro ⟨z, hz, h1, h2, he⟩
          obtain ⟨z', hz', rfl⟩ := List.mem_map.1 hz
          by_cases hid : z'.id = q.id
          · rw [if_pos hid] at h1 h2
            have := List.inj_on_of_nodup_map hq.ids hz' hqm.1 hid
            subst this
            exact absurd ((hkey z' hqm.2.1 hqm.2.2 labels attrs).1 ⟨h1, h2⟩) hne
          · rw [if_neg hid] at h1 h2 he
            exact ⟨z', hz', h1, h2, he⟩
        · rintro ⟨z, hz, h1, h2, he⟩
          refine ⟨z, List.mem_map.2 ⟨z, hz, ?_⟩, h1, h2, he⟩
          rw [if_neg]
          intro hid
          have := List.inj_on_of_nodup_map hq.ids hz hqm.1 hid
          subst this
          exact hne ((hkey z hqm.2.1 hqm.2.2 labels attrs).1 ⟨h1, h2⟩)
    cases p with
    | other => exact absurd rfl hp
    | abort =>
      refine .inr ⟨fun h => ?_, .valueError "already been loaded", ?_⟩
      · have := Policy.allows_one.1 h
        rw [hold0] at this
        simp at this
      · unfold quantPut
        rw [herr]
        simp only [hf]
    | ignore =>
      refine .inl ⟨by rw [Policy.allows_one]; simp, s.quants, ?_, hq, ha, ?_, (fun h => by cases h),
        fun _ _ _ _ => Iff.rfl⟩
      · unfold quantPut
        rw [herr]
        simp only [hf]
      · rw [hold0] at hold ⊢
        exact hold
    | replace =>
      refine .inl ⟨by rw [Policy.allows_one]; simp, _, ?_, (hset v).1, (hset v).2.1, ?_,
        (fun h => by cases h), (hset v).2.2.2⟩
      · unfold quantPut
        rw [herr]
        simp only [hf]
        rfl
      · have := (hset v).2.2.1
        rw [hold0]
        exact this
    | sum =>
      refine .inl ⟨by rw [Policy.allows_one]; simp, _, ?_, (hset (q.value + v)).1, (hset (q.value + v)).2.1, ?_,
        (fun _ => sum_set hq.ids hqm.1), (hset (q.value + v)).2.2.2⟩
      · unfold quantPut
        rw [herr]
        simp only [hf]
        rfl
      · have := (hset (q.value + v)).2.2.1
        rw [hold0]
        simpa [Policy.after] using this

end Toron.Space

namespace Toron.Space

open Toron.Selectors (PyStr)

theorem canonAttrs_perm (a : Attrs) : (canonAttrs a).Perm a := sortedBy_perm _ _

theorem canonAttrs_eq_nil {a : Attrs} : canonAttrs a = [] ↔ a = [] :=
  ⟨fun h => List.perm_nil.1 ((canonAttrs_perm a).symm.trans (by rw [h])), fun h => by rw [h]; rfl⟩

theorem insertQuantity2Row_spec {s : Store} (hst : ∀ st ∈ s.structs, st.bits.length = s.cols.length)
    (hc : (s.cols.map asciiLower).Nodup) (hlen : ∀ r ∈ s.index, r.labels.length = s.cols.length)
    (hattr : [] ∉ s.regAttrs.getD [])
    (hq : QuantInv s) (ha : s.Anchored) {al ap : Bool} {p : Policy} (hp : p ≠ .other) (row : QuantRow)
    {old : List PyStr → Attrs → Option ℚ} (hold : ∀ l a, s.QuantityIs l a (old l a)) :
    ((s.Accepts al ap row ∧ ∀ l a, p.Allows (old l a) (s.quantitiesFor [row] l a)) ∧
      ∃ L G Q, insertQuantity2Row al ap p row s = .ok ((), { s with locs := L, agroups := G, quants := Q }) ∧
        QuantInv { s with locs := L, agroups := G, quants := Q } ∧
        Store.Anchored { s with locs := L, agroups := G, quants := Q } ∧
        (p = .sum → (Q.map (·.value)).sum = (s.quants.map (·.value)).sum + s.loadedTotal [row]) ∧
        ∀ l a, Store.QuantityIs { s with locs := L, agroups := G, quants := Q } l a
          (p.after (old l a) (s.quantitiesFor [row] l a))) ∨
    (¬ (s.Accepts al ap row ∧ ∀ l a, p.Allows (old l a) (s.quantitiesFor [row] l a)) ∧
      ∃ e, insertQuantity2Row al ap p row s = .error e) := by
  have hsm : s.structOk row.labels = true ∧ row.labels.length = s.cols.length ↔
      row.labels.length = s.cols.length ∧ ∃ st ∈ s.structs, st.bits = row.labels.map fun x => !x.isEmpty := by
    rw [and_comm]
    refine and_congr_right fun hl => ?_
    unfold Store.structOk
    rw [List.any_eq_true]
    constructor
    · rintro ⟨st, hs, he⟩
      refine ⟨st, hs, ?_⟩
      have hlen : (nonemptyBits row.labels).length = st.bits.length := by
        rw [nonemptyBits, List.length_map, hl, hst st hs]
      exact ((ofBits_bytes_eq_iff hlen).1 (by simpa using he)).symm
    · rintro ⟨st, hs, he⟩
      refine ⟨st, hs, ?_⟩
      rw [he]
      simp [nonemptyBits]
  have hix : row.labels.length = s.cols.length →
      ((s.filterByLabel (labelCriteria s.cols row.labels)).isEmpty = false ↔
        ∃ r ∈ s.index, labelsMatch row.labels r.labels) := by
    intro hl
    rw [Bool.eq_false_iff, Ne, List.isEmpty_iff, List.eq_nil_iff_forall_not_mem, not_forall]
    simp only [not_not]
    unfold Store.filterByLabel
    simp only [List.mem_filter, Bool.true_or, Bool.and_true]
    exact exists_congr fun r => and_congr_right fun hr => matches_iff hc hl (hlen r hr)
  by_cases hd : row.domain ≠ none ∧ row.domain ≠ some s.getDomain
  · refine .inr ⟨fun h => h.1.1.elim hd.1 hd.2, .valueError "domain", ?_⟩
    unfold insertQuantity2Row
    simp only [bind, StateT.bind, get, getThe, MonadStateOf.get, StateT.get, pure, Except.pure, Except.bind]
    rw [if_pos hd]
    rfl
  have hdom : row.domain = none ∨ row.domain = some s.getDomain := by tauto
  by_cases hat : row.pick (s.regAttrs.getD []) = []
  · have hra : s.rowAttrs row = [] := by unfold Store.rowAttrs; rw [hat]; rfl
    have hnil : ∀ l a, s.quantitiesFor [row] l a = [] := by
      intro l a
      unfold Store.quantitiesFor
      rw [List.filter_cons, if_neg]
      · rfl
      · rw [decide_eq_true_eq]
        rintro ⟨_, h1, h2⟩
        exact h2 (h1.symm.trans hra)
    refine .inl ⟨⟨⟨hdom, .inl hra⟩, fun l a => by rw [hnil]; exact Policy.allows_nil _ _⟩, s.locs, s.agroups,
      s.quants, ?_, hq, ha, (fun _ => by simp [Store.loadedTotal, hra]), fun l a => by rw [hnil, Policy.after_nil]; exact hold l a⟩
    unfold insertQuantity2Row
    refine bind_ok.2 ⟨s, s, rfl, ite_ok.2 (.inr ⟨hd, ite_ok.2 (.inl ⟨hat, rfl⟩)⟩)⟩
  have hra : s.rowAttrs row ≠ [] := fun h => hat (canonAttrs_eq_nil.1 h)
  have hacc : s.Accepts al ap row ↔ (row.labels.length = s.cols.length ∧ s.cols ≠ []) ∧
      (ap = true ∨ s.structOk row.labels = true) ∧
      (al = true ∨ (s.filterByLabel (labelCriteria s.cols row.labels)).isEmpty = false) := by
    unfold Store.Accepts
    constructor
    · rintro ⟨_, h | ⟨h1, h2, h3, h4⟩⟩
      · exact absurd h hra
      · exact ⟨⟨h1, h2⟩, h3.imp id fun h => (hsm.2 ⟨h1, h⟩).1, h4.imp id (hix h1).2⟩
    · rintro ⟨⟨h1, h2⟩, h3, h4⟩
      exact ⟨hdom, .inr ⟨h1, h2, h3.imp id fun h => (hsm.1 ⟨h, h1⟩).2, h4.imp id (hix h1).1⟩⟩
  by_cases hs1 : (!s.structOk row.labels && !ap) = true
  · refine .inr ⟨fun h => ?_, .valueError "no matching partition", ?_⟩
    · rw [Bool.and_eq_true, Bool.not_eq_true', Bool.not_eq_true'] at hs1
      rcases (hacc.1 h.1).2.1 with h' | h'
      · rw [hs1.2] at h'; cases h'
      · rw [hs1.1] at h'; cases h'
    · unfold insertQuantity2Row
      simp only [bind, StateT.bind, get, getThe, MonadStateOf.get, StateT.get, pure, Except.pure, Except.bind]
      rw [if_neg hd, if_neg hat, if_pos hs1]
      rfl
  by_cases hs2 : ((s.filterByLabel (labelCriteria s.cols row.labels)).isEmpty && !al) = true
  · refine .inr ⟨fun h => ?_, .valueError "invalid labels", ?_⟩
    · rw [Bool.and_eq_true, Bool.not_eq_true'] at hs2
      rcases (hacc.1 h.1).2.2 with h' | h'
      · rw [hs2.2] at h'; cases h'
      · rw [hs2.1] at h'; cases h'
    · unfold insertQuantity2Row
      simp only [bind, StateT.bind, get, getThe, MonadStateOf.get, StateT.get, pure, Except.pure, Except.bind]
      rw [if_neg hd, if_neg hat, if_neg hs1, if_pos hs2]
      rfl
  have hrun : insertQuantity2Row al ap p row s = (do
      let loc ← locGetOrAdd row.labels
      let ag ← agGetOrAdd (row.pick (s.regAttrs.getD []))
      quantPut p loc.id ag.id row.value : M Unit) s := by
    unfold insertQuantity2Row
    simp only [bind, StateT.bind, get, getThe, MonadStateOf.get, StateT.get, pure, Except.pure, Except.bind]
    rw [if_neg hd, if_neg hat, if_neg hs1, if_neg hs2]
    rfl
  by_cases hlab : row.labels.length = s.cols.length ∧ s.cols ≠ []
  swap
  · refine .inr ⟨fun h => hlab (hacc.1 h.1).1, ?_⟩
    have : ∃ e, locGetOrAdd row.labels s = .error e := by
      unfold locGetOrAdd
      simp only [bind, StateT.bind, get, getThe, MonadStateOf.get, StateT.get, pure, Except.pure, Except.bind]
      by_cases h1 : row.labels.length ≠ s.cols.length
      · rw [if_pos h1]
        exact ⟨_, rfl⟩
      · rw [if_neg h1, if_pos (by tauto)]
        exact ⟨_, rfl⟩
    obtain ⟨e, he⟩ := this
    refine ⟨e, ?_⟩
    rw [hrun]
    simp only [bind, StateT.bind, he, Except.bind]
  have hAcc : s.Accepts al ap row := by
    refine hacc.2 ⟨hlab, ?_, ?_⟩
    · cases ap
      · right
        simpa using hs1
      · exact .inl rfl
    · cases al
      · right
        simpa using hs2
      · exact .inl rfl
  obtain ⟨l, L, hl1, hl2, hl3, hl4, hl5, hl6⟩ := locGetOrAdd_run hq hlab.1 hlab.2
  have hkv : ∀ kv ∈ row.pick (s.regAttrs.getD []), kv.1 ≠ [] ∧ kv.2 ≠ [] := by
    intro kv hkv
    obtain ⟨k, hk, hkv⟩ := List.mem_filterMap.1 hkv
    rcases hlk : row.attrs.lookup k with _ | v
    · rw [hlk] at hkv; cases hkv
    · rw [hlk] at hkv
      simp only at hkv
      split at hkv
      · cases hkv
      · next hv =>
        cases hkv
        refine ⟨fun h => hattr (h ▸ mem_distinct.1 hk), fun h => hv ?_⟩
        have h : v = [] := h
        rw [h]
        rfl
  obtain ⟨g, G, hg1, hg2, hg3, hg4, hg5, hg6⟩ := agGetOrAdd_run hl6 hkv
  have hkey : g.attrs = s.rowAttrs row := hg3
  have hgrow : ∀ labels attrs x, Store.HasQuantity { s with locs := L, agroups := G } labels attrs x ↔
      s.HasQuantity labels attrs x := by
    intro labels attrs x
    exact hasQuantity_grow ha hl4 hg4 (fun x hx => (hl5 x hx).imp id fun h => by rw [h.1]; exact h.2)
      (fun x hx => (hg5 x hx).imp id fun h => by rw [h.1]; exact h.2)
  have ha2 : Store.Anchored { s with locs := L, agroups := G } := by
    intro q hqm
    obtain ⟨⟨l', h1, h2⟩, ⟨g', h3, h4⟩⟩ := ha q hqm
    exact ⟨⟨l', hl4 l' h1, h2⟩, ⟨g', hg4 g' h3, h4⟩⟩
  have hold2 : ∀ l a, Store.QuantityIs { s with locs := L, agroups := G } l a (old l a) :=
    fun l a x => (hold l a x).trans (hgrow l a x).symm
  have hfor : ∀ l' a', s.quantitiesFor [row] l' a' = if l' = l.labels ∧ a' = g.attrs then [row.value] else [] := by
    intro l' a'
    unfold Store.quantitiesFor
    rw [List.filter_cons]
    by_cases h : l' = l.labels ∧ a' = g.attrs
    · rw [if_pos h, if_pos]
      · rfl
      · rw [decide_eq_true_eq, h.1, h.2, hl3, hkey]
        exact ⟨rfl, rfl, hra⟩
    · rw [if_neg h, if_neg]
      · rfl
      · rw [decide_eq_true_eq]
        rintro ⟨h1, h2, _⟩
        exact h ⟨h1.symm.trans hl3.symm, h2.symm.trans hkey.symm⟩
  have hrun2 : insertQuantity2Row al ap p row s = quantPut p l.id g.id row.value { s with locs := L, agroups := G } := by
    rw [hrun]
    simp only [bind, StateT.bind, hl1, Except.bind, hg1]
  have hall : (∀ l' a', p.Allows (old l' a') (s.quantitiesFor [row] l' a')) ↔
      p.Allows (old l.labels g.attrs) [row.value] := by
    constructor
    · intro h
      have := h l.labels g.attrs
      rwa [hfor, if_pos ⟨rfl, rfl⟩] at this
    · intro h l' a'
      rw [hfor]
      by_cases he : l' = l.labels ∧ a' = g.attrs
      · rw [if_pos he, he.1, he.2]
        exact h
      · rw [if_neg he]
        exact Policy.allows_nil _ _
  rw [hall, hrun2]
  rcases quantPut_spec (s := { s with locs := L, agroups := G }) hg6 ha2 hl2 hg2 hp (v := row.value)
    (hold2 l.labels g.attrs) with ⟨h1, Q, h2, h3, h4, h5, h7, h6⟩ | ⟨h1, e, h2⟩
  · refine .inl ⟨⟨hAcc, h1⟩, L, G, Q, h2, h3, h4, (fun h => by
      rw [h7 h]; simp [Store.loadedTotal, hra]), fun l' a' => ?_⟩
    rw [hfor]
    by_cases he : l' = l.labels ∧ a' = g.attrs
    · rw [if_pos he, he.1, he.2]
      exact h5
    · rw [if_neg he, Policy.after_nil]
      exact fun x => (hold2 l' a' x).trans (h6 l' a' he x).symm
  · exact .inr ⟨fun h => h1 h.2, e, h2⟩

theorem quantitiesFor_cons (s : Store) (row : QuantRow) (rows : List QuantRow) (l : List PyStr) (a : Attrs) :
    s.quantitiesFor (row :: rows) l a = s.quantitiesFor [row] l a ++ s.quantitiesFor rows l a := by
  unfold Store.quantitiesFor
  rw [← List.map_append, ← List.filter_append]
  rfl

theorem loadedTotal_cons (s : Store) (row : QuantRow) (rows : List QuantRow) :
    s.loadedTotal (row :: rows) = s.loadedTotal [row] + s.loadedTotal rows := by
  unfold Store.loadedTotal
  rw [← List.sum_append, ← List.map_append, ← List.filter_append]
  rfl

theorem quantitiesFor_one (s : Store) (row : QuantRow) (l : List PyStr) (a : Attrs) :
    s.quantitiesFor [row] l a = [] ∨ s.quantitiesFor [row] l a = [row.value] := by
  unfold Store.quantitiesFor
  rw [List.filter_cons]
  split
  · exact .inr rfl
  · exact .inl rfl

theorem insertQuantities2Rows_spec {al ap : Bool} {p : Policy} (hp : p ≠ .other) (rows : List QuantRow) :
    ∀ {s : Store} (_ : ∀ st ∈ s.structs, st.bits.length = s.cols.length)
    (_ : (s.cols.map asciiLower).Nodup) (_ : ∀ r ∈ s.index, r.labels.length = s.cols.length)
    (_ : [] ∉ s.regAttrs.getD []) (_ : QuantInv s) (_ : s.Anchored)
    {old : List PyStr → Attrs → Option ℚ} (_ : ∀ l a, s.QuantityIs l a (old l a)),
    (((∀ row ∈ rows, s.Accepts al ap row) ∧ ∀ l a, p.Allows (old l a) (s.quantitiesFor rows l a)) ∧
      ∃ L G Q, rows.forM (insertQuantity2Row al ap p) s = .ok ((), { s with locs := L, agroups := G, quants := Q }) ∧
        (p = .sum → (Q.map (·.value)).sum = (s.quants.map (·.value)).sum + s.loadedTotal rows) ∧
        ∀ l a, Store.QuantityIs { s with locs := L, agroups := G, quants := Q } l a
          (p.after (old l a) (s.quantitiesFor rows l a))) ∨
    (¬ ((∀ row ∈ rows, s.Accepts al ap row) ∧ ∀ l a, p.Allows (old l a) (s.quantitiesFor rows l a)) ∧
      ∃ e, rows.forM (insertQuantity2Row al ap p) s = .error e) := by
  induction rows with
  | nil =>
    intro s _ _ _ _ hq ha old hold
    refine .inl ⟨⟨by simp, fun l a => Policy.allows_nil p (old l a)⟩, s.locs, s.agroups, s.quants, rfl,
      (fun _ => by simp [Store.loadedTotal]), fun l a => ?_⟩
    have : s.quantitiesFor [] l a = [] := rfl
    rw [this, Policy.after_nil]
    exact hold l a
  | cons row rows ih =>
    intro s h1 h2 h3 h4 hq ha old hold
    have hcons := quantitiesFor_cons s row rows
    have hallow : ∀ l a, p.Allows (old l a) (s.quantitiesFor (row :: rows) l a) ↔
        p.Allows (old l a) (s.quantitiesFor [row] l a) ∧
          p.Allows (p.after (old l a) (s.quantitiesFor [row] l a)) (s.quantitiesFor rows l a) := by
      intro l a
      rw [hcons]
      rcases quantitiesFor_one s row l a with h | h <;> rw [h]
      · rw [Policy.after_nil]
        exact ⟨fun h => ⟨Policy.allows_nil _ _, h⟩, fun h => h.2⟩
      · exact Policy.allows_cons ..
    rcases insertQuantity2Row_spec h1 h2 h3 h4 hq ha (al := al) (ap := ap) hp row hold with
      ⟨⟨hacc, hal⟩, L, G, Q, hrun, hq', ha', htot, hold'⟩ | ⟨hbad, e, herr⟩
    · have hcond : ((∀ r ∈ row :: rows, s.Accepts al ap r) ∧
            ∀ l a, p.Allows (old l a) (s.quantitiesFor (row :: rows) l a)) ↔
          (∀ r ∈ rows, Store.Accepts { s with locs := L, agroups := G, quants := Q } al ap r) ∧
            ∀ l a, p.Allows (p.after (old l a) (s.quantitiesFor [row] l a))
              (Store.quantitiesFor { s with locs := L, agroups := G, quants := Q } rows l a) := by
        constructor
        · rintro ⟨ha1, ha2⟩
          exact ⟨fun r hr => ha1 r (by simp [hr]), fun l a => ((hallow l a).1 (ha2 l a)).2⟩
        · rintro ⟨ha1, ha2⟩
          refine ⟨fun r hr => ?_, fun l a => (hallow l a).2 ⟨hal l a, ha2 l a⟩⟩
          rcases List.mem_cons.1 hr with rfl | hr
          · exact hacc
          · exact ha1 r hr
      have hfm : (row :: rows).forM (insertQuantity2Row al ap p) s =
          rows.forM (insertQuantity2Row al ap p) { s with locs := L, agroups := G, quants := Q } := by
        show (insertQuantity2Row al ap p row >>= fun _ => rows.forM (insertQuantity2Row al ap p)) s = _
        simp only [bind, StateT.bind, hrun, Except.bind]
      rw [hcond, hfm]
      rcases ih (s := { s with locs := L, agroups := G, quants := Q }) h1 h2 h3 h4 hq' ha' hold' with
        ⟨hc, L2, G2, Q2, hr2, ht2, ho2⟩ | ⟨hc, e, he⟩
      · refine .inl ⟨hc, L2, G2, Q2, hr2, (fun h => ?_), fun l a => ?_⟩
        · rw [ht2 h, loadedTotal_cons s row rows, ← add_assoc, ← htot h]
          rfl
        have h := ho2 l a
        have heq : p.after (old l a) (s.quantitiesFor (row :: rows) l a) =
            p.after (p.after (old l a) (s.quantitiesFor [row] l a)) (s.quantitiesFor rows l a) := by
          rw [hcons]
          rcases quantitiesFor_one s row l a with h | h <;> rw [h]
          · rw [Policy.after_nil]; rfl
          · exact (Policy.after_cons ..).symm
        rw [heq]
        exact h
      · exact .inr ⟨hc, e, he⟩
    · refine .inr ⟨fun h => hbad ⟨h.1 row (by simp), fun l a => ((hallow l a).1 (h.2 l a)).1⟩, e, ?_⟩
      show (insertQuantity2Row al ap p row >>= fun _ => rows.forM (insertQuantity2Row al ap p)) s = _
      simp only [bind, StateT.bind, herr, Except.bind]

end Toron.Space
