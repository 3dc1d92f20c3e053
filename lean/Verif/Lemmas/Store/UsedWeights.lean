/-
Lemmas about the report about weights.
-/
import Verif.Spec.UsedWeights
import Verif.Props.StoreSplit
import Verif.Props.StoreRead

namespace Toron.Selectors

mutual
/-- A selector depends only on the attributes it refers to. -/
theorem eval_names (cm : CaseMap) {r r' : Row} : (s : Sel) → (∀ k ∈ s.names, r.get k = r'.get k) →
    s.eval cm r = s.eval cm r'
  | .simple k op val ic, h => by
    unfold Sel.eval
    rw [h k (by simp [Sel.names])]
  | .any l, h => by unfold Sel.eval; exact evalAny_names cm l (by simpa only [Sel.names] using h)
  | .neg l, h => by unfold Sel.eval; rw [evalAny_names cm l (by simpa only [Sel.names] using h)]
  | .whr l, h => by unfold Sel.eval; exact evalAny_names cm l (by simpa only [Sel.names] using h)
  | .compound l, h => by unfold Sel.eval; exact evalAll_names cm l (by simpa only [Sel.names] using h)
  | .loop, _ => rfl

theorem evalAny_names (cm : CaseMap) {r r' : Row} : (l : List Sel) → (∀ k ∈ Sel.namesL l, r.get k = r'.get k) →
    Sel.evalAny cm r l = Sel.evalAny cm r' l
  | [], _ => rfl
  | s :: ss, h => by
    simp only [Sel.namesL, List.mem_append] at h
    unfold Sel.evalAny
    rw [eval_names cm s fun k hk => h k (.inl hk), evalAny_names cm ss fun k hk => h k (.inr hk)]

theorem evalAll_names (cm : CaseMap) {r r' : Row} : (l : List Sel) → (∀ k ∈ Sel.namesL l, r.get k = r'.get k) →
    Sel.evalAll cm r l = Sel.evalAll cm r' l
  | [], _ => rfl
  | s :: ss, h => by
    simp only [Sel.namesL, List.mem_append] at h
    unfold Sel.evalAll
    rw [eval_names cm s fun k hk => h k (.inl hk), evalAll_names cm ss fun k hk => h k (.inr hk)]
end

end Toron.Selectors

namespace Toron.Space

open Toron.Selectors (PyStr Sel CaseMap Row getGreatestUniqueSpecificity eval_names)
open Toron.Selectors.Spec (Level)

theorem lookup_append_filter {k d v : PyStr} (hk : k ≠ d) (a : Attrs) :
    ((a.filter fun kv => decide (kv.1 ≠ d)) ++ [(d, v)]).lookup k = a.lookup k := by
  induction a with
  | nil =>
    have : (k == d) = false := by simpa using hk
    simp [List.lookup_cons, this]
  | cons x xs ih =>
    by_cases hx : x.1 = d
    · rw [List.filter_cons_of_neg (by simpa using hx), ih, List.lookup_cons]
      have : (k == x.1) = false := by rw [hx]; simpa using hk
      rw [this]
    · rw [List.filter_cons_of_pos (by simpa using hx), List.cons_append, List.lookup_cons, List.lookup_cons, ih]

theorem get_withDomain (s : Store) (a : Attrs) {k : PyStr} (h : s.domain.getD [] = [] ∨ k ≠ "domain".toList) :
    Row.get (s.withDomain a) k = Row.get a k := by
  unfold Store.withDomain Store.getDomain
  by_cases hd : s.domain.getD [] = []
  · rw [if_pos hd]
  · rw [if_neg hd]
    unfold Row.get
    rw [lookup_append_filter (h.resolve_left hd)]

theorem level_congr {cm : CaseMap} {r r' : Row} {sels : List Sel} {sp : Toron.Selectors.Specificity}
    (h : ∀ x ∈ sels, x.eval cm r = x.eval cm r') (hl : Level cm r sels sp) : Level cm r' sels sp := by
  obtain ⟨⟨x, hx, he, hs⟩, hall⟩ := hl
  exact ⟨⟨x, hx, by rw [← h x hx]; exact he, hs⟩, fun y hy hye => hall y hy (by rw [h y hy]; exact hye)⟩

theorem matchedAt_congr {s : Store} {cm : CaseMap} {a a' : Attrs}
    (h : ∀ g ∈ s.wgroups, ∀ x ∈ g.selectors, x.eval cm a = x.eval cm a') {g : WGroup}
    {sp : Toron.Selectors.Specificity} : s.MatchedAt cm a g sp ↔ s.MatchedAt cm a' g sp :=
  ⟨fun ⟨hg, hc, hl⟩ => ⟨hg, hc, level_congr (h g hg) hl⟩,
    fun ⟨hg, hc, hl⟩ => ⟨hg, hc, level_congr (fun x hx => (h g hg x hx).symm) hl⟩⟩

theorem applies_congr {s : Store} {cm : CaseMap} {a a' : Attrs}
    (h : ∀ g ∈ s.wgroups, ∀ x ∈ g.selectors, x.eval cm a = x.eval cm a') {g : WGroup} :
    s.Applies cm a g ↔ s.Applies cm a' g := by
  have hal : ∀ g sp, s.AloneAt cm a g sp ↔ s.AloneAt cm a' g sp := by
    intro g sp
    unfold Store.AloneAt
    rw [matchedAt_congr h]
    exact and_congr_right fun _ => forall_congr' fun g' => by rw [matchedAt_congr h]
  unfold Store.Applies
  simp only [hal]

theorem applies_withDomain {s : Store} (hu : s.DomainUnused) {cm : CaseMap} {a : Attrs} {g : WGroup} :
    s.Applies cm (s.withDomain a) g ↔ s.Applies cm a g := by
  apply applies_congr
  intro g hg x hx
  apply eval_names
  intro k hk
  apply get_withDomain
  rcases hu with hu | hu
  · exact .inl hu
  · right
    rintro rfl
    exact hu g hg x hx hk

/-! ### The dictionary of matches -/

theorem says_addMatch {name : PyStr} {a : Attrs} (d : List (PyStr × List Attrs)) (n : PyStr) (b : Attrs) :
    Says (addMatch name a d) n b ↔ Says d n b ∨ (n = name ∧ b = a) := by
  induction d with
  | nil => simp [addMatch, Says, eq_comm]
  | cons e es ih =>
    have hc : ∀ (x : PyStr × List Attrs) (xs : List (PyStr × List Attrs)), Says (x :: xs) n b ↔ (x.1 = n ∧ b ∈ x.2) ∨ Says xs n b := by
      intro x xs; simp [Says]
    unfold addMatch
    by_cases he : e.1 = name
    · rw [if_pos he]
      by_cases ha : a ∈ e.2
      · rw [if_pos ha, hc]
        constructor
        · exact Or.inl
        · rintro (h | ⟨rfl, rfl⟩)
          · exact h
          · exact .inl ⟨he, ha⟩
      · rw [if_neg ha, hc, hc]
        simp only [List.mem_append, List.mem_singleton]
        subst he
        constructor
        · rintro (⟨h1, h2 | h2⟩ | h)
          · exact .inl (.inl ⟨h1, h2⟩)
          · exact .inr ⟨h1.symm, h2⟩
          · exact .inl (.inr h)
        · rintro ((⟨h1, h2⟩ | h) | ⟨h1, h2⟩)
          · exact .inl ⟨h1, .inl h2⟩
          · exact .inr h
          · exact .inl ⟨h1.symm, .inr h2⟩
    · rw [if_neg he, hc, hc, ih, or_assoc]

theorem says_fold (l : List (AGroup × WGroup)) (d : List (PyStr × List Attrs)) (n : PyStr) (b : Attrs) :
    Says (l.foldl (fun d p => addMatch p.2.name p.1.attrs d) d) n b ↔
      Says d n b ∨ ∃ p ∈ l, p.2.name = n ∧ p.1.attrs = b := by
  induction l generalizing d with
  | nil => simp
  | cons p ps ih =>
    rw [List.foldl_cons, ih, says_addMatch, or_assoc]
    simp only [List.mem_cons, exists_eq_or_imp]
    rw [eq_comm (a := n), eq_comm (a := b)]

theorem addMatch_names (name : PyStr) (a : Attrs) (d : List (PyStr × List Attrs)) (h : (d.map (·.1)).Nodup) :
    ((addMatch name a d).map (·.1)).Nodup ∧ ∀ n, n ∈ (addMatch name a d).map (·.1) ↔ n ∈ d.map (·.1) ∨ n = name := by
  induction d with
  | nil => simp [addMatch]
  | cons e es ih =>
    rw [List.map_cons, List.nodup_cons] at h
    obtain ⟨h1, h2⟩ := ih h.2
    unfold addMatch
    by_cases he : e.1 = name
    · rw [if_pos he]
      have hn : ((e :: es).map (·.1)).Nodup ∧ ∀ n, n ∈ (e :: es).map (·.1) ↔ n ∈ (e :: es).map (·.1) ∨ n = name := by
        refine ⟨by rw [List.map_cons, List.nodup_cons]; exact h, fun n => ⟨.inl, ?_⟩⟩
        rintro (hn | rfl)
        · exact hn
        · rw [List.map_cons, he]; exact List.mem_cons_self
      by_cases ha : a ∈ e.2
      · rw [if_pos ha]; exact hn
      · rw [if_neg ha]; exact hn
    · rw [if_neg he, List.map_cons, List.map_cons, List.nodup_cons]
      refine ⟨⟨?_, h1⟩, fun n => ?_⟩
      · rw [h2]
        rintro (hm | hm)
        · exact h.1 hm
        · exact he hm
      · rw [List.mem_cons, h2, List.mem_cons, or_assoc]

theorem fold_names (l : List (AGroup × WGroup)) (d : List (PyStr × List Attrs)) (h : (d.map (·.1)).Nodup) :
    ((l.foldl (fun d p => addMatch p.2.name p.1.attrs d) d).map (·.1)).Nodup := by
  induction l generalizing d with
  | nil => exact h
  | cons p ps ih => rw [List.foldl_cons]; exact ih _ (addMatch_names _ _ _ h).1

/-! ### The matches -/

theorem flatMapE_matches {α β : Type} {f : α → Except Err (List β)} {P : α → β → Prop} {l : List α}
    (h : ∀ x ∈ l, ∃ y, f x = .ok [y] ∧ P x y) :
    ∃ ys, flatMapE f l = .ok ys ∧ List.Forall₂ P l ys := by
  induction l with
  | nil => exact ⟨[], rfl, .nil⟩
  | cons x xs ih =>
    obtain ⟨y, hy, hp⟩ := h x (by simp)
    obtain ⟨ys, hys, hps⟩ := ih fun z hz => h z (by simp [hz])
    refine ⟨y :: ys, ?_, .cons hp hps⟩
    unfold flatMapE
    simp only [hy, hys, bind, Except.bind]
    rfl

/-- The attribute groups the report is about. -/
def Store.reported (s : Store) (cm : CaseMap) (sels : List Sel) (g : AGroup) : Prop :=
  g ∈ s.agroups ∧ (sels = [] ∨ Sel.evalAny cm g.attrs sels = .ok true ∨ ∀ g' ∈ s.agroups, Sel.evalAny cm g'.attrs sels ≠ .ok true)

theorem getAGroup_eq {s : Store} (hn : (s.agroups.map (·.id)).Nodup) {g : AGroup} (hg : g ∈ s.agroups) :
    s.getAGroup g.id = some g := by
  unfold Store.getAGroup
  rcases hx : s.agroups.find? (fun x => x.id == g.id) with _ | x
  · exact absurd (List.find?_eq_none.1 hx g hg) (by simp)
  · have h1 := List.mem_of_find?_eq_some hx
    have h2 : x.id = g.id := by simpa using List.find?_some hx
    rw [hx, List.inj_on_of_nodup_map hn h1 hg h2]

theorem filter_ids {s : Store} {cm : CaseMap} {sels : List Sel} {f : Option (List Nat)}
    (h : s.attributeFilter cm sels = .ok f) :
    (f = none ∧ sels = []) ∨ ∃ gs : List AGroup, sels ≠ [] ∧ f = some (gs.map (·.id)) ∧
      ∀ g, g ∈ gs ↔ g ∈ s.agroups ∧ Sel.evalAny cm g.attrs sels = .ok true := by
  unfold Store.attributeFilter at h
  by_cases hs : sels = []
  · rw [if_pos hs] at h
    cases h
    exact .inl ⟨rfl, hs⟩
  · rw [if_neg hs] at h
    simp only [bind, Except.bind] at h
    split at h
    · cases h
    · rename_i ids hids
      cases h
      right
      obtain ⟨bs, h1, h2, h3⟩ := flatMapE_ok hids
      refine ⟨s.agroups.filter fun g => decide (Sel.evalAny cm g.attrs sels = .ok true), hs, ?_, ?_⟩
      · rw [h2, ← h1]
        clear h1 h2 hids
        induction bs with
        | nil => rfl
        | cons b bs ih =>
          have := h3 b (by simp)
          have ih' := ih fun c hc => h3 c (by simp [hc])
          rw [Option.some.injEq] at ih' ⊢
          rw [List.flatMap_cons, List.map_cons, ih']
          rcases he : Sel.evalAny cm b.1.attrs sels with e | t
          · rw [he] at this; cases this
          · rw [he] at this
            simp only at this
            cases t
            · have hb2 : b.2 = [] := by simpa using this.symm
              rw [List.filter_cons_of_neg (by simp [he]), hb2, List.nil_append]
            · have hb2 : b.2 = [b.1.id] := by simpa using this.symm
              rw [List.filter_cons_of_pos (by simp [he]), hb2]
              rfl
      · intro g
        rw [List.mem_filter, decide_eq_true_iff]

theorem groupsToMatch_eq {s : Store} {cm : CaseMap} {sels : List Sel} {f : Option (List Nat)}
    (hag : (s.agroups.map (·.id)).Nodup) (h : s.attributeFilter cm sels = .ok f) :
    ∃ gs : List AGroup, s.groupsToMatch f = gs.map some ∧ ∀ g, g ∈ gs ↔ s.reported cm sels g := by
  unfold Store.reported
  rcases filter_ids h with ⟨rfl, hs⟩ | ⟨gs, hs, rfl, hgs⟩
  · exact ⟨s.agroups, rfl, fun g => by simp [hs]⟩
  · rcases hg : gs with _ | ⟨x, xs⟩
    · refine ⟨s.agroups, rfl, fun g => ?_⟩
      have : ∀ g' ∈ s.agroups, Sel.evalAny cm g'.attrs sels ≠ .ok true := fun g' hg' he => by
        have := (hgs g').2 ⟨hg', he⟩
        rw [hg] at this
        cases this
      exact ⟨fun hm => ⟨hm, .inr (.inr this)⟩, And.left⟩
    · refine ⟨x :: xs, ?_, fun g => ?_⟩
      · show ((x :: xs).map (·.id)).map s.getAGroup = _
        rw [List.map_map, ← hg]
        refine List.map_congr_left fun g hm => ?_
        exact getAGroup_eq hag ((hgs g).1 hm).1
      · rw [← hg, hgs]
        refine and_congr_right fun hm => ⟨fun he => .inr (.inl he), ?_⟩
        rintro (h' | h' | h')
        · exact absurd h' hs
        · exact h'
        · have hx := (hgs x).1 (by rw [hg]; exact List.mem_cons_self)
          exact absurd hx.2 (h' x hx.1)

theorem report_of {s : Store} (hr : Reachable s) {cm : CaseMap} {sels : List Sel} {f : Option (List Nat)} {dflt : WGroup}
    (hwf : ∀ g ∈ s.wgroups, ∀ x ∈ g.selectors, x.WF) (hf : s.attributeFilter cm sels = .ok f)
    (hd : s.getDefaultWG = .ok dflt) :
    ∃ gs found, (∀ g, g ∈ gs ↔ s.reported cm sels g) ∧
      List.Forall₂ (fun (g : AGroup) (p : AGroup × WGroup) => p.1 = g ∧ p.2 ∈ s.wgroups ∧ s.Applies cm g.attrs p.2) gs found ∧
      s.weightsReport cm sels = .ok (found.foldl (fun d p => addMatch p.2.name p.1.attrs d) []) := by
  obtain ⟨gs, hgs, hmem⟩ := groupsToMatch_eq hr.quantInv.agIds hf
  obtain ⟨found, h1, h2⟩ := flatMapE_matches (f := s.matchGroup cm dflt.id) (l := s.groupsToMatch f)
    (P := fun og p => ∃ g, og = some g ∧ p.1 = g ∧ p.2 ∈ s.wgroups ∧ s.Applies cm g.attrs p.2) (by
      intro x hx
      rw [hgs, List.mem_map] at hx
      obtain ⟨g, hg, rfl⟩ := hx
      obtain ⟨w, hw, he, hap⟩ := applies_of (cm := cm) (a := g.attrs) hr.weightInv hwf hd
      refine ⟨(g, w), ?_, g, rfl, rfl, hw, hap⟩
      unfold Store.matchGroup
      have hfind : s.wgroups.find? (fun x => x.id == w.id) = some w := by
        rcases hx : s.wgroups.find? (fun x => x.id == w.id) with _ | x
        · exact absurd (List.find?_eq_none.1 hx w hw) (by simp)
        · have h1 := List.mem_of_find?_eq_some hx
          have h2 : x.id = w.id := by simpa using List.find?_some hx
          rw [hx, List.inj_on_of_nodup_map hr.weightInv.gids h1 hw h2]
      simp only [he, bind, Except.bind, hfind])
  refine ⟨gs, found, hmem, ?_, ?_⟩
  · rw [hgs, List.forall₂_map_left_iff] at h2
    exact h2.imp fun g p ⟨g', hg', h⟩ => by cases hg'; exact h
  · unfold Store.weightsReport Store.findMatchingWeightGroups
    simp only [hf, hd, h1, bind, Except.bind]

end Toron.Space
