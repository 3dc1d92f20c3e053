/-
What removing columns does to the tables and to the totals that can be listed.
-/
import Verif.Lemmas.Legacy.Inv

namespace Toron.Legacy

open Toron.Selectors (PyStr)
open Toron.Space (IndexRec LocRec StructRec Weight AGroup Quant Attrs nextId keepCols keepCols_length)

/-! ### Nothing to merge -/

theorem oldToNew_nil {recs : List (Nat × List PyStr)} (h : (recs.map (·.2)).Nodup) : oldToNew recs = [] := by
  rw [List.eq_nil_iff_forall_not_mem]
  rintro ⟨i, t⟩ hm
  obtain ⟨k, _, hl, _⟩ := mem_oldToNew.1 hm
  unfold sameIds at hl
  rw [List.length_map] at hl
  have h1 : ((recs.filter fun x => x.2 == k).map (·.2)).Nodup := h.sublist (List.Sublist.map _ List.filter_sublist)
  have h2 : ∀ y ∈ (recs.filter fun x => x.2 == k).map (·.2), y = k := by
    intro y hy
    obtain ⟨x, hx, rfl⟩ := List.mem_map.1 hy
    simpa using (List.mem_filter.1 hx).2
  have h3 : 1 < ((recs.filter fun x => x.2 == k).map (·.2)).length := by rwa [List.length_map]
  match he : (recs.filter fun x => x.2 == k).map (·.2) with
  | [] => rw [he] at h3; simp at h3
  | [a] => rw [he] at h3; simp at h3
  | a :: b :: l =>
    rw [he] at h1 h2
    have ha := h2 a (by simp)
    have hb := h2 b (by simp)
    subst ha
    rw [hb] at h1
    simp at h1

theorem missing_nil (rows : List Amount) : missing [] rows = [] := by
  rw [List.eq_nil_iff_forall_not_mem]
  intro p hp
  obtain ⟨⟨x, _, _, hl⟩, _⟩ := mem_missing.1 hp
  simp at hl

theorem goes_nil (i : Nat) : goes [] i = false := rfl

theorem filter_goes_nil {α : Type} (l : List α) (f : α → Nat) : (l.filter fun r => !(goes [] (f r))) = l :=
  List.filter_eq_self.2 fun _ _ => rfl

theorem mergeAmounts_nil (rows : List Amount) : mergeAmounts [] rows = rows := by
  unfold mergeAmounts
  rw [missing_nil]
  show (writeSums [] rows).filter _ = rows
  have : writeSums [] rows = rows := by
    unfold writeSums
    conv_rhs => rw [← List.map_id rows]
    apply List.map_congr_left
    intro r _
    have : (rows.any fun x => x.key == r.key && ([] : List (Nat × Nat)).lookup x.at_ == some r.at_) = false := by
      rw [List.any_eq_false]; intro x _; simp
    simp [this]
  rw [this]
  exact List.filter_eq_self.2 fun _ _ => rfl

theorem keepCols_none {cols drop : List PyStr} (h : ∀ c ∈ cols, c ∉ drop) {β : Type} {xs : List β}
    (hl : xs.length = cols.length) : keepCols cols drop xs = xs := by
  unfold keepCols
  rw [List.filter_eq_self.2]
  · rw [List.map_snd_zip (by omega)]
  · rintro ⟨c, x⟩ hm
    simpa using h c (List.of_mem_zip hm).1

/-! ### The tables afterwards -/

/-- Old and new ids of the records. -/
def Node.recordMap (n : Node) (drop : List PyStr) : List (Nat × Nat) :=
  oldToNew (n.index.map fun r => (r.id, keepCols n.cols drop r.labels))

/-- Old and new ids of the locations. -/
def Node.locationMap (n : Node) (drop : List PyStr) : List (Nat × Nat) :=
  oldToNew (n.locs.map fun l => (l.id, keepCols n.cols drop l.labels))

/-- The tables after columns have been removed. -/
structure Removed (n : Node) (drop : List PyStr) (n' : Node) : Prop where
  cols : n'.cols = n.cols.filter fun c => decide (c ∉ drop)
  seq : n'.seq = n.seq
  index : n'.index = (n.index.filter fun r => !(goes (n.recordMap drop) r.id)).map fun r =>
    { r with labels := keepCols n.cols drop r.labels }
  locs : n'.locs = (n.locs.filter fun r => !(goes (n.locationMap drop) r.id)).map fun r =>
    { r with labels := keepCols n.cols drop r.labels }
  weights : n'.weights = (mergeAmounts (n.recordMap drop) (n.weights.map ofWeight)).map toWeight
  quants : n'.quants = (mergeAmounts (n.locationMap drop) (n.quants.map ofQuant)).map toQuant
  attrs : n'.attrs = n.attrs
  groups : (n'.weightings.map fun g => (g.id, g.name)) = n.weightings.map fun g => (g.id, g.name)
  distinct_ : n.locationMap drop = [] ∨ ¬ (n.index.map fun r => keepCols n.cols drop r.labels).Nodup

theorem map_ofWeight (ws : List Weight) : (ws.map ofWeight).map toWeight = ws := by
  rw [List.map_map]
  exact (List.map_congr_left fun _ _ => rfl).trans (List.map_id _)

theorem map_ofQuant (ws : List Quant) : (ws.map ofQuant).map toQuant = ws := by
  rw [List.map_map]
  exact (List.map_congr_left fun _ _ => rfl).trans (List.map_id _)

theorem recheck_groups (n : Node) :
    (n.recheckComplete.weightings.map fun g => (g.id, g.name)) = n.weightings.map fun g => (g.id, g.name) := by
  unfold Node.recheckComplete
  simp only [List.map_map]
  apply List.map_congr_left
  intro x _
  simp only [Function.comp_apply]
  split <;> rfl

theorem dropColumns_ok {n n' : Node} {drop : List PyStr} (h : n.dropColumns drop = .ok n') :
    n' = { n with
      cols := n.cols.filter fun c => decide (c ∉ drop),
      index := n.index.map (fun r => { r with labels := keepCols n.cols drop r.labels }),
      locs := n.locs.map (fun r => { r with labels := keepCols n.cols drop r.labels }),
      structs := n.structs.map (fun r => { r with bits := keepCols n.cols drop r.bits }) } ∧
      (n'.locs.map (·.labels)).Nodup := by
  unfold Node.dropColumns at h
  obtain ⟨u, hu, h⟩ := bind_ok h
  injection h with h
  refine ⟨h.symm, ?_⟩
  rw [← h]
  exact (checkUnique_ok hu).2.1

theorem removed {n n' : Node} {drop : List PyStr} {ps pg : Bool} (hi : Inv n)
    (h : n.removeIndexColumns drop ps pg = .ok n') : Removed n drop n' := by
  unfold Node.removeIndexColumns at h
  split at h
  · rename_i hc
    injection h with h
    subst h
    have hc' : ∀ c ∈ n.cols, c ∉ drop := by simpa using hc
    have h1 : (n.index.map fun r => keepCols n.cols drop r.labels) = n.index.map (·.labels) :=
      List.map_congr_left fun r hr => keepCols_none hc' (hi.len r hr)
    have h2 : (n.locs.map fun r => keepCols n.cols drop r.labels) = n.locs.map (·.labels) :=
      List.map_congr_left fun r hr => keepCols_none hc' (hi.locLen r hr)
    have m1 : n.recordMap drop = [] := oldToNew_nil (by
      rw [List.map_map]; exact (show (n.index.map fun r => keepCols n.cols drop r.labels).Nodup from h1 ▸ hi.labels))
    have m2 : n.locationMap drop = [] := oldToNew_nil (by
      rw [List.map_map]; exact (show (n.locs.map fun r => keepCols n.cols drop r.labels).Nodup from h2 ▸ hi.locLabels))
    constructor
    · exact (List.filter_eq_self.2 (by simpa using hc')).symm
    · rfl
    · rw [m1, filter_goes_nil]
      conv_lhs => rw [← List.map_id n.index]
      apply List.map_congr_left
      intro r hr
      rw [keepCols_none hc' (hi.len r hr)]
      rfl
    · rw [m2, filter_goes_nil]
      conv_lhs => rw [← List.map_id n.locs]
      apply List.map_congr_left
      intro r hr
      rw [keepCols_none hc' (hi.locLen r hr)]
      rfl
    · rw [m1, mergeAmounts_nil, map_ofWeight]
    · rw [m2, mergeAmounts_nil, map_ofQuant]
    · rfl
    · rfl
    · exact Or.inl m2
  · obtain ⟨cats, _, h⟩ := bind_ok h
    obtain ⟨_, h⟩ := ite_ok h
    obtain ⟨n1, h1, h⟩ := bind_ok h
    obtain ⟨_, h⟩ := ite_ok h
    obtain ⟨n2, h2, h3⟩ := bind_ok h
    obtain ⟨e2, hu⟩ := dropColumns_ok h2
    have e3 := updateCategories_same h3
    unfold SameData at e3
    unfold Node.mergeRecords at h1
    by_cases hl : n.losesGranularity drop = true
    · rw [if_pos hl] at h1
      obtain ⟨_, h1⟩ := ite_ok h1
      cases hcs : n.coarsen drop with
      | error e => rw [hcs] at h1; cases h1
      | ok n0 =>
        rw [hcs] at h1
        injection h1 with h1
        unfold Node.coarsen at hcs
        dsimp only at hcs
        obtain ⟨_, hcs⟩ := ite_ok hcs
        injection hcs with hcs
        have hl' : ¬ (n.index.map fun r => keepCols n.cols drop r.labels).Nodup := by
          unfold Node.losesGranularity at hl
          simpa using hl
        constructor
        · rw [e3, e2, ← h1, ← hcs]; rfl
        · rw [e3, e2, ← h1, ← hcs]; rfl
        · rw [e3, e2, ← h1, ← hcs]; rfl
        · rw [e3, e2, ← h1, ← hcs]; rfl
        · rw [e3, e2, ← h1, ← hcs]; rfl
        · rw [e3, e2, ← h1, ← hcs]; rfl
        · rw [e3, e2, ← h1, ← hcs]; rfl
        · rw [e3, e2, ← h1, ← hcs]
          exact recheck_groups _
        · exact Or.inr hl'
    · rw [if_neg hl] at h1
      injection h1 with h1
      subst h1
      have hl' : (n.index.map fun r => keepCols n.cols drop r.labels).Nodup := by
        unfold Node.losesGranularity at hl
        simpa using hl
      have m1 : n.recordMap drop = [] := oldToNew_nil (by rw [List.map_map]; exact hl')
      have m2 : n.locationMap drop = [] := oldToNew_nil (by
        rw [List.map_map]
        rw [e2] at hu
        simp only [List.map_map] at hu
        exact hu)
      constructor
      · rw [e3, e2]
      · rw [e3, e2]
      · rw [e3, e2, m1, filter_goes_nil]
      · rw [e3, e2, m2, filter_goes_nil]
      · rw [m1, mergeAmounts_nil, map_ofWeight, e3, e2]
      · rw [m2, mergeAmounts_nil, map_ofQuant, e3, e2]
      · rw [e3, e2]
      · rw [e3, e2]
      · exact Or.inl m2

/-! ### Tables of labelled records -/

section recs
variable {recs : List (Nat × List PyStr)} (f : List PyStr → List PyStr) (hn : (recs.map (·.1)).Nodup)

/-- Old and new ids when labels are replaced by others. -/
def mapOf (recs : List (Nat × List PyStr)) (f : List PyStr → List PyStr) : List (Nat × Nat) :=
  oldToNew (recs.map fun r => (r.1, f r.2))

/-- The records that are kept. -/
def keptOf (recs : List (Nat × List PyStr)) (f : List PyStr → List PyStr) : List (Nat × List PyStr) :=
  (recs.filter fun r => !(goes (mapOf recs f) r.1)).map fun r => (r.1, f r.2)

include hn

theorem mapOf_ids : ((recs.map fun r => (r.1, f r.2)).map (·.1)).Nodup := by
  rw [List.map_map]; exact hn

theorem mapOf_ok : RepOk (mapOf recs f) := repOk (mapOf_ids f hn)

theorem mem_keptOf {i : Nat} {k : List PyStr} :
    (i, k) ∈ keptOf recs f ↔ rep (mapOf recs f) i = i ∧ ∃ l, (i, l) ∈ recs ∧ f l = k := by
  unfold keptOf
  simp only [List.mem_map, List.mem_filter, Prod.mk.injEq, Bool.not_eq_true', Prod.exists]
  constructor
  · rintro ⟨a, l, ⟨h1, h2⟩, rfl, rfl⟩
    refine ⟨?_, l, h1, rfl⟩
    by_contra hc
    rw [((mapOf_ok f hn).goes a).2 hc] at h2
    cases h2
  · rintro ⟨h1, l, h2, rfl⟩
    refine ⟨i, l, ⟨h2, ?_⟩, rfl, rfl⟩
    rw [Bool.eq_false_iff]
    intro hc
    exact ((mapOf_ok f hn).goes i).1 hc h1

theorem keptOf_ids : ((keptOf recs f).map (·.1)).Nodup := by
  unfold keptOf
  rw [List.map_map]
  exact hn.sublist (List.Sublist.map _ List.filter_sublist)

theorem rep_kept {i : Nat} {l : List PyStr} (h : (i, l) ∈ recs) : (rep (mapOf recs f) i, f l) ∈ keptOf recs f := by
  have h' : (i, f l) ∈ recs.map fun r => (r.1, f r.2) := List.mem_map.2 ⟨_, h, rfl⟩
  obtain ⟨h1, _⟩ := rep_spec (mapOf_ids f hn) h'
  rw [mem_keptOf f hn]
  refine ⟨(rep_same (mapOf_ids f hn) h1 h'), ?_⟩
  obtain ⟨⟨a, b⟩, hx, e⟩ := List.mem_map.1 h1
  injection e with e1 e2
  refine ⟨b, ?_, e2⟩
  show (rep (oldToNew _) i, b) ∈ recs
  rw [← e1]; exact hx

theorem keptOf_labels : ((keptOf recs f).map (·.2)).Nodup := by
  have hids := keptOf_ids f hn
  refine List.Nodup.map_on ?_ hids.of_map
  rintro ⟨i, k⟩ hi ⟨j, k'⟩ hj e
  simp only at e
  subst e
  obtain ⟨hi1, l, hl, e1⟩ := (mem_keptOf f hn).1 hi
  obtain ⟨hj1, l', hl', e2⟩ := (mem_keptOf f hn).1 hj
  have : rep (mapOf recs f) i = rep (mapOf recs f) j :=
    rep_same (mapOf_ids f hn) (k := k) (List.mem_map.2 ⟨_, hl, by rw [e1]⟩) (List.mem_map.2 ⟨_, hl', by rw [e2]⟩)
  rw [hi1, hj1] at this
  rw [this]

/-- A record is kept if and only if no other one with the same new labels has a smaller id. -/
theorem not_goes_iff {i : Nat} {l : List PyStr} (h : (i, l) ∈ recs) :
    goes (mapOf recs f) i = false ↔ ∀ x ∈ recs, f x.2 = f l → i ≤ x.1 := by
  have h' : (i, f l) ∈ recs.map fun r => (r.1, f r.2) := List.mem_map.2 ⟨_, h, rfl⟩
  obtain ⟨h1, h2⟩ := rep_spec (mapOf_ids f hn) h'
  have hg : goes (mapOf recs f) i = false ↔ rep (mapOf recs f) i = i := by
    rw [Bool.eq_false_iff, Ne, (mapOf_ok f hn).goes, not_not]
  rw [hg]
  constructor
  · intro e x hx ex
    have : (rep (mapOf recs f) i) ≤ x.1 := h2 x.1 (List.mem_map.2 ⟨_, hx, by rw [ex]⟩)
    rwa [e] at this
  · intro hall
    apply le_antisymm
    · exact h2 i h'
    · obtain ⟨⟨a, b⟩, hx, e⟩ := List.mem_map.1 h1
      injection e with e1 e2
      have := hall _ hx e2
      show i ≤ rep (oldToNew _) i
      rw [← e1]; exact this

end recs

/-! ### Listings -/

/-- The amounts with the labels of their records and what they belong to. -/
def listing {κ : Type} (recs : List (Nat × List PyStr)) (groups : List (Nat × κ)) (rows : List Amount) :
    List (List PyStr × κ × ℚ) :=
  rows.filterMap fun a =>
    match recs.lookup a.at_, groups.lookup a.key with
    | some l, some g => some (l, g, a.value)
    | _, _ => none

/-- Every amount belongs to something. -/
def RefsOk {κ : Type} (recs : List (Nat × List PyStr)) (groups : List (Nat × κ)) (rows : List Amount) : Prop :=
  ∀ a ∈ rows, (∃ l, (a.at_, l) ∈ recs) ∧ ∃ g, (a.key, g) ∈ groups

theorem total_cons {κ : Type} [DecidableEq κ] (x : List PyStr × κ × ℚ) (xs : List (List PyStr × κ × ℚ))
    (P : List PyStr → Prop) [DecidablePred P] (k : κ) :
    total (x :: xs) P k = (if P x.1 ∧ x.2.1 = k then x.2.2 else 0) + total xs P k := by
  unfold total
  rw [List.filter_cons]
  by_cases h : P x.1 ∧ x.2.1 = k
  · rw [if_pos (by simpa using h), if_pos h, List.map_cons, List.sum_cons]
  · rw [if_neg (by simpa using h), if_neg h, zero_add]

theorem total_listing {κ : Type} [DecidableEq κ] {recs : List (Nat × List PyStr)} {groups : List (Nat × κ)}
    (hn : (recs.map (·.1)).Nodup) (hg : (groups.map (·.1)).Nodup) (hk : (groups.map (·.2)).Nodup)
    {rows : List Amount} (hr : RefsOk recs groups rows) (P : List PyStr → Prop) [DecidablePred P]
    (Q : Nat → Prop) [DecidablePred Q] (hQ : ∀ i l, (i, l) ∈ recs → (Q i ↔ P l)) {g : Nat} {k : κ}
    (hgk : (g, k) ∈ groups) :
    total (listing recs groups rows) P k = sumOn rows g Q := by
  induction rows with
  | nil => rfl
  | cons a rows ih =>
    have ih' := ih fun x hx => hr x (List.mem_cons_of_mem _ hx)
    obtain ⟨⟨l, hl⟩, g', hg'⟩ := hr a List.mem_cons_self
    have e : listing recs groups (a :: rows) = (l, g', a.value) :: listing recs groups rows := by
      unfold listing
      rw [List.filterMap_cons, lookup_of_mem hn hl, lookup_of_mem hg hg']
    rw [e, total_cons, ih']
    unfold sumOn
    rw [List.map_cons, List.sum_cons]
    congr 1
    have hiff : (P l ∧ g' = k) ↔ (a.key = g ∧ Q a.at_) := by
      rw [hQ _ _ hl]
      constructor
      · rintro ⟨h1, rfl⟩
        have := List.inj_on_of_nodup_map hk hg' hgk rfl
        injection this with h2 _
        exact ⟨h2, h1⟩
      · rintro ⟨h1, h2⟩
        refine ⟨h2, ?_⟩
        have := List.inj_on_of_nodup_map hg hg' hgk h1
        injection this
    by_cases h : P l ∧ g' = k
    · rw [if_pos h, if_pos (hiff.1 h)]
    · rw [if_neg h, if_neg (fun c => h (hiff.2 c))]

theorem listing_length {κ : Type} {recs : List (Nat × List PyStr)} {groups : List (Nat × κ)}
    (hn : (recs.map (·.1)).Nodup) (hg : (groups.map (·.1)).Nodup) {rows : List Amount} (hr : RefsOk recs groups rows) :
    (listing recs groups rows).length = rows.length := by
  induction rows with
  | nil => rfl
  | cons a rows ih =>
    obtain ⟨⟨l, hl⟩, g', hg'⟩ := hr a List.mem_cons_self
    have e : listing recs groups (a :: rows) = (l, g', a.value) :: listing recs groups rows := by
      unfold listing
      rw [List.filterMap_cons, lookup_of_mem hn hl, lookup_of_mem hg hg']
    rw [e, List.length_cons, List.length_cons, ih fun x hx => hr x (List.mem_cons_of_mem _ hx)]

theorem total_listing_none {κ : Type} [DecidableEq κ] {recs : List (Nat × List PyStr)} {groups : List (Nat × κ)}
    (rows : List Amount) (P : List PyStr → Prop) [DecidablePred P] {k : κ} (hgk : k ∉ groups.map (·.2)) :
    total (listing recs groups rows) P k = 0 := by
  unfold total
  rw [List.filter_eq_nil_iff.2]
  · rfl
  · rintro ⟨l, g, v⟩ hm
    unfold listing at hm
    obtain ⟨a, _, e⟩ := List.mem_filterMap.1 hm
    split at e
    · rename_i hg
      injection e with e
      injection e with _ e
      injection e with e _
      simp only [decide_eq_true_eq, not_and]
      rintro _ rfl
      exact hgk (List.mem_map.2 ⟨_, lookup_mem hg, e⟩)
    · cases e

theorem refs_merge {κ : Type} {recs : List (Nat × List PyStr)} {groups : List (Nat × κ)} (f : List PyStr → List PyStr)
    (hn : (recs.map (·.1)).Nodup) {rows : List Amount} (hr : RefsOk recs groups rows) :
    RefsOk (keptOf recs f) groups (mergeAmounts (mapOf recs f) rows) := by
  intro a ha
  obtain ⟨_, x, hx, e1, e2⟩ := mem_mergeAmounts (mapOf_ok f hn) ha
  obtain ⟨⟨l, hl⟩, g, hg⟩ := hr x hx
  refine ⟨⟨f l, ?_⟩, g, ?_⟩
  · rw [← e2]; exact rep_kept f hn hl
  · rw [← e1]; exact hg

/-- Totals by the new labels are what they were. -/
theorem total_merge {κ : Type} [DecidableEq κ] {recs : List (Nat × List PyStr)} {groups : List (Nat × κ)}
    (f : List PyStr → List PyStr) (hn : (recs.map (·.1)).Nodup) (hg : (groups.map (·.1)).Nodup)
    (hk : (groups.map (·.2)).Nodup) {rows : List Amount} (hr : RefsOk recs groups rows)
    (hp : mapOf recs f = [] ∨ (rows.map fun r => (r.key, r.at_)).Nodup) (P : List PyStr → Prop) [DecidablePred P] (k : κ) :
    total (listing (keptOf recs f) groups (mergeAmounts (mapOf recs f) rows)) P k =
      total (listing recs groups rows) (fun l => P (f l)) k := by
  classical
  by_cases hgk : k ∈ groups.map (·.2)
  · obtain ⟨⟨g, k'⟩, hgk', rfl⟩ := List.mem_map.1 hgk
    clear hgk
    have hgk := hgk'
    dsimp only
    have hn' := keptOf_ids f hn
    rw [total_listing hn' hg hk (refs_merge f hn hr) P (fun i => ∃ l, (i, l) ∈ keptOf recs f ∧ P l) ?_ hgk]
    · have hs : sumOn (mergeAmounts (mapOf recs f) rows) g (fun i => ∃ l, (i, l) ∈ keptOf recs f ∧ P l) =
          sumOn rows g (fun i => ∃ l, (rep (mapOf recs f) i, l) ∈ keptOf recs f ∧ P l) := by
        rcases hp with hp | hp
        · rw [hp, mergeAmounts_nil]; rfl
        · exact merge_sum (mapOf_ok f hn) hp g _
      rw [hs]
      symm
      apply total_listing hn hg hk hr _ _ _ hgk
      intro i l hl
      have h1 := rep_kept f hn hl
      constructor
      · rintro ⟨l', h2, h3⟩
        have := List.inj_on_of_nodup_map hn' h1 h2 rfl
        injection this with _ e
        rwa [e]
      · intro h2
        exact ⟨_, h1, h2⟩
    · intro i l hl
      constructor
      · rintro ⟨l', h2, h3⟩
        have := List.inj_on_of_nodup_map hn' hl h2 rfl
        injection this with _ e
        rwa [e]
      · intro h2
        exact ⟨_, hl, h2⟩
  · rw [total_listing_none _ _ hgk, total_listing_none _ _ hgk]

/-- If no two listed amounts have the same labels and belong to the same thing, no two rows do. -/
theorem pairs_of_listing {κ : Type} {recs : List (Nat × List PyStr)} {groups : List (Nat × κ)} {rows : List Amount}
    (hr : RefsOk recs groups rows) (hn : (recs.map (·.1)).Nodup) (hg : (groups.map (·.1)).Nodup)
    (h : ((listing recs groups rows).map fun q => (q.1, q.2.1)).Nodup) : (rows.map fun r => (r.key, r.at_)).Nodup := by
  have e : (listing recs groups rows).map (fun q => (some q.1, some q.2.1)) =
      rows.map fun a => (recs.lookup a.at_, groups.lookup a.key) := by
    clear h
    induction rows with
    | nil => rfl
    | cons a rows ih =>
      obtain ⟨⟨l, hl⟩, g, hg'⟩ := hr a List.mem_cons_self
      have ih' := ih fun x hx => hr x (List.mem_cons_of_mem _ hx)
      have e : listing recs groups (a :: rows) = (l, g, a.value) :: listing recs groups rows := by
        unfold listing
        rw [List.filterMap_cons, lookup_of_mem hn hl, lookup_of_mem hg hg']
      rw [e, List.map_cons, List.map_cons, ih', lookup_of_mem hn hl, lookup_of_mem hg hg']
  have h1 : ((listing recs groups rows).map fun q => (some q.1, some q.2.1)).Nodup := by
    have := h.map (f := fun p : List PyStr × κ => (some p.1, some p.2)) (by
      rintro ⟨a, b⟩ ⟨c, d⟩ e
      simpa using e)
    rw [List.map_map] at this
    exact this
  rw [e] at h1
  have h2 : (rows.map fun a => (recs.lookup a.at_, groups.lookup a.key)) =
      (rows.map fun r => (r.key, r.at_)).map fun p => (recs.lookup p.2, groups.lookup p.1) := by
    rw [List.map_map]; rfl
  rw [h2] at h1
  exact h1.of_map

/-! ### The listings of a node -/

theorem lookup_map_find {α β : Type} (l : List α) (f : α → Nat) (g : α → β) (i : Nat) :
    (l.map fun x => (f x, g x)).lookup i = (l.find? fun x => f x == i).map g := by
  induction l with
  | nil => rfl
  | cons x l ih =>
    rw [List.map_cons, List.lookup_cons, List.find?_cons]
    by_cases h : f x = i
    · simp [h]
    · have h1 : (i == f x) = false := by simpa using fun e => h e.symm
      have h2 : (f x == i) = false := by simpa using h
      rw [h1, h2]
      exact ih

/-- Records as pairs. -/
def Node.recs (n : Node) : List (Nat × List PyStr) := n.index.map fun r => (r.id, r.labels)

/-- Locations as pairs. -/
def Node.locRecs (n : Node) : List (Nat × List PyStr) := n.locs.map fun r => (r.id, r.labels)

theorem weightListing_eq (n : Node) :
    n.weightListing = listing n.recs (n.weightings.map fun g => (g.id, g.name)) (n.weights.map ofWeight) := by
  unfold Node.weightListing listing
  rw [List.filterMap_map]
  apply List.filterMap_congr
  intro w _
  unfold Node.recs
  dsimp only [Function.comp_apply, ofWeight]
  rw [lookup_map_find n.index (fun r => r.id) (fun r => r.labels), lookup_map_find n.weightings (fun r => r.id) (fun r => r.name)]
  cases n.index.find? fun r => r.id == w.index <;> cases n.weightings.find? fun g => g.id == w.group <;> rfl

theorem rawQuantities_eq (n : Node) :
    n.rawQuantities = listing n.locRecs (n.attrs.map fun g => (g.id, g.attrs)) (n.quants.map ofQuant) := by
  unfold Node.rawQuantities listing
  rw [List.filterMap_map]
  apply List.filterMap_congr
  intro w _
  unfold Node.locRecs
  dsimp only [Function.comp_apply, ofQuant]
  rw [lookup_map_find n.locs (fun r => r.id) (fun r => r.labels), lookup_map_find n.attrs (fun r => r.id) (fun r => r.attrs)]
  cases n.locs.find? fun r => r.id == w.loc <;> cases n.attrs.find? fun g => g.id == w.ag <;> rfl

theorem Inv.weightRefsOk {n : Node} (hi : Inv n) :
    RefsOk n.recs (n.weightings.map fun g => (g.id, g.name)) (n.weights.map ofWeight) := by
  intro a ha
  obtain ⟨w, hw, rfl⟩ := List.mem_map.1 ha
  obtain ⟨⟨r, hr, e⟩, g, hg, e'⟩ := hi.weightRefs w hw
  exact ⟨⟨r.labels, List.mem_map.2 ⟨r, hr, by rw [e]; rfl⟩⟩, g.name, List.mem_map.2 ⟨g, hg, by rw [e']; rfl⟩⟩

theorem Inv.quantRefsOk {n : Node} (hi : Inv n) :
    RefsOk n.locRecs (n.attrs.map fun g => (g.id, g.attrs)) (n.quants.map ofQuant) := by
  intro a ha
  obtain ⟨w, hw, rfl⟩ := List.mem_map.1 ha
  obtain ⟨⟨r, hr, e⟩, g, hg, e'⟩ := hi.quantRefs w hw
  exact ⟨⟨r.labels, List.mem_map.2 ⟨r, hr, by rw [e]; rfl⟩⟩, g.attrs, List.mem_map.2 ⟨g, hg, by rw [e']; rfl⟩⟩

section
variable {n n' : Node} {drop : List PyStr} (hR : Removed n drop n')
include hR

theorem Removed.recordMap_eq : n.recordMap drop = mapOf n.recs (keepCols n.cols drop) := by
  unfold Node.recordMap mapOf Node.recs
  rw [List.map_map]; rfl

theorem Removed.locationMap_eq : n.locationMap drop = mapOf n.locRecs (keepCols n.cols drop) := by
  unfold Node.locationMap mapOf Node.locRecs
  rw [List.map_map]; rfl

theorem Removed.recs_eq : n'.recs = keptOf n.recs (keepCols n.cols drop) := by
  unfold keptOf
  rw [← hR.recordMap_eq]
  unfold Node.recs
  rw [hR.index, List.filter_map, List.map_map, List.map_map]
  rfl

theorem Removed.locRecs_eq : n'.locRecs = keptOf n.locRecs (keepCols n.cols drop) := by
  unfold keptOf
  rw [← hR.locationMap_eq]
  unfold Node.locRecs
  rw [hR.locs, List.filter_map, List.map_map, List.map_map]
  rfl

theorem Removed.amounts : n'.weights.map ofWeight = mergeAmounts (mapOf n.recs (keepCols n.cols drop)) (n.weights.map ofWeight) := by
  rw [hR.weights, hR.recordMap_eq, List.map_map]
  exact (List.map_congr_left fun _ _ => rfl).trans (List.map_id _)

theorem Removed.amounts' : n'.quants.map ofQuant = mergeAmounts (mapOf n.locRecs (keepCols n.cols drop)) (n.quants.map ofQuant) := by
  rw [hR.quants, hR.locationMap_eq, List.map_map]
  exact (List.map_congr_left fun _ _ => rfl).trans (List.map_id _)

end

theorem Inv.recIds {n : Node} (hi : Inv n) : (n.recs.map (·.1)).Nodup := by
  unfold Node.recs; rw [List.map_map]; exact hi.ids

theorem Inv.locRecIds {n : Node} (hi : Inv n) : (n.locRecs.map (·.1)).Nodup := by
  unfold Node.locRecs; rw [List.map_map]; exact hi.locIds

theorem Inv.removed {n n' : Node} {drop : List PyStr} (hi : Inv n) (hR : Removed n drop n') : Inv n' := by
  have hrec := hR.recs_eq
  have hloc := hR.locRecs_eq
  have hgid : n'.weightings.map (·.id) = n.weightings.map (·.id) := by
    have := congrArg (List.map (·.1)) hR.groups
    simpa [List.map_map, Function.comp_def] using this
  have hgname : n'.weightings.map (·.name) = n.weightings.map (·.name) := by
    have := congrArg (List.map (·.2)) hR.groups
    simpa [List.map_map, Function.comp_def] using this
  have e1 : n'.index.map (·.id) = n'.recs.map (·.1) := by unfold Node.recs; rw [List.map_map]; rfl
  have e2 : n'.index.map (·.labels) = n'.recs.map (·.2) := by unfold Node.recs; rw [List.map_map]; rfl
  have e3 : n'.locs.map (·.id) = n'.locRecs.map (·.1) := by unfold Node.locRecs; rw [List.map_map]; rfl
  have e4 : n'.locs.map (·.labels) = n'.locRecs.map (·.2) := by unfold Node.locRecs; rw [List.map_map]; rfl
  constructor
  · rw [e1, hrec]; exact keptOf_ids _ hi.recIds
  · intro r hr
    rw [hR.index] at hr
    obtain ⟨x, hx, rfl⟩ := List.mem_map.1 hr
    rw [hR.seq]
    exact hi.seq x (List.mem_filter.1 hx).1
  · intro r hr
    rw [hR.index] at hr
    obtain ⟨x, hx, rfl⟩ := List.mem_map.1 hr
    rw [hR.cols]
    exact keepCols_length _ _ _ (hi.len x (List.mem_filter.1 hx).1)
  · rw [e2, hrec]; exact keptOf_labels _ hi.recIds
  · rw [e3, hloc]; exact keptOf_ids _ hi.locRecIds
  · intro r hr
    rw [hR.locs] at hr
    obtain ⟨x, hx, rfl⟩ := List.mem_map.1 hr
    rw [hR.cols]
    exact keepCols_length _ _ _ (hi.locLen x (List.mem_filter.1 hx).1)
  · rw [e4, hloc]; exact keptOf_labels _ hi.locRecIds
  · have hp : ((n.weights.map ofWeight).map fun r => (r.key, r.at_)).Nodup := by
      rw [List.map_map]; exact hi.pairs
    have := mergeAmounts_pairs (m := mapOf n.recs (keepCols n.cols drop)) hp
    rw [← hR.amounts, List.map_map] at this
    exact this
  · intro w hw
    have := refs_merge (keepCols n.cols drop) hi.recIds hi.weightRefsOk
    rw [← hR.amounts, ← hrec, ← hR.groups] at this
    obtain ⟨⟨l, hl⟩, g, hg⟩ := this _ (List.mem_map.2 ⟨w, hw, rfl⟩)
    obtain ⟨r, hr, er⟩ := List.mem_map.1 hl
    obtain ⟨x, hx, ex⟩ := List.mem_map.1 hg
    injection er with er _
    injection ex with ex _
    exact ⟨⟨r, hr, er⟩, x, hx, ex⟩
  · rw [hgid]; exact hi.groupIds
  · rw [hgname]; exact hi.groupNames
  · rw [hR.attrs]; exact hi.attrIds
  · rw [hR.attrs]; exact hi.attrs
  · intro w hw
    have := refs_merge (keepCols n.cols drop) hi.locRecIds hi.quantRefsOk
    rw [← hR.amounts', ← hloc, ← hR.attrs] at this
    obtain ⟨⟨l, hl⟩, g, hg⟩ := this _ (List.mem_map.2 ⟨w, hw, rfl⟩)
    obtain ⟨r, hr, er⟩ := List.mem_map.1 hl
    obtain ⟨x, hx, ex⟩ := List.mem_map.1 hg
    injection er with er _
    injection ex with ex _
    exact ⟨⟨r, hr, er⟩, x, hx, ex⟩

/-! ### Removals that preserve granularity -/

theorem preserving_nodup {n n' : Node} {drop : List PyStr} {ps : Bool} (hi : Inv n)
    (h : n.removeIndexColumns drop ps true = .ok n') : (n.index.map fun r => keepCols n.cols drop r.labels).Nodup := by
  unfold Node.removeIndexColumns at h
  split at h
  · rename_i hc
    have hc' : ∀ c ∈ n.cols, c ∉ drop := by simpa using hc
    have h1 : (n.index.map fun r => keepCols n.cols drop r.labels) = n.index.map (·.labels) :=
      List.map_congr_left fun r hr => keepCols_none hc' (hi.len r hr)
    rw [h1]; exact hi.labels
  · obtain ⟨cats, _, h⟩ := bind_ok h
    obtain ⟨_, h⟩ := ite_ok h
    obtain ⟨n1, h1, h⟩ := bind_ok h
    unfold Node.mergeRecords at h1
    by_cases hl : n.losesGranularity drop = true
    · rw [if_pos hl] at h1; cases h1
    · unfold Node.losesGranularity at hl
      simpa using hl

theorem lookup_map_snd {α : Type} (l : List (Nat × α)) (f : α → α) (i : Nat) :
    (l.map fun r => (r.1, f r.2)).lookup i = (l.lookup i).map f := by
  induction l with
  | nil => rfl
  | cons x l ih =>
    rw [List.map_cons, List.lookup_cons, List.lookup_cons]
    split
    · rfl
    · exact ih

theorem listing_map {κ : Type} (recs : List (Nat × List PyStr)) (groups : List (Nat × κ)) (rows : List Amount)
    (f : List PyStr → List PyStr) :
    listing (recs.map fun r => (r.1, f r.2)) groups rows = (listing recs groups rows).map fun x => (f x.1, x.2) := by
  unfold listing
  rw [List.map_filterMap]
  apply List.filterMap_congr
  intro a _
  rw [lookup_map_snd]
  cases recs.lookup a.at_ <;> cases groups.lookup a.key <;> rfl

theorem keptOf_nil {recs : List (Nat × List PyStr)} {f : List PyStr → List PyStr} (h : mapOf recs f = []) :
    keptOf recs f = recs.map fun r => (r.1, f r.2) := by
  unfold keptOf
  rw [h, filter_goes_nil]

/-! ### All histories -/

theorem exec_inv {op : Op} {n n' : Node} (hi : Inv n) (h : op.exec n = .ok n') : Inv n' := by
  cases op with
  | addIndexColumns names => exact addIndexColumns_inv hi h
  | removeIndexColumns names ps pg => exact hi.removed (Toron.Legacy.removed hi h)
  | renameIndexColumns f => exact renameIndexColumns_inv hi h
  | addIndexRecords hd rows => exact addIndexRecords_inv hi h
  | addWeights hd i rows name sel => exact addWeights_inv hi h
  | addPartitionDefinitions defs => exact (updateCategories_same h).inv hi
  | removePartitionDefinitions defs => exact (updateCategories_same h).inv hi
  | addQuantities rows => exact addQuantities_inv hi h

theorem step_inv {op : Op} {n : Node} (hi : Inv n) : Inv (n.step op) := by
  unfold Node.step
  split
  · rename_i h; exact exec_inv hi h
  · exact hi

theorem Reachable.inv {n : Node} (h : Reachable n) : Inv n := by
  obtain ⟨ops, rfl⟩ := h
  unfold Node.run
  suffices ∀ m : Node, Inv m → Inv (ops.foldl Node.step m) from this _ Inv.new
  induction ops with
  | nil => exact fun _ h => h
  | cons op ops ih => exact fun m h => ih _ (step_inv h)

end Toron.Legacy
