/-
Reading a dataspace: how each quantity is split.
-/
import Verif.Spec.Split
import Verif.Props.StoreRead
import Verif.Lemmas.Mapper
import Verif.Lemmas.Store.Gran

namespace Toron.Space

open Toron.Selectors (PyStr Sel CaseMap getGreatestUniqueSpecificity Specificity)
open Toron.Selectors.Spec
open Toron.Mapper (granKey granGe_iff structs_pos structsSorted_pairwise)
open Toron.Spec

/-- One quantity that was read. -/
structure ReadItem where
  loc : LocRec
  quant : Quant
  str : StructRec
  rows : List (Nat × Attrs × ℚ)

/-- A successful read handles each selected quantity once. -/
theorem call_items {s : Store} (hr : Reachable s) {cm : CaseMap} {sels : List Sel} {quantize : Bool}
    {rows : List (Nat × Attrs × ℚ)} (h : s.call cm sels quantize = .ok rows) :
    ∃ dflt first rest, s.getDefaultWG = .ok dflt ∧ dflt.complete = true ∧ s.structsSorted = first :: rest ∧
    ∃ items : List ReadItem, rows = items.flatMap (·.rows) ∧
      (∀ x ∈ items, x.str ∈ s.structs ∧ x.loc ∈ s.locs ∧ nonemptyBits x.loc.labels = x.str.bits ∧
        x.quant ∈ s.quants ∧ x.quant.loc = x.loc.id ∧
        s.disaggOne cm dflt.id (granEq x.str.gran first.gran) quantize x.loc x.quant = .ok x.rows) ∧
      (items.map (·.quant)).Nodup ∧
      ∀ q, q ∈ items.map (·.quant) ↔ q ∈ s.quants ∧ s.Counted q ∧ s.Selected cm sels q := by
  classical
  unfold Store.call at h
  simp only [bind, Except.bind] at h
  rcases hf : s.attributeFilter cm sels with e | f
  · rw [hf] at h; cases h
  rw [hf] at h
  simp only at h
  rcases hd : s.getDefaultWG with e | dflt
  · rw [hd] at h; cases h
  rw [hd] at h
  simp only at h
  unfold Store.disaggregate at h
  simp only [bind, Except.bind, hd] at h
  by_cases hc : (!dflt.complete) = true
  · rw [if_pos hc] at h; cases h
  rw [if_neg hc] at h
  rcases hst : s.structsSorted with _ | ⟨first, rest⟩
  · rw [hst] at h; cases h
  rw [hst] at h
  simp only at h
  have hq := hr.quantInv
  have hperm : (first :: rest).Perm s.structs := hst ▸ sortedBy_perm _ _
  have hread := readAll_perm hq (C53_once hr) f hperm
    (keep := fun q => s.Counted q ∧ ∀ ids, f = some ids → q.ag ∈ ids) fun _ _ => Iff.rfl
  obtain ⟨bs, hb1, hb2, hb3⟩ := flatMapE_ok h
  refine ⟨dflt, first, rest, rfl, by simpa using hc, rfl, ?_⟩
  have hshare : ∀ b ∈ bs, ∃ items : List ReadItem, b.2 = items.flatMap (·.rows) ∧
      (∀ x ∈ items, x.str ∈ s.structs ∧ x.loc ∈ s.locs ∧ nonemptyBits x.loc.labels = x.str.bits ∧
        x.quant ∈ s.quants ∧ x.quant.loc = x.loc.id ∧
        s.disaggOne cm dflt.id (granEq x.str.gran first.gran) quantize x.loc x.quant = .ok x.rows) ∧
      items.map (·.quant) = (s.readFor f b.1).map (·.2) := by
    intro b hb
    have hbs : b.1 ∈ s.structs := by
      apply hperm.mem_iff.1
      rw [← hb1]
      exact List.mem_map_of_mem hb
    obtain ⟨cs, hc1, hc2, hc3⟩ := flatMapE_ok (hb3 b hb)
    refine ⟨cs.map fun c => ⟨c.1.1, c.1.2, b.1, c.2⟩, ?_, ?_, ?_⟩
    · rw [hc2, List.flatMap_map]
    · intro x hx
      obtain ⟨c, hcm, rfl⟩ := List.mem_map.1 hx
      have hmem : c.1 ∈ s.readFor f b.1 := by
        have hc1' : cs.map (·.1) = s.readFor f b.1 := hc1
        rw [← hc1']
        exact List.mem_map_of_mem hcm
      obtain ⟨hl, hbits, hqm, hql⟩ := mem_quantsByBits.1 (List.mem_of_mem_filter hmem)
      exact ⟨hbs, hl, hbits, hqm, hql, hc3 c hcm⟩
    · have : (s.readFor f b.1) = cs.map (·.1) := hc1.symm
      rw [this, List.map_map, List.map_map]
      rfl
  have : ∃ items : List ReadItem, bs.flatMap (·.2) = items.flatMap (·.rows) ∧
      (∀ x ∈ items, x.str ∈ s.structs ∧ x.loc ∈ s.locs ∧ nonemptyBits x.loc.labels = x.str.bits ∧
        x.quant ∈ s.quants ∧ x.quant.loc = x.loc.id ∧
        s.disaggOne cm dflt.id (granEq x.str.gran first.gran) quantize x.loc x.quant = .ok x.rows) ∧
      items.map (·.quant) = (bs.map (·.1)).flatMap fun st => (s.readFor f st).map (·.2) := by
    clear hb1 hb2 hb3
    induction bs with
    | nil => exact ⟨[], rfl, by simp, rfl⟩
    | cons b bs ih =>
      obtain ⟨x, hx1, hx2, hx3⟩ := hshare b (by simp)
      obtain ⟨xs, hxs1, hxs2, hxs3⟩ := ih fun c hc => hshare c (by simp [hc])
      refine ⟨x ++ xs, ?_, ?_, ?_⟩
      · rw [List.flatMap_cons, List.flatMap_append, hx1, hxs1]
      · intro y hy
        rcases List.mem_append.1 hy with hy | hy
        · exact hx2 y hy
        · exact hxs2 y hy
      · rw [List.map_append, List.map_cons, List.flatMap_cons, hx3, hxs3]
  obtain ⟨items, h1, h2, h3⟩ := this
  rw [hb1, ← List.map_flatMap] at h3
  refine ⟨items, hb2.trans h1, h2, ?_, fun q => ?_⟩
  · rw [h3, hread.nodup_iff]
    exact hq.ids.of_map.filter _
  · rw [h3, hread.mem_iff, List.mem_filter, decide_eq_true_eq, attributeFilter_ok hq.agIds hf]

/-! ### The group that applies -/

theorem mem_selectorDict {s : Store} {k : Nat} {x : List Sel} :
    (k, some x) ∈ s.selectorDict ↔ ∃ g ∈ s.wgroups, g.complete = true ∧ x ≠ [] ∧ g.id = k ∧ g.selectors = x := by
  unfold Store.selectorDict
  simp only [List.mem_map, List.mem_filter, Bool.and_eq_true, Bool.not_eq_true', List.isEmpty_eq_false_iff]
  constructor
  · rintro ⟨g, ⟨hg, hc, hne⟩, he⟩
    cases he
    exact ⟨g, hg, hc, hne, rfl, rfl⟩
  · rintro ⟨g, hg, hc, hne, rfl, rfl⟩
    exact ⟨g, ⟨hg, hc, hne⟩, rfl⟩

theorem level_ne_nil {cm : CaseMap} {a : Attrs} {x : List Sel} {sp : Specificity} (h : Level cm a x sp) : x ≠ [] := by
  rintro rfl
  obtain ⟨⟨_, h, _⟩, _⟩ := h
  cases h

theorem uniqueAt_iff {s : Store} (hw : WeightInv s) {cm : CaseMap} {a : Attrs} {k : Nat} {sp : Specificity} :
    UniqueAt cm a s.selectorDict k sp ↔ ∃ g, g.id = k ∧ s.AloneAt cm a g sp := by
  have inj : ∀ g ∈ s.wgroups, ∀ g' ∈ s.wgroups, g.id = g'.id → g = g' := fun g hg g' hg' he =>
    List.inj_on_of_nodup_map hw.gids hg hg' he
  constructor
  · rintro ⟨⟨x, hx, hl⟩, hu⟩
    obtain ⟨g, hg, hc, hne, rfl, rfl⟩ := mem_selectorDict.1 hx
    refine ⟨g, rfl, ⟨hg, hc, hl⟩, ?_⟩
    rintro g' ⟨hg', hc', hl'⟩
    exact inj _ hg' _ hg (hu g'.id g'.selectors (mem_selectorDict.2 ⟨g', hg', hc', level_ne_nil hl', rfl, rfl⟩) hl')
  · rintro ⟨g, rfl, ⟨hg, hc, hl⟩, hu⟩
    refine ⟨⟨g.selectors, mem_selectorDict.2 ⟨g, hg, hc, level_ne_nil hl, rfl, rfl⟩, hl⟩, ?_⟩
    intro k' x' hx' hl'
    obtain ⟨g', hg', hc', _, rfl, rfl⟩ := mem_selectorDict.1 hx'
    rw [hu g' ⟨hg', hc', hl'⟩]

theorem getDefaultWG_ok {s : Store} {g : WGroup} (h : s.getDefaultWG = .ok g) :
    g ∈ s.wgroups ∧ s.defaultWG = some (some g.id) := by
  unfold Store.getDefaultWG at h
  rcases hd : s.defaultWG with _ | _ | i
  · rw [hd] at h; cases h
  · rw [hd] at h; cases h
  rw [hd] at h
  simp only at h
  rcases hf : s.wgroups.find? (fun g => g.id == i) with _ | g'
  · rw [hf] at h; cases h
  rw [hf] at h
  cases h
  have := List.find?_some hf
  exact ⟨List.mem_of_find?_eq_some hf, by simp at this; rw [this]⟩

/-- The lookup finds the group that applies. -/
theorem applies_of {s : Store} (hw : WeightInv s) {cm : CaseMap} {a : Attrs} {dflt : WGroup}
    (hwf : ∀ g ∈ s.wgroups, ∀ x ∈ g.selectors, x.WF) (hd : s.getDefaultWG = .ok dflt) :
    ∃ g, g ∈ s.wgroups ∧ getGreatestUniqueSpecificity cm a s.selectorDict dflt.id = .ok g.id ∧ s.Applies cm a g := by
  have hkeys : (s.selectorDict.map (·.1)).Nodup := by
    unfold Store.selectorDict
    rw [List.map_map]
    exact nodup_filter_map _ hw.gids
  obtain ⟨hdm, hdd⟩ := getDefaultWG_ok hd
  obtain ⟨res, h1, h2⟩ := Selectors.C04_greatest_unique cm a s.selectorDict dflt.id hkeys (by
    intro k x hk y hy
    obtain ⟨g, hg, _, _, _, rfl⟩ := mem_selectorDict.1 hk
    exact hwf g hg y hy)
  rcases h2 with ⟨sp, hu, hmax⟩ | ⟨hno, rfl⟩
  · obtain ⟨g, rfl, hal⟩ := (uniqueAt_iff hw).1 hu
    refine ⟨g, hal.1.1, h1, .inl ⟨sp, hal, fun g' sp' h' => hmax g'.id sp' ((uniqueAt_iff hw).2 ⟨g', rfl, h'⟩)⟩⟩
  · exact ⟨dflt, hdm, h1, .inr ⟨fun g' sp h' => hno g'.id sp ((uniqueAt_iff hw).2 ⟨g', rfl, h'⟩), hdm, hdd⟩⟩

/-! ### Weights -/

theorem weightIn_eq {s : Store} (hw : WeightInv s) (g : WGroup) (i : Nat) :
    s.weightIn g i = (s.weightOf g.id i).getD 0 := by
  unfold Store.weightIn Store.weightOf Store.findWeight
  have h2 := hw.pairs
  generalize s.weights = l at h2
  induction l with
  | nil => rfl
  | cons w ws ih =>
    rw [List.map_cons, List.nodup_cons] at h2
    by_cases h : w.group = g.id ∧ w.index = i
    · have hnil : ws.filter (fun w => decide (w.group = g.id ∧ w.index = i)) = [] := by
        rw [List.filter_eq_nil_iff]
        intro x hx hp
        rw [decide_eq_true_iff] at hp
        apply h2.1
        rw [List.mem_map]
        exact ⟨x, hx, by rw [hp.1, hp.2, h.1, h.2]⟩
      rw [List.filter_cons_of_pos (by simpa using h), hnil, List.find?_cons_of_pos (by simpa using h)]
      simp
    · rw [List.filter_cons_of_neg (by simpa using h), List.find?_cons_of_neg (by simpa using h), ih h2.2]

theorem weightOf_zero {s : Store} (hw : WeightInv s) (g : Nat) : s.weightOf g 0 = none := by
  unfold Store.weightOf Store.findWeight
  rw [Option.map_eq_none_iff, List.find?_eq_none]
  intro w hwm h
  simp only [Bool.and_eq_true, beq_iff_eq] at h
  exact hw.defined w hwm h.2

/-! ### One quantity -/

theorem disaggOne_cases {s : Store} {cm : CaseMap} {dflt : Nat} {finest quantize : Bool} {l : LocRec} {q : Quant}
    {out : List (Nat × Attrs × ℚ)} (h : s.disaggOne cm dflt finest quantize l q = .ok out) :
    ∃ i is a, s.matchingIds l.labels = i :: is ∧ s.getAttrs q.ag = .ok a ∧
      ((finest = true ∧ out = [(i, s.withDomain a, q.value)]) ∨
        (finest = false ∧ ∃ group parts parts',
          getGreatestUniqueSpecificity cm (s.withDomain a) s.selectorDict dflt = .ok group ∧
          disaggregateValue q.value (i :: is) (s.weightOf group) = .ok parts ∧
          (if quantize then quantizeValues parts q.value else .ok parts) = .ok parts' ∧
          out = parts'.map fun p => (p.1, s.withDomain a, p.2))) := by
  unfold Store.disaggOne at h
  rcases hids : s.matchingIds l.labels with _ | ⟨i, is⟩
  · rw [hids] at h
    cases h
  rw [hids] at h
  simp only [bind, Except.bind] at h
  rcases ha : s.getAttrs q.ag with e | attrs
  · rw [ha] at h
    cases h
  rw [ha] at h
  simp only at h
  refine ⟨i, is, attrs, rfl, rfl, ?_⟩
  by_cases hfin : finest = true
  · rw [if_pos hfin] at h
    cases h
    exact .inl ⟨hfin, rfl⟩
  · rw [if_neg hfin] at h
    refine .inr ⟨by simpa using hfin, ?_⟩
    rcases hg : getGreatestUniqueSpecificity cm (s.withDomain attrs) s.selectorDict dflt with e | group
    · rw [hg] at h
      cases h
    rw [hg] at h
    simp only at h
    rcases hd : disaggregateValue q.value (i :: is) (s.weightOf group) with e | parts
    · rw [hd] at h
      cases h
    rw [hd] at h
    simp only at h
    refine ⟨group, parts, ?_⟩
    by_cases hq : quantize = true
    · rw [if_pos hq] at h ⊢
      rcases hz : quantizeValues parts q.value with e | out'
      · rw [hz] at h
        cases h
      rw [hz] at h
      cases h
      exact ⟨out', rfl, hd, rfl, rfl⟩
    · rw [if_neg hq] at h ⊢
      cases h
      exact ⟨parts, rfl, hd, rfl, rfl⟩

theorem sum_pos_of_mem {l : List Nat} {w : Nat → ℚ} (hw : ∀ i, 0 ≤ w i) {i : Nat} (hi : i ∈ l) (h : w i ≠ 0) :
    (l.map w).sum ≠ 0 := by
  induction l with
  | nil => cases hi
  | cons x xs ih =>
    have hxs : 0 ≤ (xs.map w).sum := List.sum_nonneg (by
      intro y hy
      obtain ⟨z, _, rfl⟩ := List.mem_map.1 hy
      exact hw z)
    rw [List.map_cons, List.sum_cons]
    rcases List.mem_cons.1 hi with rfl | hi
    · have := hw i
      have : 0 < w i := lt_of_le_of_ne this (Ne.symm h)
      linarith
    · have h1 := ih hi
      have h2 := hw x
      have : 0 < (xs.map w).sum := lt_of_le_of_ne hxs (Ne.symm h1)
      linarith

/-- The exact split is what the specification asks for. -/
theorem splitBy_of {s : Store} (hr : Reachable s) {g : WGroup} {l : LocRec} {q : Quant} {a : Attrs}
    {parts : List (Nat × ℚ)} (hl : l ∈ s.locs) (hql : q.loc = l.id) (hne : s.matchingIds l.labels ≠ [])
    (h : disaggregateValue q.value (s.matchingIds l.labels) (s.weightOf g.id) = .ok parts) :
    s.SplitBy g ⟨q, a, parts⟩ := by
  have hw := hr.weightInv
  have hnd := matchingIds_nodup hr.indexInv l.labels
  obtain ⟨hfair, hids⟩ := disagg_fair hne hnd h
  have hsum : (parts.map fun p' => s.weightIn g p'.1) =
      (s.matchingIds l.labels).map fun i => (s.weightOf g.id i).getD 0 := by
    rw [← hids, List.map_map]
    apply List.map_congr_left
    intro p _
    exact weightIn_eq hw g p.1
  have hmem : ∀ p ∈ parts, p.1 ∈ s.matchingIds l.labels := fun p hp => hids ▸ List.mem_map_of_mem hp
  have hnn : ∀ i, 0 ≤ (s.weightOf g.id i).getD 0 := by
    intro i
    rcases hwi : s.weightOf g.id i with _ | w
    · exact le_refl _
    · exact weightOf_nonneg hw hwi
  refine ⟨hfair.once, ⟨l, hl, hql.symm, fun i => ?_⟩, hfair.sum, ?_, ?_, ?_⟩
  · show i ∈ parts.map (·.1) ↔ _
    rw [hids]
    exact mem_matchingIds hr.indexInv hr.colInv (hr.quantInv.locLens _ hl)
  · rintro ⟨p, hp, hp0⟩ p' hp'
    show p'.2 = q.value * s.weightIn g p'.1 / (parts.map fun p' => s.weightIn g p'.1).sum
    rw [weightIn_eq hw] at hp0
    have h0 := sum_pos_of_mem hnn (hmem p hp) hp0
    rw [hsum, weightIn_eq hw, eq_div_iff h0]
    exact C13_split_proportional q.value _ _ parts h h0 p'.1 p'.2 hp'
  · intro hz p hp p' hp' h0 h0'
    refine C13_split_even q.value _ _ parts h ?_ p.1 p.2 p'.1 p'.2 h0 h0' hp hp'
    intro i hi
    rw [← hids] at hi
    obtain ⟨p, hp, rfl⟩ := List.mem_map.1 hi
    rw [← weightIn_eq hw]
    exact hz p hp
  · rintro ⟨p, hp, hp0⟩ x hx
    exact C13_undefined_gets_nothing q.value _ _ parts h (weightOf_zero hw _) ⟨p.1, hmem p hp, hp0⟩ x hx

/-- Giving the whole quantity to the only matching record is a split. -/
theorem splitBy_one {s : Store} (hr : Reachable s) {g : WGroup} {l : LocRec} {q : Quant} {a : Attrs} {i : Nat}
    (hl : l ∈ s.locs) (hql : q.loc = l.id) (hone : s.matchingIds l.labels = [i]) :
    s.SplitBy g ⟨q, a, [(i, q.value)]⟩ := by
  refine ⟨by simp, ⟨l, hl, hql.symm, fun j => ?_⟩, by simp, ?_, ?_, ?_⟩
  · show j ∈ [i] ↔ _
    rw [← hone]
    exact mem_matchingIds hr.indexInv hr.colInv (hr.quantInv.locLens _ hl)
  · rintro ⟨p, hp, h0⟩ p' hp'
    simp only [List.mem_singleton] at hp hp'
    subst hp hp'
    simp only [List.map_cons, List.map_nil, List.sum_cons, List.sum_nil, add_zero] at h0 ⊢
    rw [mul_div_assoc, div_self h0, mul_one]
  · intro _ p hp p' hp' _ _
    simp only [List.mem_singleton] at hp hp'
    rw [hp, hp']
  · rintro ⟨p, hp, h0⟩ x hx
    simp only [List.mem_singleton] at hp hx
    subst hp
    cases hx
    exact absurd rfl h0

theorem fracPart_eq_zero_iff {q : ℚ} : fracPart q = 0 ↔ q.den = 1 := by
  unfold fracPart
  constructor
  · intro h
    have : q = (wholePart q : ℚ) := by linarith
    rw [this]
    exact Rat.den_intCast _
  · intro h
    have hq : q = (q.num : ℚ) := ((Rat.den_eq_one_iff q).1 h).symm
    rw [hq]
    unfold wholePart
    simp

theorem rounded_of {q : Quant} {a : Attrs} {parts out : List (Nat × ℚ)} {ids : List Nat} {weight : Nat → Option ℚ}
    (h : disaggregateValue q.value ids weight = .ok parts) (hw : ∀ i w, weight i = some w → 0 ≤ w)
    (hsum : (parts.map (·.2)).sum = q.value) (hz : quantizeValues parts q.value = .ok out) :
    Share.RoundedFrom ⟨q, a, out⟩ ⟨q, a, parts⟩ := by
  obtain ⟨sg, hsg, hsign⟩ := disagg_sign h hw
  obtain ⟨out', ho, h1, h2, h3, h4⟩ := C11_quantize_preserves_total_partial parts sg hsg hsign
  have ht : total parts = q.value := hsum
  rw [ht] at ho h1 h4
  rw [hz] at ho
  cases ho
  refine ⟨rfl, rfl, h2, h1, ?_, ?_⟩
  · simp only [ne_eq, fracPart_eq_zero_iff] at h3
    exact h3
  · simp only [fracPart_eq_zero_iff] at h4
    exact h4

theorem rounded_self_one {q : Quant} {a : Attrs} {i : Nat} :
    Share.RoundedFrom ⟨q, a, [(i, q.value)]⟩ ⟨q, a, [(i, q.value)]⟩ := by
  refine ⟨rfl, rfl, ⟨_, List.Perm.refl _, by simp⟩, by simp, ?_, ?_⟩
  · exact List.length_filter_le _ _
  · intro h p hp
    simp only [List.mem_singleton] at hp
    rw [hp]
    exact h

/-! ### The finest combination -/

theorem filter_zip_eq {cols : List PyStr} {d : Finset PyStr} {x y : List PyStr} (hx : x.length = cols.length)
    (hy : y.length = cols.length) (h : ∀ i (h1 : i < x.length) (h2 : i < y.length) (h3 : i < cols.length),
      cols[i] ∈ d → x[i] = y[i]) :
    (cols.zip x).filter (fun cl => cl.1 ∈ d) = (cols.zip y).filter (fun cl => cl.1 ∈ d) := by
  induction cols generalizing x y with
  | nil => rfl
  | cons c cs ih =>
    rcases x with _ | ⟨a, x⟩
    · simp at hx
    rcases y with _ | ⟨b, y⟩
    · simp at hy
    have ih' := ih (x := x) (y := y) (by simpa using hx) (by simpa using hy) (by
      intro i h1 h2 h3 hd
      have := h (i + 1) (by simpa using h1) (by simpa using h2) (by simpa using h3)
      simpa using this (by simpa using hd))
    rw [List.zip_cons_cons, List.zip_cons_cons, List.filter_cons, List.filter_cons, ih']
    by_cases hc : c ∈ d
    · have := h 0 (by simp) (by simp) (by simp) (by simpa using hc)
      simp only [List.getElem_cons_zero] at this
      simp [hc, this]
    · simp [hc]

theorem mem_defOf {cols : List PyStr} (hc : cols.Nodup) {bits : List Bool} {i : Nat} (h1 : i < cols.length)
    (h : cols[i] ∈ defOf cols bits) : ∃ h2 : i < bits.length, bits[i] = true := by
  unfold defOf at h
  rw [List.mem_toFinset, List.mem_map] at h
  obtain ⟨⟨c, b⟩, hp, he⟩ := h
  obtain ⟨hp, hb⟩ := List.mem_filter.1 hp
  obtain ⟨j, hj, hje⟩ := List.getElem_of_mem hp
  rw [List.getElem_zip] at hje
  have hj1 : j < cols.length := by rw [List.length_zip] at hj; omega
  have hj2 : j < bits.length := by rw [List.length_zip] at hj; omega
  cases hje
  have : j = i := (List.Nodup.getElem_inj_iff hc).1 he
  subst this
  exact ⟨hj2, hb⟩

/-- Two records that match the same location have the same labels in its columns. -/
theorem same_labels {s : Store} (hi : IndexInv s) (hc : s.cols.Nodup) {loc : List PyStr} (r r' : IndexRec)
    (hr : r ∈ s.index) (hr' : r' ∈ s.index) (hm : labelsMatch loc r.labels) (hm' : labelsMatch loc r'.labels) :
    ((s.cols.zip r.labels).filter fun cl => cl.1 ∈ defOf s.cols (nonemptyBits loc)).map (·.2) =
    ((s.cols.zip r'.labels).filter fun cl => cl.1 ∈ defOf s.cols (nonemptyBits loc)).map (·.2) := by
  rw [filter_zip_eq (hi.lens r hr) (hi.lens r' hr')]
  intro i h1 h2 h3 hd
  obtain ⟨h4, hb⟩ := mem_defOf hc h3 hd
  unfold nonemptyBits at h4 hb
  rw [List.length_map] at h4
  rw [List.getElem_map] at hb
  have hne : loc[i] ≠ [] := by simpa using hb
  have e1 := (List.forall₂_iff_get.1 hm).2 i h4 h1
  have e2 := (List.forall₂_iff_get.1 hm').2 i h4 h2
  rw [List.get_eq_getElem, List.get_eq_getElem] at e1 e2
  rw [e1.resolve_left hne, e2.resolve_left hne]

theorem granKey_eq {g : Option Gran} : granKey g = match g.map Gran.value with
    | none => ⊥
    | some x => (x : WithBot ℝ) := by
  cases g <;> rfl

theorem granKey_of_granPy (s : Store) (d : Finset PyStr) (hd : d ≠ ∅) (hne : s.labelsIn d ≠ []) :
    granKey (s.granPy d) = (granularity (s.labelsIn d) : ℝ) := by
  rw [granKey_eq]
  unfold Store.granPy
  rw [C48_value, if_neg]
  · rfl
  · simp only [decide_eq_true_eq, not_or]
    exact ⟨hd, hne⟩

theorem granEq_key {a b : Option Gran} (ha : PosGran a) (hb : PosGran b) (h : granEq a b = true) :
    granKey a = granKey b := by
  rcases a with _ | a <;> rcases b with _ | b
  · rfl
  · cases h
  · cases h
  · unfold granEq at h
    rw [Bool.and_eq_true] at h
    exact le_antisymm ((granGe_iff hb ha).1 h.1) ((granGe_iff ha hb).1 h.2)

theorem labelsIn_whole {s : Store} (hi : IndexInv s) :
    s.labelsIn s.whole = (s.index.filter fun r => r.id != 0).map (·.labels) := by
  unfold Store.labelsIn
  apply List.map_congr_left
  intro r hr
  have hlen := hi.lens r (List.mem_of_mem_filter hr)
  have : (s.cols.zip r.labels).filter (fun cl => cl.1 ∈ s.whole) = s.cols.zip r.labels := by
    rw [List.filter_eq_self]
    rintro ⟨c, x⟩ hm
    have := (List.of_mem_zip hm).1
    simpa [Store.whole] using this
  rw [this, List.map_snd_zip (by omega)]

/-- At the greatest granularity no two records agree. -/
theorem finest_nodup {s : Store} (hr : ReachableFresh s) {st first : StructRec} {rest : List StructRec}
    (hst : st ∈ s.structs) (hs : s.structsSorted = first :: rest) (heq : granEq st.gran first.gran = true)
    (hrec : ∃ r ∈ s.index, r.id ≠ 0) :
    (s.labelsIn (defOf s.cols st.bits)).Nodup ∧ defOf s.cols st.bits ≠ ∅ := by
  have hreach := hr.keeping.reachable
  obtain ⟨hsi, hdo⟩ := hr.keeping.parts
  have hg := hr.gran
  have hne : s.cols ≠ [] := by
    intro hc
    rw [(hsi.empty hc).1] at hst
    cases hst
  have hpos := structs_pos hreach
  have hperm : s.structsSorted.Perm s.structs := sortedBy_perm _ _
  have hfirst : first ∈ s.structs := hperm.mem_iff.1 (by simp [hs])
  -- the whole is valid
  obtain ⟨w, hw, hwb⟩ := List.mem_map.1 ((hsi.rows hne (bitsOf s.cols s.whole)).2 ⟨s.whole, hdo.gen hne, rfl⟩)
  have hwg : w.gran = s.granPy s.whole := by
    rw [hg w hw, hwb, defOf_bitsOf (by exact subset_refl _)]
  have hwhole : s.whole ≠ ∅ := by
    obtain ⟨c, cs, hcs⟩ := List.exists_cons_of_ne_nil hne
    unfold Store.whole
    rw [hcs]
    simp
  have hlen : ∀ d, (s.labelsIn d).length = (s.index.filter fun r => r.id != 0).length := by
    intro d
    unfold Store.labelsIn
    rw [List.length_map]
  have hnn : ∀ d, s.labelsIn d ≠ [] := by
    intro d hd
    obtain ⟨r, hrm, h0⟩ := hrec
    have : r ∈ s.index.filter fun r => r.id != 0 := List.mem_filter.2 ⟨hrm, by simpa using h0⟩
    have h1 := hlen d
    rw [hd] at h1
    have := List.length_pos_of_mem this
    simp at h1
    omega
  have hmax : granKey w.gran ≤ granKey st.gran := by
    rw [granEq_key (hpos _ hst) (hpos _ hfirst) heq]
    rcases List.mem_cons.1 (hs ▸ hperm.mem_iff.2 hw : w ∈ first :: rest) with rfl | hw'
    · exact le_refl _
    · have hp := structsSorted_pairwise hreach
      rw [hs, List.pairwise_cons] at hp
      exact (granGe_iff (hpos _ hfirst) (hpos _ hw)).1 (hp.1 w hw')
  rw [hwg, granKey_of_granPy s _ hwhole (hnn _), hg st hst] at hmax
  have hd0 : defOf s.cols st.bits ≠ ∅ := by
    intro h0
    rw [h0] at hmax
    have : granKey (s.granPy ∅) = ⊥ := by
      unfold Store.granPy calculateGranularity
      rw [if_pos (by simp)]
      rfl
    rw [this] at hmax
    simp at hmax
  rw [granKey_of_granPy s _ hd0 (hnn _), WithBot.coe_le_coe] at hmax
  have hwn : (s.labelsIn s.whole).Nodup := by
    rw [labelsIn_whole hreach.indexInv]
    exact nodup_filter_map _ hreach.indexInv.labels
  rw [(C48_maximal_iff _ (hnn _)).2 hwn, hlen, ← hlen (defOf s.cols st.bits)] at hmax
  exact ⟨(C48_maximal_iff _ (hnn _)).1 (le_antisymm (C48_le_log _ (hnn _)) hmax), hd0⟩

/-- At the greatest granularity a location matches one record. -/
theorem finest_one {s : Store} (hr : ReachableFresh s) {st first : StructRec} {rest : List StructRec}
    (hst : st ∈ s.structs) (hs : s.structsSorted = first :: rest) (heq : granEq st.gran first.gran = true)
    (hdash : ∀ r ∈ s.index, r.id ≠ 0 → ['-'] ∉ r.labels) {l : LocRec} (hl : l ∈ s.locs)
    (hb : nonemptyBits l.labels = st.bits) {i : Nat} {is : List Nat} (hm : s.matchingIds l.labels = i :: is) :
    s.matchingIds l.labels = [i] := by
  have hreach := hr.keeping.reachable
  have hi := hreach.indexInv
  have hnd := matchingIds_nodup hi l.labels
  have hrec : ∀ j ∈ s.matchingIds l.labels, ∃ r ∈ s.index, r.id = j ∧ labelsMatch l.labels r.labels := fun j hj =>
    (mem_matchingIds hi hreach.colInv (hreach.quantInv.locLens _ hl)).1 hj
  have hcols : s.cols.Nodup := hreach.colInv.cols.of_map
  -- any two are the same
  have key : ∀ j ∈ s.matchingIds l.labels, ∀ k ∈ s.matchingIds l.labels, j ≠ 0 → j = k := by
    intro j hj k hk h0
    obtain ⟨r, hrm, rfl, hmr⟩ := hrec j hj
    obtain ⟨hnod, hd0⟩ := finest_nodup hr hst hs heq ⟨r, hrm, h0⟩
    obtain ⟨r', hrm', rfl, hmr'⟩ := hrec k hk
    have hsame := same_labels hi hcols r r' hrm hrm' hmr hmr'
    rw [hb] at hsame
    by_cases h0' : r'.id = 0
    · exfalso
      have hu : r' = s.undefinedRecord := List.inj_on_of_nodup_map hi.idsNodup hrm' hi.undef h0'
      rw [hu] at hmr'
      obtain ⟨c, hc⟩ := Finset.nonempty_iff_ne_empty.2 hd0
      have hcm : c ∈ s.cols := by
        unfold defOf at hc
        rw [List.mem_toFinset, List.mem_map] at hc
        obtain ⟨p, hp, rfl⟩ := hc
        exact (List.of_mem_zip (List.mem_of_mem_filter hp)).1
      obtain ⟨n, hn, rfl⟩ := List.getElem_of_mem hcm
      rw [← hb] at hc
      obtain ⟨h4, hbt⟩ := mem_defOf hcols hn hc
      unfold nonemptyBits at h4 hbt
      rw [List.length_map] at h4
      rw [List.getElem_map] at hbt
      have hne : l.labels[n] ≠ [] := by simpa using hbt
      have hlr : n < r.labels.length := by rw [hi.lens r hrm]; exact hn
      have hlu : n < s.undefinedRecord.labels.length := by rw [hi.lens _ hi.undef]; exact hn
      have e1 := (List.forall₂_iff_get.1 hmr).2 n h4 hlr
      have e2 := (List.forall₂_iff_get.1 hmr').2 n h4 hlu
      rw [List.get_eq_getElem, List.get_eq_getElem] at e1 e2
      apply hdash r hrm h0
      have e3 := (e1.resolve_left hne).trans (e2.resolve_left hne).symm
      have hud : s.undefinedRecord.labels[n] = ['-'] := by
        have : ∀ x ∈ s.undefinedRecord.labels, x = ['-'] := by
          intro x hx
          unfold Store.undefinedRecord at hx
          exact (List.mem_replicate.1 hx).2
        exact this _ (List.getElem_mem _)
      rw [hud] at e3
      rw [← e3]
      exact List.getElem_mem _
    · unfold Store.labelsIn at hnod
      have := List.inj_on_of_nodup_map hnod (x := r) (y := r') (List.mem_filter.2 ⟨hrm, by simpa using h0⟩)
        (List.mem_filter.2 ⟨hrm', by simpa using h0'⟩) hsame
      rw [this]
  rw [hm] at key hnd ⊢
  rcases is with _ | ⟨k, ks⟩
  · rfl
  · exfalso
    have hik : i ≠ k := by
      rintro rfl
      simp at hnd
    by_cases h : i = 0
    · exact hik (key k (by simp) i (by simp) (by rintro rfl; exact hik h)).symm
    · exact hik (key i (by simp) k (by simp) h)

end Toron.Space
