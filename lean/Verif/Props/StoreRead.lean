/-
C14: reading a dataspace returns every stored quantity once in total.
-/
import Verif.Lemmas.Store.Read
import Verif.Props.StorePartitions
import Verif.Props.StoreComplete
import Verif.Props.Selectors

namespace Toron.Space

open Toron.Selectors (PyStr Sel CaseMap getGreatestUniqueSpecificity asciiCase)
open Toron.Spec

theorem mem_withDomain (s : Store) (a : Attrs) (k v : PyStr) : (k, v) ∈ s.withDomain a ↔
    if s.domain.getD [] = [] then (k, v) ∈ a
    else if k = "domain".toList then v = s.domain.getD [] else (k, v) ∈ a := by
  unfold Store.withDomain Store.getDomain
  by_cases hd : s.domain.getD [] = []
  · rw [if_pos hd, if_pos hd]
  · rw [if_neg hd, if_neg hd, List.mem_append, List.mem_filter, List.mem_singleton]
    by_cases hk : k = "domain".toList
    · rw [if_pos hk, hk]
      simp
    · rw [if_neg hk]
      constructor
      · rintro (h | h)
        · exact h.1
        · exact absurd (congrArg Prod.fst h) hk
      · exact fun h => .inl ⟨h, by simpa using hk⟩

theorem getAttrs_ok {s : Store} {ag : Nat} {a : Attrs} (h : s.getAttrs ag = .ok a) :
    ∃ g ∈ s.agroups, g.id = ag ∧ g.attrs = a := by
  unfold Store.getAttrs at h
  rcases hf : s.agroups.find? (fun g => g.id == ag) with _ | g
  · rw [hf] at h; cases h
  · rw [hf] at h
    cases h
    exact ⟨g, List.mem_of_find?_eq_some hf, by simpa using List.find?_some hf, rfl⟩

theorem attributeFilter_ok {s : Store} {cm : CaseMap} {sels : List Sel} {f : Option (List Nat)}
    (hag : (s.agroups.map (·.id)).Nodup) (h : s.attributeFilter cm sels = .ok f) (q : Quant) :
    (∀ ids, f = some ids → q.ag ∈ ids) ↔ s.Selected cm sels q := by
  unfold Store.attributeFilter at h
  unfold Store.Selected
  by_cases hs : sels = []
  · rw [if_pos hs] at h
    cases h
    simp [hs]
  · rw [if_neg hs] at h
    simp only [bind, Except.bind] at h
    split at h
    · cases h
    · rename_i ids hids
      cases h
      obtain ⟨bs, h1, h2, h3⟩ := flatMapE_ok hids
      simp only [Option.some.injEq, forall_eq', hs, false_or]
      rw [h2, List.mem_flatMap]
      have key : ∀ b ∈ bs, ∀ i, i ∈ b.2 ↔ i = b.1.id ∧ Sel.evalAny cm b.1.attrs sels = .ok true := by
        intro b hb i
        have := h3 b hb
        rcases he : Sel.evalAny cm b.1.attrs sels with e | t
        · rw [he] at this; cases this
        · rw [he] at this
          simp only at this
          cases t
          · have hb2 : b.2 = [] := by simpa using this.symm
            simp [hb2]
          · have hb2 : b.2 = [b.1.id] := by simpa using this.symm
            simp [hb2]
      constructor
      · rintro ⟨b, hb, hq⟩
        obtain ⟨he, ht⟩ := (key b hb _).1 hq
        exact ⟨b.1, h1 ▸ List.mem_map_of_mem hb, he.symm, ht⟩
      · rintro ⟨g, hg, he, ht⟩
        rw [← h1] at hg
        obtain ⟨b, hb, rfl⟩ := List.mem_map.1 hg
        exact ⟨b, hb, (key b hb _).2 ⟨he.symm, ht⟩⟩

/-- A successful read consists of one share for every stored quantity that is in a valid combination and is
selected, and each share is a fair account of its quantity. Rounding to whole numbers makes no difference. -/
theorem C14_read {s : Store} (hr : Reachable s) {cm : CaseMap} {sels : List Sel} {quantize : Bool}
    {rows : List (Nat × Attrs × ℚ)} (h : s.call cm sels quantize = .ok rows) :
    ∃ shares : List Share, rows = shares.flatMap Share.rows ∧ (∀ b ∈ shares, s.Accounts b) ∧
      (shares.map (·.quant)).Nodup ∧
      ∀ q, q ∈ shares.map (·.quant) ↔ q ∈ s.quants ∧ s.Counted q ∧ s.Selected cm sels q := by
  classical
  unfold Store.call at h
  simp only [bind, Except.bind] at h
  rcases hf : s.attributeFilter cm sels with e | f
  · rw [hf] at h; cases h
  rw [hf] at h
  simp only at h
  rcases hd : s.getDefaultWG with e | dflt
  · rw [hd] at h; cases h
  rw [hd] at h
  simp only at h
  unfold Store.disaggregate at h
  simp only [bind, Except.bind, hd] at h
  by_cases hc : (!dflt.complete) = true
  · rw [if_pos hc] at h; cases h
  rw [if_neg hc] at h
  rcases hst : s.structsSorted with _ | ⟨first, rest⟩
  · rw [hst] at h; cases h
  rw [hst] at h
  simp only at h
  have hq := hr.quantInv
  have hperm : (first :: rest).Perm s.structs := hst ▸ sortedBy_perm _ _
  have hread := readAll_perm hq (C53_once hr) f hperm
    (keep := fun q => s.Counted q ∧ ∀ ids, f = some ids → q.ag ∈ ids) fun _ _ => Iff.rfl
  obtain ⟨bs, hb1, hb2, hb3⟩ := flatMapE_ok h
  -- one share for every quantity of every structure
  have hshare : ∀ b ∈ bs, ∃ shares : List Share, b.2 = shares.flatMap Share.rows ∧
      (∀ x ∈ shares, s.Accounts x) ∧ shares.map (·.quant) = (s.readFor f b.1).map (·.2) := by
    intro b hb
    obtain ⟨cs, hc1, hc2, hc3⟩ := flatMapE_ok (hb3 b hb)
    have hone : ∀ c ∈ cs, ∃ x : Share, c.2 = x.rows ∧ s.Accounts x ∧ x.quant = c.1.2 := by
      intro c hcm
      obtain ⟨attrs, parts, ha, hout, hfair, hwithin⟩ := disaggOne_ok hr.indexInv hr.weightInv (hc3 c hcm)
      have hmem : c.1 ∈ s.readFor f b.1 := by
        have hc1' : cs.map (·.1) = s.readFor f b.1 := hc1
        rw [← hc1']
        exact List.mem_map_of_mem hcm
      obtain ⟨hl, hbits, hqm, hql⟩ := mem_quantsByBits.1 (List.mem_of_mem_filter hmem)
      obtain ⟨g, hg, hgi, rfl⟩ := getAttrs_ok ha
      refine ⟨⟨c.1.2, s.withDomain g.attrs, parts⟩, hout, ⟨hfair.nonempty, hfair.once, ?_, hfair.sum, hwithin, ?_⟩, rfl⟩
      · refine ⟨c.1.1, hl, hql.symm, fun p hp => ?_⟩
        exact (mem_matchingIds hr.indexInv hr.colInv (hq.locLens _ hl)).1 (hfair.mem p hp)
      · exact ⟨g, hg, hgi, fun k v => mem_withDomain s g.attrs k v⟩
    have : ∃ shares : List Share, cs.flatMap (·.2) = shares.flatMap Share.rows ∧
        (∀ x ∈ shares, s.Accounts x) ∧ shares.map (·.quant) = cs.map fun c => c.1.2 := by
      clear hc1 hc2 hc3
      induction cs with
      | nil => exact ⟨[], rfl, by simp, rfl⟩
      | cons c cs ih =>
        obtain ⟨x, hx1, hx2, hx3⟩ := hone c (by simp)
        obtain ⟨xs, hxs1, hxs2, hxs3⟩ := ih fun c hc => hone c (by simp [hc])
        refine ⟨x :: xs, ?_, ?_, ?_⟩
        · rw [List.flatMap_cons, List.flatMap_cons, hx1, hxs1]
        · intro y hy
          rcases List.mem_cons.1 hy with rfl | hy
          · exact hx2
          · exact hxs2 y hy
        · rw [List.map_cons, List.map_cons, hx3, hxs3]
    obtain ⟨shares, h1, h2, h3⟩ := this
    refine ⟨shares, hc2.trans h1, h2, h3.trans ?_⟩
    have : (s.readFor f b.1) = cs.map (·.1) := hc1.symm
    rw [this, List.map_map]
    rfl
  have : ∃ shares : List Share, bs.flatMap (·.2) = shares.flatMap Share.rows ∧
      (∀ x ∈ shares, s.Accounts x) ∧
      shares.map (·.quant) = (bs.map (·.1)).flatMap fun st => (s.readFor f st).map (·.2) := by
    clear hb1 hb2 hb3
    induction bs with
    | nil => exact ⟨[], rfl, by simp, rfl⟩
    | cons b bs ih =>
      obtain ⟨x, hx1, hx2, hx3⟩ := hshare b (by simp)
      obtain ⟨xs, hxs1, hxs2, hxs3⟩ := ih fun c hc => hshare c (by simp [hc])
      refine ⟨x ++ xs, ?_, ?_, ?_⟩
      · rw [List.flatMap_cons, List.flatMap_append, hx1, hxs1]
      · intro y hy
        rcases List.mem_append.1 hy with hy | hy
        · exact hx2 y hy
        · exact hxs2 y hy
      · rw [List.map_append, List.map_cons, List.flatMap_cons, hx3, hxs3]
  obtain ⟨shares, h1, h2, h3⟩ := this
  rw [hb1, ← List.map_flatMap] at h3
  refine ⟨shares, hb2.trans h1, h2, ?_, fun q => ?_⟩
  · rw [h3, hread.nodup_iff]
    exact hq.ids.of_map.filter _
  · rw [h3, hread.mem_iff, List.mem_filter, decide_eq_true_eq, attributeFilter_ok hq.agIds hf]

theorem flatMap_share_sum (shares : List Share) (P : Attrs → Prop) [DecidablePred P]
    (hsum : ∀ b ∈ shares, (b.parts.map (·.2)).sum = b.quant.value) :
    (((shares.flatMap Share.rows).filter fun r => P r.2.1).map (·.2.2)).sum =
      ((shares.filter fun b => P b.attrs).map (·.quant.value)).sum := by
  induction shares with
  | nil => rfl
  | cons b bs ih =>
    rw [List.flatMap_cons, List.filter_append, List.map_append, List.sum_append,
      ih fun c hc => hsum c (by simp [hc])]
    by_cases hP : P b.attrs
    · have : (b.rows.filter fun r => P r.2.1) = b.rows := by
        rw [List.filter_eq_self]
        intro r hr
        obtain ⟨p, _, rfl⟩ := List.mem_map.1 hr
        simpa using hP
      rw [this, List.filter_cons_of_pos (by simpa using hP), List.map_cons, List.sum_cons, ← hsum b (by simp)]
      unfold Share.rows
      rw [List.map_map]
      rfl
    · have : (b.rows.filter fun r => P r.2.1) = [] := by
        rw [List.filter_eq_nil_iff]
        intro r hr
        obtain ⟨p, _, rfl⟩ := List.mem_map.1 hr
        simpa using hP
      rw [this, List.filter_cons_of_neg (by simpa using hP)]
      simp

open Classical in
/-- Totals: the values read for any condition on the attributes add up to the stored quantities that are in a
valid combination, are selected, and whose attributes together with the domain satisfy the condition. -/
theorem C14_totals {s : Store} (hr : Reachable s) {cm : CaseMap} {sels : List Sel} {quantize : Bool}
    {rows : List (Nat × Attrs × ℚ)} (h : s.call cm sels quantize = .ok rows) (P : Attrs → Prop)
    (hP : ∀ a b : Attrs, (∀ kv, kv ∈ a ↔ kv ∈ b) → (P a ↔ P b)) :
    ((rows.filter fun r => P r.2.1).map (·.2.2)).sum =
      ((s.quants.filter fun q => s.Counted q ∧ s.Selected cm sels q ∧
        ∃ g ∈ s.agroups, g.id = q.ag ∧ P (s.withDomain g.attrs)).map (·.value)).sum := by
  obtain ⟨shares, rfl, hacc, hnd, hmem⟩ := C14_read hr h
  rw [flatMap_share_sum shares P fun b hb => (hacc b hb).sum]
  have hag := hr.quantInv.agIds
  have : ((shares.filter fun b => P b.attrs).map (·.quant)).Perm
      (s.quants.filter fun q => s.Counted q ∧ s.Selected cm sels q ∧
        ∃ g ∈ s.agroups, g.id = q.ag ∧ P (s.withDomain g.attrs)) := by
    rw [List.perm_ext_iff_of_nodup (nodup_filter_map _ hnd) (hr.quantInv.ids.of_map.filter _)]
    intro q
    simp only [List.mem_map, List.mem_filter, decide_eq_true_eq]
    have hattrs : ∀ b ∈ shares, ∀ g ∈ s.agroups, g.id = b.quant.ag → (P b.attrs ↔ P (s.withDomain g.attrs)) := by
      intro b hb g hg hgi
      obtain ⟨g', hg', hgi', ha⟩ := (hacc b hb).attrs
      have : g = g' := List.inj_on_of_nodup_map hag hg hg' (hgi.trans hgi'.symm)
      subst this
      refine hP _ _ fun kv => ?_
      rw [ha kv.1 kv.2]
      exact (mem_withDomain s g.attrs kv.1 kv.2).symm
    constructor
    · rintro ⟨b, ⟨hb, hPb⟩, rfl⟩
      obtain ⟨h1, h2, h3⟩ := (hmem b.quant).1 (List.mem_map_of_mem hb)
      obtain ⟨g, hg, hgi, _⟩ := (hacc b hb).attrs
      exact ⟨h1, h2, h3, g, hg, hgi, (hattrs b hb g hg hgi).1 hPb⟩
    · rintro ⟨h1, h2, h3, g, hg, hgi, hPg⟩
      obtain ⟨b, hb, rfl⟩ := List.mem_map.1 ((hmem q).2 ⟨h1, h2, h3⟩)
      exact ⟨b, ⟨hb, (hattrs b hb g hg hgi).2 hPg⟩, rfl⟩
  have := (this.map (·.value)).sum_eq
  rw [List.map_map] at this
  exact this

/-- Reading succeeds if there is a default weight group marked complete, groups marked complete really are, the
selectors are those a user can write, the references of quantities are in order, and every quantity to be
read matches an index record. -/
theorem C14_succeeds {s : Store} (hr : Reachable s) (cm : CaseMap) (sels : List Sel) (quantize : Bool)
    (hstr : s.structs ≠ []) {d : WGroup} (hd : d ∈ s.wgroups) (hdef : s.defaultWG = some (some d.id))
    (hdc : d.complete = true) (hcov : ∀ g ∈ s.wgroups, g.complete = true → s.groupCovers g.id)
    (hwf : ∀ g ∈ s.wgroups, ∀ x ∈ g.selectors, x.WF) (hwf' : ∀ x ∈ sels, x.WF)
    (href : ∀ q ∈ s.quants, ∃ g ∈ s.agroups, g.id = q.ag)
    (hmatch : ∀ q ∈ s.quants, s.Counted q → ∃ l ∈ s.locs, l.id = q.loc ∧
      ∃ r ∈ s.index, labelsMatch l.labels r.labels) :
    ∃ rows, s.call cm sels quantize = .ok rows := by
  have hev : ∀ (l : List Sel) (a : Attrs), (∀ x ∈ l, x.WF) → ∃ b, Sel.evalAny cm a l = .ok b := by
    intro l a hl
    induction l with
    | nil => exact ⟨false, by unfold Sel.evalAny; rfl⟩
    | cons x xs ih =>
      obtain ⟨b, hb⟩ := Selectors.C05_matching_is_total cm a x (hl x (by simp))
      unfold Sel.evalAny
      rw [hb]
      cases b
      · exact ih fun y hy => hl y (by simp [hy])
      · exact ⟨true, rfl⟩
  have hfil : ∃ f, s.attributeFilter cm sels = .ok f := by
    unfold Store.attributeFilter
    by_cases hs : sels = []
    · exact ⟨none, by rw [if_pos hs]⟩
    · rw [if_neg hs]
      obtain ⟨r, hr⟩ := flatMapE_exists (f := fun g : AGroup => do
        if ← Sel.evalAny cm g.attrs sels then .ok [g.id] else .ok []) (l := s.agroups) (by
          intro g _
          obtain ⟨b, hb⟩ := hev sels g.attrs hwf'
          simp only [bind, Except.bind, hb]
          cases b
          · exact ⟨[], rfl⟩
          · exact ⟨[g.id], rfl⟩)
      exact ⟨some r, by simp only [bind, Except.bind] at hr ⊢; rw [hr]⟩
  obtain ⟨f, hf⟩ := hfil
  have hwg : s.getDefaultWG = .ok d := by
    unfold Store.getDefaultWG
    rw [hdef]
    have : s.wgroups.find? (fun g => g.id == d.id) = some d := by
      rcases hx : s.wgroups.find? (fun g => g.id == d.id) with _ | x
      · exact absurd (List.find?_eq_none.1 hx d hd) (by simp)
      · have h1 := List.mem_of_find?_eq_some hx
        have h2 : x.id = d.id := by simpa using List.find?_some hx
        rw [hx, List.inj_on_of_nodup_map hr.weightInv.gids h1 hd h2]
    simp only [this]
  unfold Store.call
  simp only [bind, Except.bind, hf, hwg]
  unfold Store.disaggregate
  simp only [bind, Except.bind, hwg]
  rw [if_neg (by simp [hdc])]
  have hperm : s.structsSorted.Perm s.structs := sortedBy_perm _ _
  rcases hst : s.structsSorted with _ | ⟨first, rest⟩
  · rw [hst] at hperm
    exact absurd hperm.symm.eq_nil hstr
  rw [hst] at hperm
  simp only
  refine flatMapE_exists fun st hst' => flatMapE_exists fun lq hlq => ?_
  obtain ⟨hl, hbits, hqm, hql⟩ := mem_quantsByBits.1 (List.mem_of_mem_filter hlq)
  have hcount : s.Counted lq.2 := ⟨lq.1, hl, hql.symm, st, hperm.subset hst', hbits.symm⟩
  obtain ⟨l, hlm, hli, r, hrm, hmr⟩ := hmatch lq.2 hqm hcount
  have : lq.1 = l := List.inj_on_of_nodup_map hr.quantInv.locIds hl hlm (hql.symm.trans hli.symm)
  subst this
  have hid : r.id ∈ s.matchingIds lq.1.labels :=
    (mem_matchingIds hr.indexInv hr.colInv (hr.quantInv.locLens _ hl)).2 ⟨r, hrm, rfl, hmr⟩
  unfold Store.disaggOne
  have hnd := matchingIds_nodup hr.indexInv lq.1.labels
  rcases hids : s.matchingIds lq.1.labels with _ | ⟨i, is⟩
  · rw [hids] at hid
    cases hid
  rw [hids] at hnd
  obtain ⟨g, hg, hgi⟩ := href lq.2 hqm
  have hga : s.getAttrs lq.2.ag = .ok g.attrs := by
    unfold Store.getAttrs
    have : s.agroups.find? (fun x => x.id == lq.2.ag) = some g := by
      rcases hx : s.agroups.find? (fun x => x.id == lq.2.ag) with _ | x
      · exact absurd (List.find?_eq_none.1 hx g hg) (by simpa using hgi)
      · have h1 := List.mem_of_find?_eq_some hx
        have h2 : x.id = lq.2.ag := by simpa using List.find?_some hx
        rw [hx, List.inj_on_of_nodup_map hr.quantInv.agIds h1 hg (h2.trans hgi.symm)]
    simp only [this]
  simp only [bind, Except.bind, hga]
  by_cases hfin : granEq st.gran first.gran = true
  · rw [if_pos hfin]
    exact ⟨_, rfl⟩
  rw [if_neg hfin]
  have hkeys : (s.selectorDict.map (·.1)).Nodup := by
    unfold Store.selectorDict
    rw [List.map_map]
    exact nodup_filter_map _ hr.weightInv.gids
  have hdictmem : ∀ k x, (k, some x) ∈ s.selectorDict →
      ∃ g ∈ s.wgroups, g.complete = true ∧ g.id = k ∧ g.selectors = x := by
    intro k x hk
    unfold Store.selectorDict at hk
    obtain ⟨g, hg, he⟩ := List.mem_map.1 hk
    obtain ⟨hg1, hg2⟩ := List.mem_filter.1 hg
    rw [Bool.and_eq_true] at hg2
    cases he
    exact ⟨g, hg1, hg2.1, rfl, rfl⟩
  obtain ⟨group, hgr, hgr'⟩ := Selectors.C04_greatest_unique cm (s.withDomain g.attrs) s.selectorDict d.id hkeys
    (by
      intro k x hk y hy
      obtain ⟨g, hg, _, _, rfl⟩ := hdictmem k x hk
      exact hwf g hg y hy)
  have hgc : s.groupCovers group := by
    rcases hgr' with ⟨sp, ⟨⟨x, hx, _⟩, _⟩, _⟩ | ⟨_, rfl⟩
    · obtain ⟨g, hg, hgcm, rfl, _⟩ := hdictmem _ _ hx
      exact hcov g hg hgcm
    · exact hcov d hd hdc
  simp only [hgr]
  have hw : ∀ j ∈ i :: is, j ≠ 0 → (s.weightOf group j).isSome := by
    intro j hj h0
    rw [← hids] at hj
    obtain ⟨x, hx, hxi, _⟩ := (mem_matchingIds hr.indexInv hr.colInv (hr.quantInv.locLens _ hl)).1 hj
    obtain ⟨w, hw, hw1, hw2⟩ := hgc x hx (hxi ▸ h0)
    unfold Store.weightOf Store.findWeight
    rw [Option.isSome_map, List.find?_isSome]
    exact ⟨w, hw, by simp [hw1, hw2, hxi]⟩
  obtain ⟨parts, hp1, hp2, hp3⟩ := C13_split_conserves lq.2.value (i :: is) (s.weightOf group)
    (List.cons_ne_nil _ _) hnd hw
  simp only [hp1]
  by_cases hq : quantize = true
  · rw [if_pos hq]
    obtain ⟨sg, hsg, hsign⟩ := disagg_sign hp1 fun i w hwi => weightOf_nonneg hr.weightInv hwi
    obtain ⟨out, ho, _⟩ := C11_quantize_preserves_total_partial parts sg hsg hsign
    rw [hp2] at ho
    simp only [ho]
    exact ⟨_, rfl⟩
  · rw [if_neg hq]
    exact ⟨_, rfl⟩

instance : DecidableEq (Nat × Attrs × ℚ) := fun _ _ => instDecidableEqProd _ _

/-- What is read from the history of `Demo`: the quantity 7 of a single record, and the quantity 100 of the
records 1 and 2 with the weights 3 and 1. -/
theorem Demo.read_eq : (Demo.store.call asciiCase [] false).toOption =
    some [(3, [(['c'], ['m'])], 7), (1, [(['c'], ['m'])], 75), (2, [(['c'], ['m'])], 25)] := by
  decide +kernel

/-- It meets the hypothesis of `C14_read` and `C14_totals`. -/
example : ∃ rows, Demo.store.call asciiCase [] false = .ok rows ∧ rows.length = 3 := by
  rcases h : Demo.store.call asciiCase [] false with e | rows
  · have := Demo.read_eq
    rw [h] at this
    exact absurd this (by simp [Except.toOption])
  · have := Demo.read_eq
    rw [h] at this
    refine ⟨rows, rfl, ?_⟩
    rw [Option.some.inj this]
    rfl

/-- It meets the hypotheses of `C14_succeeds`. -/
example : ∃ rows, Demo.store.call asciiCase [] true = .ok rows := by
  have hi : Demo.store.index = _ := Demo.index_eq
  have hl : Demo.store.locs.map (fun l => (l.id, l.labels)) = [(1, [['x'], []]), (2, [['y'], ['1']])] := by
    decide +kernel
  have hg : Demo.store.wgroups.map (fun g => (g.id, g.complete, g.selectors.length)) = [(1, true, 0)] := by
    decide +kernel
  have ha : Demo.store.agroups.map (·.id) = [1] := by decide +kernel
  have hg' : ∀ g ∈ Demo.store.wgroups, g.id = 1 ∧ g.complete = true ∧ g.selectors = [] := by
    intro g h
    have := List.mem_map_of_mem (f := fun g : WGroup => (g.id, g.complete, g.selectors.length)) h
    rw [hg] at this
    simpa using this
  have hn : Demo.store.wgroups ≠ [] := by
    intro h
    rw [h] at hg
    cases hg
  obtain ⟨d, ds, hds⟩ := List.exists_cons_of_ne_nil hn
  have hd : d ∈ Demo.store.wgroups := by simp [hds]
  refine C14_succeeds Demo.reachable asciiCase [] true (by decide +kernel) hd ?_ (hg' d hd).2.1 ?_ ?_
    (by simp) ?_ ?_
  · rw [(hg' d hd).1]
    decide +kernel
  · intro g hgm _ r hr h0
    rw [(hg' g hgm).1, Demo.weights_eq]
    rw [Demo.index_eq] at hr
    simp only [List.mem_cons, List.not_mem_nil, or_false] at hr
    rcases hr with rfl | rfl | rfl | rfl
    · exact absurd rfl h0
    all_goals simp
  · intro g hgm x hx
    rw [(hg' g hgm).2.2] at hx
    cases hx
  · intro q hq
    rw [Demo.quants_eq] at hq
    have : 1 ∈ Demo.store.agroups.map (·.id) := by rw [ha]; simp
    obtain ⟨g, hg1, hg2⟩ := List.mem_map.1 this
    refine ⟨g, hg1, hg2.trans ?_⟩
    simp only [List.mem_cons, List.not_mem_nil, or_false] at hq
    rcases hq with rfl | rfl <;> rfl
  · intro q hq _
    have hloc : ∀ i ls, (i, ls) ∈ [(1, [['x'], []]), (2, [['y'], ['1']])] → q.loc = i →
        ∃ l ∈ Demo.store.locs, l.id = q.loc ∧ l.labels = ls := by
      intro i ls h hqi
      rw [← hl] at h
      obtain ⟨l, hl1, hl2⟩ := List.mem_map.1 h
      cases hl2
      exact ⟨l, hl1, hqi.symm, rfl⟩
    rw [Demo.quants_eq] at hq
    simp only [List.mem_cons, List.not_mem_nil, or_false] at hq
    rw [Demo.index_eq]
    rcases hq with rfl | rfl
    · obtain ⟨l, hl1, hl2, hl3⟩ := hloc 1 [['x'], []] (by simp) rfl
      exact ⟨l, hl1, hl2, ⟨1, [Demo.lx, Demo.l1]⟩, by simp, by
        rw [hl3]; simp [labelsMatch, Demo.lx]⟩
    · obtain ⟨l, hl1, hl2, hl3⟩ := hloc 2 [['y'], ['1']] (by simp) rfl
      exact ⟨l, hl1, hl2, ⟨3, [Demo.ly, Demo.l1]⟩, by simp, by
        rw [hl3]; simp [labelsMatch, Demo.ly, Demo.l1]⟩

end Toron.Space
