/-
Reading a dataspace.
-/
import Verif.Spec.Read
import Verif.Lemmas.Store.Inv2
import Verif.Props.Disaggregate
import Verif.Props.Quantize
import Mathlib.Data.List.Forall2

namespace Toron.Space

open Toron.Selectors (PyStr Sel CaseMap getGreatestUniqueSpecificity)
open Toron.Spec

/-! ### Matching labels -/

theorem find_zip {cols : List PyStr} (hc : (cols.map asciiLower).Nodup) {xs : List PyStr} {c x : PyStr}
    (h : (c, x) ∈ cols.zip xs) :
    (cols.zip xs).find? (fun cl => asciiLower cl.1 == asciiLower c) = some (c, x) := by
  induction cols generalizing xs with
  | nil => cases h
  | cons d ds ih =>
    cases xs with
    | nil => cases h
    | cons y ys =>
      rw [List.map_cons, List.nodup_cons] at hc
      rw [List.zip_cons_cons] at h ⊢
      rcases List.mem_cons.1 h with h | h
      · cases h
        simp
      · have : asciiLower d ≠ asciiLower c := by
          intro he
          exact hc.1 (he ▸ List.mem_map_of_mem (List.of_mem_zip h).1)
        rw [List.find?_cons_of_neg (by simpa using this)]
        exact ih hc.2 h

theorem matches_iff {cols : List PyStr} (hc : (cols.map asciiLower).Nodup) {loc rec : List PyStr}
    (hl : loc.length = cols.length) (hr : rec.length = cols.length) :
    matchesCriteria cols (labelCriteria cols loc) rec = true ↔ labelsMatch loc rec := by
  unfold matchesCriteria labelsMatch labelCriteria
  rw [List.all_eq_true, List.forall₂_iff_get]
  have hcrit : ∀ i (h1 : i < cols.length) (h2 : i < rec.length) v,
      criterionHolds cols rec (cols[i], v) = (rec[i] == v) := by
    intro i h1 h2 v
    have hm : (cols[i], rec[i]) ∈ cols.zip rec := by
      have : (cols.zip rec)[i]'(by rw [List.length_zip]; omega) = (cols[i], rec[i]) := List.getElem_zip
      rw [← this]
      exact List.getElem_mem _
    unfold criterionHolds
    rw [find_zip hc hm]
  constructor
  · intro h
    refine ⟨hl.trans hr.symm, ?_⟩
    intro i h1 h2
    rw [List.get_eq_getElem, List.get_eq_getElem]
    by_cases he : loc[i] = []
    · exact .inl he
    · right
      have hic : i < cols.length := by omega
      have hm : (cols[i], loc[i]) ∈ cols.zip loc := by
        have : (cols.zip loc)[i]'(by rw [List.length_zip]; omega) = (cols[i], loc[i]) := List.getElem_zip
        rw [← this]
        exact List.getElem_mem _
      have := h (cols[i], loc[i]) (List.mem_filter.2 ⟨hm, by simpa using he⟩)
      rw [hcrit i hic h2] at this
      simpa using this
  · rintro ⟨_, h⟩ ⟨c, v⟩ hcv
    obtain ⟨hm, hv⟩ := List.mem_filter.1 hcv
    obtain ⟨i, hi, he⟩ := List.getElem_of_mem hm
    rw [List.getElem_zip] at he
    rw [List.length_zip] at hi
    obtain ⟨rfl, rfl⟩ := Prod.mk.inj he
    rw [hcrit i (by omega) (by omega)]
    have := h i (by omega) (by omega)
    rw [List.get_eq_getElem, List.get_eq_getElem] at this
    rcases this with h | h
    · rw [h] at hv
      cases hv
    · simpa using h

theorem mem_matchingIds {s : Store} (hi : IndexInv s) (hc : ColInv s) {labels : List PyStr}
    (hl : labels.length = s.cols.length) {i : Nat} :
    i ∈ s.matchingIds labels ↔ ∃ r ∈ s.index, r.id = i ∧ labelsMatch labels r.labels := by
  unfold Store.matchingIds Store.filterByLabel
  simp only [List.mem_map, List.mem_filter, Bool.true_or, Bool.and_true]
  constructor
  · rintro ⟨r, ⟨hr, hm⟩, rfl⟩
    exact ⟨r, hr, rfl, (matches_iff hc.cols hl (hi.lens r hr)).1 hm⟩
  · rintro ⟨r, hr, rfl, hm⟩
    exact ⟨r, ⟨hr, (matches_iff hc.cols hl (hi.lens r hr)).2 hm⟩, rfl⟩

theorem matchingIds_nodup {s : Store} (hi : IndexInv s) (labels : List PyStr) : (s.matchingIds labels).Nodup :=
  nodup_filter_map _ hi.idsNodup

/-! ### One quantity -/

theorem disaggregateValue_neg {value : ℚ} {ids : List Nat} {weight : Nat → Option ℚ} {parts : List (Nat × ℚ)}
    (h : disaggregateValue value ids weight = .ok parts) :
    disaggregateValue (-value) ids weight = .ok (parts.map fun p => (p.1, -p.2)) := by
  unfold disaggregateValue at h ⊢
  rcases hg : groupWeight weight ids with e | gw
  · rw [hg] at h
    cases h
  rw [hg] at h
  simp only [bind, Except.bind] at h ⊢
  by_cases h1 : gw ≠ 0
  · rw [if_pos h1] at h ⊢
    cases h
    rw [List.map_map]
    congr 1
    apply List.map_congr_left
    intro i _
    rcases hw : weight i with _ | w <;> simp [hw]
  rw [if_neg h1] at h ⊢
  by_cases h2 : ids.length > 1
  · rw [if_pos h2] at h ⊢
    by_cases h3 : 0 ∉ ids
    · rw [if_pos h3] at h ⊢
      cases h
      simp
    · rw [if_neg h3] at h ⊢
      cases h
      rw [List.map_map]
      congr 1
      apply List.map_congr_left
      intro i _
      by_cases hi : i = 0 <;> simp [hi]
  · rw [if_neg h2] at h ⊢
    split at h
    · cases h
      rfl
    · cases h

theorem weightOf_nonneg {s : Store} (hw : WeightInv s) {g i : Nat} {w : ℚ} (h : s.weightOf g i = some w) : 0 ≤ w := by
  unfold Store.weightOf at h
  rcases hf : s.findWeight g i with _ | x
  · rw [hf] at h; cases h
  · rw [hf] at h
    cases h
    exact hw.nonneg x (List.mem_of_find?_eq_some hf)

/-- A share of a quantity over the given records. -/
structure Fair (ids : List Nat) (v : ℚ) (parts : List (Nat × ℚ)) : Prop where
  nonempty : parts ≠ []
  once : (parts.map (·.1)).Nodup
  mem : ∀ p ∈ parts, p.1 ∈ ids
  sum : (parts.map (·.2)).sum = v

theorem disagg_fair {value : ℚ} {ids : List Nat} {weight : Nat → Option ℚ} {parts : List (Nat × ℚ)}
    (hne : ids ≠ []) (hnd : ids.Nodup)
    (h : disaggregateValue value ids weight = .ok parts) : Fair ids value parts ∧ parts.map (·.1) = ids := by
  have hw : ∀ i ∈ ids, i ≠ 0 → (weight i).isSome := by
    intro i hi h0
    by_contra hn
    obtain ⟨t, ht⟩ := C13_missing_weight_is_error value ids weight i hi h0 (by simpa using hn)
    rw [ht] at h
    cases h
  obtain ⟨parts', h', hs, hids⟩ := C13_split_conserves value ids weight hne hnd hw
  rw [h] at h'
  cases h'
  refine ⟨⟨?_, hids ▸ hnd, ?_, hs⟩, hids⟩
  · rintro rfl
    exact hne hids.symm
  · intro p hp
    rw [← hids]
    exact List.mem_map_of_mem hp

theorem forall2_fst {a b : List (Nat × ℚ)} (h : List.Forall₂ (fun x y => x.1 = y.1) a b) :
    a.map (·.1) = b.map (·.1) := by
  induction h with
  | nil => rfl
  | cons hab _ ih => rw [List.map_cons, List.map_cons, ih, hab]

theorem quantize_fair {ids : List Nat} {value : ℚ} {parts out : List (Nat × ℚ)} {s : ℚ} (hs : s = 1 ∨ s = -1)
    (hsign : ∀ p ∈ parts, 0 ≤ s * p.2) (hf : Fair ids value parts)
    (h : quantizeValues parts value = .ok out) : Fair ids value out := by
  obtain ⟨out', ho, ht, ⟨items', hperm, h2⟩, _⟩ := C11_quantize_preserves_total_partial parts s hs hsign
  have htot : total parts = value := hf.sum
  rw [htot, h] at ho
  cases ho
  have hmap : out.map (·.1) = items'.map (·.1) := by
    exact (forall2_fst (h2.imp fun _ _ h => h.1)).symm
  have hp : (out.map (·.1)).Perm (parts.map (·.1)) := hmap ▸ hperm.map _
  refine ⟨?_, hp.nodup_iff.2 hf.once, ?_, ht.trans htot⟩
  · rintro rfl
    have := hp.length_eq
    simp only [List.map_nil, List.length_nil, List.length_map] at this
    exact hf.nonempty (List.length_eq_zero_iff.1 this.symm)
  · intro p hpm
    have : p.1 ∈ parts.map (·.1) := hp.subset (List.mem_map_of_mem hpm)
    obtain ⟨p', hp', he⟩ := List.mem_map.1 this
    exact he ▸ hf.mem p' hp'

theorem disagg_sign {value : ℚ} {ids : List Nat} {weight : Nat → Option ℚ} {parts : List (Nat × ℚ)}
    (h : disaggregateValue value ids weight = .ok parts) (hw : ∀ i w, weight i = some w → 0 ≤ w) :
    ∃ s : ℚ, (s = 1 ∨ s = -1) ∧ ∀ p ∈ parts, 0 ≤ s * p.2 := by
  by_cases hv : 0 ≤ value
  · exact ⟨1, .inl rfl, fun p hp => by
      rw [one_mul]; exact C13_split_nonneg value ids weight parts h hv hw p hp⟩
  · refine ⟨-1, .inr rfl, fun p hp => ?_⟩
    have := C13_split_nonneg (-value) ids weight _ (disaggregateValue_neg h) (by linarith) hw (p.1, -p.2)
      (List.mem_map.2 ⟨p, hp, rfl⟩)
    simpa using this

theorem partOf_of_sign {parts : List (Nat × ℚ)} {v sg : ℚ} (hsg : sg = 1 ∨ sg = -1)
    (hsign : ∀ p ∈ parts, 0 ≤ sg * p.2) (hsum : (parts.map (·.2)).sum = v) : ∀ p ∈ parts, PartOf p.2 v := by
  intro p hp
  have h1 := hsign p hp
  have h2 := le_sum_of_sign (l := parts.map (·.2)) (s := sg) (by
    intro x hx
    obtain ⟨p', hp', rfl⟩ := List.mem_map.1 hx
    exact hsign p' hp') (List.mem_map_of_mem hp)
  rw [hsum] at h2
  rcases hsg with rfl | rfl
  · exact ⟨fun _ => ⟨by linarith, by linarith⟩, fun _ => ⟨by linarith, by linarith⟩⟩
  · exact ⟨fun _ => ⟨by linarith, by linarith⟩, fun _ => ⟨by linarith, by linarith⟩⟩

theorem quantize_partOf {parts out : List (Nat × ℚ)} {v sg : ℚ} (hsg : sg = 1 ∨ sg = -1)
    (hsign : ∀ p ∈ parts, 0 ≤ sg * p.2) (hsum : (parts.map (·.2)).sum = v)
    (hsum' : (out.map (·.2)).sum = v) (h : quantizeValues parts v = .ok out) : ∀ p ∈ out, PartOf p.2 v := by
  have ht : total parts = v := hsum
  exact partOf_of_sign hsg (quantize_sign parts sg hsg hsign (ht ▸ h)) hsum'

theorem disaggOne_ok {s : Store} (hi : IndexInv s) (hw : WeightInv s) {cm : CaseMap} {dflt : Nat}
    {finest quantize : Bool} {l : LocRec} {q : Quant} {out : List (Nat × Attrs × ℚ)}
    (h : s.disaggOne cm dflt finest quantize l q = .ok out) :
    ∃ attrs parts, s.getAttrs q.ag = .ok attrs ∧ out = parts.map (fun p => (p.1, s.withDomain attrs, p.2)) ∧
      Fair (s.matchingIds l.labels) q.value parts ∧ ∀ p ∈ parts, PartOf p.2 q.value := by
  unfold Store.disaggOne at h
  have hnd := matchingIds_nodup hi l.labels
  rcases hids : s.matchingIds l.labels with _ | ⟨i, is⟩
  · rw [hids] at h
    cases h
  rw [hids] at h hnd
  simp only [bind, Except.bind] at h
  rcases ha : s.getAttrs q.ag with e | attrs
  · rw [ha] at h
    cases h
  rw [ha] at h
  simp only at h
  refine ⟨attrs, ?_⟩
  by_cases hfin : finest = true
  · rw [if_pos hfin] at h
    cases h
    refine ⟨[(i, q.value)], rfl, rfl, ⟨by simp, by simp, by simp, by simp⟩, ?_⟩
    intro p hp
    rw [List.mem_singleton.1 hp]
    exact ⟨fun h => ⟨h, le_refl _⟩, fun h => ⟨le_refl _, h⟩⟩
  · rw [if_neg hfin] at h
    rcases hg : getGreatestUniqueSpecificity cm (s.withDomain attrs) s.selectorDict dflt with e | group
    · rw [hg] at h
      cases h
    rw [hg] at h
    simp only at h
    rcases hd : disaggregateValue q.value (i :: is) (s.weightOf group) with e | parts
    · rw [hd] at h
      cases h
    rw [hd] at h
    simp only at h
    have hfair := (disagg_fair (List.cons_ne_nil _ _) hnd hd).1
    by_cases hq : quantize = true
    · rw [if_pos hq] at h
      rcases hz : quantizeValues parts q.value with e | out'
      · rw [hz] at h
        cases h
      rw [hz] at h
      cases h
      obtain ⟨sg, hsg, hsign⟩ := disagg_sign hd fun i w hwi => weightOf_nonneg hw hwi
      have hf' := quantize_fair hsg hsign hfair hz
      exact ⟨out', rfl, rfl, hf', quantize_partOf hsg hsign hfair.sum hf'.sum hz⟩
    · rw [if_neg hq] at h
      cases h
      obtain ⟨sg, hsg, hsign⟩ := disagg_sign hd fun i w hwi => weightOf_nonneg hw hwi
      exact ⟨parts, rfl, rfl, hfair, partOf_of_sign hsg hsign hfair.sum⟩

/-! ### All quantities -/

theorem flatMapE_ok {α β : Type} {f : α → Except Err (List β)} {l : List α} {r : List β}
    (h : flatMapE f l = .ok r) : ∃ bs : List (α × List β), bs.map (·.1) = l ∧ r = bs.flatMap (·.2) ∧
      ∀ b ∈ bs, f b.1 = .ok b.2 := by
  induction l generalizing r with
  | nil => cases h; exact ⟨[], rfl, rfl, by simp⟩
  | cons x xs ih =>
    unfold flatMapE at h
    simp only [bind, Except.bind] at h
    rcases hx : f x with e | a
    · rw [hx] at h; cases h
    rw [hx] at h
    simp only at h
    rcases hxs : flatMapE f xs with e | b
    · rw [hxs] at h; cases h
    rw [hxs] at h
    cases h
    obtain ⟨bs, h1, h2, h3⟩ := ih hxs
    refine ⟨(x, a) :: bs, by rw [List.map_cons, h1], by rw [List.flatMap_cons, h2], ?_⟩
    intro p hp
    rcases List.mem_cons.1 hp with rfl | hp
    · exact hx
    · exact h3 p hp

theorem flatMapE_exists {α β : Type} {f : α → Except Err (List β)} {l : List α}
    (h : ∀ x ∈ l, ∃ r, f x = .ok r) : ∃ r, flatMapE f l = .ok r := by
  induction l with
  | nil => exact ⟨[], rfl⟩
  | cons x xs ih =>
    obtain ⟨a, ha⟩ := h x (by simp)
    obtain ⟨b, hb⟩ := ih fun y hy => h y (by simp [hy])
    exact ⟨a ++ b, by unfold flatMapE; simp [bind, Except.bind, ha, hb]⟩

/-- The quantities read for one structure, with the filter. -/
def Store.readFor (s : Store) (filter : Option (List Nat)) (st : StructRec) : List (LocRec × Quant) :=
  (s.quantsByBits st.bits).filter fun lq => match filter with
    | none => true
    | some ids => ids.contains lq.2.ag

theorem passes_iff {filter : Option (List Nat)} {q : Quant} :
    (match filter with
      | none => true
      | some ids => ids.contains q.ag) = true ↔ ∀ ids, filter = some ids → q.ag ∈ ids := by
  cases filter <;> simp

theorem mem_quantsByBits {s : Store} {bits : List Bool} {l : LocRec} {q : Quant} :
    (l, q) ∈ s.quantsByBits bits ↔ l ∈ s.locs ∧ nonemptyBits l.labels = bits ∧ q ∈ s.quants ∧ q.loc = l.id := by
  unfold Store.quantsByBits
  simp only [List.mem_flatMap, mem_sortedBy, List.mem_filter, List.mem_map, beq_iff_eq]
  constructor
  · rintro ⟨l', ⟨hl, hb⟩, q', ⟨hq, hql⟩, he⟩
    cases he
    exact ⟨hl, hb, hq, hql⟩
  · rintro ⟨hl, hb, hq, hql⟩
    exact ⟨l, ⟨hl, hb⟩, q, ⟨hq, hql⟩, rfl⟩

theorem quantsByBits_nodup {s : Store} (hq : QuantInv s) (bits : List Bool) :
    ((s.quantsByBits bits).map (·.2)).Nodup := by
  unfold Store.quantsByBits
  rw [List.map_flatMap, List.nodup_flatMap]
  refine ⟨fun l _ => ?_, ?_⟩
  · rw [List.map_map]
    have : (Prod.snd ∘ fun q : Quant => (l, q)) = id := rfl
    rw [this, List.map_id]
    exact hq.ids.of_map.filter _
  · have hnd : (sortedBy (fun a b : LocRec => decide (a.id ≤ b.id))
        (s.locs.filter fun l => nonemptyBits l.labels == bits)).Pairwise fun a b => a.id ≠ b.id := by
      have h1 : ((s.locs.filter fun l => nonemptyBits l.labels == bits).map (·.id)).Nodup :=
        nodup_filter_map _ hq.locIds
      have h2 := ((sortedBy_perm (fun a b : LocRec => decide (a.id ≤ b.id))
        (s.locs.filter fun l => nonemptyBits l.labels == bits)).map (·.id)).nodup_iff.2 h1
      exact List.pairwise_map.1 h2
    refine hnd.imp ?_
    intro a b hab q h1 h2
    simp only [List.map_map, Function.comp_def, List.map_id', List.mem_filter, beq_iff_eq] at h1 h2
    exact hab (h1.2.symm.trans h2.2)

theorem readAll_perm {s : Store} (hq : QuantInv s) (hst : (s.structs.map (·.bits)).Nodup)
    (filter : Option (List Nat)) {structs : List StructRec} (hp : structs.Perm s.structs)
    {keep : Quant → Prop} [DecidablePred keep]
    (hkeep : ∀ q ∈ s.quants, keep q ↔ s.Counted q ∧ ∀ ids, filter = some ids → q.ag ∈ ids) :
    ((structs.flatMap fun st => (s.readFor filter st)).map (·.2)).Perm (s.quants.filter fun q => keep q) := by
  rw [List.perm_ext_iff_of_nodup]
  · intro q
    simp only [List.mem_map, List.mem_flatMap, Store.readFor, List.mem_filter, decide_eq_true_eq, Prod.exists]
    constructor
    · rintro ⟨l, q', ⟨st, hst', hm, hf⟩, rfl⟩
      obtain ⟨hl, hb, hqm, hql⟩ := mem_quantsByBits.1 hm
      exact ⟨hqm, (hkeep _ hqm).2 ⟨⟨l, hl, hql.symm, st, hp.subset hst', hb.symm⟩, passes_iff.1 hf⟩⟩
    · rintro ⟨hqm, hk⟩
      obtain ⟨⟨l, hl, hql, st, hst', hb⟩, hf⟩ := (hkeep _ hqm).1 hk
      exact ⟨l, q, ⟨st, hp.symm.subset hst', mem_quantsByBits.2 ⟨hl, hb.symm, hqm, hql.symm⟩, passes_iff.2 hf⟩, rfl⟩
  · rw [List.map_flatMap, List.nodup_flatMap]
    refine ⟨fun st _ => ?_, ?_⟩
    · exact nodup_filter_map _ (quantsByBits_nodup hq st.bits)
    · have hnd : structs.Pairwise fun a b => a.bits ≠ b.bits :=
        List.pairwise_map.1 ((hp.map _).nodup_iff.2 hst)
      refine hnd.imp ?_
      intro a b hab q h1 h2
      obtain ⟨⟨l, q1⟩, hm1, he1⟩ := List.mem_map.1 h1
      obtain ⟨⟨l', q2⟩, hm2, he2⟩ := List.mem_map.1 h2
      simp only at he1 he2
      subst he1
      subst he2
      obtain ⟨hl, hb, _, hql⟩ := mem_quantsByBits.1 (List.mem_of_mem_filter hm1)
      obtain ⟨hl', hb', _, hql'⟩ := mem_quantsByBits.1 (List.mem_of_mem_filter hm2)
      have : l = l' := List.inj_on_of_nodup_map hq.locIds hl hl' (hql.symm.trans hql')
      subst this
      exact hab (hb.symm.trans hb')
  · exact hq.ids.of_map.filter _

end Toron.Space
