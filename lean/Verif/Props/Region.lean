/-
Property theorems about the totals of regions (C101) and about parts of quantities (C102).
-/
import Verif.Props.Reader
import Verif.Spec.Region

namespace Toron.Space

open Toron.Selectors (PyStr Sel CaseMap asciiCase)

/-! ### Sums over shares -/

open Classical in
theorem readSum_append (a b : List (Nat × Attrs × ℚ)) (F : Nat → Attrs → Prop) :
    readSum (a ++ b) F = readSum a F + readSum b F := by
  unfold readSum
  rw [List.filter_append, List.map_append, List.sum_append]

open Classical in
theorem readSum_all {b : Share} {F : Nat → Attrs → Prop} (h : ∀ p ∈ b.parts, F p.1 b.attrs) :
    readSum b.rows F = (b.parts.map (·.2)).sum := by
  unfold readSum Share.rows
  rw [List.filter_eq_self.2, List.map_map]
  · rfl
  · intro r hr
    obtain ⟨p, hp, rfl⟩ := List.mem_map.1 hr
    exact decide_eq_true (h p hp)

open Classical in
theorem readSum_none {b : Share} {F : Nat → Attrs → Prop} (h : ∀ p ∈ b.parts, ¬ F p.1 b.attrs) :
    readSum b.rows F = 0 := by
  unfold readSum Share.rows
  rw [List.filter_eq_nil_iff.2]
  · rfl
  · intro r hr
    obtain ⟨p, hp, rfl⟩ := List.mem_map.1 hr
    simpa using h p hp

theorem filter_sum_bounds {l : List (Nat × Attrs × ℚ)} (h : ∀ r ∈ l, 0 ≤ r.2.2) (f : Nat × Attrs × ℚ → Bool) :
    0 ≤ ((l.filter f).map (·.2.2)).sum ∧ ((l.filter f).map (·.2.2)).sum ≤ (l.map (·.2.2)).sum := by
  induction l with
  | nil => simp
  | cons r l ih =>
    obtain ⟨h1, h2⟩ := ih fun x hx => h x (by simp [hx])
    have h0 := h r (by simp)
    by_cases hf : f r = true
    · rw [List.filter_cons_of_pos hf]
      simp only [List.map_cons, List.sum_cons]
      exact ⟨by linarith, by linarith⟩
    · rw [List.filter_cons_of_neg hf]
      simp only [List.map_cons, List.sum_cons]
      exact ⟨by linarith, by linarith⟩

open Classical in
theorem readSum_between {b : Share} (h : ∀ p ∈ b.parts, 0 ≤ p.2) (F : Nat → Attrs → Prop) :
    0 ≤ readSum b.rows F ∧ readSum b.rows F ≤ (b.parts.map (·.2)).sum := by
  have := filter_sum_bounds (l := b.rows) (by
    intro r hr
    obtain ⟨p, hp, rfl⟩ := List.mem_map.1 hr
    exact h p hp) fun r => decide (F r.1 r.2.1)
  unfold readSum
  refine ⟨this.1, this.2.trans (le_of_eq ?_)⟩
  unfold Share.rows
  rw [List.map_map]
  rfl

open Classical in
/-- The stored quantities are those of the shares. -/
theorem stored_shares {s : Store} (hr : Reachable s) {cm : CaseMap} {sels : List Sel} {shares : List Share}
    (hnd : (shares.map (·.quant)).Nodup)
    (hmem : ∀ q, q ∈ shares.map (·.quant) ↔ q ∈ s.quants ∧ s.Counted q ∧ s.Selected cm sels q) (Q : Quant → Prop) :
    s.stored cm sels Q = (shares.map fun b => if Q b.quant then b.quant.value else 0).sum := by
  have hp : ((shares.map (·.quant)).filter fun q => Q q).Perm
      (s.quants.filter fun q => s.Counted q ∧ s.Selected cm sels q ∧ Q q) := by
    rw [List.perm_ext_iff_of_nodup (hnd.filter _) (hr.quantInv.ids.of_map.filter _)]
    intro q
    simp only [List.mem_filter, hmem, decide_eq_true_eq]
    tauto
  unfold Store.stored
  rw [← (hp.map (·.value)).sum_eq]
  clear hp hnd hmem
  induction shares with
  | nil => rfl
  | cons b bs ih =>
    rw [List.map_cons, List.map_cons, List.sum_cons, ← ih]
    by_cases hQ : Q b.quant
    · rw [List.filter_cons_of_pos (by simpa using hQ), if_pos hQ, List.map_cons, List.sum_cons]
    · rw [List.filter_cons_of_neg (by simpa using hQ), if_neg hQ, zero_add]

open Classical in
theorem readSum_shares (shares : List Share) (F : Nat → Attrs → Prop) :
    readSum (shares.flatMap Share.rows) F = (shares.map fun b => readSum b.rows F).sum := by
  induction shares with
  | nil => rfl
  | cons b bs ih => rw [List.flatMap_cons, readSum_append, ih, List.map_cons, List.sum_cons]

/-! ### Labels -/

theorem labelsMatch_trans {region loc rec : List PyStr} (h1 : labelsMatch region loc) (h2 : labelsMatch loc rec) :
    labelsMatch region rec := by
  unfold labelsMatch at *
  induction h1 generalizing rec with
  | nil => cases h2; exact .nil
  | cons hab _ ih =>
    cases h2 with
    | cons hbc h =>
      refine .cons ?_ (ih h)
      rcases hab with hab | rfl
      · exact .inl hab
      · exact hbc

theorem labelsMatch_getElem {a b : List PyStr} (h : labelsMatch a b) {k : Nat} {x y : PyStr} (hx : a[k]? = some x)
    (hy : b[k]? = some y) : x = [] ∨ y = x := by
  unfold labelsMatch at h
  induction h generalizing k with
  | nil => cases hx
  | cons hab _ ih =>
    cases k with
    | zero => cases hx; cases hy; exact hab
    | succ k => exact ih hx hy

theorem labelsMatch_length {a b : List PyStr} (h : labelsMatch a b) : a.length = b.length := List.Forall₂.length_eq h

theorem not_match_outside {region loc rec : List PyStr} {k : Nat} {a b : PyStr} (ha : region[k]? = some a)
    (hb : loc[k]? = some b) (ha0 : a ≠ []) (hb0 : b ≠ []) (hab : a ≠ b) (h : labelsMatch loc rec) :
    ¬ labelsMatch region rec := by
  intro h'
  have hk : k < rec.length := by
    rw [← labelsMatch_length h]
    exact (List.getElem?_eq_some_iff.1 hb).1
  have hr : rec[k]? = some rec[k] := List.getElem?_eq_getElem hk
  rcases labelsMatch_getElem h hb hr with h1 | h1
  · exact hb0 h1
  · rcases labelsMatch_getElem h' ha hr with h2 | h2
    · exact ha0 h2
    · exact hab (h2.symm.trans h1)

section
variable {s : Store} (hr : Reachable s) {b : Share} (hb : s.Accounts b) {region : List PyStr}

include hr hb

theorem loc_unique {l l' : LocRec} (hl : l ∈ s.locs) (hl' : l' ∈ s.locs) (h : l.id = b.quant.loc)
    (h' : l'.id = b.quant.loc) : l = l' :=
  have := hb
  List.inj_on_of_nodup_map hr.quantInv.locIds hl hl' (h.trans h'.symm)

theorem inside_region (h : s.Inside region b.quant) : ∀ p ∈ b.parts, s.InRegion region p.1 := by
  intro p hp
  obtain ⟨l, hl, hi, hm⟩ := h
  obtain ⟨l', hl', hi', hm'⟩ := hb.matching
  have := loc_unique hr hb hl hl' hi hi'
  subst this
  obtain ⟨r, hrm, hri, hrl⟩ := hm' p hp
  exact ⟨r, hrm, hri, labelsMatch_trans hm hrl⟩

theorem outside_region (h : s.Outside region b.quant) : ∀ p ∈ b.parts, ¬ s.InRegion region p.1 := by
  rintro p hp ⟨r', hr', hri', hrl'⟩
  obtain ⟨l, hl, hi, k, x, y, hx, hy, hx0, hy0, hxy⟩ := h
  obtain ⟨l', hl', hi', hm'⟩ := hb.matching
  have := loc_unique hr hb hl hl' hi hi'
  subst this
  obtain ⟨r, hrm, hri, hrl⟩ := hm' p hp
  have : r = r' := List.inj_on_of_nodup_map hr.indexInv.idsNodup hrm hr' (hri.trans hri'.symm)
  subst this
  exact not_match_outside hx hy hx0 hy0 hxy hrl hrl'

theorem attrsSat_iff {P : Attrs → Prop} (hP : OrderFree P) : s.AttrsSat P b.quant ↔ P b.attrs := by
  obtain ⟨g, hg, hgi, ha⟩ := hb.attrs
  have key : P b.attrs ↔ P (s.withDomain g.attrs) := by
    refine hP _ _ fun kv => ?_
    rw [ha kv.1 kv.2]
    exact (mem_withDomain s g.attrs kv.1 kv.2).symm
  constructor
  · rintro ⟨g', hg', hgi', h⟩
    have : g = g' := List.inj_on_of_nodup_map hr.quantInv.agIds hg hg' (hgi.trans hgi'.symm)
    subst this
    exact key.2 h
  · intro h
    exact ⟨g, hg, hgi, key.1 h⟩

end

/-! ### C101: regions -/

/-- Regional totals: if no quantity to be read is stored for a location that is only partly in the region, the
values read for the records of the region add up to the quantities stored for locations inside it, rounded or
not, and for any condition on the attributes. -/
theorem C101_read {s : Store} (hr : Reachable s) {cm : CaseMap} {sels : List Sel} {quantize : Bool}
    {rows : List (Nat × Attrs × ℚ)} (h : s.call cm sels quantize = .ok rows) (region : List PyStr)
    (hclear : ∀ q ∈ s.quants, s.Counted q → s.Selected cm sels q → s.Inside region q ∨ s.Outside region q)
    {P : Attrs → Prop} (hP : OrderFree P) :
    readSum rows (fun i a => s.InRegion region i ∧ P a) =
      s.stored cm sels (fun q => s.Inside region q ∧ s.AttrsSat P q) := by
  classical
  obtain ⟨shares, rfl, hacc, hnd, hmem⟩ := C14_read hr h
  rw [stored_shares hr hnd hmem, readSum_shares]
  congr 1
  apply List.map_congr_left
  intro b hb
  have ha := hacc b hb
  by_cases hQ : s.Inside region b.quant ∧ s.AttrsSat P b.quant
  · rw [if_pos hQ, readSum_all, ha.sum]
    intro p hp
    exact ⟨inside_region hr ha hQ.1 p hp, (attrsSat_iff hr ha hP).1 hQ.2⟩
  · rw [if_neg hQ, readSum_none]
    rintro p hp ⟨h1, h2⟩
    obtain ⟨h3, h4, h5⟩ := (hmem b.quant).1 (List.mem_map_of_mem hb)
    rcases hclear b.quant h3 h4 h5 with hin | hout
    · exact hQ ⟨hin, (attrsSat_iff hr ha hP).2 h2⟩
    · exact outside_region hr ha hout p hp h1

/-- Regional bounds: if the quantities to be read are not negative, the values read for the records of a region
add up to at least the quantities stored for locations inside it, and at most to those stored for locations not
outside it. -/
theorem C101_bounds {s : Store} (hr : Reachable s) {cm : CaseMap} {sels : List Sel} {quantize : Bool}
    {rows : List (Nat × Attrs × ℚ)} (h : s.call cm sels quantize = .ok rows) (region : List PyStr)
    (hpos : ∀ q ∈ s.quants, s.Counted q → s.Selected cm sels q → 0 ≤ q.value)
    {P : Attrs → Prop} (hP : OrderFree P) :
    s.stored cm sels (fun q => s.Inside region q ∧ s.AttrsSat P q) ≤
        readSum rows (fun i a => s.InRegion region i ∧ P a) ∧
      readSum rows (fun i a => s.InRegion region i ∧ P a) ≤
        s.stored cm sels (fun q => ¬ s.Outside region q ∧ s.AttrsSat P q) := by
  classical
  obtain ⟨shares, rfl, hacc, hnd, hmem⟩ := C14_read hr h
  rw [stored_shares hr hnd hmem, stored_shares hr hnd hmem, readSum_shares]
  have hbet : ∀ b ∈ shares, 0 ≤ readSum b.rows (fun i a => s.InRegion region i ∧ P a) ∧
      readSum b.rows (fun i a => s.InRegion region i ∧ P a) ≤ b.quant.value := by
    intro b hb
    have ha := hacc b hb
    obtain ⟨h3, h4, h5⟩ := (hmem b.quant).1 (List.mem_map_of_mem hb)
    rw [← ha.sum]
    exact readSum_between (fun p hp => ((ha.within p hp).1 (hpos _ h3 h4 h5)).1) _
  constructor
  · apply List.sum_le_sum
    intro b hb
    have ha := hacc b hb
    by_cases hQ : s.Inside region b.quant ∧ s.AttrsSat P b.quant
    · rw [if_pos hQ, readSum_all, ha.sum]
      intro p hp
      exact ⟨inside_region hr ha hQ.1 p hp, (attrsSat_iff hr ha hP).1 hQ.2⟩
    · rw [if_neg hQ]
      exact (hbet b hb).1
  · apply List.sum_le_sum
    intro b hb
    have ha := hacc b hb
    by_cases hQ : ¬ s.Outside region b.quant ∧ s.AttrsSat P b.quant
    · rw [if_pos hQ]
      exact (hbet b hb).2
    · rw [if_neg hQ, readSum_none]
      rintro p hp ⟨h1, h2⟩
      exact hQ ⟨fun ho => outside_region hr ha ho p hp h1, (attrsSat_iff hr ha hP).2 h2⟩

theorem reader_readSum {s : Store} {cm : CaseMap} {sels : List Sel} {quantize : Bool} {sumBy : List PyStr} {r : Reader}
    (h : s.reader cm sels quantize sumBy = .ok r) (A : Nat → Prop) {P : Attrs → Prop} (hP : OrderFree P) :
    ∃ rows, s.call cm sels quantize = .ok rows ∧
      r.readSum (fun i a => A i ∧ P a) = readSum rows fun i a => A i ∧ P (s.keepAttrs sumBy a) := by
  classical
  obtain ⟨rows, hcall, rfl⟩ := reader_rows h
  refine ⟨rows, hcall, ?_⟩
  unfold Reader.readSum readSum Reader.new amount
  simp only [List.map_map, List.filter_map]
  congr 2
  apply List.filter_congr
  intro d _
  rw [Bool.eq_iff_iff]
  simp only [Function.comp, decide_eq_true_eq]
  exact and_congr Iff.rfl (hP _ _ fun kv => (sortedBy_perm _ _).mem_iff)

theorem orderFree_keep {s : Store} {sumBy : List PyStr} {P : Attrs → Prop} (hP : OrderFree P) :
    OrderFree fun a => P (s.keepAttrs sumBy a) := by
  intro a b hab
  refine hP _ _ fun kv => ?_
  rw [mem_keepAttrs, mem_keepAttrs, hab]

/-- The same for the result of a call, where the attributes may be restricted. -/
theorem C101_reader {s : Store} (hr : Reachable s) {cm : CaseMap} {sels : List Sel} {quantize : Bool}
    {sumBy : List PyStr} {r : Reader} (h : s.reader cm sels quantize sumBy = .ok r) (region : List PyStr)
    (hclear : ∀ q ∈ s.quants, s.Counted q → s.Selected cm sels q → s.Inside region q ∨ s.Outside region q)
    {P : Attrs → Prop} (hP : OrderFree P) :
    r.readSum (fun i a => s.InRegion region i ∧ P a) =
      s.stored cm sels (fun q => s.Inside region q ∧ s.AttrsSat (fun a => P (s.keepAttrs sumBy a)) q) := by
  obtain ⟨rows, hcall, he⟩ := reader_readSum h (s.InRegion region) hP
  rw [he]
  exact C101_read hr hcall region hclear (orderFree_keep hP)

theorem forall₂_mem_right {α β : Type} {R : α → β → Prop} {l : List α} {l' : List β} (h : List.Forall₂ R l l') {b : β}
    (hb : b ∈ l') : ∃ a ∈ l, R a b := by
  induction h with
  | nil => cases hb
  | cons hab _ ih =>
    rcases List.mem_cons.1 hb with rfl | hb
    · exact ⟨_, by simp, hab⟩
    · obtain ⟨a, ha, h⟩ := ih hb
      exact ⟨a, by simp [ha], h⟩

/-- Regions and translation: if the current links lead from records in a region of the source only to records in
a region of the target, and from other records only to other records, then the translated values in the region
of the target add up to the values in the region of the source. -/
theorem C101_translate {src trg : Store} (hs : Reachable src) (ht : ReachableTidy trg) (hh : ReachableHashed trg)
    {r r' : Reader} (hr : r.Ok) (hrows : ∀ x ∈ r.rows, x.index ∈ src.ids) {cm : CaseMap} {quantize : Bool}
    (h : r.translate cm src trg quantize = .ok r') {A B : Nat → Prop} (h0 : A 0 ↔ B 0)
    (hmaps : ∀ l, trg.currentLink src l → ∀ i, ∀ m ∈ trg.mapsFrom l.id (i : Nat), A i ↔ B m.index)
    (P : Attrs → Prop) :
    r'.readSum (fun i a => B i ∧ P a) = r.readSum (fun i a => A i ∧ P a) := by
  classical
  obtain ⟨link, hl, parts, h1, h2, h3⟩ := C17_split hs ht hh hr hrows h
  unfold Reader.readSum
  rw [h2, ← h1]
  have key : ∀ p ∈ parts, amount p.2 = p.1.value.getD 0 ∧
      ∀ x ∈ p.2, (B x.index ∧ P x.attrs) ↔ (A p.1.index ∧ P p.1.attrs) := by
    intro p hp
    obtain ⟨hsp, ham, hat⟩ := h3 p hp
    refine ⟨ham, fun x hx => ?_⟩
    rw [hat x hx]
    refine and_congr ?_ Iff.rfl
    unfold Store.splitBy at hsp
    by_cases hi : p.1.index = 0
    · rw [if_pos hi] at hsp
      rw [hsp, List.mem_singleton] at hx
      rw [hx, hi]
      exact h0.symm
    · rw [if_neg hi] at hsp
      obtain ⟨ms, hperm, -, hall⟩ := hsp
      obtain ⟨m, hm, hmi, -⟩ := forall₂_mem_right hall hx
      have hp1 : p.1 ∈ r.rows := h1 ▸ List.mem_map_of_mem hp
      rw [hmi]
      exact (hmaps _ (hl _ (hr.known _ hp1)) _ m (hperm.mem_iff.1 hm)).symm
  clear h1 h2 h3
  induction parts with
  | nil => rfl
  | cons p ps ih =>
    obtain ⟨hsum, hat⟩ := key p (by simp)
    rw [List.flatMap_cons, List.map_cons, List.filter_append, amount_append,
      ih (fun q hq => key q (List.mem_cons_of_mem _ hq))]
    by_cases ha : A p.1.index ∧ P p.1.attrs
    · rw [List.filter_cons_of_pos (by simpa using ha), List.filter_eq_self.2 (by
        intro x hx; simpa using (hat x hx).2 ha), hsum]
      simp [amount]
    · rw [List.filter_cons_of_neg (by simpa using ha), List.filter_eq_nil_iff.2 (by
        intro x hx; simpa using fun h => ha ((hat x hx).1 h))]
      simp [amount]

/-- From stored quantities to a region of another dataspace. -/
theorem C101_end_to_end {src trg : Store} (hs : Reachable src) (ht : ReachableTidy trg) (hh : ReachableHashed trg)
    {cm : CaseMap} {sels : List Sel} {qread : Bool} {sumBy : List PyStr} {r r' : Reader}
    (hread : src.reader cm sels qread sumBy = .ok r) {quantize : Bool}
    (h : r.translate cm src trg quantize = .ok r') (region region' : List PyStr)
    (hclear : ∀ q ∈ src.quants, src.Counted q → src.Selected cm sels q → src.Inside region q ∨ src.Outside region q)
    (h0 : src.InRegion region 0 ↔ trg.InRegion region' 0)
    (hmaps : ∀ l, trg.currentLink src l → ∀ i, ∀ m ∈ trg.mapsFrom l.id (i : Nat),
      src.InRegion region i ↔ trg.InRegion region' m.index)
    {P : Attrs → Prop} (hP : OrderFree P) :
    r'.readSum (fun i a => trg.InRegion region' i ∧ P a) =
      src.stored cm sels (fun q => src.Inside region q ∧ src.AttrsSat (fun a => P (src.keepAttrs sumBy a)) q) := by
  obtain ⟨hok, hrows⟩ := reader_ok hs hread
  rw [C101_translate hs ht hh hok (fun x hx => (hrows x hx).1) h h0 hmaps P]
  exact C101_reader hs hread region hclear hP

/-! ### C102: parts -/

/-- Every value that is read is a part of a stored quantity: it has its sign and is not larger, rounded or not. -/
theorem C102_read {s : Store} (hr : Reachable s) {cm : CaseMap} {sels : List Sel} {quantize : Bool}
    {rows : List (Nat × Attrs × ℚ)} (h : s.call cm sels quantize = .ok rows) :
    ∀ row ∈ rows, ∃ q ∈ s.quants, s.Counted q ∧ s.Selected cm sels q ∧ PartOf row.2.2 q.value := by
  obtain ⟨shares, rfl, hacc, hnd, hmem⟩ := C14_read hr h
  intro row hrow
  obtain ⟨b, hb, hrow⟩ := List.mem_flatMap.1 hrow
  obtain ⟨p, hp, rfl⟩ := List.mem_map.1 hrow
  obtain ⟨h1, h2, h3⟩ := (hmem b.quant).1 (List.mem_map_of_mem hb)
  exact ⟨b.quant, h1, h2, h3, (hacc b hb).within p hp⟩

/-- If no stored quantity is negative, no value that is read is. -/
theorem C102_nonneg {s : Store} (hr : Reachable s) {cm : CaseMap} {sels : List Sel} {quantize : Bool}
    {rows : List (Nat × Attrs × ℚ)} (h : s.call cm sels quantize = .ok rows) (hpos : ∀ q ∈ s.quants, 0 ≤ q.value) :
    ∀ row ∈ rows, 0 ≤ row.2.2 := by
  intro row hrow
  obtain ⟨q, hq, -, -, hp⟩ := C102_read hr h row hrow
  exact (hp.1 (hpos q hq)).1

theorem partOf_refl (x : ℚ) : PartOf x x := ⟨fun h => ⟨h, le_refl _⟩, fun h => ⟨le_refl _, h⟩⟩

theorem partOf_trans {x y z : ℚ} (h1 : PartOf x y) (h2 : PartOf y z) : PartOf x z := by
  constructor
  · intro hz
    obtain ⟨hy, hyz⟩ := h2.1 hz
    obtain ⟨hx, hxy⟩ := h1.1 hy
    exact ⟨hx, hxy.trans hyz⟩
  · intro hz
    obtain ⟨hzy, hy⟩ := h2.2 hz
    obtain ⟨hyx, hx⟩ := h1.2 hy
    exact ⟨hzy.trans hyx, hx⟩

theorem translateRow_partOf {trg : Store} {link : Nat} {quantize : Bool} {row : ReaderRow} {parts : List ReaderRow}
    (hsum : row.index ≠ 0 → propSum ((trg.mapsFrom link row.index).map (·.prop)) = some 1)
    (hne : row.index ≠ 0 → trg.mapsFrom link row.index ≠ [])
    (hpos : ∀ m ∈ trg.maps, ∀ p, m.prop = some p → 0 ≤ p)
    (h : trg.translateRow link quantize row = .ok parts) :
    ∀ p ∈ parts, PartOf (p.value.getD 0) (row.value.getD 0) := by
  have ham := (translateRow_split hsum hne hpos h).2.1
  unfold Store.translateRow at h
  by_cases h0 : row.index = 0
  · rw [if_pos h0] at h
    cases h
    intro p hp
    rw [List.mem_singleton.1 hp]
    exact partOf_refl _
  rw [if_neg h0] at h
  obtain ⟨hp, hs⟩ := propSum_one (hsum h0)
  have hne := hne h0
  rw [findMaps_eq] at h
  set ms := trg.mapsFrom link row.index with hms
  rcases hv : row.value with _ | v
  · exfalso
    rw [hv] at h
    rcases hm : ms with _ | ⟨m, t⟩
    · exact hne hm
    · rw [hm] at h
      simp [flatMapE, scaleBy, bind, Except.bind] at h
  rw [hv, scale_ok hp] at h
  rw [hv] at ham
  simp only [bind, Except.bind] at h
  obtain ⟨sg, hsg, hsv⟩ : ∃ sg : ℚ, (sg = 1 ∨ sg = -1) ∧ 0 ≤ sg * v := by
    rcases le_total 0 v with hv | hv
    · exact ⟨1, .inl rfl, by linarith⟩
    · exact ⟨-1, .inr rfl, by linarith⟩
  have hsign : ∀ it ∈ ms.map (fun m => (m.index, v * m.prop.getD 0)), 0 ≤ sg * it.2 := by
    intro it hit
    obtain ⟨m, hm, rfl⟩ := List.mem_map.1 hit
    rw [← mul_assoc]
    exact mul_nonneg hsv (hpos m (List.mem_of_mem_filter hm) _ (hp m hm))
  have htot : Spec.total (ms.map fun m => (m.index, v * m.prop.getD 0)) = v := by
    unfold Spec.total
    rw [List.map_map]
    have : ((fun x : Nat × ℚ => x.2) ∘ fun m : Mapping => (m.index, v * m.prop.getD 0)) =
        fun m : Mapping => v * m.prop.getD 0 := rfl
    rw [this, List.sum_map_mul_left, hs, mul_one]
  have fin : ∀ out : List (Nat × ℚ), (∀ p ∈ out, PartOf p.2 v) →
      ∀ p ∈ out.map (fun x => (⟨x.1, row.attrs, some x.2⟩ : ReaderRow)), PartOf (p.value.getD 0) v := by
    intro out hout p hpm
    obtain ⟨x, hx, rfl⟩ := List.mem_map.1 hpm
    exact hout x hx
  by_cases hq : quantize = true
  · subst hq
    simp only [if_true] at h
    rcases hz : quantizeValues (ms.map fun m => (m.index, v * m.prop.getD 0)) v with e | out
    · rw [hz] at h; cases h
    rw [hz] at h
    cases h
    refine fin out ?_
    refine quantize_partOf hsg hsign htot ?_ hz
    have : amount (out.map fun x => (⟨x.1, row.attrs, some x.2⟩ : ReaderRow)) = (out.map (·.2)).sum := by
      unfold amount
      rw [List.map_map]
      rfl
    rw [← this]
    exact ham
  · rw [if_neg hq] at h
    cases h
    exact fin _ (partOf_of_sign hsg hsign htot)

/-- Every value after a translation is a part of a value before it, with the same attributes: it has its sign
and is not larger, rounded or not. -/
theorem C102_translate {src trg : Store} (hs : Reachable src) (ht : ReachableTidy trg) (hh : ReachableHashed trg)
    {r r' : Reader} (hr : r.Ok) (hrows : ∀ x ∈ r.rows, x.index ∈ src.ids) {cm : CaseMap} {quantize : Bool}
    (h : r.translate cm src trg quantize = .ok r') :
    ∀ x ∈ r'.rows, ∃ y ∈ r.rows, x.attrs = y.attrs ∧ PartOf (x.value.getD 0) (y.value.getD 0) := by
  obtain ⟨link, hl, parts, h1, h2, h3⟩ := C19_current hs hr h
  intro x hx
  rw [h2] at hx
  obtain ⟨p, hp, hx⟩ := List.mem_flatMap.1 hx
  have hp1 : p.1 ∈ r.rows := h1 ▸ List.mem_map_of_mem hp
  have hcm := fun h0 => current_maps ht hh (hl _ (hr.known _ hp1)) (hrows _ hp1) h0
  have hnn : ∀ m ∈ trg.maps, ∀ p, m.prop = some p → 0 ≤ p := fun m hm q hq => ((C15_proportions_partial ht).1 m hm q hq).1
  refine ⟨p.1, hp1, ?_, ?_⟩
  · exact (translateRow_split (fun h0 => (hcm h0).2) (fun h0 => (hcm h0).1) hnn (h3 p hp)).2.2 x hx
  · exact translateRow_partOf (fun h0 => (hcm h0).2) (fun h0 => (hcm h0).1) hnn (h3 p hp) x hx

/-- From stored quantities to another dataspace: every value after reading and translating is a part of a stored
quantity. -/
theorem C102_end_to_end {src trg : Store} (hs : Reachable src) (ht : ReachableTidy trg) (hh : ReachableHashed trg)
    {cm : CaseMap} {sels : List Sel} {qread : Bool} {sumBy : List PyStr} {r r' : Reader}
    (hread : src.reader cm sels qread sumBy = .ok r) {quantize : Bool}
    (h : r.translate cm src trg quantize = .ok r') :
    ∀ x ∈ r'.rows, ∃ q ∈ src.quants, src.Counted q ∧ src.Selected cm sels q ∧ PartOf (x.value.getD 0) q.value := by
  obtain ⟨hok, hrows⟩ := reader_ok hs hread
  intro x hx
  obtain ⟨y, hy, -, hp⟩ := C102_translate hs ht hh hok (fun x hx => (hrows x hx).1) h x hx
  obtain ⟨rows, hcall, rfl⟩ := reader_rows hread
  unfold Reader.new at hy
  simp only [List.map_map, List.mem_map, Function.comp] at hy
  obtain ⟨d, hd, rfl⟩ := hy
  obtain ⟨q, hq, h1, h2, h3⟩ := C102_read hs hcall d hd
  exact ⟨q, hq, h1, h2, partOf_trans hp h3⟩

/-! The hypotheses can be met. -/

instance (a b : List PyStr) : Decidable (labelsMatch a b) := by unfold labelsMatch; infer_instance

instance (s : Store) (region : List PyStr) (i : Nat) : Decidable (s.InRegion region i) := by
  unfold Store.InRegion; infer_instance

instance (s : Store) (region : List PyStr) (q : Quant) : Decidable (s.Inside region q) := by
  unfold Store.Inside; infer_instance

theorem Demo.src_quants : Demo.src.quants = [⟨1, 1, 1, 100⟩, ⟨2, 2, 2, 7⟩, ⟨3, 3, 1, 2⟩] := by decide +kernel

theorem Demo.src_clear : ∀ q ∈ Demo.src.quants, Demo.src.Inside [Demo.lx] q ∨ Demo.src.Outside [Demo.lx] q := by
  rw [Demo.src_quants]
  have hlocs : Demo.src.locs = [⟨1, [Demo.lx]⟩, ⟨2, [Demo.ly]⟩, ⟨3, [['-']]⟩] := by decide +kernel
  intro q hq
  simp only [List.mem_cons, List.not_mem_nil, or_false] at hq
  rcases hq with rfl | rfl | rfl
  · exact .inl ⟨⟨1, [Demo.lx]⟩, by rw [hlocs]; simp, rfl, by decide⟩
  · exact .inr ⟨⟨2, [Demo.ly]⟩, by rw [hlocs]; simp, rfl, 0, Demo.lx, Demo.ly, rfl, rfl, by decide, by decide, by decide⟩
  · exact .inr ⟨⟨3, [['-']]⟩, by rw [hlocs]; simp, rfl, 0, Demo.lx, ['-'], rfl, rfl, by decide, by decide, by decide⟩

theorem Demo.regions : ∀ i, ∀ m ∈ Demo.store.maps, m.other = (i : Nat) →
    (Demo.src.InRegion [Demo.lx] i ↔ Demo.store.InRegion [Demo.lx, []] m.index) := by
  rw [Demo.maps_eq]
  have h1 : Demo.src.InRegion [Demo.lx] 1 ∧ ¬ Demo.src.InRegion [Demo.lx] 2 := by decide +kernel
  have h2 : Demo.store.InRegion [Demo.lx, []] 1 ∧ Demo.store.InRegion [Demo.lx, []] 2 ∧
    ¬ Demo.store.InRegion [Demo.lx, []] 3 := by decide +kernel
  intro i m hm
  simp only [List.mem_cons, List.not_mem_nil, or_false] at hm
  rcases hm with rfl | rfl | rfl
  · intro hi
    have : i = 1 := by simp only at hi; omega
    subst this
    exact iff_of_true h1.1 h2.1
  · intro hi
    have : i = 1 := by simp only at hi; omega
    subst this
    exact iff_of_true h1.1 h2.2.1
  · intro hi
    have : i = 2 := by simp only at hi; omega
    subst this
    exact iff_of_false h1.2 h2.2.2

theorem Demo.region_zero : Demo.src.InRegion [Demo.lx] 0 ↔ Demo.store.InRegion [Demo.lx, []] 0 := by
  have h1 : ¬ Demo.src.InRegion [Demo.lx] 0 := by decide +kernel
  have h2 : ¬ Demo.store.InRegion [Demo.lx, []] 0 := by decide +kernel
  exact iff_of_false h1 h2

-- the hypotheses of C101_read, C101_reader, C101_translate, C101_end_to_end, C102_translate, C102_end_to_end; the
-- region has 100 of 109
example : Demo.translated.readSum (fun i a => Demo.store.InRegion [Demo.lx, []] i ∧ a = Demo.attrM ∨
      Demo.store.InRegion [Demo.lx, []] i ∧ a ≠ Demo.attrM) = 100 ∧
    Demo.translated.readSum (fun i _ => Demo.store.InRegion [Demo.lx, []] i ∧ True) =
      Demo.src.stored asciiCase [] (fun q => Demo.src.Inside [Demo.lx] q ∧
        Demo.src.AttrsSat (fun _ => True) q) ∧
    ∀ x ∈ Demo.translated.rows, ∃ q ∈ Demo.src.quants, Demo.src.Counted q ∧ Demo.src.Selected asciiCase [] q ∧
      PartOf (x.value.getD 0) q.value := by
  refine ⟨?_, ?_, ?_⟩
  · have h : ∀ x ∈ Demo.translated.rows, (Demo.store.InRegion [Demo.lx, []] x.index ∧ x.attrs = Demo.attrM ∨
        Demo.store.InRegion [Demo.lx, []] x.index ∧ x.attrs ≠ Demo.attrM) ↔ x.index = 1 ∨ x.index = 2 := by
      decide +kernel
    unfold Reader.readSum
    rw [List.filter_congr (q := fun x : ReaderRow => decide (x.index = 1 ∨ x.index = 2)) (by
      intro x hx
      rw [decide_eq_decide]
      exact h x hx)]
    decide +kernel
  · exact C101_end_to_end Demo.src_reachable Demo.reachableFk.tidy Demo.reachableHashed (ok_of_toOption Demo.reader_eq)
      (ok_of_toOption Demo.translated_eq) [Demo.lx] [Demo.lx, []] (fun q hq _ _ => Demo.src_clear q hq)
      Demo.region_zero (fun l _ i m hm => by
        obtain ⟨h1, h2⟩ := List.mem_filter.1 hm
        exact Demo.regions i m h1 (of_decide_eq_true h2).2) (P := fun _ => True) (fun _ _ _ => Iff.rfl)
  · exact C102_end_to_end Demo.src_reachable Demo.reachableFk.tidy Demo.reachableHashed (ok_of_toOption Demo.reader_eq)
      (ok_of_toOption Demo.translated_eq)

-- the hypotheses of C101_bounds, C102_read and C102_nonneg; a region that has a part of a location
example : ∃ rows, Demo.store.call asciiCase [] false = .ok rows ∧ (∀ q ∈ Demo.store.quants, 0 ≤ q.value) ∧
    (rows.filter fun r => decide (Demo.store.InRegion [Demo.lx, Demo.l1] r.1)).map (·.2.2) = [75] := by
  refine ⟨_, ok_of_toOption Demo.read_eq, ?_, by decide +kernel⟩
  rw [Demo.quants_eq]
  decide

end Toron.Space
