/-
Reading is additive in the quantities.
-/
import Verif.Spec.Adding
import Verif.Lemmas.Store.SameRead
import Verif.Lemmas.Store.UnitsRead
import Mathlib.Algebra.BigOperators.Group.Finset.Basic

namespace Toron.Space

open Toron.Selectors (PyStr Sel CaseMap getGreatestUniqueSpecificity)

section
variable {s t u : Store}

theorem SameSetting.refl (s : Store) : SameSetting s s := ⟨rfl, rfl, rfl, rfl, rfl, rfl, fun _ _ _ => Iff.rfl⟩

/-- The same content after the quantities of the one were put into the other. -/
theorem SameSetting.content (h : SameSetting s t) :
    SameContent s { t with quants := s.quants, locs := s.locs, agroups := s.agroups } :=
  ⟨h.columns, h.records, h.combinations, h.groups, h.dflt, h.domain, h.weights, fun _ _ _ => Iff.rfl⟩

theorem SameSetting.getDefaultWG (h : SameSetting s t) : t.getDefaultWG = s.getDefaultWG := h.content.getDefaultWG

theorem SameSetting.readOne (h : SameSetting s t) (hs : WeightInv s) (ht : WeightInv t) (hwf : s.SelectorsWF) {d : WGroup}
    (hd : s.getDefaultWG = .ok d) (cm : CaseMap) (fin quantize : Bool) (labels : List PyStr) (a : Attrs) (v : ℚ) :
    t.readOne cm d.id fin quantize labels a v = s.readOne cm d.id fin quantize labels a v :=
  h.content.readOne hs ⟨ht.ids, ht.pairs, ht.defined, ht.nonneg, ht.gids, ht.names, ht.gpos⟩ hwf hd cm fin quantize labels a v

/-- A target has one amount. -/
theorem amount_unique (hq : QuantInv s) {labels : List PyStr} {a : Attrs} {x y : ℚ} (hx : s.HasQuantity labels a x)
    (hy : s.HasQuantity labels a y) : x = y := by
  obtain ⟨q, hq1, ⟨l, hl, hlq, hll⟩, ⟨g, hg, hgq, hga⟩, rfl⟩ := hx
  obtain ⟨q', hq1', ⟨l', hl', hlq', hll'⟩, ⟨g', hg', hgq', hga'⟩, rfl⟩ := hy
  obtain rfl := List.inj_on_of_nodup_map hq.locLabels hl hl' (hll.trans hll'.symm)
  obtain rfl := List.inj_on_of_nodup_map hq.agAttrs hg hg' (hga.trans hga'.symm)
  rw [List.inj_on_of_nodup_map hq.pairs hq1 hq1' (by rw [← hlq, ← hlq', ← hgq, ← hgq'])]

/-- What is read for a quantity is proportional to it. -/
theorem readOne_scale (s : Store) (cm : CaseMap) (d : Nat) (fin : Bool) (labels : List PyStr) (a : Attrs) (v : ℚ) :
    s.readOne cm d fin false labels a v =
      (s.readOne cm d fin false labels a 1).map (List.map fun p => (p.1, p.2.1, v * p.2.2)) := by
  unfold Store.readOne
  cases s.matchingIds labels with
  | nil => rfl
  | cons i is =>
    dsimp only
    by_cases hf : fin = true
    · rw [if_pos hf, if_pos hf]
      simp [Except.map]
    rw [if_neg hf, if_neg hf]
    cases getGreatestUniqueSpecificity cm (s.withDomain a) s.selectorDict d with
    | error e => rfl
    | ok g =>
      have h := disaggregateValue_units (c := 1) (a := v) one_ne_zero 1 (i :: is) (s.weightOf g)
      rw [mul_one, show (fun j => (s.weightOf g j).map ((1 : ℚ) * ·)) = s.weightOf g by
        funext j; cases s.weightOf g j <;> simp] at h
      show (do
        let parts ← disaggregateValue v (i :: is) (s.weightOf g)
        Except.ok (parts.map fun p => (p.1, s.withDomain a, p.2))) = Except.map _ (do
        let parts ← disaggregateValue 1 (i :: is) (s.weightOf g)
        Except.ok (parts.map fun p => (p.1, s.withDomain a, p.2)))
      rw [h]
      cases disaggregateValue 1 (i :: is) (s.weightOf g) with
      | error e => rfl
      | ok parts =>
        show Except.ok _ = Except.ok _
        simp only [List.map_map]
        rfl

/-- The amounts of the rows that satisfy a condition. -/
def rowsSum (P : Nat → Attrs → Bool) (rows : List (Nat × Attrs × ℚ)) : ℚ :=
  ((rows.filter fun x => P x.1 x.2.1).map (·.2.2)).sum

theorem rowsSum_append (P : Nat → Attrs → Bool) (a b : List (Nat × Attrs × ℚ)) :
    rowsSum P (a ++ b) = rowsSum P a + rowsSum P b := by
  simp [rowsSum]

theorem rowsSum_scale (P : Nat → Attrs → Bool) (v : ℚ) (rows : List (Nat × Attrs × ℚ)) :
    rowsSum P (rows.map fun p => (p.1, p.2.1, v * p.2.2)) = v * rowsSum P rows := by
  unfold rowsSum
  induction rows with
  | nil => simp
  | cons r rows ih =>
    rw [List.map_cons, List.filter_cons, List.filter_cons]
    dsimp only
    split
    · rw [List.map_cons, List.sum_cons, List.map_cons, List.sum_cons, ih]
      ring
    · exact ih

theorem rowsSum_flatMapE {ζ : Type} (P : Nat → Attrs → Bool) (f : ζ → Except Err (List (Nat × Attrs × ℚ))) : ∀ (l : List ζ)
    {rows : List (Nat × Attrs × ℚ)}, flatMapE f l = .ok rows →
    rowsSum P rows = (l.map fun z => rowsSum P ((f z).toOption.getD [])).sum
  | [], rows, h => by
    cases h
    rfl
  | z :: l, rows, h => by
    rw [flatMapE] at h
    cases hz : f z with
    | error e => rw [hz] at h; cases h
    | ok a =>
      cases hl : flatMapE f l with
      | error e => rw [hz, hl] at h; cases h
      | ok b =>
        rw [hz, hl] at h
        cases h
        rw [rowsSum_append, rowsSum_flatMapE P f l hl, List.map_cons, List.sum_cons, hz]
        rfl

/-- A call that succeeds, in terms of the data. -/
theorem call_list (hr : Reachable s) (hg : s.Grouped) {cm : CaseMap} {sels : List Sel} (hsel : ∀ x ∈ sels, x.WF) {quantize : Bool}
    {rows : List (Nat × Attrs × ℚ)} (h : s.call cm sels quantize = .ok rows) :
    ∃ d first rest, s.getDefaultWG = .ok d ∧ d.complete = true ∧ s.structsSorted = first :: rest ∧
    ∃ items : List (StructRec × List PyStr × Attrs × ℚ), items.Nodup ∧
      (∀ z, z ∈ items ↔ z.1 ∈ s.structs ∧ nonemptyBits z.2.1 = z.1.bits ∧
        s.HasQuantity z.2.1 z.2.2.1 z.2.2.2 ∧ (sels = [] ∨ Sel.evalAny cm z.2.2.1 sels = .ok true)) ∧
      flatMapE (fun z : StructRec × List PyStr × Attrs × ℚ =>
        s.readOne cm d.id (granEq z.1.gran first.gran) quantize z.2.1 z.2.2.1 z.2.2.2) items = .ok rows := by
  obtain ⟨f, hf⟩ := attributeFilter_exists s cm hsel
  rw [call_eq hr.quantInv hg hf] at h
  cases hd : s.getDefaultWG with
  | error e => rw [hd] at h; cases h
  | ok d =>
    rw [hd] at h
    dsimp only at h
    by_cases hc : (!d.complete) = true
    · rw [if_pos hc] at h; cases h
    rw [if_neg hc] at h
    have hps : s.structsSorted.Perm s.structs := sortedBy_perm _ _
    cases hst : s.structsSorted with
    | nil => rw [hst] at h; cases h
    | cons first rest =>
      rw [hst] at h hps
      refine ⟨d, first, rest, rfl, by simpa using hc, rfl, _, items_nodup hr.quantInv hg (C53_once hr) f hps, ?_, h⟩
      intro z
      rw [mem_items hr.quantInv hg hf, hps.mem_iff]

/-- The other direction: a call succeeds if every quantity can be read. -/
theorem call_of_list (hr : Reachable s) (hg : s.Grouped) {cm : CaseMap} {sels : List Sel} (hsel : ∀ x ∈ sels, x.WF) {quantize : Bool}
    {d : WGroup} {first : StructRec} {rest : List StructRec} (hd : s.getDefaultWG = .ok d) (hdc : d.complete = true)
    (hst : s.structsSorted = first :: rest) {items : List (StructRec × List PyStr × Attrs × ℚ)} (hnd : items.Nodup)
    (hm : ∀ z, z ∈ items ↔ z.1 ∈ s.structs ∧ nonemptyBits z.2.1 = z.1.bits ∧
        s.HasQuantity z.2.1 z.2.2.1 z.2.2.2 ∧ (sels = [] ∨ Sel.evalAny cm z.2.2.1 sels = .ok true))
    {rows : List (Nat × Attrs × ℚ)} (h : flatMapE (fun z : StructRec × List PyStr × Attrs × ℚ =>
        s.readOne cm d.id (granEq z.1.gran first.gran) quantize z.2.1 z.2.2.1 z.2.2.2) items = .ok rows) :
    ∃ rows', s.call cm sels quantize = .ok rows' ∧ rows'.Perm rows := by
  obtain ⟨f, hf⟩ := attributeFilter_exists s cm hsel
  rw [call_eq hr.quantInv hg hf, hd]
  dsimp only
  rw [if_neg (by simp [hdc]), hst]
  have hps : s.structsSorted.Perm s.structs := sortedBy_perm _ _
  rw [hst] at hps
  refine flatMapE_perm ?_ h
  rw [List.perm_ext_iff_of_nodup hnd (items_nodup hr.quantInv hg (C53_once hr) f hps)]
  intro z
  rw [hm, mem_items hr.quantInv hg hf, hps.mem_iff]

/-- The combination, the labels and the attributes of a quantity. -/
abbrev ItemKey := StructRec × List PyStr × Attrs

def itemKey (z : StructRec × List PyStr × Attrs × ℚ) : ItemKey := (z.1, z.2.1, z.2.2.1)

open Classical in
noncomputable def Store.amountOf (s : Store) (labels : List PyStr) (a : Attrs) : ℚ :=
  if h : ∃ x, s.HasQuantity labels a x then h.choose else 0

theorem amountOf_is (s : Store) (labels : List PyStr) (a : Attrs) : s.AmountIs labels a (s.amountOf labels a) := by
  unfold Store.amountOf
  split
  · rename_i h; exact .inl h.choose_spec
  · rename_i h; exact .inr ⟨rfl, fun y hy => h ⟨y, hy⟩⟩

theorem amountOf_eq (hq : QuantInv s) {labels : List PyStr} {a : Attrs} {x : ℚ} (h : s.HasQuantity labels a x) :
    s.amountOf labels a = x := by
  rcases amountOf_is s labels a with h' | ⟨_, h'⟩
  · exact amount_unique hq h' h
  · exact absurd h (h' x)

open Classical in
/-- A sum over the quantities read as a sum over targets. -/
theorem items_sum (hq : QuantInv s) {Q : ItemKey → Prop} {items : List (StructRec × List PyStr × Attrs × ℚ)} (hnd : items.Nodup)
    (hm : ∀ z, z ∈ items ↔ Q (itemKey z) ∧ s.HasQuantity z.2.1 z.2.2.1 z.2.2.2) (c : ItemKey → ℚ) (K : Finset ItemKey)
    (hK : ∀ k ∈ K, Q k) (hK' : ∀ z ∈ items, itemKey z ∈ K) :
    (items.map fun z => z.2.2.2 * c (itemKey z)).sum = ∑ k ∈ K, s.amountOf k.2.1 k.2.2 * c k := by
  have h1 : (items.map fun z => z.2.2.2 * c (itemKey z)) =
      (items.map itemKey).map fun k => s.amountOf k.2.1 k.2.2 * c k := by
    rw [List.map_map]
    refine List.map_congr_left fun z hz => ?_
    show _ = s.amountOf z.2.1 z.2.2.1 * _
    rw [amountOf_eq hq ((hm z).1 hz).2]
  have hnd' : (items.map itemKey).Nodup := by
    refine List.Nodup.map_on ?_ hnd
    rintro ⟨st, l, a, v⟩ hz ⟨st', l', a', v'⟩ hz' he
    simp only [itemKey, Prod.mk.injEq] at he
    obtain ⟨rfl, rfl, rfl⟩ := he
    rw [show v = v' from amount_unique hq ((hm _).1 hz).2 ((hm _).1 hz').2]
  rw [h1, ← List.sum_toFinset _ hnd']
  refine Finset.sum_subset ?_ ?_
  · intro k hk
    obtain ⟨z, hz, rfl⟩ := List.mem_map.1 (List.mem_toFinset.1 hk)
    exact hK' z hz
  · intro k hk hk'
    rcases amountOf_is s k.2.1 k.2.2 with h | ⟨h, _⟩
    · exact absurd (List.mem_toFinset.2 (List.mem_map.2 ⟨(k.1, k.2.1, k.2.2, _), (hm _).2 ⟨hK k hk, h⟩, rfl⟩)) hk'
    · rw [h, zero_mul]

open Classical in
/-- Reading, as a sum over targets. -/
theorem call_sum (hs : Reachable s) (ht : Reachable t) (h : SameSetting s t) (hwf : s.SelectorsWF)
    {cm : CaseMap} {d : WGroup} {first : StructRec} (hd : s.getDefaultWG = .ok d)
    {Q : ItemKey → Prop} {items : List (StructRec × List PyStr × Attrs × ℚ)} (hnd : items.Nodup)
    (hm : ∀ z, z ∈ items ↔ Q (itemKey z) ∧ t.HasQuantity z.2.1 z.2.2.1 z.2.2.2)
    {rows : List (Nat × Attrs × ℚ)} (hrows : flatMapE (fun z : StructRec × List PyStr × Attrs × ℚ =>
        t.readOne cm d.id (granEq z.1.gran first.gran) false z.2.1 z.2.2.1 z.2.2.2) items = .ok rows)
    (K : Finset ItemKey) (hK : ∀ k ∈ K, Q k) (hK' : ∀ z ∈ items, itemKey z ∈ K) (P : Nat → Attrs → Bool) :
    rowsSum P rows = ∑ k ∈ K, t.amountOf k.2.1 k.2.2 *
      rowsSum P ((s.readOne cm d.id (granEq k.1.gran first.gran) false k.2.1 k.2.2 1).toOption.getD []) := by
  rw [rowsSum_flatMapE P _ _ hrows, ← items_sum ht.quantInv hnd hm
    (fun k => rowsSum P ((s.readOne cm d.id (granEq k.1.gran first.gran) false k.2.1 k.2.2 1).toOption.getD [])) K hK hK']
  congr 1
  refine List.map_congr_left fun z _ => ?_
  rw [h.readOne hs.weightInv ht.weightInv hwf hd, readOne_scale]
  dsimp only [itemKey]
  cases s.readOne cm d.id (granEq z.1.gran first.gran) false z.2.1 z.2.2.1 1 with
  | error e => simp [Except.map, Except.toOption, rowsSum]
  | ok r => exact rowsSum_scale P _ r

open Classical in
theorem call_adds (hs : Reachable s) (ht : Reachable t) (hu : Reachable u) (hst : SameSetting s t) (hsu : SameSetting s u)
    (hwf : s.SelectorsWF) (hgs : s.Grouped) (hgt : t.Grouped) (hgu : u.Grouped) (hadd : Adds s t u) {cm : CaseMap}
    {sels : List Sel} (hsel : ∀ x ∈ sels, x.WF) {rs rt ru : List (Nat × Attrs × ℚ)} (h1 : s.call cm sels false = .ok rs)
    (h2 : t.call cm sels false = .ok rt) (h3 : u.call cm sels false = .ok ru) (P : Nat → Attrs → Bool) :
    rowsSum P ru = rowsSum P rs + rowsSum P rt := by
  obtain ⟨d, first, rest, hd, -, hss, is, hn1, hm1, hr1⟩ := call_list hs hgs hsel h1
  obtain ⟨d2, first2, rest2, hd2, -, hss2, it, hn2, hm2, hr2⟩ := call_list ht hgt hsel h2
  obtain ⟨d3, first3, rest3, hd3, -, hss3, iu, hn3, hm3, hr3⟩ := call_list hu hgu hsel h3
  have sorted : ∀ {x : Store}, SameSetting s x → x.structsSorted = s.structsSorted := by
    intro x hx
    unfold Store.structsSorted
    rw [hx.combinations]
  rw [hst.getDefaultWG, hd] at hd2
  cases hd2
  rw [hsu.getDefaultWG, hd] at hd3
  cases hd3
  rw [sorted hst, hss] at hss2
  cases hss2
  rw [sorted hsu, hss] at hss3
  cases hss3
  let Q : ItemKey → Prop := fun k => k.1 ∈ s.structs ∧ nonemptyBits k.2.1 = k.1.bits ∧
    (sels = [] ∨ Sel.evalAny cm k.2.2 sels = .ok true)
  have q1 : ∀ z, z ∈ is ↔ Q (itemKey z) ∧ s.HasQuantity z.2.1 z.2.2.1 z.2.2.2 := by
    intro z; rw [hm1]; simp only [Q, itemKey]; tauto
  have q2 : ∀ z, z ∈ it ↔ Q (itemKey z) ∧ t.HasQuantity z.2.1 z.2.2.1 z.2.2.2 := by
    intro z; rw [hm2, hst.combinations]; simp only [Q, itemKey]; tauto
  have q3 : ∀ z, z ∈ iu ↔ Q (itemKey z) ∧ u.HasQuantity z.2.1 z.2.2.1 z.2.2.2 := by
    intro z; rw [hm3, hsu.combinations]; simp only [Q, itemKey]; tauto
  let K : Finset ItemKey := (is.map itemKey).toFinset ∪ (it.map itemKey).toFinset ∪ (iu.map itemKey).toFinset
  have hK : ∀ k ∈ K, Q k := by
    intro k hk
    simp only [K, Finset.mem_union, List.mem_toFinset, List.mem_map] at hk
    rcases hk with (⟨z, hz, rfl⟩ | ⟨z, hz, rfl⟩) | ⟨z, hz, rfl⟩
    · exact ((q1 z).1 hz).1
    · exact ((q2 z).1 hz).1
    · exact ((q3 z).1 hz).1
  have mem : ∀ {l : List (StructRec × List PyStr × Attrs × ℚ)}, (l.map itemKey).toFinset ⊆ K → ∀ z ∈ l, itemKey z ∈ K :=
    fun h z hz => h (List.mem_toFinset.2 (List.mem_map_of_mem hz))
  rw [call_sum hs hs (.refl s) hwf hd hn1 q1 hr1 K hK (mem fun k hk => by simp only [K, Finset.mem_union]; tauto) P,
    call_sum hs ht hst hwf hd hn2 q2 hr2 K hK (mem fun k hk => by simp only [K, Finset.mem_union]; tauto) P,
    call_sum hs hu hsu hwf hd hn3 q3 hr3 K hK (mem fun k hk => by simp only [K, Finset.mem_union]; tauto) P,
    ← Finset.sum_add_distrib]
  refine Finset.sum_congr rfl fun k _ => ?_
  rw [hadd k.2.1 k.2.2 _ _ _ (amountOf_is s _ _) (amountOf_is t _ _) (amountOf_is u _ _), add_mul]

/-! ### Quantities put together -/

theorem flatMapE_subset {α β : Type} {f : α → Except Err (List β)} {l l' : List α} (h : ∀ a ∈ l', a ∈ l) {r : List β}
    (hr : flatMapE f l = .ok r) : ∃ r', flatMapE f l' = .ok r' := by
  obtain ⟨bs, rfl, -, hb⟩ := flatMapE_ok hr
  induction l' with
  | nil => exact ⟨[], rfl⟩
  | cons a l' ih =>
    obtain ⟨r', hr'⟩ := ih fun x hx => h x (by simp [hx])
    obtain ⟨b, hb1, rfl⟩ := List.mem_map.1 (h a (by simp))
    exact ⟨b.2 ++ r', by rw [flatMapE, hb b hb1, hr']; rfl⟩

theorem Unites.symm (h : Unites s t u) : Unites t s u :=
  ⟨fun l a x => (h.either l a x).trans or_comm, fun l a x y hx hy => h.apart l a y x hy hx⟩

theorem SameSetting.symm (h : SameSetting s t) : SameSetting t s :=
  ⟨h.columns.symm, h.records.symm, h.combinations.symm, h.groups.symm, h.dflt.symm, h.domain.symm,
    fun n i x => (h.weights n i x).symm⟩

theorem SameSetting.trans (h : SameSetting s t) (h' : SameSetting t u) : SameSetting s u :=
  ⟨h'.columns.trans h.columns, h'.records.trans h.records, h'.combinations.trans h.combinations, h'.groups.trans h.groups,
    h'.dflt.trans h.dflt, h'.domain.trans h.domain, fun n i x => (h'.weights n i x).trans (h.weights n i x)⟩

theorem SameSetting.sorted (h : SameSetting s t) : t.structsSorted = s.structsSorted := by
  unfold Store.structsSorted
  rw [h.combinations]

theorem SameSetting.selectorsWF (h : SameSetting s t) (hwf : s.SelectorsWF) : t.SelectorsWF := by
  unfold Store.SelectorsWF
  rw [h.groups]
  exact hwf

theorem call_unites (hs : Reachable s) (ht : Reachable t) (hu : Reachable u) (hst : SameSetting s t) (hsu : SameSetting s u)
    (hwf : s.SelectorsWF) (hgs : s.Grouped) (hgt : t.Grouped) (hgu : u.Grouped) (hun : Unites s t u) {cm : CaseMap}
    {sels : List Sel} (hsel : ∀ x ∈ sels, x.WF) {quantize : Bool} {rs rt : List (Nat × Attrs × ℚ)}
    (h1 : s.call cm sels quantize = .ok rs) (h2 : t.call cm sels quantize = .ok rt) :
    ∃ ru, u.call cm sels quantize = .ok ru ∧ ru.Perm (rs ++ rt) := by
  obtain ⟨d, first, rest, hd, hdc, hss, is, hn1, hm1, hr1⟩ := call_list hs hgs hsel h1
  obtain ⟨d2, first2, rest2, hd2, -, hss2, it, hn2, hm2, hr2⟩ := call_list ht hgt hsel h2
  rw [hst.getDefaultWG, hd] at hd2
  cases hd2
  rw [hst.sorted, hss] at hss2
  cases hss2
  refine call_of_list hu hgu hsel (hsu.getDefaultWG.trans hd) hdc (hsu.sorted.trans hss) (items := is ++ it) ?_ ?_ ?_
  · refine List.nodup_append'.2 ⟨hn1, hn2, ?_⟩
    intro z hz hz'
    exact hun.apart _ _ _ _ ((hm1 z).1 hz).2.2.1 ((hm2 z).1 hz').2.2.1
  · intro z
    rw [List.mem_append, hm1, hm2, hst.combinations, hsu.combinations, hun.either]
    tauto
  · rw [flatMapE_append, flatMapE_congr (l := is) fun z _ =>
      hsu.readOne hs.weightInv hu.weightInv hwf hd cm (granEq z.1.gran first.gran) quantize z.2.1 z.2.2.1 z.2.2.2, hr1,
      flatMapE_congr (l := it) fun z _ => (hst.symm.trans hsu).readOne ht.weightInv hu.weightInv (hst.selectorsWF hwf)
        (hst.getDefaultWG.trans hd) cm (granEq z.1.gran first.gran) quantize z.2.1 z.2.2.1 z.2.2.2, hr2]
    rfl

theorem call_of_unites (hs : Reachable s) (hu : Reachable u) (hsu : SameSetting s u)
    (hwf : s.SelectorsWF) (hgs : s.Grouped) (hgu : u.Grouped)
    (hsub : ∀ l a x, s.HasQuantity l a x → u.HasQuantity l a x) {cm : CaseMap}
    {sels : List Sel} (hsel : ∀ x ∈ sels, x.WF) {quantize : Bool} {ru : List (Nat × Attrs × ℚ)}
    (h : u.call cm sels quantize = .ok ru) : ∃ rs, s.call cm sels quantize = .ok rs := by
  classical
  obtain ⟨d, first, rest, hd, hdc, hss, iu, hn, hm, hr⟩ := call_list hu hgu hsel h
  let is := iu.filter fun z => decide (s.HasQuantity z.2.1 z.2.2.1 z.2.2.2)
  obtain ⟨rs, hrs⟩ := flatMapE_subset (l' := is) (fun z hz => List.mem_of_mem_filter hz) hr
  have hd' : s.getDefaultWG = .ok d := by rw [← hsu.getDefaultWG, hd]
  obtain ⟨r', h', -⟩ := call_of_list hs hgs hsel (quantize := quantize) hd' hdc (hsu.sorted.symm.trans hss) (items := is)
    (hn.filter _) (by
      intro z
      rw [List.mem_filter, hm, decide_eq_true_eq, hsu.combinations]
      exact ⟨fun h => ⟨h.1.1, h.1.2.1, h.2, h.1.2.2.2⟩, fun h => ⟨⟨h.1, h.2.1, hsub _ _ _ h.2.2.1, h.2.2.2⟩, h.2.2.1⟩⟩) (rows := rs) (by
      rw [← hrs]
      exact flatMapE_congr fun z _ => (hsu.readOne hs.weightInv hu.weightInv hwf hd' cm _ quantize _ _ _).symm)
  exact ⟨r', h'⟩

/-! ### Selecting -/

theorem readOne_attrs {cm : CaseMap} {d : Nat} {fin quantize : Bool} {labels : List PyStr} {a : Attrs} {v : ℚ}
    {rows : List (Nat × Attrs × ℚ)} (h : s.readOne cm d fin quantize labels a v = .ok rows) :
    ∀ x ∈ rows, x.2.1 = s.withDomain a := by
  unfold Store.readOne at h
  cases hm : s.matchingIds labels with
  | nil => rw [hm] at h; cases h
  | cons i is =>
    rw [hm] at h
    dsimp only at h
    by_cases hf : fin = true
    · rw [if_pos hf] at h
      cases h
      simp
    rw [if_neg hf] at h
    cases hg : getGreatestUniqueSpecificity cm (s.withDomain a) s.selectorDict d with
    | error e => rw [hg] at h; cases h
    | ok g =>
      rw [hg] at h
      simp only [bind, Except.bind] at h
      cases hp : disaggregateValue v (i :: is) (s.weightOf g) with
      | error e => rw [hp] at h; cases h
      | ok parts =>
        rw [hp] at h
        dsimp only at h
        have fin : ∀ ps : List (Nat × ℚ), Except.ok (ps.map fun p => (p.1, s.withDomain a, p.2)) = Except.ok (ε := Err) rows →
            ∀ x ∈ rows, x.2.1 = s.withDomain a := by
          intro ps he
          cases he
          intro x hx
          obtain ⟨p, _, rfl⟩ := List.mem_map.1 hx
          rfl
        cases quantize with
        | false => exact fin _ h
        | true =>
          cases hq : quantizeValues parts v with
          | error e => rw [hq] at h; cases h
          | ok parts' => rw [hq] at h; exact fin _ h

open Classical in
theorem call_select (hs : Reachable s) (hg : s.Grouped) {cm : CaseMap} {sels : List Sel} (hsel : ∀ x ∈ sels, x.WF)
    (hne : sels ≠ []) {quantize : Bool} {all : List (Nat × Attrs × ℚ)} (h : s.call cm [] quantize = .ok all) :
    ∃ parts : List (Attrs × List (Nat × Attrs × ℚ)),
      (∀ p ∈ parts, canonAttrs p.1 = p.1 ∧ ∀ x ∈ p.2, x.2.1 = s.withDomain p.1) ∧ all = parts.flatMap (·.2) ∧ ∃ rows, s.call cm sels quantize = .ok rows ∧
        rows.Perm ((parts.filter fun p => Sel.evalAny cm p.1 sels = .ok true).flatMap (·.2)) := by
  obtain ⟨d, first, rest, hd, hdc, hss, items, hn, hm, hr⟩ := call_list hs hg (by simp) h
  obtain ⟨bs, hb1, rfl, hb⟩ := flatMapE_ok hr
  refine ⟨bs.map fun b => (b.1.2.2.1, b.2), ?_, ?_, ?_⟩
  · intro p hp
    obtain ⟨b, hb', rfl⟩ := List.mem_map.1 hp
    refine ⟨?_, readOne_attrs (hb b hb')⟩
    obtain ⟨q, -, -, ⟨g, hg', -, hga⟩, -⟩ := ((hm b.1).1 (hb1 ▸ List.mem_map_of_mem hb')).2.2.1
    obtain ⟨a, ha⟩ := hs.attrInv.sorted g hg'
    dsimp only
    rw [← hga, ha, canonAttrs_idem]
  · rw [List.flatMap_map]
  · refine call_of_list hs hg hsel hd hdc hss
      (items := items.filter fun z => decide (Sel.evalAny cm z.2.2.1 sels = .ok true)) (hn.filter _) ?_ ?_
    · intro z
      rw [List.mem_filter, hm, decide_eq_true_eq]
      simp only [hne, false_or, true_or, and_true]
      tauto
    · rw [← hb1]
      clear hb1 hr h hm hn
      induction bs with
      | nil => rfl
      | cons b bs ih =>
        have ih' := ih fun x hx => hb x (by simp [hx])
        simp only [List.map_cons, List.filter_cons]
        by_cases hc : Sel.evalAny cm b.1.2.2.1 sels = .ok true
        · rw [if_pos (by simpa using hc), if_pos (by simpa using hc), flatMapE, hb b (by simp), ih']
          rfl
        · rw [if_neg (by simpa using hc), if_neg (by simpa using hc), ih']

/-! ### Translating -/

/-- What becomes of a row. -/
def translateOne (cm : CaseMap) (trg : Store) (ch : Nat × List (Nat × Option (List Sel))) (quantize : Bool) (row : ReaderRow) :
    Except Err (List ReaderRow) :=
  match getGreatestUniqueSpecificity cm row.attrs ch.2 ch.1 with
  | .ok l => trg.translateRow l quantize row
  | .error _ => .ok []

theorem translate_iff {r : Reader} (hr : ∀ x ∈ r.rows, x.attrs ∈ r.attrData) {cm : CaseMap} {src trg : Store} {quantize : Bool}
    {r' : Reader} : r.translate cm src trg quantize = .ok r' ↔
      ∃ ch, trg.linkChooser src.uid (src.indexHash.map Int.ofNat) = .ok ch ∧
        (∀ a ∈ r.attrData, ∃ l, getGreatestUniqueSpecificity cm a ch.2 ch.1 = .ok l) ∧
        flatMapE (translateOne cm trg ch quantize) r.rows = .ok r'.rows ∧ r' = { r with rows := r'.rows } := by
  unfold Reader.translate
  cases hc : trg.linkChooser src.uid (src.indexHash.map Int.ofNat) with
  | error e => exact ⟨fun h => (by cases h), fun ⟨_, h, _⟩ => (by cases h)⟩
  | ok ch =>
    show (do
      let links ← flatMapE (fun a => do
        let l ← getGreatestUniqueSpecificity cm a ch.2 ch.1
        Except.ok [(a, l)]) r.attrData
      let rows ← flatMapE (fun row : ReaderRow =>
        match lookupLink links row.attrs with
        | some l => trg.translateRow l quantize row
        | none => .ok []) r.rows
      Except.ok { r with rows := rows }) = _ ↔ _
    rcases hl : flatMapE (fun a => do
        let l ← getGreatestUniqueSpecificity cm a ch.2 ch.1
        .ok [(a, l)]) r.attrData with e | links
    · refine ⟨fun h => (by cases h), ?_⟩
      rintro ⟨ch', h, hall, -⟩
      cases h
      obtain ⟨x, hx⟩ := flatMapE_exists (f := fun a => (do
        let l ← getGreatestUniqueSpecificity cm a ch.2 ch.1
        .ok [(a, l)] : Except Err (List (Attrs × Nat)))) (l := r.attrData) (by
          intro a ha
          obtain ⟨l, h⟩ := hall a ha
          exact ⟨[(a, l)], by rw [h]; rfl⟩)
      rw [hl] at hx
      cases hx
    · have hall : ∀ a ∈ r.attrData, ∃ l, getGreatestUniqueSpecificity cm a ch.2 ch.1 = .ok l := by
        intro a ha
        obtain ⟨y, hy⟩ := flatMapE_each hl a ha
        cases hg : getGreatestUniqueSpecificity cm a ch.2 ch.1 with
        | error e => rw [hg] at hy; cases hy
        | ok l => exact ⟨l, rfl⟩
      have heq : flatMapE (fun row : ReaderRow =>
        match lookupLink links row.attrs with
        | some l => trg.translateRow l quantize row
        | none => .ok []) r.rows = flatMapE (translateOne cm trg ch quantize) r.rows := by
        refine flatMapE_congr fun row hrow => ?_
        rw [lookupLink_links hl, if_pos (hr row hrow)]
        unfold translateOne
        cases getGreatestUniqueSpecificity cm row.attrs ch.2 ch.1 <;> rfl
      show (do
        let rows ← flatMapE (fun row : ReaderRow =>
          match lookupLink links row.attrs with
          | some l => trg.translateRow l quantize row
          | none => .ok []) r.rows
        Except.ok { r with rows := rows }) = _ ↔ _
      rw [heq]
      cases hf : flatMapE (translateOne cm trg ch quantize) r.rows with
      | error e =>
        refine ⟨fun h => (by cases h), ?_⟩
        rintro ⟨ch', h, -, h', -⟩
        cases h
        rw [hf] at h'
        cases h'
      | ok rows =>
        constructor
        · intro h
          cases h
          exact ⟨ch, rfl, hall, hf, rfl⟩
        · rintro ⟨ch', h, -, h', h''⟩
          cases h
          rw [hf] at h'
          cases h'
          rw [h'']
          rfl

theorem translate_together {r1 r2 r : Reader} (h1 : r1.Ok) (h2 : r2.Ok) (h : r1.Together r2 r) {cm : CaseMap} {src trg : Store}
    {quantize : Bool} {x1 x2 : Reader} (hx1 : r1.translate cm src trg quantize = .ok x1)
    (hx2 : r2.translate cm src trg quantize = .ok x2) :
    ∃ x, r.translate cm src trg quantize = .ok x ∧ x1.Together x2 x := by
  have hk : ∀ x ∈ r.rows, x.attrs ∈ r.attrData := by
    intro x hx
    rw [h.rows.mem_iff, List.mem_append] at hx
    exact (h.attrs _).2 (hx.imp (h1.known x) (h2.known x))
  obtain ⟨ch, hc, ha1, hr1, he1⟩ := (translate_iff h1.known).1 hx1
  obtain ⟨ch', hc', ha2, hr2, he2⟩ := (translate_iff h2.known).1 hx2
  rw [hc] at hc'
  cases hc'
  obtain ⟨rows, hr, hp⟩ := flatMapE_perm h.rows.symm (f := translateOne cm trg ch quantize) (r := x1.rows ++ x2.rows) (by
    rw [flatMapE_append, hr1, hr2]
    rfl)
  refine ⟨{ r with rows := rows }, (translate_iff hk).2 ⟨ch, hc, ?_, hr, rfl⟩, hp, ?_⟩
  · intro a ha
    exact ((h.attrs a).1 ha).elim (ha1 a) (ha2 a)
  · intro a
    rw [he1, he2]
    exact h.attrs a

theorem translate_only {r x : Reader} (h : r.Ok) {cm : CaseMap} {src trg : Store} {quantize : Bool}
    (hx : r.translate cm src trg quantize = .ok x) (P : Attrs → Bool) :
    (r.only P).translate cm src trg quantize = .ok (x.only P) := by
  obtain ⟨ch, hc, ha, hr, he⟩ := (translate_iff h.known).1 hx
  refine (translate_iff ?_).2 ⟨ch, hc, fun a ha' => ha a (List.mem_of_mem_filter ha'), ?_, ?_⟩
  · intro y hy
    exact List.mem_filter.2 ⟨h.known y (List.mem_of_mem_filter hy), (List.mem_filter.1 hy).2⟩
  · show flatMapE _ (r.rows.filter fun y => P y.attrs) = .ok (x.rows.filter fun y => P y.attrs)
    obtain ⟨bs, hb1, hb2, hb⟩ := flatMapE_ok hr
    rw [hb2, ← hb1]
    clear hb1 hb2
    induction bs with
    | nil => rfl
    | cons b bs ih =>
      have ih' := ih fun y hy => hb y (by simp [hy])
      have hb0 := hb b (by simp)
      have hat : ∀ y ∈ b.2, y.attrs = b.1.attrs := by
        unfold translateOne at hb0
        cases hg : getGreatestUniqueSpecificity cm b.1.attrs ch.2 ch.1 with
        | error e =>
          rw [hg] at hb0
          simp only [Except.ok.injEq] at hb0
          rw [← hb0]
          simp
        | ok l =>
          rw [hg] at hb0
          exact translateRow_attrs hb0
      rw [List.map_cons, List.flatMap_cons, List.filter_append, List.filter_cons]
      by_cases hp : P b.1.attrs = true
      · have h1 : b.2.filter (fun y => P y.attrs) = b.2 :=
          List.filter_eq_self.2 fun y hy => by rw [hat y hy]; exact hp
        rw [if_pos hp, flatMapE, hb0, ih', h1]
        rfl
      · have h1 : b.2.filter (fun y => P y.attrs) = [] :=
          List.filter_eq_nil_iff.2 fun y hy => by rw [hat y hy]; exact hp
        rw [if_neg hp, ih', h1, List.nil_append]
  · rw [he]
    rfl

/-! ### Translating sums -/

/-- A weighted sum of the amounts of rows. -/
def dot (f : Nat × Attrs → ℚ) (rows : List ReaderRow) : ℚ := (rows.map fun x => f (x.index, x.attrs) * x.value.getD 0).sum

theorem dot_append (f : Nat × Attrs → ℚ) (a b : List ReaderRow) : dot f (a ++ b) = dot f a + dot f b := by simp [dot]

theorem dot_cons (f : Nat × Attrs → ℚ) (x : ReaderRow) (b : List ReaderRow) :
    dot f (x :: b) = f (x.index, x.attrs) * x.value.getD 0 + dot f b := by simp [dot]

theorem sumOf_dot (r : Reader) (P : Nat → Attrs → Bool) :
    r.sumOf P = dot (fun k => if P k.1 k.2 then 1 else 0) r.rows := by
  unfold Reader.sumOf dot
  induction r.rows with
  | nil => rfl
  | cons x l ih =>
    rw [List.filter_cons, List.map_cons, List.sum_cons, ← ih]
    dsimp only
    by_cases h : P x.index x.attrs = true
    · rw [if_pos h, if_pos h, List.map_cons, List.sum_cons, one_mul]
    · rw [if_neg h, if_neg h, zero_mul, zero_add]

theorem dot_keys (f : Nat × Attrs → ℚ) (K : Finset (Nat × Attrs)) : ∀ rows : List ReaderRow,
    (∀ x ∈ rows, (x.index, x.attrs) ∈ K) → dot f rows = ∑ k ∈ K, f k * dot (fun k' => if k' = k then 1 else 0) rows
  | [], _ => by simp [dot]
  | x :: rows, h => by
    rw [dot_cons, dot_keys f K rows fun y hy => h y (by simp [hy])]
    simp only [dot_cons, mul_add, Finset.sum_add_distrib]
    congr 1
    rw [Finset.sum_eq_single_of_mem (x.index, x.attrs) (h x (by simp))]
    · rw [if_pos rfl, one_mul]
    · intro k _ hk
      rw [if_neg (Ne.symm hk)]
      ring

/-- If the sums over all conditions add up, so do all weighted sums. -/
theorem dot_adds {rs rt ru : Reader} (h : ∀ P, ru.sumOf P = rs.sumOf P + rt.sumOf P) (f : Nat × Attrs → ℚ) :
    dot f ru.rows = dot f rs.rows + dot f rt.rows := by
  classical
  let K : Finset (Nat × Attrs) := ((ru.rows ++ rs.rows ++ rt.rows).map fun x => (x.index, x.attrs)).toFinset
  have hK : ∀ x ∈ ru.rows ++ rs.rows ++ rt.rows, (x.index, x.attrs) ∈ K := fun x hx =>
    List.mem_toFinset.2 (List.mem_map_of_mem hx)
  rw [dot_keys f K ru.rows fun x hx => hK x (by simp [hx]), dot_keys f K rs.rows fun x hx => hK x (by simp [hx]),
    dot_keys f K rt.rows fun x hx => hK x (by simp [hx]), ← Finset.sum_add_distrib]
  refine Finset.sum_congr rfl fun k _ => ?_
  have := h fun i a => decide ((i, a) = k)
  simp only [sumOf_dot, decide_eq_true_eq, Prod.mk.eta] at this
  rw [this, mul_add]

/-- The share of a source record's amount that goes to the records satisfying a condition. -/
def shareOf (trg : Store) (l : Nat) (f : Nat × Attrs → ℚ) (k : Nat × Attrs) : ℚ :=
  if k.1 = 0 then f k else ((trg.findMaps l k.1).map fun m => f (m.index, k.2) * m.prop.getD 0).sum

theorem translateRow_dot {trg : Store} {l : Nat} {row : ReaderRow} {parts : List ReaderRow}
    (h : trg.translateRow l false row = .ok parts) (f : Nat × Attrs → ℚ) :
    dot f parts = shareOf trg l f (row.index, row.attrs) * row.value.getD 0 := by
  unfold Store.translateRow at h
  unfold shareOf
  by_cases h0 : row.index = 0
  · rw [if_pos h0] at h
    rw [if_pos h0]
    cases h
    simp [dot]
  rw [if_neg h0] at h
  rw [if_neg h0]
  dsimp only
  generalize trg.findMaps l row.index = ms at h
  induction ms generalizing parts with
  | nil =>
    cases h
    simp [dot]
  | cons m ms ih =>
    rw [flatMapE] at h
    cases hv : row.value with
    | none => rw [hv] at h; cases h
    | some v =>
      rw [hv] at h ih
      cases hp : m.prop with
      | none => simp only [scaleBy, hp] at h; cases h
      | some p =>
        simp only [scaleBy, hp] at h
        cases hm : flatMapE (scaleBy (some v)) ms with
        | error e => rw [show flatMapE _ ms = _ from hm] at h; cases h
        | ok items =>
          rw [show flatMapE _ ms = _ from hm] at h
          cases h
          have := ih (parts := items.map fun x => ⟨x.1, row.attrs, some x.2⟩) (by rw [hm]; rfl)
          show dot f (_ :: _) = _
          rw [List.map_cons, List.sum_cons, dot_cons, hp, add_mul, ← this]
          show f (m.index, row.attrs) * (v * p) + _ = f (m.index, row.attrs) * p * v + _
          rw [mul_comm v p, mul_assoc]
          rfl

theorem translate_dot {r x : Reader} (hr : ∀ y ∈ r.rows, y.attrs ∈ r.attrData) {cm : CaseMap} {src trg : Store}
    {ch : Nat × List (Nat × Option (List Sel))} (hc : trg.linkChooser src.uid (src.indexHash.map Int.ofNat) = .ok ch)
    (hx : r.translate cm src trg false = .ok x) (f : Nat × Attrs → ℚ) :
    dot f x.rows = dot (fun k => shareOf trg ((getGreatestUniqueSpecificity cm k.2 ch.2 ch.1).toOption.getD 0) f k) r.rows := by
  obtain ⟨ch', hc', ha, hrows, -⟩ := (translate_iff hr).1 hx
  rw [hc] at hc'
  cases hc'
  have hl : ∀ y ∈ r.rows, ∃ l, getGreatestUniqueSpecificity cm y.attrs ch.2 ch.1 = .ok l := fun y hy => ha _ (hr y hy)
  obtain ⟨bs, hb1, hb2, hb⟩ := flatMapE_ok hrows
  rw [hb2]
  rw [← hb1] at hl ⊢
  clear hb1 hb2
  induction bs with
  | nil => rfl
  | cons b bs ih =>
    rw [List.flatMap_cons, dot_append, List.map_cons, dot_cons, ih (fun y hy => hl y (by
      rw [List.map_cons]
      exact List.mem_cons_of_mem _ hy)) fun y hy => hb y (by simp [hy])]
    congr 1
    obtain ⟨l, hl'⟩ := hl b.1 (by simp)
    have hb0 := hb b (by simp)
    unfold translateOne at hb0
    rw [hl'] at hb0
    rw [translateRow_dot hb0, hl']
    rfl

/-- Amounts that add up before a translation add up after it. -/
theorem translate_adds {rs rt ru : Reader} (h1 : rs.Ok) (h2 : rt.Ok) (h3 : ru.Ok)
    (h : ∀ P, ru.sumOf P = rs.sumOf P + rt.sumOf P) {cm : CaseMap} {src trg : Store} {xs xt xu : Reader}
    (hs : rs.translate cm src trg false = .ok xs) (ht : rt.translate cm src trg false = .ok xt)
    (hu : ru.translate cm src trg false = .ok xu) (P : Nat → Attrs → Bool) :
    xu.sumOf P = xs.sumOf P + xt.sumOf P := by
  obtain ⟨ch, hc, -⟩ := (translate_iff h1.known).1 hs
  rw [sumOf_dot, sumOf_dot, sumOf_dot, translate_dot h1.known hc hs, translate_dot h2.known hc ht,
    translate_dot h3.known hc hu, dot_adds h]

/-! ### Reading -/

theorem reader_sumOf {cm : CaseMap} {sels : List Sel} {quantize : Bool} {sumBy : List PyStr} {r : Reader}
    (h : s.reader cm sels quantize sumBy = .ok r) (P : Nat → Attrs → Bool) :
    ∃ rows, s.call cm sels quantize = .ok rows ∧
      r.sumOf P = rowsSum (fun i a => P i (canonAttrs (s.keepAttrs sumBy a))) rows := by
  unfold Store.reader at h
  cases hc : s.call cm sels quantize with
  | error e => rw [hc] at h; cases h
  | ok rows =>
    rw [hc] at h
    cases h
    refine ⟨rows, rfl, ?_⟩
    unfold Reader.sumOf rowsSum Reader.new
    dsimp only
    rw [List.map_map, List.filter_map, List.map_map]
    rfl

theorem new_attrs (d : List (Nat × Attrs × Option ℚ)) (a : Attrs) :
    a ∈ (Reader.new d).attrData ↔ ∃ x ∈ (Reader.new d).rows, x.attrs = a := by
  unfold Reader.new
  simp only [mem_distinct, List.mem_map]
  constructor
  · rintro ⟨x, hx, rfl⟩
    exact ⟨_, ⟨x, hx, rfl⟩, rfl⟩
  · rintro ⟨_, ⟨x, hx, rfl⟩, rfl⟩
    exact ⟨x, hx, rfl⟩

theorem reader_call {cm : CaseMap} {sels : List Sel} {quantize : Bool} {sumBy : List PyStr} {r : Reader} :
    s.reader cm sels quantize sumBy = .ok r ↔ ∃ rows, s.call cm sels quantize = .ok rows ∧
      r = Reader.new (rows.map fun d => (d.1, s.keepAttrs sumBy d.2.1, some d.2.2)) := by
  unfold Store.reader
  cases hc : s.call cm sels quantize with
  | error e => exact ⟨fun h => (by cases h), fun ⟨_, h, _⟩ => (by cases h)⟩
  | ok rows =>
    constructor
    · intro h
      cases h
      exact ⟨rows, rfl, rfl⟩
    · rintro ⟨_, h, rfl⟩
      cases h
      rfl

theorem reader_isOk {cm : CaseMap} {sels : List Sel} {quantize : Bool} {sumBy : List PyStr} {r : Reader}
    (h : s.reader cm sels quantize sumBy = .ok r) : r.Ok := by
  obtain ⟨rows, -, rfl⟩ := reader_call.1 h
  exact Reader.new_ok _

theorem SameSetting.keepAttrs (h : SameSetting s t) (names : List PyStr) : t.keepAttrs names = s.keepAttrs names := by
  funext a
  unfold Store.keepAttrs Store.getDomain
  rw [h.domain]

theorem new_together {ds dt du : List (Nat × Attrs × Option ℚ)} (h : du.Perm (ds ++ dt)) :
    (Reader.new ds).Together (Reader.new dt) (Reader.new du) := by
  have hr : (Reader.new du).rows.Perm ((Reader.new ds).rows ++ (Reader.new dt).rows) := by
    unfold Reader.new
    dsimp only
    rw [← List.map_append]
    exact h.map _
  refine ⟨hr, fun a => ?_⟩
  simp only [new_attrs, hr.mem_iff, List.mem_append]
  constructor
  · rintro ⟨x, hx | hx, rfl⟩
    · exact .inl ⟨x, hx, rfl⟩
    · exact .inr ⟨x, hx, rfl⟩
  · rintro (⟨x, hx, rfl⟩ | ⟨x, hx, rfl⟩)
    · exact ⟨x, .inl hx, rfl⟩
    · exact ⟨x, .inr hx, rfl⟩

theorem selected_iff {cm : CaseMap} {sels : List Sel} {a : Attrs} :
    selected cm sels a = true ↔ Sel.evalAny cm a sels = .ok true := by
  unfold selected
  cases Sel.evalAny cm a sels with
  | error e => simp
  | ok b => simp

/-- Selecting while reading is the same as selecting from all rows, if there is no domain. -/
theorem reader_select (hs : Reachable s) (hg : s.Grouped) (hd : s.getDomain = []) {cm : CaseMap} {sels : List Sel}
    (hsel : ∀ x ∈ sels, x.WF) (hne : sels ≠ []) {quantize : Bool} {all : Reader}
    (h : s.reader cm [] quantize [] = .ok all) :
    ∃ r, s.reader cm sels quantize [] = .ok r ∧ r.rows.Perm (all.rows.filter fun x => selected cm sels x.attrs) ∧
      ∀ a, a ∈ r.attrData ↔ a ∈ all.attrData ∧ selected cm sels a = true := by
  obtain ⟨rows, hc, rfl⟩ := reader_call.1 h
  obtain ⟨parts, hp, rfl, rows', hc', hperm⟩ := call_select hs hg hsel hne hc
  have hk : ∀ a : Attrs, s.keepAttrs [] a = a := fun a => rfl
  have hrows : (Reader.new (rows'.map fun d => (d.1, s.keepAttrs [] d.2.1, some d.2.2))).rows.Perm
      ((Reader.new ((parts.flatMap (·.2)).map fun d => (d.1, s.keepAttrs [] d.2.1, some d.2.2))).rows.filter
        fun x => selected cm sels x.attrs) := by
    unfold Reader.new
    dsimp only
    rw [List.map_map, List.map_map]
    refine (hperm.map _).trans (.of_eq ?_)
    clear hperm hc hc' h
    induction parts with
    | nil => rfl
    | cons p parts ih =>
      have ih' := ih fun q hq => hp q (by simp [hq])
      obtain ⟨h1, h2⟩ := hp p (by simp)
      rw [List.flatMap_cons, List.map_append, List.filter_append, ← ih', List.filter_cons]
      have hat : ∀ x ∈ p.2.map ((fun d : Nat × Attrs × Option ℚ => (⟨d.1, canonAttrs d.2.1, d.2.2⟩ : ReaderRow)) ∘
          fun d => (d.1, s.keepAttrs [] d.2.1, some d.2.2)), x.attrs = p.1 := by
        intro x hx
        obtain ⟨d, hd', rfl⟩ := List.mem_map.1 hx
        show canonAttrs (s.keepAttrs [] d.2.1) = p.1
        rw [hk, h2 d hd']
        unfold Store.withDomain
        rw [if_pos hd, h1]
      by_cases hb : selected cm sels p.1 = true
      · rw [if_pos (by simpa using selected_iff.1 hb), List.flatMap_cons, List.map_append]
        congr 1
        exact (List.filter_eq_self.2 fun x hx => by rw [hat x hx]; exact hb).symm
      · rw [if_neg (by simpa using fun h' => hb (selected_iff.2 h'))]
        have : (p.2.map ((fun d : Nat × Attrs × Option ℚ => (⟨d.1, canonAttrs d.2.1, d.2.2⟩ : ReaderRow)) ∘
          fun d => (d.1, s.keepAttrs [] d.2.1, some d.2.2))).filter (fun x => selected cm sels x.attrs) = [] :=
          List.filter_eq_nil_iff.2 fun x hx => by rw [hat x hx]; exact hb
        rw [this, List.nil_append]
  refine ⟨_, reader_call.2 ⟨rows', hc', rfl⟩, hrows, fun a => ?_⟩
  rw [new_attrs, new_attrs]
  simp only [hrows.mem_iff, List.mem_filter]
  constructor
  · rintro ⟨x, ⟨hx, hb⟩, rfl⟩
    exact ⟨⟨x, hx, rfl⟩, hb⟩
  · rintro ⟨⟨x, hx, rfl⟩, hb⟩
    exact ⟨x, ⟨hx, hb⟩, rfl⟩

/-- Translating depends on the rows up to their order, and not on the column names. -/
theorem translate_rows {r r' : Reader} (h : r.Ok) (h' : r'.Ok) (hrows : r'.rows.Perm r.rows)
    (hattrs : ∀ a, a ∈ r'.attrData → a ∈ r.attrData) {cm : CaseMap} {src trg : Store} {quantize : Bool} {x : Reader}
    (hx : r.translate cm src trg quantize = .ok x) :
    ∃ x', r'.translate cm src trg quantize = .ok x' ∧ x'.rows.Perm x.rows := by
  obtain ⟨ch, hc, ha, hr, -⟩ := (translate_iff h.known).1 hx
  obtain ⟨rows, hr', hp⟩ := flatMapE_perm hrows.symm hr
  exact ⟨{ r' with rows := rows }, (translate_iff h'.known).2 ⟨ch, hc, fun a ha' => ha a (hattrs a ha'), hr', rfl⟩, hp⟩

theorem only_ok {r : Reader} (h : r.Ok) (P : Attrs → Bool) : (r.only P).Ok where
  known x hx := List.mem_filter.2 ⟨h.known x (List.mem_of_mem_filter hx), (List.mem_filter.1 hx).2⟩
  once := h.once.filter _
  sorted a ha := h.sorted a (List.mem_of_mem_filter ha)
  cols a ha := h.cols a (List.mem_of_mem_filter ha)

end

end Toron.Space
