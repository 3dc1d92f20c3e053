/-
Reading depends only on the data, not on the order or the ids under which it is stored.
-/
import Verif.Spec.SameContent
import Verif.Lemmas.Store.Split
import Verif.Lemmas.Reader

namespace Toron.Space

open Toron.Selectors (PyStr Sel CaseMap getGreatestUniqueSpecificity)

/-! ### Concatenating results -/

theorem flatMapE_append {α β : Type} (f : α → Except Err (List β)) (l l' : List α) :
    flatMapE f (l ++ l') = (do
      let a ← flatMapE f l
      let b ← flatMapE f l'
      .ok (a ++ b)) := by
  induction l with
  | nil =>
    show flatMapE f l' = (flatMapE f l' >>= fun b => Except.ok b)
    cases flatMapE f l' <;> rfl
  | cons x xs ih =>
    rw [List.cons_append, flatMapE, flatMapE, ih]
    cases f x with
    | error e => rfl
    | ok a =>
      cases flatMapE f xs with
      | error e => rfl
      | ok b =>
        cases flatMapE f l' with
        | error e => rfl
        | ok c =>
          show Except.ok _ = Except.ok _
          rw [List.append_assoc]

theorem flatMapE_flatMapE {α β γ : Type} (f : α → β → Except Err (List γ)) (g : α → List β) (l : List α) :
    flatMapE (fun a => flatMapE (f a) (g a)) l =
      flatMapE (fun p : α × β => f p.1 p.2) (l.flatMap fun a => (g a).map fun b => (a, b)) := by
  have hmap : ∀ (a : α) (bs : List β), flatMapE (fun p : α × β => f p.1 p.2) (bs.map fun b => (a, b)) = flatMapE (f a) bs := by
    intro a bs
    induction bs with
    | nil => rfl
    | cons b bs ih => rw [List.map_cons, flatMapE, flatMapE, ih]
  induction l with
  | nil => rfl
  | cons x xs ih => rw [List.flatMap_cons, flatMapE_append, hmap, ← ih, flatMapE]

theorem flatMapE_map {α β γ : Type} (f : β → Except Err (List γ)) (g : α → β) (l : List α) :
    flatMapE f (l.map g) = flatMapE (fun a => f (g a)) l := by
  induction l with
  | nil => rfl
  | cons x xs ih => rw [List.map_cons, flatMapE, flatMapE, ih]

theorem flatMapE_congr {α γ : Type} {f g : α → Except Err (List γ)} {l : List α} (h : ∀ a ∈ l, f a = g a) :
    flatMapE f l = flatMapE g l := by
  induction l with
  | nil => rfl
  | cons x xs ih => rw [flatMapE, flatMapE, h x (by simp), ih fun a ha => h a (by simp [ha])]

theorem flatMapE_perm {α γ : Type} {f : α → Except Err (List γ)} {l l' : List α} (h : l.Perm l') {r : List γ}
    (hr : flatMapE f l = .ok r) : ∃ r', flatMapE f l' = .ok r' ∧ r'.Perm r := by
  induction h generalizing r with
  | nil => exact ⟨r, hr, .refl _⟩
  | cons x _ ih =>
    rename_i l1 l2 _
    rw [flatMapE] at hr
    cases hx : f x with
    | error e => rw [hx] at hr; cases hr
    | ok a =>
      rw [hx] at hr
      cases hl : flatMapE f l1 with
      | error e => rw [hl] at hr; cases hr
      | ok b =>
        rw [hl] at hr
        cases hr
        obtain ⟨r', h1, h2⟩ := ih hl
        exact ⟨a ++ r', by rw [flatMapE, hx, h1]; rfl, h2.append_left a⟩
  | swap x y l1 =>
    rw [flatMapE, flatMapE] at hr
    cases hy : f y with
    | error e => rw [hy] at hr; cases hr
    | ok b =>
      cases hx : f x with
      | error e => rw [hy, hx] at hr; cases hr
      | ok a =>
        cases hl : flatMapE f l1 with
        | error e => rw [hy, hx, hl] at hr; cases hr
        | ok c =>
          rw [hy, hx, hl] at hr
          cases hr
          refine ⟨a ++ (b ++ c), by rw [flatMapE, flatMapE, hx, hy, hl]; rfl, ?_⟩
          rw [← List.append_assoc, ← List.append_assoc]
          exact List.perm_append_comm.append_right c
  | trans _ _ ih1 ih2 =>
    obtain ⟨r1, h1, h2⟩ := ih1 hr
    obtain ⟨r2, h3, h4⟩ := ih2 h1
    exact ⟨r2, h3, h4.trans h2⟩

/-! ### Reading -/

/-- What is read for a quantity, as a function of its labels, attributes and value. -/
def Store.readOne (s : Store) (cm : CaseMap) (dflt : Nat) (finest quantize : Bool) (labels : List PyStr) (a : Attrs)
    (v : ℚ) : Except Err (List (Nat × Attrs × ℚ)) :=
  match s.matchingIds labels with
  | [] => .error (.runtimeError "no index matching")
  | i :: is =>
    if finest then .ok [(i, s.withDomain a, v)]
    else do
      let group ← getGreatestUniqueSpecificity cm (s.withDomain a) s.selectorDict dflt
      let parts ← disaggregateValue v (i :: is) (s.weightOf group)
      let parts ← if quantize then quantizeValues parts v else .ok parts
      .ok (parts.map fun p => (p.1, s.withDomain a, p.2))

theorem disaggOne_readOne {s : Store} {q : Quant} {g : AGroup} (hag : (s.agroups.map (·.id)).Nodup) (hg : g ∈ s.agroups)
    (hq : g.id = q.ag) (cm : CaseMap) (d : Nat) (fin quantize : Bool) (l : LocRec) :
    s.disaggOne cm d fin quantize l q = s.readOne cm d fin quantize l.labels g.attrs q.value := by
  unfold Store.disaggOne Store.readOne
  have ha : s.getAttrs q.ag = .ok g.attrs := by
    unfold Store.getAttrs
    have : s.agroups.find? (fun x => x.id == q.ag) = some g := by
      rcases hx : s.agroups.find? (fun x => x.id == q.ag) with _ | x
      · exact absurd (List.find?_eq_none.1 hx g hg) (by simp [hq])
      · have h1 := List.mem_of_find?_eq_some hx
        have h2 : x.id = q.ag := by simpa using List.find?_some hx
        rw [hx, List.inj_on_of_nodup_map hag h1 hg (h2.trans hq.symm)]
    rw [this]
  rw [ha]
  cases s.matchingIds l.labels <;> rfl

section
variable {s t : Store}

theorem SameContent.refl (s : Store) : SameContent s s :=
  ⟨rfl, rfl, rfl, rfl, rfl, rfl, fun _ _ _ => Iff.rfl, fun _ _ _ => Iff.rfl⟩

theorem SameContent.symm (h : SameContent s t) : SameContent t s :=
  ⟨h.columns.symm, h.records.symm, h.combinations.symm, h.groups.symm, h.dflt.symm, h.domain.symm,
    fun n i x => (h.weights n i x).symm, fun l a x => (h.quantities l a x).symm⟩

theorem SameContent.weightOf (h : SameContent s t) (hs : WeightInv s) (ht : WeightInv t) {g : WGroup} (hg : g ∈ s.wgroups) :
    t.weightOf g.id = s.weightOf g.id := by
  funext i
  have h1 : s.WeightIs g.name i (s.weightOf g.id i) := (weightIs_iff hs hg).2 rfl
  have h2 : t.WeightIs g.name i (s.weightOf g.id i) := fun x => (h1 x).trans (h.weights _ _ _).symm
  exact ((weightIs_iff ht (h.groups ▸ hg)).1 h2).symm

theorem SameContent.getDefaultWG (h : SameContent s t) : t.getDefaultWG = s.getDefaultWG := by
  unfold Store.getDefaultWG
  rw [h.dflt, h.groups]

theorem SameContent.readOne (h : SameContent s t) (hs : WeightInv s) (ht : WeightInv t) (hwf : s.SelectorsWF) {d : WGroup}
    (hd : s.getDefaultWG = .ok d) (cm : CaseMap) (fin quantize : Bool) (labels : List PyStr) (a : Attrs) (v : ℚ) :
    t.readOne cm d.id fin quantize labels a v = s.readOne cm d.id fin quantize labels a v := by
  have h1 : t.matchingIds labels = s.matchingIds labels := by
    unfold Store.matchingIds Store.filterByLabel
    rw [h.columns, h.records]
  have h2 : t.withDomain a = s.withDomain a := by
    unfold Store.withDomain Store.getDomain
    rw [h.domain]
  have h3 : t.selectorDict = s.selectorDict := by
    unfold Store.selectorDict
    rw [h.groups]
  unfold Store.readOne
  rw [h1, h2, h3]
  obtain ⟨g, hg, he, -⟩ := applies_of (cm := cm) (a := s.withDomain a) hs hwf hd
  cases s.matchingIds labels with
  | nil => rfl
  | cons i is =>
    dsimp only
    rw [he]
    by_cases hf : fin = true
    · rw [if_pos hf, if_pos hf]
    rw [if_neg hf, if_neg hf]
    show (do
      let parts ← disaggregateValue v (i :: is) (t.weightOf g.id)
      let parts ← if quantize then quantizeValues parts v else Except.ok parts
      Except.ok (parts.map fun p : Nat × ℚ => (p.1, s.withDomain a, p.2))) = _
    rw [h.weightOf hs ht hg]
    rfl

/-- The quantities that are read, in order. -/
def Store.readList (s : Store) (f : Option (List Nat)) (structs : List StructRec) :
    List (StructRec × LocRec × Quant) :=
  structs.flatMap fun st => (s.readFor f st).map fun lq => (st, lq)

/-- A quantity as data: the combination, the labels, the attributes, the value. -/
def Store.itemOf (s : Store) (x : StructRec × LocRec × Quant) : StructRec × List PyStr × Attrs × ℚ :=
  (x.1, x.2.1.labels, ((s.agroups.find? fun g => g.id == x.2.2.ag).map (·.attrs)).getD [], x.2.2.value)

theorem Store.itemOf_attrs (hag : (s.agroups.map (·.id)).Nodup) {g : AGroup} (hg : g ∈ s.agroups)
    {x : StructRec × LocRec × Quant} (hq : g.id = x.2.2.ag) : s.itemOf x = (x.1, x.2.1.labels, g.attrs, x.2.2.value) := by
  unfold Store.itemOf
  have : s.agroups.find? (fun y => y.id == x.2.2.ag) = some g := by
    rcases hx : s.agroups.find? (fun y => y.id == x.2.2.ag) with _ | y
    · exact absurd (List.find?_eq_none.1 hx g hg) (by simp [hq])
    · have h1 := List.mem_of_find?_eq_some hx
      have h2 : y.id = x.2.2.ag := by simpa using List.find?_some hx
      rw [hx, List.inj_on_of_nodup_map hag h1 hg (h2.trans hq.symm)]
  rw [this]
  rfl

theorem mem_readList {f : Option (List Nat)} {structs : List StructRec} {st : StructRec} {l : LocRec} {q : Quant} :
    (st, l, q) ∈ s.readList f structs ↔ st ∈ structs ∧ l ∈ s.locs ∧ nonemptyBits l.labels = st.bits ∧ q ∈ s.quants ∧
      q.loc = l.id ∧ ∀ ids, f = some ids → q.ag ∈ ids := by
  unfold Store.readList Store.readFor
  simp only [List.mem_flatMap, List.mem_map, List.mem_filter]
  constructor
  · rintro ⟨st', hst, lq, ⟨hm, hp⟩, he⟩
    cases he
    obtain ⟨h1, h2, h3, h4⟩ := mem_quantsByBits.1 hm
    exact ⟨hst, h1, h2, h3, h4, passes_iff.1 hp⟩
  · rintro ⟨hst, h1, h2, h3, h4, hp⟩
    exact ⟨st, hst, (l, q), ⟨mem_quantsByBits.2 ⟨h1, h2, h3, h4⟩, passes_iff.2 hp⟩, rfl⟩

/-- Which items are read, in terms of the data. -/
theorem mem_items (hq : QuantInv s) (hgr : s.Grouped) {cm : CaseMap} {sels : List Sel} {f : Option (List Nat)}
    (hf : s.attributeFilter cm sels = .ok f) {structs : List StructRec} (z : StructRec × List PyStr × Attrs × ℚ) :
    z ∈ (s.readList f structs).map s.itemOf ↔ z.1 ∈ structs ∧ nonemptyBits z.2.1 = z.1.bits ∧
      s.HasQuantity z.2.1 z.2.2.1 z.2.2.2 ∧ (sels = [] ∨ Sel.evalAny cm z.2.2.1 sels = .ok true) := by
  rw [List.mem_map]
  constructor
  · rintro ⟨⟨st, l, q⟩, hx, rfl⟩
    obtain ⟨hst, h1, h2, h3, h4, hp⟩ := mem_readList.1 hx
    obtain ⟨g, hg, hgq⟩ := hgr q h3
    rw [s.itemOf_attrs hq.agIds hg (x := (st, l, q)) hgq]
    refine ⟨hst, h2, ⟨q, h3, ⟨l, h1, h4.symm, rfl⟩, ⟨g, hg, hgq, rfl⟩, rfl⟩, ?_⟩
    rcases (attributeFilter_ok hq.agIds hf q).1 hp with h | ⟨g', hg', hgq', he⟩
    · exact .inl h
    · rw [List.inj_on_of_nodup_map hq.agIds hg hg' (hgq.trans hgq'.symm)]
      exact .inr he
  · obtain ⟨st, labels, a, v⟩ := z
    rintro ⟨hst, h2, ⟨q, h3, ⟨l, h1, h4, rfl⟩, ⟨g, hg, hgq, rfl⟩, rfl⟩, he⟩
    refine ⟨(st, l, q), mem_readList.2 ⟨hst, h1, h2, h3, h4.symm, ?_⟩, s.itemOf_attrs hq.agIds hg (x := (st, l, q)) hgq⟩
    refine (attributeFilter_ok hq.agIds hf q).2 ?_
    rcases he with he | he
    · exact .inl he
    · exact .inr ⟨g, hg, hgq, he⟩

theorem items_nodup (hq : QuantInv s) (hgr : s.Grouped) (hst : (s.structs.map (·.bits)).Nodup) (f : Option (List Nat))
    {structs : List StructRec} (hp : structs.Perm s.structs) : ((s.readList f structs).map s.itemOf).Nodup := by
  classical
  have hnd : ((s.readList f structs).map fun x => x.2.2).Nodup := by
    have h := readAll_perm hq hst f hp (keep := fun q => s.Counted q ∧ ∀ ids, f = some ids → q.ag ∈ ids)
      fun _ _ => Iff.rfl
    have he : ((s.readList f structs).map fun x => x.2.2) = (structs.flatMap fun st => s.readFor f st).map (·.2) := by
      unfold Store.readList
      rw [List.map_flatMap, List.map_flatMap]
      simp only [List.map_map]
      rfl
    rw [he, h.nodup_iff]
    exact (hq.ids.of_map).filter _
  refine List.Nodup.map_on ?_ hnd.of_map
  rintro ⟨st, l, q⟩ hx ⟨st', l', q'⟩ hx' he
  obtain ⟨hst1, h1, h2, h3, h4, -⟩ := mem_readList.1 hx
  obtain ⟨hst1', h1', h2', h3', h4', -⟩ := mem_readList.1 hx'
  obtain ⟨g, hg, hgq⟩ := hgr q h3
  obtain ⟨g', hg', hgq'⟩ := hgr q' h3'
  rw [s.itemOf_attrs hq.agIds hg (x := (st, l, q)) hgq, s.itemOf_attrs hq.agIds hg' (x := (st', l', q')) hgq'] at he
  simp only [Prod.mk.injEq] at he
  obtain ⟨rfl, hl, ha, -⟩ := he
  have hll : l = l' := List.inj_on_of_nodup_map hq.locLabels h1 h1' hl
  have hgg : g = g' := List.inj_on_of_nodup_map hq.agAttrs hg hg' ha
  subst hll hgg
  have : q = q' := List.inj_on_of_nodup_map hq.pairs h3 h3' (by rw [h4, h4', ← hgq, ← hgq'])
  rw [this]

theorem attributeFilter_exists (s : Store) (cm : CaseMap) {sels : List Sel} (hwf : ∀ x ∈ sels, x.WF) :
    ∃ f, s.attributeFilter cm sels = .ok f := by
  have hev : ∀ (l : List Sel) (a : Attrs), (∀ x ∈ l, x.WF) → ∃ b, Sel.evalAny cm a l = .ok b := by
    intro l a hl
    induction l with
    | nil => exact ⟨false, by unfold Sel.evalAny; rfl⟩
    | cons x xs ih =>
      obtain ⟨b, hb⟩ := Selectors.C05_matching_is_total cm a x (hl x (by simp))
      unfold Sel.evalAny
      rw [hb]
      cases b
      · exact ih fun y hy => hl y (by simp [hy])
      · exact ⟨true, rfl⟩
  unfold Store.attributeFilter
  by_cases hs : sels = []
  · exact ⟨none, by rw [if_pos hs]⟩
  · rw [if_neg hs]
    obtain ⟨r, hr⟩ := flatMapE_exists (f := fun g : AGroup => do
      if ← Sel.evalAny cm g.attrs sels then .ok [g.id] else .ok []) (l := s.agroups) (by
        intro g _
        obtain ⟨b, hb⟩ := hev sels g.attrs hwf
        simp only [bind, Except.bind, hb]
        cases b
        · exact ⟨[], rfl⟩
        · exact ⟨[g.id], rfl⟩)
    exact ⟨some r, by simp only [bind, Except.bind] at hr ⊢; rw [hr]⟩

/-- Reading in terms of the data. -/
theorem call_eq (hq : QuantInv s) (hgr : s.Grouped) {cm : CaseMap} {sels : List Sel} {f : Option (List Nat)}
    (hf : s.attributeFilter cm sels = .ok f) (quantize : Bool) : s.call cm sels quantize = match s.getDefaultWG with
      | .error e => .error e
      | .ok d =>
        if !d.complete then .error (.runtimeError "default weight group is not complete")
        else match s.structsSorted with
          | [] => .error (.indexError "list index out of range")
          | first :: rest => flatMapE (fun z : StructRec × List PyStr × Attrs × ℚ =>
              s.readOne cm d.id (granEq z.1.gran first.gran) quantize z.2.1 z.2.2.1 z.2.2.2)
              ((s.readList f (first :: rest)).map s.itemOf) := by
  unfold Store.call
  rw [hf]
  show (do
    let _ ← s.getDefaultWG
    s.disaggregate cm f quantize) = _
  unfold Store.disaggregate
  cases s.getDefaultWG with
  | error e => rfl
  | ok d =>
    show (if (!d.complete) = true then _ else _) = (if (!d.complete) = true then _ else _)
    by_cases hc : (!d.complete) = true
    · rw [if_pos hc, if_pos hc]
    rw [if_neg hc, if_neg hc]
    cases s.structsSorted with
    | nil => rfl
    | cons first rest =>
      dsimp only
      rw [flatMapE_map]
      have := flatMapE_flatMapE (fun (st : StructRec) (lq : LocRec × Quant) =>
        s.disaggOne cm d.id (granEq st.gran first.gran) quantize lq.1 lq.2) (fun st => s.readFor f st) (first :: rest)
      refine this.trans (flatMapE_congr ?_)
      rintro ⟨st, l, q⟩ hx
      obtain ⟨_, h1, h2, h3, h4, -⟩ := mem_readList.1 hx
      obtain ⟨g, hg, hgq⟩ := hgr q h3
      rw [s.itemOf_attrs hq.agIds hg (x := (st, l, q)) hgq]
      exact disaggOne_readOne hq.agIds hg hgq cm d.id _ quantize l

theorem call_same (hrs : Reachable s) (hrt : Reachable t) (h : SameContent s t) (hgs : s.Grouped) (hgt : t.Grouped)
    (hwf : s.SelectorsWF) {cm : CaseMap} {sels : List Sel} (hsel : ∀ x ∈ sels, x.WF) {quantize : Bool}
    {rows : List (Nat × Attrs × ℚ)} (hrows : s.call cm sels quantize = .ok rows) :
    ∃ rows', t.call cm sels quantize = .ok rows' ∧ rows'.Perm rows := by
  obtain ⟨f, hf⟩ := attributeFilter_exists s cm hsel
  obtain ⟨f', hf'⟩ := attributeFilter_exists t cm hsel
  rw [call_eq hrs.quantInv hgs hf] at hrows
  rw [call_eq hrt.quantInv hgt hf', h.getDefaultWG]
  cases hd : s.getDefaultWG with
  | error e => rw [hd] at hrows; cases hrows
  | ok d =>
    rw [hd] at hrows
    dsimp only at hrows ⊢
    by_cases hc : (!d.complete) = true
    · rw [if_pos hc] at hrows; cases hrows
    rw [if_neg hc] at hrows ⊢
    have hss : t.structsSorted = s.structsSorted := by
      unfold Store.structsSorted
      rw [h.combinations]
    rw [hss]
    have hps : s.structsSorted.Perm s.structs := sortedBy_perm _ _
    have hpt : s.structsSorted.Perm t.structs := h.combinations ▸ hps
    cases hst : s.structsSorted with
    | nil => rw [hst] at hrows; cases hrows
    | cons first rest =>
      rw [hst] at hrows hps hpt
      dsimp only at hrows ⊢
      have hperm : ((s.readList f (first :: rest)).map s.itemOf).Perm ((t.readList f' (first :: rest)).map t.itemOf) := by
        rw [List.perm_ext_iff_of_nodup (items_nodup hrs.quantInv hgs (C53_once hrs) f hps)
          (items_nodup hrt.quantInv hgt (C53_once hrt) f' hpt)]
        intro z
        rw [mem_items hrs.quantInv hgs hf, mem_items hrt.quantInv hgt hf', h.quantities]
      obtain ⟨r', h1, h2⟩ := flatMapE_perm hperm hrows
      refine ⟨r', ?_, h2⟩
      rw [← h1]
      exact flatMapE_congr fun z _ => h.readOne hrs.weightInv hrt.weightInv hwf hd cm _ quantize _ _ _

end

end Toron.Space
