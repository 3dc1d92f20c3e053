/-
C17, C19, C43 and C56: translating the contents of a reader to another dataspace, and showing them.
-/
import Verif.Lemmas.Reader
import Verif.Lemmas.Store.LinkHash
import Verif.Props.StoreRead
import Verif.Props.StoreIndex

namespace Toron.Space

open Toron.Selectors (PyStr Sel CaseMap getGreatestUniqueSpecificity asciiCase)
open Toron.Selectors.Spec (UniqueAt SpecLE)

/-! ### C56: the fingerprint recorded in a link -/

/-- As long as no fingerprint is set by hand, the fingerprint recorded in a link is that of the source
records its mappings cover, whatever was done to mappings, records and columns since. -/
theorem C56_fingerprint {s : Store} (h : ReachableHashed s) {l : Link} (hl : l ∈ s.links) {ids : List Int}
    (hh : l.otherHash = some ids) : s.coveredIds l.id ids := h.hashTrue l hl ids hh

theorem Demo.reachableHashed : ReachableHashed Demo.store := ⟨['u'], Demo.ops, by simp [Demo.ops, Op.setsHash], rfl⟩

theorem Demo.links_eq : Demo.store.links.map (fun l => (l.id, l.otherHash, l.isDefault)) =
    [(1, some [0, 1, 2], true)] := by decide +kernel

-- a history with a link whose fingerprint is known
example : ∃ l ∈ Demo.store.links, l.otherHash = some [0, 1, 2] := by
  have h := Demo.links_eq
  rcases hl : Demo.store.links with _ | ⟨l, ls⟩
  · rw [hl] at h; cases h
  · rw [hl] at h
    exact ⟨l, by simp, congrArg (fun x => (x.headD (0, none, false)).2.1) h⟩

/-! ### C19: only links made for the present version of the source are used -/

/-- The link used for each attribute set was made for the records the source has now: its recorded
fingerprint is that of these records. -/
theorem C19_current {src trg : Store} (hs : Reachable src) {r r' : Reader} (hr : r.Ok) {cm : CaseMap}
    {quantize : Bool} (h : r.translate cm src trg quantize = .ok r') :
    ∃ link : Attrs → Link, (∀ a ∈ r.attrData, trg.currentLink src (link a)) ∧
      ∃ parts : List (ReaderRow × List ReaderRow), parts.map (·.1) = r.rows ∧ r'.rows = parts.flatMap (·.2) ∧
        ∀ p ∈ parts, trg.translateRow (link p.1.attrs).id quantize p.1 = .ok p.2 := by
  classical
  obtain ⟨d, dict, f, parts, hc, hf, h1, rfl, h3⟩ := translate_parts hr h
  have : ∀ a, ∃ l : Link, a ∈ r.attrData → trg.currentLink src l ∧ l.id = f a := by
    intro a
    by_cases ha : a ∈ r.attrData
    · obtain ⟨l, hl, hid⟩ := chosen_current hc (hf a ha)
      exact ⟨l, fun _ => ⟨(currentLink_iff hs).2 hl, hid⟩⟩
    · obtain ⟨⟨l, _⟩, _⟩ := linkChooser_ok hc
      exact ⟨l, fun h => absurd h ha⟩
  choose link hlink using this
  refine ⟨link, fun a ha => (hlink a ha).1, parts, h1, rfl, fun p hp => ?_⟩
  rw [(hlink _ (hr.known _ (h1 ▸ List.mem_map_of_mem hp))).2]
  exact h3 p hp

/-- The link used for an attribute set is the one its selectors call for: among the current links that
reach all records and have selectors, the uniquely most specific one that matches; else the default link. -/
theorem C19_choice {src trg : Store} (hs : Reachable src) (ht : Reachable trg) {r r' : Reader} (hr : r.Ok)
    {cm : CaseMap} {quantize : Bool} (hwf : ∀ l ∈ trg.links, ∀ sel ∈ l.selectors, sel.WF)
    (h : r.translate cm src trg quantize = .ok r') :
    ∃ link : Attrs → Link, (∀ a ∈ r.attrData, trg.linkFor src cm a (link a)) ∧
      ∃ parts : List (ReaderRow × List ReaderRow), parts.map (·.1) = r.rows ∧ r'.rows = parts.flatMap (·.2) ∧
        ∀ p ∈ parts, trg.translateRow (link p.1.attrs).id quantize p.1 = .ok p.2 := by
  classical
  obtain ⟨d, dict, f, parts, hc, hf, h1, rfl, h3⟩ := translate_parts hr h
  obtain ⟨⟨l0, hl0, hl0d, hl0i⟩, hdict⟩ := linkChooser_ok hc
  have hcand : ∀ l ∈ trg.candidates src, l ∈ trg.links := fun l hl =>
    findLinksByRef_mem (List.mem_of_mem_filter hl)
  have hids : ((trg.candidates src).map (·.id)).Nodup :=
    (findLinksByRef_ids ht.linkInv.ids).sublist (List.filter_sublist.map _)
  have hnd : (dict.map (·.1)).Nodup := by
    rw [hdict, List.map_map]
    exact hids.sublist ((List.filter_sublist).map _)
  have hw : ∀ k sels, (k, some sels) ∈ dict → ∀ s ∈ sels, s.WF := by
    intro k sels hm
    rw [hdict, List.mem_map] at hm
    obtain ⟨l, hl, he⟩ := hm
    cases he
    exact hwf l (hcand l (List.mem_of_mem_filter hl))
  have hmem : ∀ k sels, (k, sels) ∈ dict ↔ ∃ x, trg.currentLink src x ∧ x.complete = true ∧ x.selectors ≠ [] ∧
      k = x.id ∧ sels = some x.selectors := by
    intro k sels
    rw [hdict, List.mem_map]
    constructor
    · rintro ⟨l, hl, he⟩
      cases he
      obtain ⟨h1, h2⟩ := List.mem_filter.1 hl
      simp only [Bool.and_eq_true, Bool.not_eq_true', List.isEmpty_eq_false_iff] at h2
      exact ⟨l, (currentLink_iff hs).2 h1, h2.1, h2.2, rfl, rfl⟩
    · rintro ⟨x, hx, hxc, hxs, rfl, rfl⟩
      exact ⟨x, List.mem_filter.2 ⟨(currentLink_iff hs).1 hx, by simp [hxc, hxs]⟩, rfl⟩
  have : ∀ a, ∃ l : Link, a ∈ r.attrData → trg.linkFor src cm a l ∧ l.id = f a := by
    intro a
    by_cases ha : a ∈ r.attrData
    · obtain ⟨res, hres, hcases⟩ := Selectors.C04_greatest_unique cm a dict d hnd hw
      rw [hf a ha] at hres
      cases hres
      obtain ⟨l, hl, hid⟩ := chosen_current hc (hf a ha)
      refine ⟨l, fun _ => ⟨⟨(currentLink_iff hs).2 hl, dict, hmem, ?_⟩, hid⟩⟩
      rw [hid]
      rcases hcases with h | ⟨h, he⟩
      · exact .inl h
      · refine .inr ⟨h, ?_⟩
        rw [List.inj_on_of_nodup_map hids hl hl0 (hid.trans (he.trans hl0i.symm))]
        exact hl0d
    · exact ⟨l0, fun h => absurd h ha⟩
  choose link hlink using this
  refine ⟨link, fun a ha => (hlink a ha).1, parts, h1, rfl, fun p hp => ?_⟩
  rw [(hlink _ (hr.known _ (h1 ▸ List.mem_map_of_mem hp))).2]
  exact h3 p hp

/-- If every link with a fingerprint was made for `src`, and the source has since gained or lost a record
(`src'`), nothing can be translated until the link is made anew. -/
theorem C19_refused {src src' trg : Store} (hs' : Reachable src')
    (hmade : ∀ l ∈ trg.links, ∀ ids, l.otherHash = some ids → src.listsIds ids)
    (hchanged : ∃ i, ¬ (i ∈ src.ids ↔ i ∈ src'.ids)) (r : Reader) (cm : CaseMap) (quantize : Bool) :
    ∃ e, r.translate cm src' trg quantize = .error e := by
  rcases h : r.translate cm src' trg quantize with e | r'
  · exact ⟨e, rfl⟩
  exfalso
  unfold Reader.translate at h
  simp only [bind, Except.bind] at h
  rcases hc : trg.linkChooser src'.uid (src'.indexHash.map Int.ofNat) with e | ⟨d, dict⟩
  · rw [hc] at h; cases h
  obtain ⟨⟨l, hl, _⟩, _⟩ := linkChooser_ok hc
  obtain ⟨hm, ids, hids, hlist⟩ := (currentLink_iff hs').2 hl
  have h2 := hmade l (findLinksByRef_mem hm) ids hids
  obtain ⟨i, hi⟩ := hchanged
  apply hi
  have h3 := h2.2 (i : Int)
  have h4 := hlist.2 (i : Int)
  simp only [Int.natCast_inj, exists_eq_right'] at h3 h4
  rw [← h3, ← h4]

/-! ### C17: translation conserves the totals -/

/-- The mappings of a current link from a record of the source. -/
theorem current_maps {src trg : Store} (ht : ReachableTidy trg) (hh : ReachableHashed trg)
    {l : Link} (hl : trg.currentLink src l) {i : Nat} (hi : i ∈ src.ids) (h0 : i ≠ 0) :
    trg.mapsFrom l.id i ≠ [] ∧ propSum ((trg.mapsFrom l.id i).map (·.prop)) = some 1 := by
  obtain ⟨hm, ids, hids, hlist⟩ := hl
  have hc := C56_fingerprint hh (findLinksByRef_mem hm) hids
  have hpos : (0 : Int) < (i : Int) := by omega
  rcases (hc.2 (i : Int)).1 ((hlist.2 _).2 ⟨i, hi, rfl⟩) with h | ⟨_, m, hm, hml, hmo⟩
  · omega
  have hne : trg.mapsFrom l.id i ≠ [] := by
    intro h
    have : m ∈ trg.mapsFrom l.id i := List.mem_filter.2 ⟨hm, by simp [hml, hmo]⟩
    rw [h] at this
    cases this
  exact ⟨hne, (C15_proportions_partial ht).2.1 _ _ hpos hne⟩

/-- Translation splits each row by a current link: rows of the undefined record stay, the others get one row
per mapping with the value times the mapping's proportion. -/
theorem C17_split {src trg : Store} (hs : Reachable src) (ht : ReachableTidy trg) (hh : ReachableHashed trg)
    {r r' : Reader} (hr : r.Ok) (hrows : ∀ x ∈ r.rows, x.index ∈ src.ids) {cm : CaseMap} {quantize : Bool}
    (h : r.translate cm src trg quantize = .ok r') :
    ∃ link : Attrs → Link, (∀ a ∈ r.attrData, trg.currentLink src (link a)) ∧
      ∃ parts : List (ReaderRow × List ReaderRow), parts.map (·.1) = r.rows ∧ r'.rows = parts.flatMap (·.2) ∧
        ∀ p ∈ parts, trg.splitBy (link p.1.attrs).id quantize p.1 p.2 ∧ amount p.2 = p.1.value.getD 0 ∧
          ∀ x ∈ p.2, x.attrs = p.1.attrs := by
  obtain ⟨link, hl, parts, h1, h2, h3⟩ := C19_current hs hr h
  refine ⟨link, hl, parts, h1, h2, fun p hp => ?_⟩
  have hp1 : p.1 ∈ r.rows := h1 ▸ List.mem_map_of_mem hp
  have hcm := fun h0 => current_maps ht hh (hl _ (hr.known _ hp1)) (hrows _ hp1) h0
  exact translateRow_split (fun h0 => (hcm h0).2) (fun h0 => (hcm h0).1)
    (fun m hm q hq => ((C15_proportions_partial ht).1 m hm q hq).1) (h3 p hp)

theorem amount_append (a b : List ReaderRow) : amount (a ++ b) = amount a + amount b := by
  unfold amount
  rw [List.map_append, List.sum_append]

/-- Rows of the same attributes have the same total before and after. -/
theorem parts_conserve {parts : List (ReaderRow × List ReaderRow)} (P : Attrs → Bool)
    (h : ∀ p ∈ parts, amount p.2 = p.1.value.getD 0 ∧ ∀ x ∈ p.2, x.attrs = p.1.attrs) :
    amount ((parts.flatMap (·.2)).filter fun x => P x.attrs) =
      amount ((parts.map (·.1)).filter fun x => P x.attrs) := by
  induction parts with
  | nil => rfl
  | cons p ps ih =>
    obtain ⟨hsum, hat⟩ := h p (by simp)
    rw [List.flatMap_cons, List.map_cons, List.filter_append, amount_append,
      ih (fun q hq => h q (List.mem_cons_of_mem _ hq))]
    by_cases ha : P p.1.attrs = true
    · rw [List.filter_cons_of_pos (p := fun x : ReaderRow => P x.attrs) ha, List.filter_eq_self.2 (by
        intro x hx; rw [hat x hx]; exact ha), hsum]
      simp [amount]
    · rw [List.filter_cons_of_neg (p := fun x : ReaderRow => P x.attrs) ha, List.filter_eq_nil_iff.2 (by
        intro x hx; rw [hat x hx]; exact ha)]
      simp [amount]

/-- The total of every attribute set is the same before and after a translation, rounded or not, and what
is at the undefined record of the source is at the undefined record of the target. -/
theorem C17_conserves {src trg : Store} (hs : Reachable src) (ht : ReachableTidy trg) (hh : ReachableHashed trg)
    {r r' : Reader} (hr : r.Ok) (hrows : ∀ x ∈ r.rows, x.index ∈ src.ids) {cm : CaseMap} {quantize : Bool}
    (h : r.translate cm src trg quantize = .ok r') :
    (∀ a, r'.total a = r.total a) ∧ ∀ x ∈ r.rows, x.index = 0 → x ∈ r'.rows := by
  obtain ⟨link, hl, parts, h1, h2, h3⟩ := C17_split hs ht hh hr hrows h
  constructor
  · intro a
    unfold Reader.total
    rw [h2, ← h1]
    exact parts_conserve (fun x => decide (x = a)) fun p hp => (h3 p hp).2
  · intro x hx h0
    rw [← h1] at hx
    obtain ⟨p, hp, rfl⟩ := List.mem_map.1 hx
    have := (h3 p hp).1
    unfold Store.splitBy at this
    rw [if_pos h0] at this
    rw [h2, List.mem_flatMap]
    exact ⟨p, hp, by rw [this]; simp⟩

theorem ok_bind {α β : Type} (a : α) (f : α → Except Err β) : (Except.ok a >>= f) = f a := rfl

/-- A translation succeeds if there is a current default link, the selectors of the links are those a user can
write, and no value is missing. -/
theorem C17_succeeds {src trg : Store} (hs : Reachable src) (ht : ReachableTidy trg) (hh : ReachableHashed trg)
    {r : Reader} (hr : r.Ok) (hrows : ∀ x ∈ r.rows, x.index ∈ src.ids ∧ ∃ v, x.value = some v) {d : Link}
    (hd : trg.currentLink src d) (hdef : d.isDefault = true)
    (hwf : ∀ l ∈ trg.links, ∀ sel ∈ l.selectors, sel.WF) (cm : CaseMap) (quantize : Bool) :
    ∃ r', r.translate cm src trg quantize = .ok r' := by
  have hd' := (currentLink_iff hs).1 hd
  have hc : ∃ c, trg.linkChooser src.uid (src.indexHash.map Int.ofNat) = .ok c := by
    unfold Store.linkChooser
    dsimp only
    rw [if_neg (by
      rw [List.isEmpty_iff]
      intro h
      rw [h] at hd'
      cases hd'), if_neg (by
      rw [List.isEmpty_iff]
      intro h
      rw [h] at hd'
      cases hd')]
    split
    · rename_i hf
      exact absurd (List.find?_eq_none.1 hf d hd') (by simpa using hdef)
    · exact ⟨_, rfl⟩
  obtain ⟨⟨dflt, dict⟩, hc⟩ := hc
  obtain ⟨_, hdict⟩ := linkChooser_ok hc
  have hnd : (dict.map (·.1)).Nodup := by
    rw [hdict, List.map_map]
    exact ((findLinksByRef_ids hh.reachable.linkInv.ids).sublist (List.filter_sublist.map _)).sublist
      ((List.filter_sublist).map _)
  have hw : ∀ k sels, (k, some sels) ∈ dict → ∀ s ∈ sels, s.WF := by
    intro k sels hm
    rw [hdict, List.mem_map] at hm
    obtain ⟨l, hl, he⟩ := hm
    cases he
    exact hwf l (findLinksByRef_mem (List.mem_of_mem_filter (List.mem_of_mem_filter hl)))
  have hchoose : ∀ a, ∃ l, getGreatestUniqueSpecificity cm a dict dflt = .ok l := fun a =>
    let ⟨l, hl, _⟩ := Selectors.C04_greatest_unique cm a dict dflt hnd hw
    ⟨l, hl⟩
  obtain ⟨links, hlinks⟩ := flatMapE_exists (l := r.attrData) (f := fun a => do
    let l ← getGreatestUniqueSpecificity cm a dict dflt
    .ok [(a, l)]) fun a _ => by
      obtain ⟨l, hl⟩ := hchoose a
      exact ⟨[(a, l)], by rw [hl]; rfl⟩
  have hlm : ∀ a l, (a, l) ∈ links → getGreatestUniqueSpecificity cm a dict dflt = .ok l := by
    intro a l hm
    obtain ⟨i, hi, he⟩ := List.mem_iff_getElem.1 hm
    have h2 := flatMapE_single.1 hlinks
    obtain ⟨y, hy, hy'⟩ := h2.get (by rw [h2.length_eq]; exact hi) hi
    rw [List.get_eq_getElem] at hy'
    simp only [List.get_eq_getElem] at hy
    rw [he] at hy'
    cases hy'
    exact hy
  have key : ∀ f : ReaderRow → Except Err (List ReaderRow), (∀ x ∈ r.rows, ∃ p, f x = .ok p) →
      ∃ r', (do
        let rows ← flatMapE f r.rows
        Except.ok { r with rows := rows }) = Except.ok (ε := Err) r' := by
    intro f hf
    obtain ⟨rows, hrw⟩ := flatMapE_exists hf
    rw [hrw]
    exact ⟨_, rfl⟩
  unfold Reader.translate
  rw [hc, ok_bind]
  rw [hlinks, ok_bind]
  refine key _ fun x hx => ?_
  split
  · rename_i l hl
    obtain ⟨l', hl', hid⟩ := chosen_current hc (hlm _ _ (lookupLink_mem hl))
    obtain ⟨hi, v, hv⟩ := hrows x hx
    rw [← hid]
    exact translateRow_ok hv (fun h0 => (current_maps ht hh ((currentLink_iff hs).2 hl') hi h0).2)
      fun m hm q hq => ((C15_proportions_partial ht).1 m hm q hq).1
  · exact ⟨[], rfl⟩

/-- The rows of a fresh reader are those that were read, with the attributes that are kept. -/
theorem reader_rows {src : Store} {cm : CaseMap} {sels : List Sel} {quantize : Bool} {sumBy : List PyStr}
    {r : Reader} (h : src.reader cm sels quantize sumBy = .ok r) :
    ∃ rows, src.call cm sels quantize = .ok rows ∧
      r = Reader.new (rows.map fun d => (d.1, src.keepAttrs sumBy d.2.1, some d.2.2)) := by
  unfold Store.reader at h
  simp only [bind, Except.bind] at h
  split at h
  · cases h
  · rename_i rows hrows
    cases h
    exact ⟨rows, hrows, rfl⟩

/-- A reader made from a dataspace is in order: its tables fit together, and its rows are about records of
the dataspace and have values. -/
theorem reader_ok {src : Store} (hs : Reachable src) {cm : CaseMap} {sels : List Sel} {quantize : Bool}
    {sumBy : List PyStr} {r : Reader} (h : src.reader cm sels quantize sumBy = .ok r) :
    r.Ok ∧ ∀ x ∈ r.rows, x.index ∈ src.ids ∧ ∃ v, x.value = some v := by
  obtain ⟨rows, hrows, rfl⟩ := reader_rows h
  refine ⟨Reader.new_ok _, fun x hx => ?_⟩
  unfold Reader.new at hx
  simp only [List.map_map, List.mem_map, Function.comp] at hx
  obtain ⟨d, hd, rfl⟩ := hx
  refine ⟨?_, d.2.2, rfl⟩
  obtain ⟨shares, rfl, hacc, _⟩ := C14_read hs hrows
  obtain ⟨b, hb, hd⟩ := List.mem_flatMap.1 hd
  obtain ⟨p, hp, rfl⟩ := List.mem_map.1 hd
  obtain ⟨l, _, _, hm⟩ := (hacc b hb).matching
  obtain ⟨y, hy, he, _⟩ := hm p hp
  exact List.mem_map.2 ⟨y, hy, he⟩

theorem mem_keepAttrs (s : Store) (names : List PyStr) (a : Attrs) (kv : PyStr × PyStr) :
    kv ∈ s.keepAttrs names a ↔ kv ∈ a ∧
      (names = [] ∨ kv.1 ∈ names ∨ s.domain.getD [] ≠ [] ∧ kv.1 = "domain".toList) := by
  unfold Store.keepAttrs Store.getDomain
  by_cases hn : names = []
  · simp [hn]
  · rw [if_neg (by simpa using hn), List.mem_filter]
    simp [hn]

open Classical in
/-- From stored quantities to another dataspace: for any condition on the attributes, the values after
reading, summing up by attributes and translating add up to the stored quantities that are in a valid
combination, are selected, and whose attributes satisfy the condition. -/
theorem C17_end_to_end {src trg : Store} (hs : Reachable src) (ht : ReachableTidy trg) (hh : ReachableHashed trg)
    {cm : CaseMap} {sels : List Sel} {qread : Bool} {sumBy : List PyStr} {r r' : Reader}
    (hread : src.reader cm sels qread sumBy = .ok r) {quantize : Bool}
    (h : r.translate cm src trg quantize = .ok r') (P : Attrs → Prop)
    (hP : ∀ a b : Attrs, (∀ kv, kv ∈ a ↔ kv ∈ b) → (P a ↔ P b)) :
    amount (r'.rows.filter fun x => P x.attrs) =
      ((src.quants.filter fun q => src.Counted q ∧ src.Selected cm sels q ∧
        ∃ g ∈ src.agroups, g.id = q.ag ∧ P (src.keepAttrs sumBy (src.withDomain g.attrs))).map (·.value)).sum := by
  obtain ⟨hok, hrows⟩ := reader_ok hs hread
  obtain ⟨link, hl, parts, h1, h2, h3⟩ := C17_split hs ht hh hok (fun x hx => (hrows x hx).1) h
  rw [h2, parts_conserve (fun a => decide (P a)) fun p hp => (h3 p hp).2, h1]
  obtain ⟨rows, hcall, rfl⟩ := reader_rows hread
  rw [← C14_totals hs hcall (fun a => P (src.keepAttrs sumBy a)) (by
    intro a b hab
    refine hP _ _ fun kv => ?_
    rw [mem_keepAttrs, mem_keepAttrs, hab])]
  unfold Reader.new amount
  simp only [List.map_map, List.filter_map]
  congr 2
  apply List.filter_congr
  intro d _
  rw [Bool.eq_iff_iff]
  simp only [Function.comp, decide_eq_true_eq]
  exact hP _ _ fun kv => (sortedBy_perm _ _).mem_iff

/-! The hypotheses can be met: a source with two records and quantities for them and for the undefined one. -/

/-- The source that the link of `Demo.store` is for. -/
def Demo.srcOps : List Op :=
  [.addIndexColumns [Demo.colA],
   .addWeightGroup Demo.wname [] true none,
   .insertIndex none [Demo.wname] .abort .abort
     [⟨none, some [Demo.lx], [some 3]⟩, ⟨none, some [Demo.ly], [some 1]⟩],
   .setRegisteredAttributes [['c']],
   .insertQuantities2 false false .abort
     [⟨none, [Demo.lx], [(['c'], ['m'])], 100⟩, ⟨none, [Demo.ly], [(['c'], ['n'])], 7⟩,
      ⟨none, [['-']], [(['c'], ['m'])], 2⟩]]

def Demo.src : Store := run Demo.srcOps (Store.new Demo.other)

theorem Demo.src_reachable : Reachable Demo.src := ⟨Demo.other, Demo.srcOps, rfl⟩

def Demo.attrM : Attrs := [(['c'], ['m'])]
def Demo.attrN : Attrs := [(['c'], ['n'])]

/-- What is read from the source. -/
def Demo.reader : Reader where
  attrData := [Demo.attrM, Demo.attrN]
  rows := [⟨1, Demo.attrM, some 100⟩, ⟨2, Demo.attrN, some 7⟩, ⟨0, Demo.attrM, some 2⟩]
  keys := [['c']]

theorem Demo.reader_eq : (Demo.src.reader asciiCase [] false []).toOption = some Demo.reader := by decide +kernel

theorem ok_of_toOption {α : Type} {e : Except Err α} {a : α} (h : e.toOption = some a) : e = .ok a := by
  cases e with
  | error e => cases h
  | ok x => cases h; rfl

/-- What is translated to `Demo.store`. -/
def Demo.translated : Reader where
  attrData := [Demo.attrM, Demo.attrN]
  rows := [⟨1, Demo.attrM, some 25⟩, ⟨2, Demo.attrM, some 75⟩, ⟨3, Demo.attrN, some 7⟩, ⟨0, Demo.attrM, some 2⟩]
  keys := [['c']]

theorem Demo.translated_eq :
    (Demo.reader.translate asciiCase Demo.src Demo.store false).toOption = some Demo.translated := by decide +kernel

-- the hypotheses of C17_split, C17_conserves, C17_end_to_end, C19_current and C19_choice
example : Reachable Demo.src ∧ ReachableTidy Demo.store ∧ ReachableHashed Demo.store ∧
    Demo.src.reader asciiCase [] false [] = .ok Demo.reader ∧ Demo.reader.Ok ∧
    (∀ x ∈ Demo.reader.rows, x.index ∈ Demo.src.ids) ∧
    Demo.reader.translate asciiCase Demo.src Demo.store false = .ok Demo.translated ∧
    Demo.translated.total Demo.attrM = 102 :=
  ⟨Demo.src_reachable, Demo.reachableFk.tidy, Demo.reachableHashed, ok_of_toOption Demo.reader_eq,
    (reader_ok Demo.src_reachable (ok_of_toOption Demo.reader_eq)).1,
    fun x hx => ((reader_ok Demo.src_reachable (ok_of_toOption Demo.reader_eq)).2 x hx).1,
    ok_of_toOption Demo.translated_eq, by decide +kernel⟩

/-- The source after a record was deleted, and after that the target with the link made anew. -/
def Demo.src' : Store := run [.deleteIndex (.rows [(2, [Demo.ly])])] Demo.src
def Demo.store' : Store := run [.deleteMappings Demo.other none true
  (.rows [⟨2, 30, 3, [Demo.ly, Demo.l1], some [0xC0#8]⟩])] Demo.store

-- the hypotheses of C19_refused, and what happens
example : Reachable Demo.src' ∧ (∀ l ∈ Demo.store.links, ∀ ids, l.otherHash = some ids → Demo.src.listsIds ids) ∧
    (∃ i, ¬ (i ∈ Demo.src.ids ↔ i ∈ Demo.src'.ids)) ∧
    (Demo.reader.translate asciiCase Demo.src' Demo.store false).toOption = none := by
  refine ⟨⟨Demo.other, Demo.srcOps ++ [.deleteIndex (.rows [(2, [Demo.ly])])], ?_⟩, ?_, ⟨2, by decide +kernel⟩,
    by decide +kernel⟩
  · unfold Demo.src' Demo.src run
    rw [List.foldl_append]
  · intro l hl ids hids
    have h1 := List.mem_map_of_mem (f := fun l : Link => (l.id, l.otherHash, l.isDefault)) hl
    rw [Demo.links_eq, List.mem_singleton] at h1
    have h2 : l.otherHash = some [0, 1, 2] := congrArg (fun x => x.2.1) h1
    rw [hids] at h2
    rw [Option.some.inj h2]
    have : Demo.src.ids = [0, 1, 2] := by decide +kernel
    refine ⟨by decide, fun o => ?_⟩
    rw [this]
    simp

/-- C17 is violated for a reader that is older than a deletion of a source record: if the link was made anew
since, the translation succeeds and the values of the deleted record are lost (here 7 of 109). -/
theorem C17_stale_violated : ∃ r', Reachable Demo.src' ∧ ReachableTidy Demo.store' ∧ ReachableHashed Demo.store' ∧
    Demo.src.reader asciiCase [] false [] = .ok Demo.reader ∧
    Demo.reader.translate asciiCase Demo.src' Demo.store' false = .ok r' ∧
    amount Demo.reader.rows = 109 ∧ amount r'.rows = 102 ∧
    Demo.reader.total Demo.attrN = 7 ∧ r'.total Demo.attrN = 0 := by
  refine ⟨{ Demo.translated with
    rows := [⟨1, Demo.attrM, some 25⟩, ⟨2, Demo.attrM, some 75⟩, ⟨0, Demo.attrM, some 2⟩] }, ?_, ?_, ?_,
    ok_of_toOption Demo.reader_eq, ok_of_toOption (by decide +kernel), by decide +kernel, by decide +kernel,
    by decide +kernel, by decide +kernel⟩
  · refine ⟨Demo.other, Demo.srcOps ++ [.deleteIndex (.rows [(2, [Demo.ly])])], ?_⟩
    unfold Demo.src' Demo.src run
    rw [List.foldl_append]
  · refine ⟨['u'], Demo.ops ++ [.deleteMappings Demo.other none true
      (.rows [⟨2, 30, 3, [Demo.ly, Demo.l1], some [0xC0#8]⟩])], by simp [Demo.ops, Op.dropsOwner], ?_⟩
    unfold Demo.store' Demo.store run
    rw [List.foldl_append]
  · refine ⟨['u'], Demo.ops ++ [.deleteMappings Demo.other none true
      (.rows [⟨2, 30, 3, [Demo.ly, Demo.l1], some [0xC0#8]⟩])], by simp [Demo.ops, Op.setsHash], ?_⟩
    unfold Demo.store' Demo.store run
    rw [List.foldl_append]

/-! ### C43: what a reader shows -/

/-- The rows a reader yields: one for each record and attribute set that occurs, no two with the same labels
and attribute values, with the sum of the values; missing only if all values are. -/
theorem C43_output {r : Reader} {s : Store} (hs : Reachable s) (hr : r.Ok) (hd : r.Dicts)
    {out : List (List PyStr × List (Option PyStr) × Option ℚ)} (h : r.output s = .ok out) :
    (out.map fun o => (o.1, o.2.1)).Nodup ∧
    (∃ keys : List (Nat × Attrs), keys.Nodup ∧
      (∀ i a, (i, a) ∈ keys ↔ ∃ x ∈ r.rows, x.index = i ∧ x.attrs = a) ∧
      List.Forall₂ (fun k o => (∃ y ∈ s.index, y.id = k.1 ∧ y.labels = o.1) ∧
        o.2.1 = r.keys.map (attrGet k.2) ∧ o.2.2.getD 0 = r.amountAt k.1 k.2 ∧
        (o.2.2 = none ↔ ∀ x ∈ r.rows, x.index = k.1 → x.attrs = k.2 → x.value = none)) keys out) ∧
    (out.map fun o => o.2.2.getD 0).sum = amount r.rows := by
  have h2 := flatMapE_single.1 h
  set keys := distinct (r.rows.map fun x => (x.index, x.attrs)) with hkeys
  have hmem : ∀ i a, (i, a) ∈ keys ↔ ∃ x ∈ r.rows, x.index = i ∧ x.attrs = a := by
    intro i a
    rw [hkeys, mem_distinct, List.mem_map]
    simp [Prod.ext_iff]
  have hnd : keys.Nodup := nodup_distinct _
  have h3 : List.Forall₂ (fun k o => (∃ y ∈ s.index, y.id = k.1 ∧ y.labels = o.1) ∧
        o.2.1 = r.keys.map (attrGet k.2) ∧ o.2.2.getD 0 = r.amountAt k.1 k.2 ∧
        (o.2.2 = none ↔ ∀ x ∈ r.rows, x.index = k.1 → x.attrs = k.2 → x.value = none)) keys out := by
    refine h2.imp ?_
    rintro k o ⟨labels, hl, rfl⟩
    refine ⟨(labelsOf_ok hs).1 hl, rfl, valuesAt_amount r k.1 k.2, ?_⟩
    simp only
    rw [sqlSum_none]
    unfold Reader.valuesAt
    simp only [List.mem_map, List.mem_filter, Bool.and_eq_true, beq_iff_eq]
    constructor
    · intro h x hx h1 h2; exact h _ ⟨x, ⟨hx, h1, h2⟩, rfl⟩
    · rintro h v ⟨x, ⟨hx, h1, h2⟩, rfl⟩; exact h x hx h1 h2
  refine ⟨?_, ⟨keys, hnd, hmem, h3⟩, ?_⟩
  · have hinj : ∀ k ∈ keys, ∀ k' ∈ keys, ∀ o o' : List PyStr × List (Option PyStr) × Option ℚ,
        ((∃ y ∈ s.index, y.id = k.1 ∧ y.labels = o.1) ∧ o.2.1 = r.keys.map (attrGet k.2)) →
        ((∃ y ∈ s.index, y.id = k'.1 ∧ y.labels = o'.1) ∧ o'.2.1 = r.keys.map (attrGet k'.2)) →
        (o.1, o.2.1) = (o'.1, o'.2.1) → k = k' := by
      rintro ⟨i, a⟩ hk ⟨i', a'⟩ hk' o o' ⟨⟨y, hy, hi, hl⟩, hc⟩ ⟨⟨y', hy', hi', hl'⟩, hc'⟩ he
      have he1 : o.1 = o'.1 := (Prod.mk.inj he).1
      have he2 : o.2.1 = o'.2.1 := (Prod.mk.inj he).2
      have hyy := C22_labels_unique hs hy hy' (hl.trans (he1.trans hl'.symm))
      obtain ⟨x, hx, _, hxa⟩ := (hmem _ _).1 hk
      obtain ⟨x', hx', _, hxa'⟩ := (hmem _ _).1 hk'
      have haa := cells_inj hr hd (hxa ▸ hr.known x hx) (hxa' ▸ hr.known x' hx')
        (hc.symm.trans (he2.trans hc'))
      simp only at hi hi'
      rw [← hi, ← hi', hyy]
      exact congrArg _ haa
    clear hkeys h h2 hmem
    clear_value keys
    induction h3 with
    | nil => exact List.nodup_nil
    | @cons k o ks os hko hrest ih =>
      obtain ⟨hn1, hn2⟩ := List.nodup_cons.1 hnd
      rw [List.map_cons, List.nodup_cons]
      refine ⟨?_, ih hn2 fun a ha b hb => hinj a (by simp [ha]) b (by simp [hb])⟩
      intro hm
      obtain ⟨o', ho', he⟩ := List.mem_map.1 hm
      obtain ⟨j, hj, rfl⟩ := List.mem_iff_getElem.1 ho'
      have hj' : j < ks.length := by rw [hrest.length_eq]; exact hj
      have := hrest.get hj' hj
      simp only [List.get_eq_getElem] at this
      have := hinj (ks[j]) (by simp) k (by simp) _ _ ⟨this.1, this.2.1⟩ ⟨hko.1, hko.2.1⟩ he
      exact hn1 (this ▸ List.getElem_mem _)
  · have : (out.map fun o => o.2.2.getD 0) = keys.map fun k => r.amountAt k.1 k.2 := by
      clear hkeys h h2 hmem hnd
      clear_value keys
      induction h3 with
      | nil => rfl
      | cons hko _ ih => rw [List.map_cons, List.map_cons, hko.2.2.1, ih]
    rw [this]
    have hg := amount_groups (fun x => (x.index, x.attrs)) r.rows hnd
    have he : ∀ k : Nat × Attrs, amount (r.rows.filter fun x => decide ((x.index, x.attrs) = k)) =
        r.amountAt k.1 k.2 := by
      intro k
      unfold Reader.amountAt
      congr 1
      apply List.filter_congr
      intro x _
      rw [Bool.eq_iff_iff]
      simp [Prod.ext_iff]
    simp only [he] at hg
    rw [hg, List.filter_eq_self.2]
    intro x hx
    simpa using (hmem _ _).2 ⟨x, hx, rfl, rfl⟩

/-- Nothing else is needed for the output: it succeeds if the rows are about records of the dataspace. -/
theorem C43_output_succeeds {r : Reader} {s : Store} (hs : Reachable s) (hrows : ∀ x ∈ r.rows, x.index ∈ s.ids) :
    ∃ out, r.output s = .ok out := by
  unfold Reader.output
  refine flatMapE_exists fun k hk => ?_
  obtain ⟨x, hx, rfl⟩ := List.mem_map.1 (mem_distinct.1 hk)
  obtain ⟨y, hy, he⟩ := List.mem_map.1 (hrows x hx)
  rw [(labelsOf_ok hs).2 ⟨y, hy, he, rfl⟩]
  exact ⟨_, rfl⟩

/-- The pivoted table: one column for each combination of values that occurs in the attribute sets (not all
empty), one row for each record with such values, and in each cell the aggregate of the values of the
attribute sets there, each added up first. -/
theorem pivot_rows {r : Reader} {s : Store} (hs : Reachable s)
    {agg : List (Option ℚ) → Option ℚ} {columns : List PyStr} {out : List (List PyStr × List (Option ℚ))}
    (h : r.pivotRows s agg columns = .ok out) :
    List.Forall₂ (fun i row => (∃ y ∈ s.index, y.id = i ∧ y.labels = row.1) ∧
      List.Forall₂ (fun c v => v = agg ((r.cellAttrs columns i c).map fun a => sqlSum (r.valuesAt (i, a))))
        (r.pivotColumns columns) row.2) (r.pivotIndexes columns) out := by
  refine (flatMapE_single.1 h).imp ?_
  rintro i row ⟨labels, hl, rfl⟩
  refine ⟨(labelsOf_ok hs).1 hl, ?_⟩
  simp only
  rw [List.forall₂_map_right_iff, List.forall₂_same]
  intro c hc
  obtain ⟨_, _, _, hv⟩ := mem_pivotColumns.1 hc
  rw [pivotParts_eq hv]

theorem cellAttrs_none {r : Reader} (hr : r.Ok) {columns : List PyStr} {i : Nat} {c : List PyStr} :
    (∀ v ∈ (r.cellAttrs columns i c).map fun a => sqlSum (r.valuesAt (i, a)), v = none) ↔
      ∀ x ∈ r.cell columns i c, x.value = none := by
  unfold Reader.cellAttrs Reader.cell
  simp only [List.mem_map, List.mem_filter, Bool.and_eq_true, decide_eq_true_eq]
  constructor
  · rintro h x ⟨hx, hi, hc⟩
    have := h _ ⟨x.attrs, ⟨hr.known x hx, hc, List.any_eq_true.2 ⟨x, hx, by simp [hi]⟩⟩, rfl⟩
    rw [sqlSum_none] at this
    exact this _ (List.mem_map.2 ⟨x, List.mem_filter.2 ⟨hx, by simp [hi]⟩, rfl⟩)
  · rintro h v ⟨a, ⟨_, hc, _⟩, rfl⟩
    rw [sqlSum_none]
    intro v hv
    obtain ⟨x, hx, rfl⟩ := List.mem_map.1 hv
    obtain ⟨hx, hb⟩ := List.mem_filter.1 hx
    rw [Bool.and_eq_true, beq_iff_eq, beq_iff_eq] at hb
    exact h x ⟨hx, hb.1, by rw [hb.2]; exact hc⟩

/-- The pivoted table with sums. Columns: each combination of values that occurs in the attribute sets (not all
empty), once. Rows: each record with such values, once. A cell is the sum of the values of its record and
combination; it is missing only if there is none. -/
theorem C43_pivot {r : Reader} {s : Store} (hs : Reachable s) (hr : r.Ok) {columns : List PyStr}
    {out : List (List PyStr × List (Option ℚ))} (h : r.pivotRows s sqlSum columns = .ok out) :
    ∃ (cols : List (List PyStr)) (idx : List Nat), cols.Nodup ∧ idx.Nodup ∧
      (∀ c, c ∈ cols ↔ ∃ a ∈ r.attrData, c = valuesIn columns a ∧ ∃ v ∈ c, v ≠ []) ∧
      (∀ i, i ∈ idx ↔ ∃ x ∈ r.rows, x.index = i ∧ hasPivot columns x) ∧
      r.pivotHeader s columns = s.cols.map Header.str ++ cols.map formatColumn ∧
      List.Forall₂ (fun i row => (∃ y ∈ s.index, y.id = i ∧ y.labels = row.1) ∧
        List.Forall₂ (fun c v => v.getD 0 = amount (r.cell columns i c) ∧
          (v = none ↔ ∀ x ∈ r.cell columns i c, x.value = none)) cols row.2) idx out := by
  refine ⟨r.pivotColumns columns, r.pivotIndexes columns, nodup_distinct _, nodup_pivotIndexes _ _,
    fun c => mem_pivotColumns, fun i => mem_pivotIndexes hr, rfl, ?_⟩
  refine (pivot_rows hs h).imp ?_
  rintro i row ⟨h1, h2⟩
  refine ⟨h1, h2.imp ?_⟩
  rintro c v rfl
  refine ⟨?_, by rw [sqlSum_none, cellAttrs_none hr]⟩
  rw [sqlSum_getD, List.map_map, ← cell_amount hr]
  congr 1
  apply List.map_congr_left
  intro a _
  exact valuesAt_amount r i a

/-- The same with means: a cell is the sum divided by the number of attribute sets with a value there. -/
theorem C43_pivot_mean {r : Reader} {s : Store} (hs : Reachable s) (hr : r.Ok) {columns : List PyStr}
    {out : List (List PyStr × List (Option ℚ))} (h : r.pivotRows s sqlAvg columns = .ok out) :
    ∃ (cols : List (List PyStr)) (idx : List Nat), cols.Nodup ∧ idx.Nodup ∧
      (∀ c, c ∈ cols ↔ ∃ a ∈ r.attrData, c = valuesIn columns a ∧ ∃ v ∈ c, v ≠ []) ∧
      (∀ i, i ∈ idx ↔ ∃ x ∈ r.rows, x.index = i ∧ hasPivot columns x) ∧
      List.Forall₂ (fun i row => (∃ y ∈ s.index, y.id = i ∧ y.labels = row.1) ∧
        List.Forall₂ (fun c v => ∃ sets : List Attrs, sets.Nodup ∧
          (∀ a, a ∈ sets ↔ ∃ x ∈ r.cell columns i c, x.attrs = a ∧ x.value ≠ none) ∧
          v = if sets = [] then none else some (amount (r.cell columns i c) / sets.length)) cols row.2) idx out := by
  refine ⟨r.pivotColumns columns, r.pivotIndexes columns, nodup_distinct _, nodup_pivotIndexes _ _,
    fun c => mem_pivotColumns, fun i => mem_pivotIndexes hr, ?_⟩
  refine (pivot_rows hs h).imp ?_
  rintro i row ⟨h1, h2⟩
  refine ⟨h1, h2.imp ?_⟩
  rintro c v rfl
  set f := fun a => sqlSum (r.valuesAt (i, a)) with hf
  refine ⟨(r.cellAttrs columns i c).filter fun a => (f a).isSome, (hr.once.filter _).filter _, ?_, ?_⟩
  · intro a
    rw [List.mem_filter, Option.isSome_iff_ne_none, hf]
    simp only [ne_eq, sqlSum_none, not_forall]
    unfold Reader.cellAttrs Reader.cell Reader.valuesAt
    simp only [List.mem_map, List.mem_filter, Bool.and_eq_true, decide_eq_true_eq, List.any_eq_true, beq_iff_eq]
    constructor
    · rintro ⟨⟨_, hc, _⟩, v, ⟨x, ⟨hx, hi, ha⟩, rfl⟩, hv⟩
      exact ⟨x, ⟨hx, hi, by rw [ha]; exact hc⟩, ha, hv⟩
    · rintro ⟨x, ⟨hx, hi, hc⟩, rfl, hv⟩
      exact ⟨⟨hr.known x hx, hc, x, hx, hi, rfl⟩, _, ⟨x, ⟨hx, hi, rfl⟩, rfl⟩, hv⟩
  · have h3 : ∀ l : List Attrs, ((l.map f).filterMap id).length = (l.filter fun a => (f a).isSome).length := by
      intro l
      induction l with
      | nil => rfl
      | cons a l ih =>
        rcases hfa : f a with _ | v
        · rw [List.filter_cons_of_neg (by simp [hfa]), ← ih]; simp [hfa]
        · rw [List.filter_cons_of_pos (by simp [hfa]), List.length_cons, ← ih]; simp [hfa]
    have h4 : ((r.cellAttrs columns i c).map f).filterMap id = [] ↔
        ((r.cellAttrs columns i c).filter fun a => (f a).isSome) = [] := by
      rw [← List.length_eq_zero_iff, h3, List.length_eq_zero_iff]
    have h5 : (((r.cellAttrs columns i c).map f).filterMap id).sum = amount (r.cell columns i c) := by
      have h6 : ∀ vs : List (Option ℚ), (vs.filterMap id).sum = (vs.map fun v => v.getD 0).sum := by
        intro vs
        induction vs with
        | nil => rfl
        | cons v vs ih =>
          cases v with
          | none => simpa using ih
          | some x => simpa using ih
      rw [h6, List.map_map, ← cell_amount hr]
      congr 1
      apply List.map_congr_left
      intro a _
      exact valuesAt_amount r i a
    unfold sqlAvg
    split
    · rename_i he
      rw [if_pos (h4.1 he)]
    · rename_i he
      rw [if_neg (fun hn => he (h4.2 hn)), h5, h3]

theorem forall2_map_eq {α β : Type} {R : α → β → Prop} {as : List α} {bs : List β} (h : List.Forall₂ R as bs)
    {f : α → ℚ} {g : β → ℚ} (he : ∀ a b, R a b → g b = f a) : bs.map g = as.map f := by
  induction h with
  | nil => rfl
  | cons hab _ ih => rw [List.map_cons, List.map_cons, he _ _ hab, ih]

/-- The cells of a pivoted table add up to the values of the rows with a non-empty value in one of the
columns. -/
theorem C43_pivot_total {r : Reader} {s : Store} (hs : Reachable s) (hr : r.Ok) {columns : List PyStr}
    {out : List (List PyStr × List (Option ℚ))} (h : r.pivotRows s sqlSum columns = .ok out) :
    (out.map fun row => (row.2.map fun v => v.getD 0).sum).sum =
      amount (r.rows.filter fun x => decide (hasPivot columns x)) := by
  obtain ⟨cols, idx, hc, hi, hcm, him, _, hrows⟩ := C43_pivot hs hr h
  rw [forall2_map_eq hrows (f := fun i => amount ((r.rows.filter fun x => decide (hasPivot columns x)).filter
    fun x => decide (x.index = i)))]
  · rw [amount_groups (fun x => x.index) _ hi, List.filter_filter]
    congr 1
    apply List.filter_congr
    intro x hx
    rw [Bool.eq_iff_iff]
    simp only [Bool.and_eq_true, decide_eq_true_eq, him]
    exact ⟨fun h => h.2, fun h => ⟨⟨x, hx, rfl, h⟩, h⟩⟩
  · rintro i row ⟨_, hrow⟩
    rw [forall2_map_eq hrow (f := fun c => amount ((r.rows.filter fun x => decide (x.index = i)).filter
      fun x => decide (valuesIn columns x.attrs = c)))]
    · rw [amount_groups (fun x => valuesIn columns x.attrs) _ hc, List.filter_filter, List.filter_filter]
      congr 1
      apply List.filter_congr
      intro x hx
      rw [Bool.eq_iff_iff]
      simp only [Bool.and_eq_true, decide_eq_true_eq, hcm]
      constructor
      · rintro ⟨⟨a, _, _, hv⟩, hi⟩; exact ⟨hi, hv⟩
      · rintro ⟨hi, hv⟩; exact ⟨⟨x.attrs, hr.known x hx, rfl, hv⟩, hi⟩
    · rintro c v ⟨hv, _⟩
      rw [hv]
      unfold Reader.cell
      rw [List.filter_filter]
      congr 1
      apply List.filter_congr
      intro x _
      rw [Bool.eq_iff_iff]
      simp [and_comm]

/-- Different pivoted columns have different headers. -/
theorem C43_header {r : Reader} {columns : List PyStr} :
    ((r.pivotColumns columns).map formatColumn).Nodup := by
  refine (List.nodup_map_iff_inj_on (nodup_distinct _)).2 fun c hc c' hc' he => ?_
  obtain ⟨_, _, h1, _⟩ := mem_pivotColumns.1 hc
  obtain ⟨_, _, h2, _⟩ := mem_pivotColumns.1 hc'
  have hl : c.length = c'.length := by
    rw [h1, h2]
    unfold valuesIn
    rw [List.length_map, List.length_map]
  apply strip_eq hl
  unfold formatColumn at he
  split at he
  · rename_i x hx
    split at he
    · rename_i y hy
      rw [hx, hy]
      cases he
      rfl
    · cases he
  · split at he
    · cases he
    · injection he

/-- C43 is violated for headers as a whole: a pivoted column can have the name of a label column. -/
theorem C43_header_violated : ∃ (s : Store) (r : Reader), Reachable s ∧ r.Ok ∧
    r.pivotHeader s [['c']] = [.str ['A'], .str ['A']] :=
  ⟨Demo.src, Reader.new [(1, [(['c'], ['A'])], some 1)], Demo.src_reachable, Reader.new_ok _, by decide +kernel⟩

-- the hypotheses of C43, and what is shown
example : Demo.translated.Ok ∧ Demo.translated.Dicts ∧ (∀ x ∈ Demo.translated.rows, x.index ∈ Demo.store.ids) ∧
    ((Demo.translated.output Demo.store).toOption.map fun out => out.map fun o => (o.1, o.2.2)) = some
      [([['x'], ['1']], some 25), ([['x'], ['2']], some 75), ([['y'], ['1']], some 7), ([['-'], ['-']], some 2)] ∧
    ((Demo.translated.output Demo.store).toOption.map fun out => out.map fun o => o.2.1) = some
      [[some ['m']], [some ['m']], [some ['n']], [some ['m']]] ∧
    (Demo.translated.pivotRows Demo.store sqlSum [['c']]).toOption = some
      [([['-'], ['-']], [some 2, none]), ([['x'], ['1']], [some 25, none]), ([['x'], ['2']], [some 75, none]),
       ([['y'], ['1']], [none, some 7])] := by
  refine ⟨((reader_ok Demo.src_reachable (ok_of_toOption Demo.reader_eq)).1.translate
    (ok_of_toOption Demo.translated_eq)).1, by unfold Reader.Dicts; decide +kernel, by decide +kernel,
    by decide +kernel, by decide +kernel, by decide +kernel⟩

end Toron.Space
