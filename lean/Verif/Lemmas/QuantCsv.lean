/-
Lemmas about writing and reading quantities as a table (C67).
-/
import Verif.Spec.QuantCsv
import Verif.Lemmas.IndexCsv
import Verif.Lemmas.Reader
import Verif.Lemmas.Store.Policies2
import Verif.Props.StoreSelect
import Verif.Props.StorePolicies

namespace Toron.QuantCsv

open Toron.Selectors (PyStr)
open Toron.Space
open Toron.MappingCsv (Table bindE_ok mapM_forall₂)
open Toron.IndexCsv (Floats)

/-! ### Cells by column -/

theorem lookup_of_mem {α β : Type} [BEq α] [LawfulBEq α] {l : List (α × β)} (h : (l.map (·.1)).Nodup) {k : α} {v : β}
    (hm : (k, v) ∈ l) : l.lookup k = some v := by
  induction l with
  | nil => cases hm
  | cons x xs ih =>
    rw [List.map_cons, List.nodup_cons] at h
    obtain ⟨a, b⟩ := x
    rcases List.mem_cons.1 hm with he | hm'
    · cases he
      simp
    · have hne : (k == a) = false := by
        rw [beq_eq_false_iff_ne]
        rintro rfl
        exact h.1 (List.mem_map.2 ⟨_, hm', rfl⟩)
      rw [List.lookup_cons, hne]
      exact ih h.2 hm'

theorem lookup_eq_none {α β : Type} [BEq α] [LawfulBEq α] {l : List (α × β)} {k : α} (h : k ∉ l.map (·.1)) :
    l.lookup k = none := by
  induction l with
  | nil => rfl
  | cons x xs ih =>
    rw [List.map_cons, List.mem_cons, not_or] at h
    obtain ⟨a, b⟩ := x
    have hne : (k == a) = false := beq_eq_false_iff_ne.2 h.1
    rw [List.lookup_cons, hne]
    exact ih h.2

theorem mem_of_lookup {α β : Type} [BEq α] [LawfulBEq α] {l : List (α × β)} {k : α} {v : β}
    (h : l.lookup k = some v) : (k, v) ∈ l := by
  induction l with
  | nil => cases h
  | cons x xs ih =>
    obtain ⟨a, b⟩ := x
    rw [List.lookup_cons] at h
    cases hb : k == a with
    | true =>
      rw [hb] at h
      obtain rfl := eq_of_beq hb
      cases h
      exact List.mem_cons_self
    | false =>
      rw [hb] at h
      exact List.mem_cons_of_mem _ (ih h)

theorem cell_of_mem {header row : List PyStr} (hnd : header.Nodup) (hlen : row.length = header.length) {k v : PyStr}
    (hm : (k, v) ∈ header.zip row) : cell header row k = some v := by
  unfold cell
  refine lookup_of_mem ?_ (List.mem_reverse.2 hm)
  rw [List.map_reverse, List.nodup_reverse, List.map_fst_zip (Nat.le_of_eq hlen.symm)]
  exact hnd

theorem cell_none {header row : List PyStr} {k : PyStr} (h : k ∉ header) : cell header row k = none := by
  unfold cell
  refine lookup_eq_none fun hm => h ?_
  rw [List.map_reverse, List.mem_reverse] at hm
  obtain ⟨⟨a, b⟩, hx, rfl⟩ := List.mem_map.1 hm
  exact (List.of_mem_zip hx).1

/-! ### The attribute set that is read -/

theorem rowAttrs_read {s s' : Store} (hai : AttrInv s) {g : AGroup} (hg : g ∈ s.agroups)
    (hreg : ∀ kv ∈ g.attrs, kv.1 ∈ s'.regAttrs.getD []) {row : QuantRow}
    (hrow : row.attrs = (s'.regAttrs.getD []).map fun k => (k, (g.attrs.lookup k).getD []))
    (hnd : (s'.regAttrs.getD []).Nodup) : s'.rowAttrs row = g.attrs := by
  obtain ⟨a, ha⟩ := hai.sorted g hg
  have hkeys := hai.keys g hg
  have hlook : ∀ k ∈ s'.regAttrs.getD [], row.attrs.lookup k = some ((g.attrs.lookup k).getD []) := by
    intro k hk
    rw [hrow]
    refine lookup_of_mem ?_ (List.mem_map.2 ⟨k, hk, rfl⟩)
    rw [List.map_map]
    exact (List.map_id _).symm ▸ hnd
  unfold Store.rowAttrs
  have hperm : (row.pick (s'.regAttrs.getD [])).Perm g.attrs := by
    rw [List.perm_ext_iff_of_nodup ((row.pick_keys _).of_map) hkeys.of_map]
    rintro ⟨k, v⟩
    unfold QuantRow.pick
    rw [List.mem_filterMap]
    constructor
    · rintro ⟨k', hk', he⟩
      rw [mem_distinct] at hk'
      rw [hlook k' hk'] at he
      by_cases hv : (g.attrs.lookup k').getD [] = []
      · rw [hv] at he; cases he
      · have : ((g.attrs.lookup k').getD []).isEmpty = false := by
          rcases h0 : (g.attrs.lookup k').getD [] with _ | ⟨c, cs⟩
          · exact absurd h0 hv
          · rfl
        simp only [this] at he
        cases he
        rcases h1 : g.attrs.lookup k with _ | w
        · rw [h1] at hv; exact absurd rfl hv
        · exact mem_of_lookup h1
    · intro hm
      have hk := hreg _ hm
      refine ⟨k, mem_distinct.2 hk, ?_⟩
      rw [hlook k hk, lookup_of_mem hkeys hm]
      have : v.isEmpty = false := by
        have := (hai.nonempty g hg _ hm).2
        rcases v with _ | ⟨c, cs⟩
        · exact absurd rfl this
        · rfl
      simp only [Option.getD_some, this]
      rfl
  rw [canonAttrs_congr (row.pick_keys _) hperm, ha, canonAttrs_idem]

/-! ### A written row -/

theorem header_nodup {s : Store} (hc : ColInv s) (hp : PlainNames s) : (headerOf s).Nodup := by
  have hres : domainName ∈ reservedNames := by decide +kernel
  unfold headerOf
  have h1 : (s.cols ++ (s.regAttrs.getD [] ++ [quantityName])).Nodup := by
    rw [List.nodup_append, List.nodup_append]
    refine ⟨hc.cols.of_map, ⟨hc.attrs, List.nodup_singleton _, ?_⟩, ?_⟩
    · rintro a ha b hb rfl
      rw [List.mem_singleton] at hb
      exact hp.2 (hb ▸ ha)
    · rintro a ha b hb rfl
      rcases List.mem_append.1 hb with hb | hb
      · exact hc.disj a hb ha
      · rw [List.mem_singleton] at hb
        exact hp.1 (hb ▸ ha)
  by_cases hd : s.getDomain = []
  · rw [if_pos hd]; exact h1
  · rw [if_neg hd]
    rw [List.singleton_append]
    refine List.nodup_cons.2 ⟨fun hm => ?_, h1⟩
    rcases List.mem_append.1 hm with hm | hm
    · exact hc.colsRes _ hm hres
    · rcases List.mem_append.1 hm with hm | hm
      · exact hc.attrsRes _ hm hres
      · rw [List.mem_singleton] at hm
        revert hm
        decide

theorem mem_zip_append {α β : Type} {a c : List α} {b d : List β} (h : a.length = b.length) {x : α × β} :
    x ∈ (a ++ c).zip (b ++ d) ↔ x ∈ a.zip b ∨ x ∈ c.zip d := by
  rw [List.zip_append h, List.mem_append]

/-- What is read from a row that shows the quantity. -/
structure Reads (s s' : Store) (q : Quant) (row : QuantRow) : Prop where
  labels : ∃ l ∈ s.locs, l.id = q.loc ∧ row.labels = l.labels
  attrs : ∃ g ∈ s.agroups, g.id = q.ag ∧ s'.rowAttrs row = g.attrs
  value : row.value = q.value
  domain : row.domain = none ∨ row.domain = some s'.getDomain

theorem readRow_written {F : Floats} {s s' : Store} (hc : ColInv s) (hc' : ColInv s') (hq : QuantInv s) (hai : AttrInv s)
    (hp : PlainNames s) (hreg : AllRegistered s) (hl : SameLayout s s') {q : Quant} {v : QuantView}
    (h : s.Shows (s.regAttrs.getD []) q v) :
    ∃ row, readRow F s'.cols (s'.regAttrs.getD []) quantityName (headerOf s) (writeView F v) = .ok row ∧
      Reads s s' q row := by
  obtain ⟨⟨l, hlm, hlid, hlab⟩, ⟨g, hgm, hgid, hat⟩, hval, hdom⟩ := h
  have hnd := header_nodup hc hp
  have hld : (if s.getDomain = [] then [] else [domainName]).length = v.domain.length := by
    rw [hdom]
    show _ = (if s.getDomain = [] then [] else [s.getDomain]).length
    by_cases hd : s.getDomain = []
    · rw [if_pos hd, if_pos hd]
    · rw [if_neg hd, if_neg hd]; rfl
  have hll : s.cols.length = v.labels.length := by rw [hlab, hq.locLens l hlm]
  have hla : (s.regAttrs.getD []).length = (v.attrs.map fun a => a.getD []).length := by
    rw [hat, List.length_map, List.length_map]
  have hlen : (writeView F v).length = (headerOf s).length := by
    unfold writeView headerOf
    simp only [List.length_append, List.length_map, List.length_singleton] at *
    omega
  have hcols : ∀ x ∈ s.cols.zip v.labels, cell (headerOf s) (writeView F v) x.1 = some x.2 := by
    intro x hx
    refine cell_of_mem hnd hlen ?_
    unfold headerOf writeView
    rw [mem_zip_append hld, mem_zip_append hll]
    exact .inr (.inl hx)
  have hattr : ∀ k ∈ s.regAttrs.getD [],
      cell (headerOf s) (writeView F v) k = some ((g.attrs.lookup k).getD []) := by
    intro k hk
    refine cell_of_mem hnd hlen ?_
    unfold headerOf writeView
    rw [mem_zip_append hld, mem_zip_append hll, mem_zip_append hla]
    refine .inr (.inr (.inl ?_))
    rw [hat, List.map_map]
    have hz : ∀ (ks : List PyStr) (f : PyStr → PyStr), k ∈ ks → (k, f k) ∈ ks.zip (ks.map f) := by
      intro ks f hk
      induction ks with
      | nil => cases hk
      | cons x xs ih =>
        rcases List.mem_cons.1 hk with rfl | hk
        · exact List.mem_cons_self
        · exact List.mem_cons_of_mem _ (ih hk)
    exact hz _ _ hk
  have hvalue : cell (headerOf s) (writeView F v) quantityName = some (F.text v.value) := by
    refine cell_of_mem hnd hlen ?_
    unfold headerOf writeView
    rw [mem_zip_append hld, mem_zip_append hll, mem_zip_append hla]
    exact .inr (.inr (.inr List.mem_cons_self))
  have hdomain : cell (headerOf s) (writeView F v) domainName = none ∨
      cell (headerOf s) (writeView F v) domainName = some s'.getDomain := by
    by_cases hd : s.getDomain = []
    · refine .inl (cell_none fun hm => ?_)
      have hres : domainName ∈ reservedNames := by decide +kernel
      unfold headerOf at hm
      rw [if_pos hd, List.nil_append] at hm
      rcases List.mem_append.1 hm with hm | hm
      · exact hc.colsRes _ hm hres
      · rcases List.mem_append.1 hm with hm | hm
        · exact hc.attrsRes _ hm hres
        · rw [List.mem_singleton] at hm
          revert hm
          decide
    · refine .inr (cell_of_mem hnd hlen ?_)
      rcases hl.domain with h0 | h0
      · exact absurd h0 hd
      unfold headerOf writeView
      rw [mem_zip_append hld]
      left
      rw [hdom, h0]
      show _ ∈ (if s.getDomain = [] then [] else [domainName]).zip (if s.getDomain = [] then [] else [s.getDomain])
      rw [if_neg hd, if_neg hd]
      exact List.mem_cons_self
  have has : (s'.regAttrs.getD []).mapM (fun k => (do
      let v ← cellE (headerOf s) (writeView F v) k
      .ok (k, v) : Except Err (PyStr × PyStr))) =
      .ok ((s'.regAttrs.getD []).map fun k => (k, (g.attrs.lookup k).getD [])) := by
    rw [mapM_forall₂, List.forall₂_map_right_iff, List.forall₂_same]
    intro k hk
    unfold cellE
    rw [hattr k ((hl.attrs k).1 hk)]
    rfl
  have hlabels : s'.cols.mapM (cellE (headerOf s) (writeView F v)) = .ok v.labels := by
    rw [mapM_forall₂, hl.cols, List.forall₂_iff_zip]
    refine ⟨hll, fun {a b} hm => ?_⟩
    unfold cellE
    rw [hcols _ hm]
  have hregs : ∀ kv ∈ g.attrs, kv.1 ∈ s'.regAttrs.getD [] := fun kv hkv => (hl.attrs _).2 (hreg g hgm kv hkv)
  have hnall : ¬ (((s'.regAttrs.getD []).map fun k => (k, (g.attrs.lookup k).getD [])).all
      fun kv => decide (kv.2 = [])) = true := by
    intro hall
    obtain ⟨kv, hkv⟩ := List.exists_mem_of_ne_nil _ (hai.some g hgm)
    have h1 := List.all_eq_true.1 hall _ (List.mem_map_of_mem (hregs kv hkv))
    rw [decide_eq_true_eq] at h1
    rw [lookup_of_mem (hai.keys g hgm) (k := kv.1) (v := kv.2) hkv] at h1
    exact (hai.nonempty g hgm kv hkv).2 h1
  refine ⟨⟨cell (headerOf s) (writeView F v) domainName, v.labels,
    (s'.regAttrs.getD []).map fun k => (k, (g.attrs.lookup k).getD []), v.value⟩, ?_,
    ⟨l, hlm, hlid, hlab⟩, ⟨g, hgm, hgid, rowAttrs_read hai hgm hregs rfl hc'.attrs⟩, hval, hdomain⟩
  unfold readRow
  refine bindE_ok.2 ⟨_, has, bindE_ok.2 ⟨_, hlabels, ?_⟩⟩
  rw [if_neg hnall]
  unfold cellE
  rw [hvalue]
  show (match F.parse (F.text v.value) with
    | some q => _
    | none => _) = _
  rw [F.parse_text]

/-! ### A written table -/

theorem readRows_written {F : Floats} {s s' : Store} (hr : Reachable s) (hr' : Reachable s') (hp : PlainNames s)
    (hreg : AllRegistered s) (hl : SameLayout s s') {t : Table} (h : writeQuantities F s = .ok t)
    (al ap : Bool) (p : Policy) :
    ∃ (qs : List Quant) (rows : List QuantRow), qs.Nodup ∧
      (∀ q, q ∈ qs ↔ q ∈ s.quants ∧ ∃ l ∈ s.locs, l.id = q.loc) ∧ List.Forall₂ (Reads s s') qs rows ∧
      loadQuantities F quantityName al ap p t s' = step (.insertQuantities2 al ap p rows) s' := by
  unfold writeQuantities at h
  obtain ⟨vs, hvs, ht⟩ := bindE_ok.1 h
  cases ht
  obtain ⟨qs, h1, h2, h3⟩ := C55_quantities2_partial hr hvs
  have hne : s.regAttrs.getD [] ≠ [] := by
    intro h0
    unfold Store.selectQuantities2 at hvs
    rw [if_pos h0] at hvs
    cases hvs
  have hrows : ∃ rows, List.Forall₂ (Reads s s') qs rows ∧
      List.Forall₂ (fun a b => readRow F s'.cols (s'.regAttrs.getD []) quantityName (headerOf s) a = .ok b)
        (vs.map (writeView F)) rows := by
    clear h h1 h2 hvs
    induction h3 with
    | nil => exact ⟨[], .nil, .nil⟩
    | cons hqv _ ih =>
      obtain ⟨rows, ha, hb⟩ := ih
      obtain ⟨row, hc, hd⟩ := readRow_written (F := F) hr.colInv hr'.colInv hr.quantInv hr.attrInv hp hreg hl hqv
      exact ⟨row :: rows, .cons hd ha, .cons hc hb⟩
  obtain ⟨rows, ha, hb⟩ := hrows
  refine ⟨qs, rows, h1, h2, ha, ?_⟩
  unfold loadQuantities
  have hne' : s'.regAttrs.getD [] ≠ [] := by
    obtain ⟨a, ha⟩ := List.exists_mem_of_ne_nil _ hne
    exact List.ne_nil_of_mem ((hl.attrs a).2 ha)
  have hmem : ∀ c ∈ s'.cols ++ [quantityName], c ∈ headerOf s := by
    intro c hc
    unfold headerOf
    rcases List.mem_append.1 hc with hc | hc
    · exact List.mem_append_right _ (List.mem_append_left _ (hl.cols ▸ hc))
    · exact List.mem_append_right _ (List.mem_append_right _ (List.mem_append_right _ hc))
  have hfil : ((s'.regAttrs.getD []).filter fun a => decide (a ∈ headerOf s)) = s'.regAttrs.getD [] := by
    refine List.filter_eq_self.2 fun a ha => ?_
    rw [decide_eq_true_eq]
    unfold headerOf
    exact List.mem_append_right _ (List.mem_append_right _ (List.mem_append_left _ ((hl.attrs a).1 ha)))
  rw [if_neg hne', if_neg (not_not.2 hmem)]
  show (match ((vs.map (writeView F)).mapM (readRow F s'.cols ((s'.regAttrs.getD []).filter
    fun a => decide (a ∈ headerOf s)) quantityName (headerOf s))) with
    | .error e => _
    | .ok rows => _) = _
  rw [hfil, mapM_forall₂.2 hb]

/-! ### The values for one cell -/

theorem eq_of_nodup_map {α β : Type} {f : α → β} {l : List α} (h : (l.map f).Nodup) {a b : α} (ha : a ∈ l)
    (hb : b ∈ l) (he : f a = f b) : a = b := List.inj_on_of_nodup_map h ha hb he

theorem Reads.labels_iff {s s' : Store} (hq : QuantInv s) {q : Quant} {row : QuantRow} (h : Reads s s' q row)
    {l : List PyStr} : row.labels = l ↔ ∃ x ∈ s.locs, x.id = q.loc ∧ x.labels = l := by
  obtain ⟨x, hx, hid, hlab⟩ := h.labels
  constructor
  · intro he
    exact ⟨x, hx, hid, hlab.symm.trans he⟩
  · rintro ⟨y, hy, hid', hlab'⟩
    rw [hlab, eq_of_nodup_map hq.locIds hx hy (hid.trans hid'.symm), hlab']

theorem Reads.attrs_iff {s s' : Store} (hq : QuantInv s) {q : Quant} {row : QuantRow} (h : Reads s s' q row)
    {a : Attrs} : s'.rowAttrs row = a ↔ ∃ x ∈ s.agroups, x.id = q.ag ∧ x.attrs = a := by
  obtain ⟨x, hx, hid, hlab⟩ := h.attrs
  constructor
  · intro he
    exact ⟨x, hx, hid, hlab.symm.trans he⟩
  · rintro ⟨y, hy, hid', hlab'⟩
    rw [hlab, eq_of_nodup_map hq.agIds hx hy (hid.trans hid'.symm), hlab']

theorem filter_map_forall₂ {α β γ : Type} {R : α → β → Prop} {f : α → γ} {g : β → γ} {P : α → Bool} {Q : β → Bool}
    (hf : ∀ a b, R a b → f a = g b) (hP : ∀ a b, R a b → P a = Q b) {as : List α} {bs : List β}
    (h : List.Forall₂ R as bs) : (as.filter P).map f = (bs.filter Q).map g := by
  induction h with
  | nil => rfl
  | @cons a b as bs hab _ ih =>
    rw [List.filter_cons, List.filter_cons, hP a b hab]
    by_cases hq : Q b = true
    · rw [if_pos hq, if_pos hq, List.map_cons, List.map_cons, hf a b hab, ih]
    · rw [if_neg hq, if_neg hq, ih]

theorem quantitiesFor_written {s s' : Store} (hq : QuantInv s) (hai : AttrInv s) {qs : List Quant}
    {rows : List QuantRow} (hnd : qs.Nodup) (hmem : ∀ q, q ∈ qs ↔ q ∈ s.quants ∧ ∃ l ∈ s.locs, l.id = q.loc)
    (h : List.Forall₂ (Reads s s') qs rows) {l : List PyStr} {a : Attrs} {v : Option ℚ} (hv : s.QuantityIs l a v) :
    s'.quantitiesFor rows l a = v.toList := by
  classical
  unfold Store.quantitiesFor
  rw [← filter_map_forall₂ (R := Reads s s') (f := fun q : Quant => q.value)
    (P := fun q => decide ((∃ x ∈ s.locs, x.id = q.loc ∧ x.labels = l) ∧ ∃ x ∈ s.agroups, x.id = q.ag ∧ x.attrs = a))
    (fun q row hqr => hqr.value.symm) ?_ h]
  · generalize hfe : qs.filter _ = fs
    have hfs : ∀ q, q ∈ fs ↔ q ∈ qs ∧ (∃ x ∈ s.locs, x.id = q.loc ∧ x.labels = l) ∧
        ∃ x ∈ s.agroups, x.id = q.ag ∧ x.attrs = a := by
      intro q
      rw [← hfe, List.mem_filter, decide_eq_true_eq]
    have hfn : fs.Nodup := hfe ▸ hnd.filter _
    have huniq : ∀ q ∈ fs, ∀ q' ∈ fs, q = q' := by
      intro q hm q' hm'
      obtain ⟨h1, ⟨x, hx, hxi, hxl⟩, ⟨y, hy, hyi, hyl⟩⟩ := (hfs q).1 hm
      obtain ⟨h1', ⟨x', hx', hxi', hxl'⟩, ⟨y', hy', hyi', hyl'⟩⟩ := (hfs q').1 hm'
      have e1 := eq_of_nodup_map hq.locLabels hx hx' (hxl.trans hxl'.symm)
      have e2 := eq_of_nodup_map hq.agAttrs hy hy' (hyl.trans hyl'.symm)
      refine eq_of_nodup_map hq.pairs ((hmem q).1 h1).1 ((hmem q').1 h1').1 ?_
      show (q.loc, q.ag) = (q'.loc, q'.ag)
      rw [← hxi, ← hxi', ← hyi, ← hyi', e1, e2]
    have hhas : ∀ x, s.HasQuantity l a x ↔ ∃ q ∈ fs, q.value = x := by
      intro x
      constructor
      · rintro ⟨q, hqm, hl, hg, he⟩
        obtain ⟨l', h1, h2, h3⟩ := hl
        exact ⟨q, (hfs q).2 ⟨(hmem q).2 ⟨hqm, l', h1, h2⟩, ⟨l', h1, h2, h3⟩, hg⟩, he⟩
      · rintro ⟨q, hqm, he⟩
        obtain ⟨h1, h2, h3⟩ := (hfs q).1 hqm
        exact ⟨q, ((hmem q).1 h1).1, h2, h3, he⟩
    rcases fs with _ | ⟨q, fs⟩
    · rcases v with _ | x
      · rfl
      · obtain ⟨q, hqm, -⟩ := (hhas x).1 ((hv x).1 rfl)
        cases hqm
    · rcases fs with _ | ⟨q', fs⟩
      · have := (hv q.value).2 ((hhas _).2 ⟨q, List.mem_cons_self, rfl⟩)
        rw [this]
        rfl
      · have he := huniq q List.mem_cons_self q' (List.mem_cons_of_mem _ List.mem_cons_self)
        rw [he] at hfn
        exact absurd List.mem_cons_self (List.nodup_cons.1 hfn).1
  · intro q row hqr
    refine decide_eq_decide.2 ?_
    rw [hqr.labels_iff hq, hqr.attrs_iff hq]
    constructor
    · rintro ⟨h1, h2⟩
      refine ⟨h1, h2, ?_⟩
      obtain ⟨g, hg, -, rfl⟩ := h2
      exact hai.some g hg
    · rintro ⟨h1, h2, -⟩
      exact ⟨h1, h2⟩

/-- The rows are accepted if the labels fit. -/
theorem accepts_written {s s' : Store} (hq : QuantInv s) (hai : AttrInv s) (hcols : s'.cols ≠ [])
    (hl : SameLayout s s') {qs : List Quant} {rows : List QuantRow}
    (hmem : ∀ q, q ∈ qs ↔ q ∈ s.quants ∧ ∃ l ∈ s.locs, l.id = q.loc)
    (h : List.Forall₂ (Reads s s') qs rows) {al ap : Bool} :
    (∀ row ∈ rows, s'.Accepts al ap row) ↔ ∀ l a x, s.HasQuantity l a x → Fits s' al ap l := by
  constructor
  · rintro hacc l a x ⟨q, hqm, ⟨l', h1, h2, h3⟩, hg, -⟩
    have hqs := (hmem q).2 ⟨hqm, l', h1, h2⟩
    have hex : ∃ row ∈ rows, Reads s s' q row := by
      clear hacc hmem
      induction h with
      | nil => cases hqs
      | cons hab _ ih =>
        rcases List.mem_cons.1 hqs with rfl | hqs
        · exact ⟨_, List.mem_cons_self, hab⟩
        · obtain ⟨row, hm, hr⟩ := ih hqs
          exact ⟨row, List.mem_cons_of_mem _ hm, hr⟩
    obtain ⟨row, hm, hr⟩ := hex
    have hlab : row.labels = l := (hr.labels_iff hq).2 ⟨l', h1, h2, h3⟩
    obtain ⟨g, hg1, -, hg3⟩ := hr.attrs
    rcases (hacc row hm).2 with h0 | ⟨-, -, ha, hb⟩
    · exact absurd (hg3.symm.trans h0) (hai.some g hg1)
    · rw [hlab] at ha hb
      exact ⟨ha, hb⟩
  · intro hfit row hm
    have hex : ∃ q ∈ qs, Reads s s' q row := by
      clear hfit hmem
      induction h with
      | nil => cases hm
      | cons hab _ ih =>
        rcases List.mem_cons.1 hm with rfl | hm
        · exact ⟨_, List.mem_cons_self, hab⟩
        · obtain ⟨q, hm, hr⟩ := ih hm
          exact ⟨q, List.mem_cons_of_mem _ hm, hr⟩
    obtain ⟨q, hqs, hr⟩ := hex
    obtain ⟨x, hx, hxi, hxl⟩ := hr.labels
    obtain ⟨g, hg, hgi, hga⟩ := hr.attrs
    have hf := hfit row.labels g.attrs q.value
      ⟨q, ((hmem q).1 hqs).1, ⟨x, hx, hxi, hxl.symm⟩, ⟨g, hg, hgi, rfl⟩, rfl⟩
    refine ⟨hr.domain, .inr ⟨?_, hcols, hf.1, hf.2⟩⟩
    rw [hxl, hq.locLens x hx, hl.cols]

end Toron.QuantCsv
