/-
C94: undoing a change.
-/
import Verif.Props.StoreDeleteRun
import Verif.Props.StoreIndexLoad
import Verif.Props.StoreManage
import Verif.Props.OldSqlite
import Verif.Lemmas.Store.Texts

namespace Toron.Space

open Toron.Selectors (PyStr Sel)

/-- The records that are new in the second dataspace, as rows for `delete_index`. -/
def newRecordRows (s s' : Store) : List (Nat × List PyStr) :=
  (s'.index.filter fun r => decide (r.id ∉ s.ids)).map fun r => (r.id, r.labels)

theorem mapsLeft_none {s : Store} {gone : Nat → Prop} [DecidablePred gone] (h : ∀ m ∈ s.maps, ¬ gone m.index) :
    s.mapsLeft gone = s.maps := by
  unfold Store.mapsLeft
  have e : (s.maps.filter fun m => decide (¬ gone m.index)) = s.maps :=
    List.filter_eq_self.2 fun m hm => by simpa using h m hm
  rw [e]
  dsimp only
  conv_rhs => rw [← List.map_id s.maps]
  apply List.map_congr_left
  intro m _
  rw [if_neg]
  · rfl
  · rintro ⟨-, x, hx, hg, -⟩
    exact h x hx hg

private theorem weightIs_back {s1 s2 : Store} (hw : s1.wgroups.map (fun g => (g.id, g.name)) = s2.wgroups.map fun g => (g.id, g.name))
    {keep : Nat → Bool} (he : s2.weights = s1.weights.filter fun w => keep w.index) {name : PyStr} {i : Nat} (hk : keep i = true)
    {v : Option ℚ} (h : s1.WeightIs name i v) : s2.WeightIs name i v := by
  intro x
  rw [h x]
  have hmem : ∀ {a b : List WGroup}, a.map (fun g => (g.id, g.name)) = b.map (fun g => (g.id, g.name)) →
      ∀ g ∈ a, ∃ g' ∈ b, g'.id = g.id ∧ g'.name = g.name := by
    intro a b h g hg
    have : (g.id, g.name) ∈ b.map fun g => (g.id, g.name) := by
      rw [← h]
      exact List.mem_map_of_mem (f := fun g : WGroup => (g.id, g.name)) hg
    obtain ⟨g', hg', he⟩ := List.mem_map.1 this
    exact ⟨g', hg', congrArg Prod.fst he, congrArg Prod.snd he⟩
  constructor
  · rintro ⟨g, hg, rfl, w, hwm, h1, rfl, h2⟩
    obtain ⟨g', hg', e1, e2⟩ := hmem hw g hg
    exact ⟨g', hg', e2, w, by rw [he]; exact List.mem_filter.2 ⟨hwm, hk⟩, h1.trans e1.symm, rfl, h2⟩
  · rintro ⟨g, hg, rfl, w, hwm, h1, rfl, h2⟩
    obtain ⟨g', hg', e1, e2⟩ := hmem hw.symm g hg
    rw [he] at hwm
    exact ⟨g', hg', e2, w, List.mem_of_mem_filter hwm, h1.trans e1.symm, rfl, h2⟩

/-- Loading rows for new records, with weights or without, and then deleting the new records: both succeed, and afterwards
the records, the weights of every group, the mappings and the quantities are as before, and the weight groups and links are
as they were entered. -/
theorem C94_index {s s1 : Store} (h : ReachableFk s) {weights : Option (List PyStr)} {wcols : List PyStr} {pl pw : Policy}
    {rows : List IndexRow} (hrows : ∀ row ∈ rows, row.idv = none ∧ (row.Counts → row.labels.getD [] ∉ s.index.map (·.labels)))
    (h1 : step (.insertIndex weights wcols pl pw rows) s = (s1, .ok ())) (hnew : newRecordRows s s1 ≠ []) :
    ∃ s2, step (.deleteIndex (.rows (newRecordRows s s1))) s1 = (s2, .ok ()) ∧
      s2.cols = s.cols ∧ s2.index = s.index ∧ s2.maps = s.maps ∧ s2.locs = s.locs ∧ s2.quants = s.quants ∧
      s2.agroups = s.agroups ∧
      (∀ name, (∃ g ∈ s.wgroups, g.name = name) → ∀ i v, s.WeightIs name i v → s2.WeightIs name i v) ∧
      (s2.wgroups.map fun g => (g.id, g.name, g.selectors)) = (s.wgroups.map fun g => (g.id, g.name, g.selectors)) ∧
      (s2.links.map fun l => (l.id, l.other, l.hint, l.name, l.selectors, l.isDefault)) =
        s.links.map fun l => (l.id, l.other, l.hint, l.name, l.selectors, l.isDefault) := by
  have hr := h.reachable
  have hok1 : (step (.insertIndex weights wcols pl pw rows) s).2 = .ok () := by rw [h1]
  have hrun1 := step_ok (op := .insertIndex weights wcols pl pw rows) rfl hok1
  have hs1 : (step (.insertIndex weights wcols pl pw rows) s).1 = s1 := by rw [h1]
  have h1r : ReachableFk s1 := hs1 ▸ h.step _ (by simp)
  rw [hs1] at hrun1
  obtain ⟨groups, c, t, hrows1, -, -, ht, -⟩ := insertIndex_result hr.indexInv hr.weightInv hrun1
  obtain ⟨new, hidx, habove, -⟩ := insertIndexRows_index hr.indexInv hr.weightInv hrows1
  rw [← ht] at hidx
  have hgiven : ∀ i, labelsGiven rows i = [] := by
    intro i
    unfold labelsGiven
    rw [List.filter_eq_nil_iff.2]
    · rfl
    · intro row hrow
      simp [(hrows row hrow).1]
  have hidx' : s1.index = s.index ++ new := by
    rw [hidx]
    congr 1
    conv_rhs => rw [← List.map_id s.index]
    apply List.map_congr_left
    intro r _
    show (⟨r.id, labelsAfter pl r.labels (labelsGiven rows r.id)⟩ : IndexRec) = r
    rw [hgiven]
    cases pl <;> rfl
  have hnewId : ∀ r ∈ new, r.id ∉ s.ids := by
    intro r hr' hm
    obtain ⟨x, hx, e⟩ := List.mem_map.1 hm
    exact absurd (lt_of_le_of_lt (hr.indexInv.idsLe x hx) (habove r hr').1) (by omega)
  have hrowsEq : newRecordRows s s1 = new.map fun r => (r.id, r.labels) := by
    unfold newRecordRows
    rw [hidx', List.filter_append, List.filter_eq_nil_iff.2, List.filter_eq_self.2, List.nil_append]
    · intro r hr'
      simpa using hnewId r hr'
    · intro r hr'
      have : r.id ∈ s.ids := List.mem_map_of_mem (f := IndexRec.id) hr'
      simp [this]
  have hst1 := (insertIndex_does weights wcols pl pw rows).steps _ _ _ hrun1
  have hmaps1 : s1.maps = s.maps := hst1.maps_eq (by decide)
  have hchosen : ∀ r ∈ s1.index, s1.chosen (.rows (newRecordRows s s1)) r = true ↔ r.id ∉ s.ids := by
    intro r hr'
    show decide _ = true ↔ _
    rw [decide_eq_true_iff, hrowsEq]
    constructor
    · intro hm
      obtain ⟨x, hx, e⟩ := List.mem_map.1 hm
      have : x.id = r.id := congrArg Prod.fst e
      exact this ▸ hnewId x hx
    · intro hm
      rw [hidx'] at hr'
      rcases List.mem_append.1 hr' with hr' | hr'
      · exact absurd (List.mem_map_of_mem (f := IndexRec.id) hr') hm
      · exact List.mem_map_of_mem (f := fun r : IndexRec => (r.id, r.labels)) hr'
  have hok2 : (step (.deleteIndex (.rows (newRecordRows s s1))) s1).2 = .ok () := by
    refine (C24_succeeds h1r.reachable _).2 ⟨?_, fun r hr' hc => ⟨?_, fun m hm hi => ?_⟩⟩
    · show (newRecordRows s s1).isEmpty = false
      cases hx : newRecordRows s s1
      · exact absurd hx hnew
      · rfl
    · intro h0
      have hn := (hchosen r hr').1 hc
      rw [hidx'] at hr'
      rcases List.mem_append.1 hr' with hr' | hr'
      · exact hn (List.mem_map_of_mem (f := IndexRec.id) hr')
      · exact absurd (habove r hr').1 (by omega)
    · rw [hmaps1] at hm
      exact absurd (hi ▸ h.indexRefs.2 m hm) ((hchosen r hr').1 hc)
  obtain ⟨s2, hs2⟩ : ∃ s2, (step (.deleteIndex (.rows (newRecordRows s s1))) s1).1 = s2 := ⟨_, rfl⟩
  have hrun2 := step_ok (op := .deleteIndex (.rows (newRecordRows s s1))) rfl hok2
  have hidx2 := (C24_chosen_records h1r.reachable _ hok2).1
  have hw2 := (C24_no_dangling h1r.reachable _ hok2).1
  have hm2 := C24_mappings h1r.reachable _ hok2
  rw [hs2] at hidx2 hw2 hm2 hrun2
  have hst2 := (deleteIndex_does _).steps _ _ _ hrun2
  have hi2 : s2.index = s.index := by
    rw [hidx2, hidx', List.filter_append, List.filter_eq_self.2, List.filter_eq_nil_iff.2, List.append_nil]
    · intro r hr'
      have := (hchosen r (by rw [hidx']; exact List.mem_append_right _ hr')).2 (hnewId r hr')
      simp [this]
    · intro r hr'
      have := (hchosen r (by rw [hidx']; exact List.mem_append_left _ hr'))
      have hm := List.mem_map_of_mem (f := IndexRec.id) hr'
      simp only [Bool.not_eq_true', Bool.eq_false_iff]
      exact fun h' => this.1 h' hm
  have hids2 : s2.ids = s.ids := by unfold Store.ids; rw [hi2]
  have h2r : ReachableFk s2 := hs2 ▸ h1r.step _ (by simp)
  have hwt1 : wtexts s1 = wtexts s :=
    insertIndex_keepsW weights wcols pl pw rows s () s1 (by simpa [wtexts, Function.comp_def] using hr.weightInv.gids) hrun1
  have hwt2 : wtexts s2 = wtexts s1 :=
    deleteIndex_keepsW _ s1 () s2 (by simpa [wtexts, Function.comp_def] using h1r.reachable.weightInv.gids) hrun2
  have hlt1 : ltexts s1 = ltexts s :=
    insertIndex_keepsL weights wcols pl pw rows s () s1 (by simpa [ltexts, Function.comp_def] using hr.linkInv.ids) hrun1
  have hlt2 : ltexts s2 = ltexts s1 :=
    deleteIndex_keepsL _ s1 () s2 (by simpa [ltexts, Function.comp_def] using h1r.reachable.linkInv.ids) hrun2
  refine ⟨s2, Prod.ext hs2 hok2, (hst2.cols_eq (by decide)).trans (hst1.cols_eq (by decide)), hi2, ?_,
    (hst2.locs_eq (by decide)).trans (hst1.locs_eq (by decide)), (hst2.quants_eq (by decide)).trans (hst1.quants_eq (by decide)),
    (hst2.agroups_eq (by decide)).trans (hst1.agroups_eq (by decide)), ?_, hwt2.trans hwt1, hlt2.trans hlt1⟩
  · rw [hm2, mapsLeft_none, hmaps1]
    intro m hm
    rw [hmaps1] at hm
    rintro ⟨-, hn⟩
    exact hn (hids2 ▸ h.indexRefs.2 m hm)
  · intro name hg i v hv
    by_cases hi : i ∈ s.ids
    · have hgiven0 : s1.weightsGiven (weightColumns weights wcols) name rows i = [] := by
        unfold Store.weightsGiven
        rw [List.filter_eq_nil_iff.2]
        · rfl
        · intro row hrow hc
          obtain ⟨hc, ha⟩ := of_decide_eq_true hc
          rcases ha with ha | ⟨-, ha⟩
          · rw [(hrows row hrow).1] at ha; cases ha
          · rw [hidx'] at ha
            rcases List.mem_append.1 ha with ha | ha
            · exact (hrows row hrow).2 hc (List.mem_map_of_mem (f := IndexRec.labels) ha)
            · exact hnewId _ ha hi
      have hv1 := (C65_weights_final hr (Or.inr (Or.inr fun row hrow => (hrows row hrow).1)) hok1 hg hv).2.1
      rw [hs1, hgiven0] at hv1
      have hafter : pw.after v [] = v := by
        cases pw <;> cases v <;> simp [Policy.after]
      rw [hafter] at hv1
      refine weightIs_back (keep := fun i => !decide (i ∈ s1.ids ∧ i ∉ s2.ids)) ?_ hw2 (by simp [hids2, hi]) hv1
      have := congrArg (List.map fun x : Nat × PyStr × List Sel => (x.1, x.2.1)) hwt2
      simpa [wtexts, Function.comp_def] using this.symm
    · intro x
      rw [hv x]
      constructor
      · rintro ⟨g, -, -, w, hw, -, rfl, -⟩
        exact absurd (h.indexRefs.1 w hw) hi
      · rintro ⟨g, -, -, w, hw, -, rfl, -⟩
        exact absurd (hids2 ▸ h2r.indexRefs.1 w hw) hi

/-- Renaming a column and renaming it back leaves everything as before, if no column has been dropped before. -/
theorem C94_rename_partial {s s1 : Store} (hk : ReachableKeeping s) {old new : PyStr}
    (h1 : step (.renameIndexColumns [(old, new)]) s = (s1, .ok ())) :
    step (.renameIndexColumns [(new, old)]) s1 = (s, .ok ()) := by
  have h := hk.reachable
  have hc := h.colInv
  obtain ⟨ha, hb, -⟩ := C88_rename s h [(old, new)] (by simp)
  have hren := ha.1 (by rw [h1])
  have hst := hb hren
  rw [h1] at hst
  replace hst : s1 = _ := hst
  obtain ⟨hin, hnn, -⟩ := hren
  have hold : old ∈ s.cols := hin (old, new) (by simp)
  obtain ⟨hn1, hn2, hn3⟩ := hnn (old, new) (by simp)
  have hne : new ≠ old := fun e => hn2 (by rw [show ((old, new) : PyStr × PyStr).2 = old from e]; exact hold)
  have hrr : ∀ c ∈ s.cols, renamed [(new, old)] (renamed [(old, new)] c) = c := by
    intro c hcm
    by_cases e : c = old
    · subst e; simp [renamed, List.lookup]
    · have e' : c ≠ new := fun e' => hn2 (by rw [← show c = ((old, new) : PyStr × PyStr).2 from e']; exact hcm)
      simp [renamed, List.lookup, beq_eq_false_iff_ne.2 e, beq_eq_false_iff_ne.2 e']
  have hcols1 : s1.cols = s.cols.map (renamed [(old, new)]) := by rw [hst]
  have hs1 : Reachable s1 := by
    have := h.step (.renameIndexColumns [(old, new)])
    rwa [h1] at this
  obtain ⟨ha', hb', -⟩ := C88_rename s1 hs1 [(new, old)] (by simp)
  have hmem1 : ∀ c, c ∈ s1.cols → c = new ∨ (c ∈ s.cols ∧ c ≠ old) := by
    intro c hcm
    rw [hcols1] at hcm
    obtain ⟨x, hx, rfl⟩ := List.mem_map.1 hcm
    by_cases e : x = old
    · left; subst e; simp [renamed, List.lookup]
    · right
      have : renamed [(old, new)] x = x := by simp [renamed, List.lookup, beq_eq_false_iff_ne.2 e]
      rw [this]
      exact ⟨hx, e⟩
  have hren' : s1.Renamable [(new, old)] := by
    refine ⟨?_, ?_, ?_⟩
    · intro p hp
      cases List.mem_singleton.1 hp
      rw [hcols1]
      exact List.mem_map.2 ⟨old, hold, by simp [renamed, List.lookup]⟩
    · intro p hp
      cases List.mem_singleton.1 hp
      refine ⟨hc.colsRes old hold, fun hm => ?_, ?_⟩
      · rcases hmem1 _ hm with e | ⟨-, e⟩
        · exact hne e.symm
        · exact e rfl
      · have : s1.regAttrs = s.regAttrs := by rw [hst]
        rw [this]
        exact fun hm => hc.disj _ hm hold
    · intro pre p post he
      rcases pre with _ | ⟨q, pre⟩
      · obtain ⟨rfl, -⟩ := List.cons.inj he
        show asciiLower old ∉ takenNames _
        unfold takenNames
        rw [List.map_append, List.mem_append, not_or]
        refine ⟨fun hm => ?_, h.colsFixed old hold⟩
        obtain ⟨x, hx, e⟩ := List.mem_map.1 hm
        obtain ⟨hx, hxn⟩ := List.mem_filter.1 hx
        have hid : s1.cols.map (renamed []) = s1.cols := by
          conv_rhs => rw [← List.map_id s1.cols]
          exact List.map_congr_left fun _ _ => rfl
        rw [hid] at hx
        rcases hmem1 x hx with e' | ⟨hx', e'⟩
        · exact (of_decide_eq_true hxn) e'
        · exact e' (List.inj_on_of_nodup_map hc.cols hx' hold e)
      · cases pre <;> simp at he
  refine Prod.ext ((hb' hren').trans ?_) (ha'.2 hren')
  have e1 : s1.cols.map (renamed [(new, old)]) = s.cols := by
    rw [hcols1, List.map_map]
    conv_rhs => rw [← List.map_id s.cols]
    exact List.map_congr_left hrr
  have e2 : (s1.partDefs.map fun ds => ds.map fun d => d.image (renamed [(new, old)])) = s.partDefs := by
    have hd := hk.parts.2.sub
    unfold Store.defs at hd
    have hp1 : s1.partDefs = s.partDefs.map fun ds => ds.map fun d => d.image (renamed [(old, new)]) := by rw [hst]
    rw [hp1]
    rcases hp : s.partDefs with _ | ds
    · rfl
    · rw [hp] at hd
      simp only [Option.map_some, List.map_map]
      congr 1
      conv_rhs => rw [← List.map_id ds]
      apply List.map_congr_left
      intro d hdm
      show (d.image _).image _ = d
      rw [Finset.image_image]
      conv_rhs => rw [← Finset.image_id (s := d)]
      apply Finset.image_congr
      intro c hcm
      exact hrr c (List.mem_toFinset.1 (hd d hdm hcm))
  rw [e1, e2, hst]

/-- Adding a weight group that does not become the default, and dropping it, leaves everything as before, if another
group is the default. -/
theorem C94_group_partial {s s1 : Store} (h : ReachableFk s) (hd : ∃ g ∈ s.wgroups, s.defaultWG = some (some g.id)) {name : PyStr} {selectors : List Sel}
    {complete : Bool} (h1 : step (.addWeightGroup name selectors complete (some false)) s = (s1, .ok ())) :
    step (.dropWeightGroup name) s1 = (s, .ok ()) := by
  have hr := h.reachable
  obtain ⟨ha, hb⟩ := C83_add_group hr name selectors complete (some false)
  have hfree : ∀ g ∈ s.wgroups, g.name ≠ name := by
    intro g hg e
    obtain ⟨⟨e, he⟩, -⟩ := hb ⟨g, hg, e⟩
    rw [h1] at he
    cases he
  obtain ⟨-, id, hid, hs1⟩ := ha hfree
  rw [h1] at hs1
  replace hs1 : s1 = _ := hs1
  simp only [reduceCtorEq, Option.some.injEq, Bool.false_eq_true, false_and, or_self, if_false] at hs1
  have h1r : Reachable s1 := by
    have := hr.step (.addWeightGroup name selectors complete (some false))
    rwa [h1] at this
  have hrun : dropWeightGroup name s1 = .ok ((), s) := by
    unfold dropWeightGroup
    have hfind : s1.findWGroup name = some ⟨id, name, selectors, complete⟩ := by
      rw [hs1]
      unfold Store.findWGroup
      dsimp only
      rw [List.find?_append, List.find?_eq_none.2]
      · simp
      · intro g hg
        simpa using hfree g hg
    rw [get_bind, hfind]
    dsimp only
    refine bind_ok.2 ⟨(), _, rfl, ?_⟩
    rw [get_bind]
    obtain ⟨d, hdm, hd'⟩ := hd
    have hdid : ¬ (some d.id = some id) := fun e => hid d hdm (Option.some.inj e)
    have hfk : s1.fk = true := by rw [hs1]; exact h.fk
    have hwg : (s.wgroups ++ [(⟨id, name, selectors, complete⟩ : WGroup)]).filter (fun x : WGroup => x.id != id) = s.wgroups := by
      rw [List.filter_append, List.filter_eq_self.2]
      · simp
      · intro g hg
        simpa using hid g hg
    have hwt : s.weights.filter (fun w => w.group != id) = s.weights := by
      rw [List.filter_eq_self.2]
      intro w hw
      obtain ⟨g, hg, e⟩ := h.refInv.weights w hw
      simpa using e ▸ hid g hg
    have hwgs : s1.wgroups = s.wgroups ++ [⟨id, name, selectors, complete⟩] := by rw [hs1]
    have hwts : s1.weights = s.weights := by rw [hs1]
    have hdef : s1.defaultWG = some (some d.id) := by rw [hs1]; exact hd'
    simp only [hdef, hdid, if_false, hwgs, hwts, hwg, hwt, hfk, if_true]
    rw [hs1]
    refine pure_ok.2 ?_
    rw [← h.fk, ← hd']
  have hstep : step (.dropWeightGroup name) s1 = runTx (dropWeightGroup name) s1 := rfl
  rw [hstep]
  exact Prod.ext (runTx_of_ok hrun hr.fkOk).2 (runTx_of_ok hrun hr.fkOk).1

/-- Adding a link that does not become the default, and dropping it, leaves everything as before. -/
theorem C94_link_partial {s s1 : Store} (h : ReachableFk s) {other name : PyStr} (ho : other ≠ []) (hn : name ≠ [])
    {hint : Option PyStr} {selectors : List Sel} {otherHash : Option (List Int)} {complete : Bool}
    (h1 : step (.addLink other name hint selectors (some false) otherHash complete) s = (s1, .ok ())) :
    step (.dropLink other (some name)) s1 = (s, .ok ()) := by
  have hr := h.reachable
  have hok : (step (.addLink other name hint selectors (some false) otherHash complete) s).2 = .ok () := by rw [h1]
  have hrun := step_ok (op := .addLink other name hint selectors (some false) otherHash complete) rfl hok
  rw [h1] at hrun
  replace hrun : addLink other name hint selectors (some false) otherHash complete s = .ok ((), s1) := hrun
  have h1r : Reachable s1 := by
    have := hr.step (.addLink other name hint selectors (some false) otherHash complete)
    rwa [h1] at this
  obtain ⟨id, hid, hs1⟩ : ∃ id, (∀ l ∈ s.links, l.id ≠ id) ∧ s1 = { s with
      links := s.links ++ [⟨id, other, hint, name, selectors, false, otherHash, complete⟩] } := by
    unfold addLink at hrun
    rw [get_bind] at hrun
    dsimp only at hrun
    by_cases hany : ((s.links.filter fun l => l.other == other).any fun l => l.name == name) = true
    · rw [if_pos hany] at hrun
      cases hrun
    · rw [if_neg hany] at hrun
      obtain ⟨_, t, ht, hrun⟩ := bind_ok.1 hrun
      simp only [Option.getD_some, Bool.false_eq_true, if_false] at ht hrun
      cases pure_ok.1 ht
      refine ⟨nextId (s.links.map (·.id)), fun l hl e => nextId_not_mem (s.links.map (·.id)) (e ▸ List.mem_map_of_mem hl), ?_⟩
      split at hrun
      · cases hrun
      · cases put_ok.1 hrun
        rfl
  have hlk : s1.links = s.links ++ [⟨id, other, hint, name, selectors, false, otherHash, complete⟩] := by rw [hs1]
  have hmem : (⟨id, other, hint, name, selectors, false, otherHash, complete⟩ : Link) ∈ s1.links := by rw [hlk]; simp
  have hmeant : Meant s1.links other ⟨id, other, hint, name, selectors, false, otherHash, complete⟩ := ⟨hmem, Or.inl rfl⟩
  have hone : ∀ a b, Meant s1.links other a → Meant s1.links other b → a.other = b.other := by
    have : ∀ a, Meant s1.links other a → a.other = other := by
      rintro a ⟨-, ha | ⟨ha, -⟩⟩
      · exact ha
      · exact absurd rfl (ha _ hmem)
    intro a b ha hb
    rw [this a ha, this b hb]
  have hget := getLink_of h1r ho hn hmeant rfl hone
  have hdrop : dropLink other (some name) s1 = .ok ((), s) := by
    unfold dropLink
    rw [get_bind, hget]
    show linkDelete id s1 = _
    unfold linkDelete
    have hl : (s.links ++ [(⟨id, other, hint, name, selectors, false, otherHash, complete⟩ : Link)]).filter
        (fun x : Link => x.id != id) = s.links := by
      rw [List.filter_append, List.filter_eq_self.2]
      · simp
      · intro g hg
        simpa using hid g hg
    have hm : s.maps.filter (fun m => m.link != id) = s.maps := by
      rw [List.filter_eq_self.2]
      intro m hm
      obtain ⟨g, hg, e⟩ := h.refInv.maps m hm
      simpa using e ▸ hid g hg
    have hms : s1.maps = s.maps := by rw [hs1]
    have hfk : s1.fk = true := by rw [hs1]; exact h.fk
    show Except.ok ((), _) = _
    dsimp only
    rw [hlk, hl, hms, hm, hs1]
    have := h.fk
    obtain ⟨⟩ := s
    simp_all
  have hstep : step (.dropLink other (some name)) s1 = runTx (dropLink other (some name)) s1 := rfl
  rw [hstep]
  exact Prod.ext (runTx_of_ok hdrop hr.fkOk).2 (runTx_of_ok hdrop hr.fkOk).1

/-! Non-vacuity -/

example : ReachableFk Demo.store ∧
    (∀ row ∈ [(⟨none, some [Demo.ly, Demo.l2], [some 4]⟩ : IndexRow)], row.idv = none ∧
      (row.Counts → row.labels.getD [] ∉ Demo.store.index.map (·.labels))) ∧
    (step (.insertIndex none [Demo.wname] .abort .abort [⟨none, some [Demo.ly, Demo.l2], [some 4]⟩]) Demo.store).2 = .ok () ∧
    newRecordRows Demo.store (step (.insertIndex none [Demo.wname] .abort .abort
      [⟨none, some [Demo.ly, Demo.l2], [some 4]⟩]) Demo.store).1 = [(4, [Demo.ly, Demo.l2])] :=
  ⟨Demo.reachableFk, by decide +kernel, by decide +kernel, by decide +kernel⟩

example : (step (.renameIndexColumns [(Demo.colA, ['N'])]) Demo.store).2 = .ok () ∧
    (step (.renameIndexColumns [(Demo.colA, ['N'])]) Demo.store).1.cols = [['N'], Demo.colB] ∧
    Demo.store.cols = [Demo.colA, Demo.colB] := by decide +kernel

example : (∃ g ∈ Demo.store.wgroups, Demo.store.defaultWG = some (some g.id)) ∧
    (step (.addWeightGroup ['n'] [] true (some false)) Demo.store).2 = .ok () ∧
    (step (.addLink ['o'] ['n'] none [] (some false) none false) Demo.store).2 = .ok () := by decide +kernel

/-! ### Changes that cannot be undone -/

/-- A new column cannot always be dropped: the call fails if two of the valid combinations of columns become the same
without the column. -/
theorem C94_column_violated : ∃ s, Reachable s ∧ (step (.addIndexColumns [['C']]) s).2 = .ok () ∧
    (step (.dropIndexColumns [['C']]) (step (.addIndexColumns [['C']]) s).1).2.toBool = false :=
  ⟨Demo.store, ⟨_, _, rfl⟩, by decide +kernel, by decide +kernel⟩

/-- After a column has been dropped, renaming another one to its name and back changes the partition definitions. -/
theorem C94_rename_violated : ∃ s, Reachable s ∧ ∃ old new,
    (step (.renameIndexColumns [(old, new)]) s).2 = .ok () ∧
    (step (.renameIndexColumns [(new, old)]) (step (.renameIndexColumns [(old, new)]) s).1).2 = .ok () ∧
    (step (.renameIndexColumns [(new, old)]) (step (.renameIndexColumns [(old, new)]) s).1).1.partDefs ≠ s.partDefs :=
  ⟨run [.addIndexColumns [['A'], ['B'], ['X']], .dropIndexColumns [['X']]] (Store.new ['u']), ⟨_, _, rfl⟩, ['A'], ['X'],
    by decide +kernel, by decide +kernel, by decide +kernel⟩

/-- Without a default weight group a new group cannot be dropped; a new group that becomes the default can be dropped, but
the old default is lost. -/
theorem C94_group_violated :
    (∃ s, ReachableFk s ∧ (step (.addWeightGroup ['b'] [] false (some false)) s).2 = .ok () ∧
      (step (.dropWeightGroup ['b']) (step (.addWeightGroup ['b'] [] false (some false)) s).1).2.toBool = false) ∧
    ∃ s, ReachableFk s ∧ s.defaultWG = some (some 1) ∧ (step (.addWeightGroup ['b'] [] false (some true)) s).2 = .ok () ∧
      (step (.dropWeightGroup ['b']) (step (.addWeightGroup ['b'] [] false (some true)) s).1).2 = .ok () ∧
      (step (.dropWeightGroup ['b']) (step (.addWeightGroup ['b'] [] false (some true)) s).1).1.defaultWG = none :=
  ⟨⟨run [.addWeightGroup ['a'] [] false (some false)] (Store.new ['u']), ⟨_, _, by simp, rfl⟩, by decide +kernel,
      by decide +kernel⟩,
    ⟨run [.addWeightGroup ['a'] [] false none] (Store.new ['u']), ⟨_, _, by simp, rfl⟩, by decide +kernel,
      by decide +kernel, by decide +kernel, by decide +kernel⟩⟩

/-- A new link that becomes the default can be dropped, but the old default link to that dataspace is lost. -/
theorem C94_link_violated : ∃ s, ReachableFk s ∧ (∃ l ∈ s.links, l.other = Demo.other ∧ l.isDefault = true) ∧
    (step (.addLink Demo.other ['n'] none [] (some true) none false) s).2 = .ok () ∧
    (step (.dropLink Demo.other (some ['n'])) (step (.addLink Demo.other ['n'] none [] (some true) none false) s).1).2 = .ok () ∧
    ∀ l ∈ (step (.dropLink Demo.other (some ['n']))
      (step (.addLink Demo.other ['n'] none [] (some true) none false) s).1).1.links, l.isDefault = false :=
  ⟨Demo.store, Demo.reachableFk, by decide +kernel, by decide +kernel, by decide +kernel, by decide +kernel⟩

end Toron.Space
