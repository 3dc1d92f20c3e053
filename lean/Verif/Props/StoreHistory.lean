/-
C26, C27, C28, C31, C33 (uniqueness), C35: what holds in every reachable dataspace.
-/
import Verif.Lemmas.Store.Links
import Mathlib.Data.List.Pairwise
import Verif.Demo

namespace Toron.Space

open Toron.Selectors (PyStr Sel)

/-! ### C28 -/

/-- In every reachable dataspace each (group, record) pair has at most one weight, no weight is
negative and none belongs to the undefined record. -/
theorem C28_weights_well_formed {s : Store} (h : Reachable s) :
    (∀ w ∈ s.weights, ∀ w' ∈ s.weights, w.group = w'.group → w.index = w'.index → w = w') ∧
    (∀ w ∈ s.weights, 0 ≤ w.value) ∧ (∀ w ∈ s.weights, w.index ≠ 0) := by
  refine ⟨fun w hw w' hw' hg hi => ?_, h.weightInv.nonneg, h.weightInv.defined⟩
  exact List.inj_on_of_nodup_map h.weightInv.pairs hw hw' (by rw [hg, hi])

/-- While the dataspace has not been reopened from a file, each weight refers to an existing record and an
existing group. Missing for the full claim: dataspaces that were reopened, see
`C28_references_violated`. -/
theorem C28_references_partial {s : Store} (h : ReachableFk s) :
    ∀ w ∈ s.weights, w.index ∈ s.ids ∧ ∃ g ∈ s.wgroups, g.id = w.group :=
  fun w hw => ⟨h.indexRefs.1 w hw, h.refInv.weights w hw⟩

example : ReachableFk Demo.store ∧ Demo.store.weights.length = 3 :=
  ⟨Demo.reachableFk, by decide +kernel⟩

/-- After reopening, dropping a weight group leaves its weights behind: they refer to no group. -/
theorem C28_references_violated :
    ∃ s, Reachable s ∧ ∃ w ∈ s.weights, ∀ g ∈ s.wgroups, g.id ≠ w.group := by
  refine ⟨run (Demo.ops ++ [.reopen, .dropWeightGroup Demo.wname]) (Store.new ['u']), ⟨_, _, rfl⟩, ?_⟩
  decide +kernel

/-! ### C31 -/

/-- In every reachable dataspace two links to the same dataspace have different names. -/
theorem C31_names_unique {s : Store} (h : Reachable s) :
    ∀ l ∈ s.links, ∀ l' ∈ s.links, l.other = l'.other → l.name = l'.name → l = l' :=
  fun l hl l' hl' ho hn => List.inj_on_of_nodup_map h.linkInv.names hl hl' (by rw [ho, hn])

/-- In every reachable dataspace at most one link to each other dataspace is the default. -/
theorem C31_one_default {s : Store} (h : Reachable s) :
    ∀ l ∈ s.links, ∀ l' ∈ s.links, l.other = l'.other → l.isDefault = true → l'.isDefault = true →
      l = l' := by
  intro l hl l' hl' ho hd hd'
  by_contra hne
  have hsym : Std.Symm fun a b : Link => a.other = b.other → ¬ (a.isDefault = true ∧ b.isDefault = true) :=
    ⟨fun a b hab ho hd => hab ho.symm hd.symm⟩
  exact h.linkInv.defaults.forall hl hl' hne ho ⟨hd, hd'⟩

/-- Adding a link with `is_default=True` (or as the first link to a dataspace): the new link is the
default, the other links to that dataspace are no longer, and nothing else of any link changes. -/
theorem C31_add_default {s : Store} (h : Reachable s) (other name : PyStr) (hint : Option PyStr)
    (selectors : List Sel) (isDefault : Option Bool) (otherHash : Option (List Int)) (complete : Bool)
    (hok : (step (.addLink other name hint selectors isDefault otherHash complete) s).2 = .ok ()) :
    let dflt := isDefault.getD (s.links.all fun l => l.other != other)
    ∃ id, (step (.addLink other name hint selectors isDefault otherHash complete) s).1.links =
      (s.links.map fun l => if l.other = other ∧ dflt then { l with isDefault := false } else l) ++
        [⟨id, other, hint, name, selectors, dflt, otherHash, complete⟩] := by
  intro dflt
  rw [addLink_ok h.linkInv.ids (step_ok (by rfl) hok)]
  exact ⟨_, rfl⟩

/-- Editing a link with `is_default=True`: the link gets the given changes, the other links to the same
dataspace are no longer the default, and nothing else of any link changes. -/
theorem C31_edit_default {s : Store} (h : Reachable s) (ref : PyStr) (name : Option PyStr) (c : LinkChanges)
    (hd : c.isDefault = some true) (hok : (step (.editLink ref name c) s).2 = .ok ()) :
    ∃ l ∈ s.links, (c.apply l).isDefault = true ∧ (step (.editLink ref name c) s).1.links =
      s.links.map fun x => if x.id = l.id then c.apply l
        else if x.other = l.other then { x with isDefault := false } else x := by
  obtain ⟨l, hget, he⟩ := editLink_ok h.linkInv.ids (step_ok (by rfl) hok)
  refine ⟨l, getLink_mem hget, by simp [LinkChanges.apply, hd], ?_⟩
  rw [he]
  simp only [upd, hd, and_true, List.map_map]
  apply List.map_congr_left
  intro x _
  have hid : (c.apply l).id = l.id := rfl
  simp only [Function.comp, hid]
  by_cases ho : x.other = l.other <;> simp [ho]

example : (step (.editLink Demo.other none { isDefault := some true, name := some ['n'] }) Demo.store).2 = .ok () := by
  decide +kernel

example : (step (.addLink Demo.other ['m'] none [] (some true) none false) Demo.store).2 = .ok () := by
  decide +kernel

/-! ### C33 (first half) and C35 -/

/-- In every reachable dataspace there is at most one quantity per location record and attribute
group, at most one location record per label combination and at most one group per attribute set: at most one
quantity per labels and attributes. -/
theorem C33_quantities_unique {s : Store} (h : Reachable s) :
    ∀ q ∈ s.quants, ∀ q' ∈ s.quants, ∀ l ∈ s.locs, ∀ l' ∈ s.locs, ∀ g ∈ s.agroups, ∀ g' ∈ s.agroups,
      q.loc = l.id → q'.loc = l'.id → q.ag = g.id → q'.ag = g'.id →
      l.labels = l'.labels → g.attrs = g'.attrs → q = q' := by
  intro q hq q' hq' l hl l' hl' g hg g' hg' h1 h2 h3 h4 h5 h6
  have hl : l = l' := List.inj_on_of_nodup_map h.quantInv.locLabels hl hl' h5
  have hg : g = g' := List.inj_on_of_nodup_map h.quantInv.agAttrs hg hg' h6
  subst hl hg
  exact List.inj_on_of_nodup_map h.quantInv.pairs hq hq' (by rw [h1, h2, h3, h4])

example : Reachable Demo.store ∧ Demo.store.quants.length = 2 ∧ Demo.store.locs.length = 2 :=
  ⟨Demo.reachable, by decide +kernel⟩

/-- In every reachable dataspace the label columns are distinct (even when case is ignored), none is a reserved
word and none is a registered attribute; the registered attributes are distinct and none is a
reserved word. -/
theorem C35_names_disjoint {s : Store} (h : Reachable s) :
    s.cols.Pairwise (fun a b => ¬ sameName a b) ∧
    (∀ c ∈ s.cols, c ∉ reserved.map String.toList) ∧
    (∀ a ∈ s.regAttrs.getD [], a ∉ s.cols ∧ a ∉ reserved.map String.toList) ∧
    (s.regAttrs.getD []).Nodup := by
  have hi := h.colInv
  refine ⟨?_, hi.colsRes, fun a ha => ⟨hi.disj a ha, hi.attrsRes a ha⟩, hi.attrs⟩
  have := hi.cols
  unfold List.Nodup at this
  rw [List.pairwise_map] at this
  exact this

example : Demo.store.cols = [Demo.colA, Demo.colB] ∧ Demo.store.regAttrs = some [['c']] := by
  decide +kernel

/-! ### C26 -/

/-- Every operation except `reify_mappings`: if the call raises, the dataspace is as it was before.
Missing for the full claim: `reify_mappings`, see `C26_reify_violated`. -/
theorem C26_all_or_nothing_partial {s : Store} (h : Reachable s) (op : Op)
    (hop : ∀ ref name cs, op ≠ .reifyMappings ref name cs) (e : Err) (he : (step op s).2 = .error e) :
    (step op s).1 = s := by
  rcases hb : op.body with _ | m
  · cases op <;> simp only [Op.body, reduceCtorEq] at hb
    · exact absurd rfl (hop _ _ _)
    · exfalso
      exact deleteUnmatchedQuantities_ok h.fkOk he
    · cases he
  · rw [step_of_body hb] at he ⊢
    exact runTx_error he

/-- A failing call that meets the hypotheses: an insertion whose second row is not acceptable. -/
example : (step (.insertWeights Demo.wname .abort [⟨some 1, [Demo.lx, Demo.l1], some 2⟩]) Demo.store).2 =
    .error (.exception "this error occured on record") := by decide +kernel

/-- `reify_mappings` stops half way when two mappings of the same pair become equal: some mappings have
been changed, others not. -/
theorem C26_reify_violated :
    ∃ s op e, Reachable s ∧ (step op s).2 = .error e ∧ (step op s).1.maps ≠ s.maps := by
  refine ⟨run (Demo.ops.take 7 ++ [.insertMappings2 Demo.other none
      [⟨2, 30, 3, [], some [0x80#8]⟩, ⟨1, 10, 1, [], some [0xC0#8]⟩, ⟨1, 30, 1, [], some [0x80#8]⟩]])
      (Store.new ['u']), .reifyMappings Demo.other none [], .integrityError "mapping: UNIQUE",
    ⟨_, _, rfl⟩, ?_⟩
  decide +kernel

/-! ### C27 -/

/-- While foreign keys are on: after `drop_link` the link and all its mappings are gone, and no other link or
mapping is touched. Missing for the full claim: reopened dataspaces, see `C27_drop_link_violated`. -/
theorem C27_drop_link_partial {s : Store} (h : ReachableFk s) (ref : PyStr) (name : Option PyStr)
    (hok : (step (.dropLink ref name) s).2 = .ok ()) :
    ∃ l ∈ s.links, (step (.dropLink ref name) s).1.links = s.links.filter (fun x => x.id != l.id) ∧
      (step (.dropLink ref name) s).1.maps = s.maps.filter (fun m => m.link != l.id) := by
  obtain ⟨l, hget, he⟩ := dropLink_ok (step_ok (by rfl) hok)
  refine ⟨l, getLink_mem hget, ?_, ?_⟩ <;> rw [he]
  simp [h.fk]

example : (step (.dropLink Demo.other none) Demo.store).2 = .ok () := by decide +kernel

/-- While foreign keys are on, a new link starts without mappings. -/
theorem C27_new_link_empty_partial {s : Store} (h : ReachableFk s) (other name : PyStr) (hint : Option PyStr)
    (selectors : List Sel) (isDefault : Option Bool) (otherHash : Option (List Int)) (complete : Bool)
    (hok : (step (.addLink other name hint selectors isDefault otherHash complete) s).2 = .ok ()) :
    ∃ l ∈ (step (.addLink other name hint selectors isDefault otherHash complete) s).1.links,
      l.other = other ∧ l.name = name ∧
      ∀ m ∈ (step (.addLink other name hint selectors isDefault otherHash complete) s).1.maps,
        m.link ≠ l.id := by
  have he := addLink_ok h.reachable.linkInv.ids (step_ok (by rfl) hok)
  rw [he]
  refine ⟨_, List.mem_append_right _ (List.mem_singleton.2 rfl), rfl, rfl, ?_⟩
  intro m hm heq
  obtain ⟨l, hl, hle⟩ := h.refInv.maps m hm
  refine nextId_not_mem (s.links.map (·.id)) ?_
  have hids : (s.links.map fun l => if l.other = other ∧
      isDefault.getD (s.links.all fun l => l.other != other) = true then { l with isDefault := false }
      else l).map (·.id) = s.links.map (·.id) := by
    rw [List.map_map]
    apply List.map_congr_left
    intro x _
    simp only [Function.comp]
    split <;> rfl
  have heq' : m.link = nextId (s.links.map (·.id)) := by
    rw [heq]
    simp only
    rw [← hids]
  rw [← heq', ← hle]
  exact List.mem_map_of_mem (f := Link.id) hl

/-- After reopening, `drop_link` leaves the mappings in place and the next link added takes them over. -/
theorem C27_drop_link_violated :
    ∃ s, Reachable s ∧ (step (.dropLink Demo.other none) s).2 = .ok () ∧
      (step (.dropLink Demo.other none) s).1.maps = s.maps ∧ s.maps ≠ [] ∧
      let t := (step (.addLink ['z'] ['n'] none [] none none false)
        (step (.dropLink Demo.other none) s).1).1
      ∃ l ∈ t.links, l.other = ['z'] ∧ (t.maps.filter fun m => m.link == l.id) = s.maps := by
  refine ⟨run (Demo.ops ++ [.reopen]) (Store.new ['u']), ⟨_, _, rfl⟩, ?_⟩
  decide +kernel

/-- While foreign keys are on: after `drop_weight_group` the group and its weights are gone, and no others. -/
theorem C27_drop_weight_group_partial {s : Store} (h : ReachableFk s) (name : PyStr) (g : WGroup)
    (hg : g ∈ s.wgroups) (hn : g.name = name) (hok : (step (.dropWeightGroup name) s).2 = .ok ()) :
    (step (.dropWeightGroup name) s).1.wgroups = s.wgroups.filter (fun x => x.id != g.id) ∧
    (step (.dropWeightGroup name) s).1.weights = s.weights.filter (fun w => w.group != g.id) := by
  have he := dropWeightGroup_ok h.reachable.weightInv.names hg hn (step_ok (by rfl) hok)
  rw [h.fk] at he
  exact he

example : (step (.dropWeightGroup Demo.wname) Demo.store).2 = .ok () := by decide +kernel

/-- After reopening the weights stay, and a new group takes them over. -/
theorem C27_drop_weight_group_violated :
    ∃ s, Reachable s ∧ (step (.dropWeightGroup Demo.wname) s).2 = .ok () ∧ s.weights ≠ [] ∧
      (step (.dropWeightGroup Demo.wname) s).1.weights = s.weights ∧
      let t := (step (.addWeightGroup ['v'] [] false none) (step (.dropWeightGroup Demo.wname) s).1).1
      ∃ g ∈ t.wgroups, g.name = ['v'] ∧ (t.weights.filter fun w => w.group == g.id) = s.weights := by
  refine ⟨run (Demo.ops ++ [.reopen]) (Store.new ['u']), ⟨_, _, rfl⟩, ?_⟩
  decide +kernel

/-- In histories without reopening no mapping, weight or quantity refers to a link, group, location or
attribute set that does not exist. -/
theorem C27_no_orphans_partial {s : Store} (h : ReachableFk s) :
    (∀ m ∈ s.maps, ∃ l ∈ s.links, l.id = m.link) ∧ (∀ w ∈ s.weights, ∃ g ∈ s.wgroups, g.id = w.group) ∧
    (∀ q ∈ s.quants, (∃ l ∈ s.locs, l.id = q.loc) ∧ (∃ g ∈ s.agroups, g.id = q.ag)) :=
  ⟨h.refInv.maps, h.refInv.weights, fun q hq => ⟨h.refInv.locs q hq, h.refInv.ags q hq⟩⟩

end Toron.Space
