/-
The links of the legacy class: what they store, and how quantities are translated with them.
-/
import Verif.Lemmas.Legacy.Edges
import Verif.Lemmas.Reader

namespace Toron.Legacy

open Toron.Selectors (PyStr Sel CaseMap Row getMatchingKey ggus_mem)
open Toron.Space (Attrs)
open Toron.MappingCsv (bindE_ok mapM_forall₂)

namespace EdgeDemo

/-- Two nodes that links come from. -/
def a : PyStr := ['a']
def b : PyStr := ['b']

/-- Selectors, as texts and parsed. -/
def sel : PyStr := "[x=\"1\"]".toList
def sel2 : PyStr := "[x]".toList

/-- Two links from the first node and one from the second; a pair of records is given twice. -/
def ops : List LinkOp :=
  [.add a ['p'] [(1, 1, 3), (1, 2, 7), (1, 1, 1), (2, 1, 0), (2, 2, 0)] [sel] none,
   .add b ['p'] [(1, 1, 1)] [] none,
   .add a ['q'] [(1, 1, 1), (2, 2, 5)] [sel2] none]

/-- A node with these links. -/
def node : Links := (Links.new [0, 1, 2]).run ops

theorem node_reachable : node.Reachable := ⟨[0, 1, 2], ops, by decide, by decide, rfl⟩

end EdgeDemo

/-- **C111** A link is added exactly if no transaction is open, there is no link of its name from the same node, no value is
negative and all its records exist. -/
theorem C111_add {l : Links} (hr : l.Reachable) (other name : PyStr) (given : List (Nat × Nat × ℚ)) (selectors : List PyStr)
    (makeDefault : Option Bool) :
    (l.add other name given selectors makeDefault).2 = .ok () ↔
      l.stuck = false ∧ l.find other name = none ∧ (∀ g ∈ given, 0 ≤ g.2.2) ∧ ∀ g ∈ given, g.2.1 ∈ l.index := by
  have hok := hr.ok.1
  have hfind : l.find other name = none ↔ (l.links.any fun e => e.other == other && e.name == name) = false := by
    unfold Links.find
    rw [List.find?_eq_none, List.any_eq_false]
  have hlink : l.find other name = none →
      ∃ p, addLink other name selectors makeDefault l.links = .ok p := by
    intro hf
    unfold addLink
    rw [hfind.1 hf, if_neg (by simp)]
    cases makeDefault with
    | none => exact ⟨_, rfl⟩
    | some b =>
      cases b with
      | false => exact ⟨_, rfl⟩
      | true =>
        obtain ⟨out, ho⟩ := setDefault_last (other := other) (name := name)
          (t := ⟨Space.nextId (l.links.map (·.id)), name, other, selectors, false, false⟩) rfl rfl l.links []
          (fun e he => by cases he) (fun e he ho hn => by
            have := List.any_eq_false.1 (hfind.1 hf) e he
            simp [ho, hn] at this)
        dsimp only
        rw [ho]
        exact ⟨_, rfl⟩
  have hzero : (∀ g ∈ given, 0 ≤ g.2.2) ↔ ∀ g ∈ given ++ [((0 : Nat), (0 : Nat), (0 : ℚ))], 0 ≤ g.2.2 := by
    constructor
    · intro h g hg
      rcases List.mem_append.1 hg with hg | hg
      · exact h g hg
      · rw [List.mem_singleton.1 hg]
    · exact fun h g hg => h g (List.mem_append_left _ hg)
  unfold Links.add
  cases hs : l.stuck with
  | true => simp
  | false =>
    rw [if_neg (by simp)]
    constructor
    · intro h
      cases h1 : addLink other name selectors makeDefault l.links with
      | error e => rw [h1] at h; cases h
      | ok p =>
        obtain ⟨id, links⟩ := p
        rw [h1] at h
        dsimp only at h
        cases h2 : addRels id given l.rels with
        | error e => rw [h2] at h; cases h
        | ok rels =>
          rw [h2] at h
          dsimp only at h
          split at h
          · rename_i hall
            refine ⟨rfl, ?_, hzero.2 ((fold_ok_iff id _ l.rels).1 ⟨rels, h2⟩), fun g hg =>
              of_decide_eq_true (List.all_eq_true.1 hall g hg)⟩
            rw [hfind, List.any_eq_false]
            intro e he
            have := (addLink_ok h1 hok.names hok.default).2.1 e he
            simpa using this
          · cases h
    · rintro ⟨-, hf, hv, hi⟩
      obtain ⟨⟨id, links⟩, h1⟩ := hlink hf
      obtain ⟨rels, h2⟩ := (fold_ok_iff id _ l.rels).2 (hzero.1 hv)
      have h2 : addRels id given l.rels = .ok rels := h2
      rw [h1]
      dsimp only
      rw [h2]
      dsimp only
      rw [if_pos (List.all_eq_true.2 fun g hg => decide_eq_true (hi g hg))]

example : (EdgeDemo.node.add EdgeDemo.b ['q'] [(1, 2, 4)] [] (some true)).2 = .ok () :=
  (C111_add EdgeDemo.node_reachable _ _ _ _ _).2 (by decide +kernel)

/-- **C111** A link that is added has, for each pair of records, the value given last for it; that of the undefined records is
zero. It has the given name and selectors, and the values of the other links do not change. -/
theorem C111_values {l : Links} (hr : l.Reachable) {other name : PyStr} {given : List (Nat × Nat × ℚ)} {selectors : List PyStr}
    {makeDefault : Option Bool} (h : (l.add other name given selectors makeDefault).2 = .ok ()) :
    ∃ e, (l.add other name given selectors makeDefault).1.find other name = some e ∧ e.selectors = selectors ∧
      (∀ x ∈ l.links, x.id ≠ e.id) ∧
      (∀ s i, (l.add other name given selectors makeDefault).1.valueOf e.id s i =
        if s = 0 ∧ i = 0 then some 0 else lastGiven given s i) ∧
      ∀ x ∈ l.links, ∀ s, (l.add other name given selectors makeDefault).1.targets x.id s = l.targets x.id s := by
  have hok := hr.ok.1
  have hok' := linksOk_add hok other name given selectors makeDefault
  have hcond := (C111_add hr other name given selectors makeDefault).1 h
  unfold Links.add at h hok' ⊢
  rw [if_neg (by rw [hcond.1]; simp)] at h hok' ⊢
  cases h1 : addLink other name selectors makeDefault l.links with
  | error e => rw [h1] at h; cases h
  | ok p =>
    obtain ⟨id, links⟩ := p
    rw [h1] at h hok'
    dsimp only at h hok' ⊢
    cases h2 : addRels id given l.rels with
    | error e => rw [h2] at h; cases h
    | ok rels =>
      rw [h2] at hok'
      dsimp only at hok' ⊢
      rw [if_pos (List.all_eq_true.2 fun g hg => decide_eq_true (hcond.2.2.2 g hg))] at hok' ⊢
      dsimp only at hok' ⊢
      obtain ⟨hid, hnew, g, hg, hsel, hout, -⟩ := addLink_ok h1 hok.names hok.default
      have ho : RelsOk id l.rels rels := fold_relsOk ⟨hok.keys, hok.nonneg, rfl⟩ h2
      have hfresh : id ∉ l.links.map (·.id) := hid ▸ Space.nextId_not_mem _
      generalize ht : (⟨id, name, other, selectors, false, false⟩ : Link) = t at hout
      have hmem : ∃ e ∈ refreshLink l.index (refreshRels id rels) id links, e.id = id ∧ e.other = other ∧ e.name = name ∧
          e.selectors = selectors := by
        refine ⟨_, List.mem_map.2 ⟨g t, ?_, rfl⟩, ?_⟩
        · rw [hout]
          exact List.mem_map_of_mem (List.mem_append_right _ List.mem_cons_self)
        · have e1 : (g t).id = id := by rw [(hg t).1, ← ht]
          have e2 : (g t).other = other := by rw [(hg t).2.2.1, ← ht]
          have e3 : (g t).name = name := by rw [(hg t).2.1, ← ht]
          have e4 : (g t).selectors = selectors := by rw [hsel t, ← ht]
          rw [if_pos e1]
          exact ⟨e1, e2, e3, e4⟩
      obtain ⟨e, he, he1, he2, he3, he4⟩ := hmem
      refine ⟨e, ?_, he4, ?_, ?_, ?_⟩
      · unfold Links.find
        cases hf : (refreshLink l.index (refreshRels id rels) id links).find? fun e => e.other == other && e.name == name with
        | none => exact absurd (List.find?_eq_none.1 hf e he) (by simp [he2, he3])
        | some x =>
          have hx1 := List.mem_of_find?_eq_some hf
          have hx2 := List.find?_some hf
          rw [Bool.and_eq_true, beq_iff_eq, beq_iff_eq] at hx2
          exact congrArg some (eq_of_names hok'.names hx1 he (hx2.1.trans he2.symm) (hx2.2.trans he3.symm))
      · intro x hx hxe
        exact hfresh (List.mem_map.2 ⟨x, hx, hxe.trans he1⟩)
      · intro s i
        rw [he1]
        have hv := fold_values _ h2 s i
        have hold : valuesAt l.rels id s i = [] := by
          unfold valuesAt
          rw [List.filter_eq_nil_iff.2]
          · rfl
          · intro r hr hx
            have : r.link = id := congrArg Prod.fst (is_iff.1 hx)
            exact hfresh (this ▸ hok.owner r hr)
        have hval : Links.valueOf ⟨l.index, refreshLink l.index (refreshRels id rels) id links, refreshRels id rels, false⟩ id s i =
            (valuesAt rels id s i).head? := by
          have hva : valuesAt rels id s i = valuesAt (refreshRels id rels) id s i := by
            unfold valuesAt
            rw [refreshRels_filter_map _ (fun _ _ => rfl) _ (fun _ _ => rfl)]
          rw [hva]
          unfold Links.valueOf Links.targets valuesAt
          dsimp only
          rw [List.find?_map, Option.map_map, List.find?_filter, List.head?_map, List.head?_filter]
          congr 1
          congr 1
          funext r
          rw [Bool.eq_iff_iff]
          simp [Rel.is, and_assoc]
        rw [hval, hv, hold]
        by_cases hz : s = 0 ∧ i = 0
        · rw [if_pos hz, hz.1, hz.2, lastGiven_undefined]
          rfl
        · rw [if_neg hz, lastGiven_defined _ hz]
          cases lastGiven given s i <;> rfl
      · intro x hx s
        have hne : x.id ≠ id := fun e => hfresh (List.mem_map.2 ⟨x, hx, e⟩)
        rw [targets_eq, targets_eq]
        show ((relsFrom (refreshRels id rels) x.id s).map _) = _
        have h3 : (relsFrom (refreshRels id rels) x.id s).map (fun r => (r.index, r.value)) =
            (relsFrom rels x.id s).map fun r => (r.index, r.value) :=
          refreshRels_filter_map _ (fun _ _ => rfl) _ (fun _ _ => rfl) id rels
        rw [h3, relsFrom_other ho.other hne]

example : lastGiven [(1, 1, 3), (1, 2, 7), (1, 1, 1)] 1 1 = some 1 := by decide +kernel

/-- **C111** The links from a node have different names, and at most one of them is the default. -/
theorem C111_default {l : Links} (hr : l.Reachable) (other : PyStr) :
    ((l.links.filter fun e => e.other == other).map (·.name)).Nodup ∧ (l.defaults other).length ≤ 1 := by
  have hok := hr.ok.1
  have hl : l.links.Nodup := hok.ids.of_map
  constructor
  · refine (List.nodup_map_iff_inj_on (hl.filter _)).2 fun x hx y hy e => ?_
    obtain ⟨h1, h2⟩ := List.mem_filter.1 hx
    obtain ⟨h3, h4⟩ := List.mem_filter.1 hy
    rw [beq_iff_eq] at h2 h4
    exact eq_of_names hok.names h1 h3 (h2.trans h4.symm) e
  · unfold Links.defaults
    rw [List.length_map]
    have hn := hl.filter fun e => e.other == other && e.isDefault
    rcases hf : l.links.filter fun e => e.other == other && e.isDefault with _ | ⟨x, _ | ⟨y, ys⟩⟩
    · rw [hf]; simp
    · rw [hf]; simp
    · exfalso
      have hx : x ∈ l.links.filter fun e => e.other == other && e.isDefault := hf ▸ List.mem_cons_self
      have hy : y ∈ l.links.filter fun e => e.other == other && e.isDefault :=
        hf ▸ List.mem_cons_of_mem _ List.mem_cons_self
      rw [List.mem_filter, Bool.and_eq_true, beq_iff_eq] at hx hy
      have := hok.default x hx.1 y hy.1 (hx.2.1.trans hy.2.1.symm) hx.2.2 hy.2.2
      rw [hf, this] at hn
      exact (List.nodup_cons.1 hn).1 List.mem_cons_self

example : EdgeDemo.node.defaults EdgeDemo.a = [['p']] ∧ EdgeDemo.node.defaults EdgeDemo.b = [['p']] := by decide +kernel

/-- **C111** If a link is made the default and nothing is raised, it is the only default of the links from its node.
What is missing: something can be raised, and the link need not exist. -/
theorem C111_edit_default_partial {l : Links} {other name : PyStr} {selectors : Option (List PyStr)}
    (h : (l.edit other name selectors (some true)).2 = .ok ()) :
    ∀ x ∈ (l.edit other name selectors (some true)).1.links, x.other = other → (x.isDefault = true ↔ x.name = name) := by
  unfold Links.edit at h ⊢
  cases hs : l.stuck with
  | true => rw [hs] at h; cases h
  | false =>
    rw [hs, if_neg (by simp)] at h
    rw [if_neg (by simp)]
    dsimp only at h ⊢
    cases hd : setDefault other name [] (setSelectors other name selectors l.links) with
    | error e => rw [hd] at h; cases h
    | ok out =>
      dsimp only
      rw [setDefault_eq hd, List.nil_append]
      intro x hx hxo
      obtain ⟨y, hy, rfl⟩ := List.mem_map.1 hx
      rw [(marked_same other name y).2.2.1] at hxo
      rw [(marked_same other name y).2.1]
      unfold marked
      rw [if_pos hxo]
      exact decide_eq_true_iff

example : EdgeDemo.node.find EdgeDemo.a ['q'] ≠ none ∧
    ((EdgeDemo.node.edit EdgeDemo.a ['q'] none (some true)).1.defaults EdgeDemo.a) = [['q']] := by decide +kernel

/-- **C111** Editing a link, if nothing is raised, gives it the new selectors, if there are any, and changes neither the links'
names and values nor the selectors of other links. If no default is given, the defaults stay. -/
theorem C111_edit_selectors {l : Links} {other name : PyStr} {selectors : Option (List PyStr)} {isDefault : Option Bool}
    (h : (l.edit other name selectors isDefault).2 = .ok ()) :
    (l.edit other name selectors isDefault).1.rels = l.rels ∧
    (l.edit other name selectors isDefault).1.links.map (fun e => (e.id, e.other, e.name, e.complete, e.selectors)) =
      l.links.map (fun e => (e.id, e.other, e.name, e.complete,
        if e.other = other ∧ e.name = name then selectors.getD e.selectors else e.selectors)) ∧
    (isDefault = none → (l.edit other name selectors isDefault).1.links.map (·.isDefault) = l.links.map (·.isDefault)) := by
  have hs : (setSelectors other name selectors l.links).map (fun e => (e.id, e.other, e.name, e.complete, e.selectors)) =
      l.links.map (fun e => (e.id, e.other, e.name, e.complete,
        if e.other = other ∧ e.name = name then selectors.getD e.selectors else e.selectors)) := by
    unfold setSelectors
    cases selectors with
    | none => exact List.map_congr_left fun e _ => by simp
    | some s =>
      dsimp only
      rw [List.map_map]
      refine List.map_congr_left fun e _ => ?_
      dsimp only [Function.comp, Option.getD_some]
      by_cases hc : e.other = other ∧ e.name = name
      · rw [if_pos hc, if_pos hc]
      · rw [if_neg hc, if_neg hc]
  unfold Links.edit at h ⊢
  cases hst : l.stuck with
  | true => rw [hst] at h; cases h
  | false =>
    rw [hst, if_neg (by simp)] at h
    rw [if_neg (by simp)]
    dsimp only at h ⊢
    cases isDefault with
    | none =>
      refine ⟨rfl, hs, fun _ => ?_⟩
      dsimp only
      unfold setSelectors
      cases selectors with
      | none => rfl
      | some s =>
        dsimp only
        rw [List.map_map]
        refine List.map_congr_left fun e _ => ?_
        dsimp only [Function.comp]
        split_ifs <;> rfl
    | some b =>
      cases b with
      | false =>
        refine ⟨rfl, ?_, fun h => by cases h⟩
        rw [← hs]
        dsimp only
        unfold clearDefault
        rw [List.map_map]
        refine List.map_congr_left fun e _ => ?_
        dsimp only [Function.comp]
        split_ifs <;> rfl
      | true =>
        dsimp only at h ⊢
        cases hd : setDefault other name [] (setSelectors other name selectors l.links) with
        | error e => rw [hd] at h; cases h
        | ok out =>
          refine ⟨rfl, ?_, fun h => by cases h⟩
          rw [← hs]
          dsimp only
          rw [setDefault_eq hd, List.nil_append, List.map_map]
          refine List.map_congr_left fun e _ => ?_
          dsimp only [Function.comp]
          unfold marked
          split_ifs <;> rfl

example : (EdgeDemo.node.edit EdgeDemo.a ['p'] (some [['x']]) none).2 = .ok () := by decide +kernel

/-- **C111** (violated) A link cannot be made the default again once a link added after it has become the default: SQLite checks
after every row that only one of them is. -/
theorem C111_violated_default_again :
    let l := EdgeDemo.node.run [.edit EdgeDemo.a ['q'] none (some true)]
    l.Reachable ∧ l.defaults EdgeDemo.a = [['q']] ∧ (l.find EdgeDemo.a ['p']).isSome = true ∧
      l.edit EdgeDemo.a ['p'] none (some true) =
        (l, .error (.integrityError "UNIQUE constraint failed: edge.is_default, edge.other_unique_id")) := by
  refine ⟨⟨[0, 1, 2], EdgeDemo.ops ++ [.edit EdgeDemo.a ['q'] none (some true)], by decide, by decide, rfl⟩, ?_⟩
  decide +kernel

/-- **C111** (violated) Making a link the default whose name is wrong raises nothing, and leaves no default link, without which
nothing can be translated. -/
theorem C111_violated_default_unknown :
    EdgeDemo.node.find EdgeDemo.a ['z'] = none ∧ (EdgeDemo.node.edit EdgeDemo.a ['z'] none (some true)).2 = .ok () ∧
      (EdgeDemo.node.edit EdgeDemo.a ['z'] none (some true)).1.defaults EdgeDemo.a = [] := by decide +kernel

/-- **C111** (violated) Without a default link nothing is translated, even if selectors of links match all the attributes. -/
theorem C111_violated_no_default {l : Links} {other : PyStr} (h : l.defaults other = []) (cm : CaseMap)
    (data : List (Nat × Attrs × ℚ)) :
    l.translate cm other data = .error (.typeError "cannot unpack non-iterable NoneType object") := by
  unfold Links.translate Links.lookUp
  have : (l.links.find? fun e => e.other == other && e.isDefault) = none := by
    unfold Links.defaults at h
    rw [List.map_eq_nil_iff, List.filter_eq_nil_iff] at h
    rw [List.find?_eq_none]
    exact h
  rw [this]

/-- **C111** (violated) A record that does not exist is only noticed at the end of the transaction, which then stays open: the
link is there, and no link can be added or edited any more. -/
theorem C111_violated_stuck {l : Links} (hr : l.Reachable) {other name : PyStr} {given : List (Nat × Nat × ℚ)}
    {selectors : List PyStr} {makeDefault : Option Bool} (hs : l.stuck = false) (hf : l.find other name = none)
    (hv : ∀ g ∈ given, 0 ≤ g.2.2) {g : Nat × Nat × ℚ} (hg : g ∈ given) (hi : g.2.1 ∉ l.index) :
    (l.add other name given selectors makeDefault).2 = .error (.integrityError "FOREIGN KEY constraint failed") ∧
      ∀ op, (l.add other name given selectors makeDefault).1.step op = ((l.add other name given selectors makeDefault).1,
        .error (.operationalError "cannot start a transaction within a transaction")) := by
  have hok := hr.ok.1
  have hall : ¬ (given.all fun r => decide (r.2.1 ∈ l.index)) = true := by
    intro h
    exact hi (of_decide_eq_true (List.all_eq_true.1 h g hg))
  have hlink : ∃ p, addLink other name selectors makeDefault l.links = .ok p := by
    have hr' := (C111_add hr other name [] selectors makeDefault).2
      ⟨hs, hf, fun _ h => absurd h List.not_mem_nil, fun _ h => absurd h List.not_mem_nil⟩
    unfold Links.add at hr'
    rw [hs, if_neg (by simp)] at hr'
    cases h1 : addLink other name selectors makeDefault l.links with
    | error e => rw [h1] at hr'; cases hr'
    | ok p => exact ⟨p, rfl⟩
  obtain ⟨⟨id, links⟩, h1⟩ := hlink
  obtain ⟨rels, h2⟩ := (fold_ok_iff id (given ++ [(0, 0, 0)]) l.rels).2 (by
    intro g hg
    rcases List.mem_append.1 hg with hg | hg
    · exact hv g hg
    · rw [List.mem_singleton.1 hg])
  have h2 : addRels id given l.rels = .ok rels := h2
  have key : (l.add other name given selectors makeDefault).2 = .error (.integrityError "FOREIGN KEY constraint failed") ∧
      (l.add other name given selectors makeDefault).1.stuck = true := by
    unfold Links.add
    rw [hs, if_neg (by simp), h1]
    dsimp only
    rw [h2]
    dsimp only
    rw [if_neg hall]
    exact ⟨rfl, rfl⟩
  refine ⟨key.1, fun op => ?_⟩
  generalize (l.add other name given selectors makeDefault).1 = l' at key
  cases op with
  | add => exact if_pos key.2
  | edit => exact if_pos key.2

example : EdgeDemo.node.stuck = false ∧ EdgeDemo.node.find EdgeDemo.a ['r'] = none ∧ 3 ∉ EdgeDemo.node.index := by
  decide +kernel

/-- **C111** What a link passes on of a source record adds up to all of it, if the link has a value for the record at all or it is
the undefined one. -/
theorem C111_parts {l : Links} (hr : l.Reachable) {e : Link} (he : e ∈ l.links) {s : Nat} (hs : s = 0 ∨ l.targets e.id s ≠ []) :
    ((l.targets e.id s).map fun t => l.part e.id s t.1).sum = 1 ∧ ∀ i, 0 ≤ l.part e.id s i := by
  have hok := hr.ok.1
  constructor
  · rw [← parts_one hok he hs, targets_eq, List.map_map]
    congr 1
    refine List.map_congr_left fun r hr => ?_
    simp only [Function.comp_apply]
    rw [← part_eq hok he, sum_filter']
    have hn := relsFrom_index hok e.id s
    have : (relsFrom l.rels e.id s).map (fun x => if decide (x.index = r.index) = true then x.proportion.getD 0 else 0) =
        (relsFrom l.rels e.id s).map fun x => if r = x then x.proportion.getD 0 else 0 := by
      refine List.map_congr_left fun x hx => ?_
      by_cases hxr : x.index = r.index
      · have := List.inj_on_of_nodup_map hn hx hr hxr
        subst this
        simp
      · rw [if_neg (by simpa using hxr), if_neg]
        rintro rfl
        exact hxr rfl
    rw [this, sum_pick hn.of_map hr fun x => x.proportion.getD 0]
  · intro i
    unfold Links.part
    split
    · split <;> norm_num
    · refine List.sum_nonneg fun x hx => ?_
      obtain ⟨t, ht, rfl⟩ := List.mem_map.1 hx
      have ht := (List.mem_filter.1 ht).1
      have hnn : ∀ w ∈ (l.targets e.id s).map (·.2), 0 ≤ w := by
        intro w hw
        obtain ⟨t, ht, rfl⟩ := List.mem_map.1 hw
        rw [targets_eq] at ht
        obtain ⟨r, hr, rfl⟩ := List.mem_map.1 ht
        exact hok.nonneg r (mem_relsFrom.1 hr).1
      unfold partBy
      split
      · positivity
      · exact div_nonneg (hnn _ (List.mem_map_of_mem ht)) (List.sum_nonneg hnn)

example : EdgeDemo.node.targets 1 1 = [(2, 7), (1, 1)] ∧ EdgeDemo.node.part 1 1 2 = 7 / 8 ∧ EdgeDemo.node.part 1 2 1 = 1 / 2 := by
  decide +kernel

theorem sels_mem {l : Links} {other : PyStr} {sels : List (Nat × Option (List Sel))} (h : l.selectorLists other = .ok sels)
    {k : Nat} {x : Option (List Sel)} (hk : (k, x) ∈ sels) : ∃ e ∈ l.links, e.id = k ∧ e.other = other ∧ e.complete = true := by
  unfold Links.selectorLists at h
  rw [mapM_forall₂] at h
  obtain ⟨e, he, hx⟩ : ∃ e ∈ l.links.filter fun e => e.other == other && e.complete, (if e.selectors = [] then
      (.error (.typeError "'NoneType' object is not iterable") : Except Err (Nat × Option (List Sel)))
      else match e.selectors.mapM Selectors.parseSelector with
      | some sels => .ok (e.id, some sels)
      | none => .error (.exception "SelectorSyntaxError")) = .ok (k, x) := by
    revert h
    generalize (l.links.filter fun e => e.other == other && e.complete) = es
    intro h
    clear * - h hk
    induction h with
    | nil => cases hk
    | cons hab _ ih =>
      rcases List.mem_cons.1 hk with rfl | hk
      · exact ⟨_, List.mem_cons_self, hab⟩
      · obtain ⟨e, he, hx⟩ := ih hk
        exact ⟨e, List.mem_cons_of_mem _ he, hx⟩
  rw [List.mem_filter, Bool.and_eq_true, beq_iff_eq] at he
  refine ⟨e, he.1, ?_, he.2.1, he.2.2⟩
  split at hx
  · cases hx
  · split at hx
    · cases hx; rfl
    · cases hx

/-- **C111** The link used for a quantity is a complete link from the node the quantity is from. -/
theorem C111_link {l : Links} {cm : CaseMap} {other : PyStr} {a : Attrs} {k : Nat} (h : l.linkFor cm other a = .ok k) :
    ∃ e ∈ l.links, e.id = k ∧ e.other = other ∧ e.complete = true := by
  unfold Links.linkFor Links.lookUp at h
  cases hf : l.links.find? fun e => e.other == other && e.isDefault with
  | none => rw [hf] at h; cases h
  | some d =>
    rw [hf] at h
    dsimp only at h
    have hd := List.find?_some hf
    rw [Bool.and_eq_true, beq_iff_eq] at hd
    by_cases hc : d.complete = true
    · rw [if_pos hc] at h
      cases hs : l.selectorLists other with
      | error e => rw [hs] at h; cases h
      | ok sels =>
        rw [hs] at h
        have h : getMatchingKey cm sels d.id a = .ok k := h
        unfold getMatchingKey at h
        rcases ggus_mem h with rfl | ⟨x, hx⟩
        · exact ⟨d, List.mem_of_find?_eq_some hf, rfl, hd.1, hc⟩
        · obtain ⟨y, hy, hyx⟩ := List.mem_map.1 hx
          cases hyx
          exact sels_mem hs (List.mem_filter.1 hy).1
    · rw [if_neg hc] at h
      cases h

theorem translate_rows {l : Links} {cm : CaseMap} {other : PyStr} {data : List (Nat × Attrs × ℚ)} {out : List Piece}
    (h : l.translate cm other data = .ok out) : ∃ rows, out = regroup rows.flatten ∧ List.Forall₂ (fun q r =>
      ∃ e ∈ l.links, l.linkFor cm other q.2.1 = .ok e.id ∧
        r = (relsFrom l.rels e.id q.1).map fun x => (⟨x.index, q.2.1, q.2.2 * x.proportion.getD 0⟩ : Piece)) data rows := by
  unfold Links.translate at h
  cases hl : l.lookUp other with
  | error e => rw [hl] at h; cases h
  | ok p =>
    obtain ⟨d, sels⟩ := p
    rw [hl] at h
    dsimp only at h
    have hfor : ∀ a, l.linkFor cm other a = getMatchingKey cm sels d a := by
      intro a
      unfold Links.linkFor
      rw [hl]
    cases hm : data.mapM fun q => (getMatchingKey cm sels d q.2.1).map fun link => l.rowsFor other link q with
    | error e => rw [hm] at h; cases h
    | ok rows =>
      rw [hm] at h
      cases h
      refine ⟨rows, rfl, (mapM_forall₂.1 hm).imp fun q r hq => ?_⟩
      rw [← hfor] at hq
      cases hk : l.linkFor cm other q.2.1 with
      | error e => rw [hk] at hq; cases hq
      | ok k =>
        rw [hk] at hq
        obtain ⟨e, he, rfl, ho, hc⟩ := C111_link hk
        refine ⟨e, he, rfl, ?_⟩
        have hq : l.rowsFor other e.id q = r := Except.ok.inj hq
        rw [← hq]
        unfold Links.rowsFor
        rw [if_pos (List.any_eq_true.2 ⟨e, he, by simp [ho, hc]⟩)]

/-- **C111** A translation gives each record, for the attributes `a`, its parts of all the quantities with these attributes. There is
at most one row for a record and attributes. -/
theorem C111_translate {l : Links} (hr : l.Reachable) {cm : CaseMap} {other : PyStr} {data : List (Nat × Attrs × ℚ)}
    {out : List Piece} (h : l.translate cm other data = .ok out) :
    (out.map fun p => (p.index, p.attrs)).Nodup ∧ ∀ i a,
      ((∀ q ∈ data, q.2.1 ≠ a) → amountOf out i a = 0) ∧
      ∀ k, l.linkFor cm other a = .ok k →
        amountOf out i a = ((data.filter fun q => decide (q.2.1 = a)).map fun q => q.2.2 * l.part k q.1 i).sum := by
  have hok := hr.ok.1
  obtain ⟨rows, rfl, hrows⟩ := translate_rows h
  refine ⟨?_, fun i a => ?_⟩
  · unfold regroup
    rw [List.map_map]
    exact (List.map_id _).symm ▸ List.nodup_dedup _
  rw [regroup_amount, amountOf_eq]
  clear h
  constructor
  · intro hno
    induction hrows with
    | nil => rfl
    | @cons q r data rows hqr _ ih =>
      rw [List.flatten_cons, sumOf_append, ih fun q hq => hno q (List.mem_cons_of_mem _ hq), add_zero]
      obtain ⟨e, he, -, rfl⟩ := hqr
      have hne := hno q List.mem_cons_self
      unfold sumOf
      rw [List.filter_eq_nil_iff.2]
      · rfl
      · intro p hp
        obtain ⟨x, -, rfl⟩ := List.mem_map.1 hp
        simp [hne]
  · intro k hk
    induction hrows with
    | nil => rfl
    | @cons q r data rows hqr _ ih =>
      rw [List.flatten_cons, sumOf_append, ih]
      obtain ⟨e, he, hke, rfl⟩ := hqr
      unfold sumOf
      rw [List.filter_map, List.map_map]
      by_cases hq : q.2.1 = a
      · rw [hq, hk] at hke
        cases hke
        rw [List.filter_cons_of_pos (by simpa using hq), List.map_cons, List.sum_cons, ← part_eq hok he,
          ← List.sum_map_mul_left]
        congr 3
        refine List.filter_congr fun x _ => ?_
        simp [hq]
      · rw [List.filter_cons_of_neg (by simpa using hq), List.filter_eq_nil_iff.2]
        · simp
        · intro x _
          simp [hq]

/-- **C111** The total for the attributes `a` is that of the quantities whose record has a value in the link, or is the undefined one:
what the link has no value for is lost, and nothing else is. What is missing: it should not be lost. -/
theorem C111_total_partial {l : Links} (hr : l.Reachable) {cm : CaseMap} {other : PyStr} {data : List (Nat × Attrs × ℚ)}
    {out : List Piece} (h : l.translate cm other data = .ok out) {a : Attrs} {k : Nat} (hk : l.linkFor cm other a = .ok k) :
    totalOf out a =
      ((data.filter fun q => decide (q.2.1 = a ∧ (q.1 = 0 ∨ l.targets k q.1 ≠ []))).map (·.2.2)).sum := by
  have hok := hr.ok.1
  obtain ⟨rows, rfl, hrows⟩ := translate_rows h
  rw [regroup_total]
  clear h
  induction hrows with
  | nil => rfl
  | @cons q r data rows hqr _ ih =>
    have happ : ∀ x y : List Piece, totalOf (x ++ y) a = totalOf x a + totalOf y a := by
      intro x y
      unfold totalOf
      rw [List.filter_append, List.map_append, List.sum_append]
    rw [List.flatten_cons, happ, ih]
    obtain ⟨e, he, hke, rfl⟩ := hqr
    unfold totalOf
    rw [List.filter_map, List.map_map]
    by_cases hq : q.2.1 = a
    · rw [hq, hk] at hke
      cases hke
      rw [List.filter_eq_self.2 (fun x _ => by simp [hq])]
      by_cases hc : q.1 = 0 ∨ l.targets e.id q.1 ≠ []
      · rw [List.filter_cons_of_pos (by simpa [hq] using hc), List.map_cons, List.sum_cons]
        have := parts_one hok he hc
        have h2 : ((relsFrom l.rels e.id q.1).map ((fun x : Piece => x.value) ∘ fun x =>
            (⟨x.index, q.2.1, q.2.2 * x.proportion.getD 0⟩ : Piece))).sum = q.2.2 := by
          rw [show ((fun x : Piece => x.value) ∘ fun x : Rel => (⟨x.index, q.2.1, q.2.2 * x.proportion.getD 0⟩ : Piece)) =
            fun x => q.2.2 * x.proportion.getD 0 from rfl, List.sum_map_mul_left, this, mul_one]
        rw [h2]
      · rw [List.filter_cons_of_neg (by simpa [hq] using hc)]
        push Not at hc
        have h3 := hc.2
        rw [targets_eq, List.map_eq_nil_iff] at h3
        rw [h3]
        simp
    · rw [List.filter_cons_of_neg (by simp [hq]), List.filter_eq_nil_iff.2]
      · simp
      · intro x _
        simp [hq]

/-- The mapping of letters to lower case is not needed for the selectors here. -/
def EdgeDemo.cm : CaseMap := ⟨id, id⟩

/-- Quantities with two attributes, one of them for a record that the first link has no value for. -/
def EdgeDemo.data : List (Nat × Attrs × ℚ) :=
  [(1, [(['x'], ['1'])], 80), (2, [(['x'], ['1'])], 10), (0, [(['x'], ['1'])], 5), (3, [(['x'], ['1'])], 4),
   (1, [(['x'], ['2'])], 6)]

example : EdgeDemo.node.translate EdgeDemo.cm EdgeDemo.a EdgeDemo.data = .ok
    [⟨1, [(['x'], ['1'])], 15⟩, ⟨2, [(['x'], ['1'])], 75⟩, ⟨0, [(['x'], ['1'])], 5⟩, ⟨1, [(['x'], ['2'])], 6⟩] := by
  decide +kernel

/-- **C111** (violated) A quantity is lost, and nothing is raised, if the link has no value for its record. -/
theorem C111_violated_lost :
    (EdgeDemo.node.translate EdgeDemo.cm EdgeDemo.a [(3, [(['x'], ['1'])], 4)]) = .ok [] ∧
      EdgeDemo.node.linkFor EdgeDemo.cm EdgeDemo.a [(['x'], ['1'])] = .ok 1 := by decide +kernel

/-- **C111** (violated) Nothing can be translated if one of the complete links from the node has no selectors. -/
theorem C111_violated_selectors {l : Links} {other : PyStr} {d e : Link}
    (hd : (l.links.find? fun e => e.other == other && e.isDefault) = some d) (hc : d.complete = true) (he : e ∈ l.links)
    (ho : e.other = other) (hec : e.complete = true) (hs : e.selectors = []) (cm : CaseMap) (data : List (Nat × Attrs × ℚ)) :
    ∃ err, l.translate cm other data = .error err := by
  have hsl : ∃ err, l.selectorLists other = .error err := by
    cases h : l.selectorLists other with
    | error err => exact ⟨err, rfl⟩
    | ok sels =>
      exfalso
      unfold Links.selectorLists at h
      rw [mapM_forall₂] at h
      have hm : e ∈ l.links.filter fun e => e.other == other && e.complete :=
        List.mem_filter.2 ⟨he, by simp [ho, hec]⟩
      revert h hm
      generalize (l.links.filter fun e => e.other == other && e.complete) = es
      intro h hm
      clear * - h hm hs
      induction h with
      | nil => cases hm
      | cons hab _ ih =>
        rcases List.mem_cons.1 hm with rfl | hm
        · rw [if_pos hs] at hab
          cases hab
        · exact ih hm
  obtain ⟨err, herr⟩ := hsl
  refine ⟨err, ?_⟩
  unfold Links.translate Links.lookUp
  rw [hd]
  dsimp only
  rw [if_pos hc, herr]
  rfl

/-- **C111** (violated) It is so for a link without selectors that is alone. -/
theorem C111_violated_no_selectors :
    let l := (Links.new [0, 1]).run [.add EdgeDemo.a ['p'] [(1, 1, 1)] [] none]
    (l.links.map fun e => (e.complete, e.isDefault)) = [(true, true)] ∧
      l.translate EdgeDemo.cm EdgeDemo.a [(1, [], 4)] = .error (.typeError "'NoneType' object is not iterable") := by
  decide +kernel

/-- **C111** (violated) The values for a pair of records that is given twice are not added: the first of them is lost. -/
theorem C111_violated_twice {l : Links} (hr : l.Reachable) {other name : PyStr} {s i : Nat} {v w : ℚ} {selectors : List PyStr}
    {makeDefault : Option Bool} (hi : i ≠ 0)
    (h : (l.add other name [(s, i, v), (s, i, w)] selectors makeDefault).2 = .ok ()) :
    ∃ e, (l.add other name [(s, i, v), (s, i, w)] selectors makeDefault).1.find other name = some e ∧
      (l.add other name [(s, i, v), (s, i, w)] selectors makeDefault).1.valueOf e.id s i = some w := by
  obtain ⟨e, h1, -, -, h2, -⟩ := C111_values hr h
  refine ⟨e, h1, ?_⟩
  rw [h2, if_neg fun h => hi h.2]
  simp [lastGiven]

example : (EdgeDemo.node.add EdgeDemo.b ['t'] [(1, 2, 4), (1, 2, 5)] [] none).2 = .ok () :=
  (C111_add EdgeDemo.node_reachable _ _ _ _ _).2 (by decide +kernel)

end Toron.Legacy
