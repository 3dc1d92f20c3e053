/-
C83: managing weight groups and links (`add_weight_group`, `edit_weight_group`, `drop_weight_group`, `add_link`,
`edit_link`, `drop_link` in `src/toron/space.py`).
-/
import Verif.Props.StoreLinks
import Verif.Props.StoreHistory
import Verif.Lemmas.Store.WeightEdit

namespace Toron.Space

open Toron.Selectors (PyStr Sel)

private theorem findWGroup_none {s : Store} {name : PyStr} (h : ∀ g ∈ s.wgroups, g.name ≠ name) :
    s.findWGroup name = none := by
  unfold Store.findWGroup
  rw [List.find?_eq_none]
  intro g hg
  simpa using h g hg

private theorem findWGroup_some {s : Store} (hw : WeightInv s) {g : WGroup} (hg : g ∈ s.wgroups) :
    s.findWGroup g.name = some g := (find_nodup_iff hw.names).2 ⟨hg, rfl⟩

theorem runTx_of_ok {m : M Unit} {s s' : Store} (h : m s = .ok ((), s')) (hfk : fkOk s' = true) :
    (runTx m s).2 = .ok () ∧ (runTx m s).1 = s' := by
  unfold runTx
  rw [h]
  simp only [hfk, if_true, and_self]

private theorem runTx_of_error {m : M Unit} {s : Store} {e : Err} (h : m s = .error e) :
    (runTx m s).2 = .error e ∧ (runTx m s).1 = s := by
  unfold runTx
  rw [h]
  exact ⟨rfl, rfl⟩

/-- C83, a new weight group. If no group has the name, the call succeeds: one group with what was given is added, and
nothing else changes, except that the new group is the default afterwards if that was asked for, or if it was left open
and there was no group before. If a group has the name, the call fails and nothing changes. -/
theorem C83_add_group {s : Store} (hr : Reachable s) (name : PyStr) (selectors : List Sel) (complete : Bool)
    (makeDefault : Option Bool) :
    ((∀ g ∈ s.wgroups, g.name ≠ name) →
      (step (.addWeightGroup name selectors complete makeDefault) s).2 = .ok () ∧
      ∃ id, (∀ g ∈ s.wgroups, g.id ≠ id) ∧
        (step (.addWeightGroup name selectors complete makeDefault) s).1 =
          { s with
            wgroups := s.wgroups ++ [⟨id, name, selectors, complete⟩]
            defaultWG := if makeDefault = some true ∨ (makeDefault = none ∧ s.wgroups = []) then some (some id)
              else s.defaultWG }) ∧
    ((∃ g ∈ s.wgroups, g.name = name) →
      (∃ e, (step (.addWeightGroup name selectors complete makeDefault) s).2 = .error e) ∧
      (step (.addWeightGroup name selectors complete makeDefault) s).1 = s) := by
  have hw := hr.weightInv
  have hstep : step (.addWeightGroup name selectors complete makeDefault) s =
    runTx (addWeightGroup name selectors complete makeDefault) s := rfl
  rw [hstep]
  refine ⟨fun hn => ?_, ?_⟩
  · have hid : ∀ g ∈ s.wgroups, g.id ≠ nextId (s.wgroups.map (·.id)) := by
      intro g hg he
      exact nextId_not_mem (s.wgroups.map (·.id)) (he ▸ List.mem_map_of_mem hg)
    have hfk : ∀ d gs, fkOk { s with wgroups := gs, defaultWG := d } = true := fun _ _ => hr.fkOk
    have hrun : addWeightGroup name selectors complete makeDefault s = .ok ((),
          { s with
            wgroups := s.wgroups ++ [⟨nextId (s.wgroups.map (·.id)), name, selectors, complete⟩]
            defaultWG := if makeDefault = some true ∨ (makeDefault = none ∧ s.wgroups = []) then
              some (some (nextId (s.wgroups.map (·.id)))) else s.defaultWG }) := by
      unfold addWeightGroup
      rw [get_bind, findWGroup_none hn]
      dsimp only
      have hadd : wgroupAdd name selectors complete s = .ok ((),
          { s with wgroups := s.wgroups ++ [⟨nextId (s.wgroups.map (·.id)), name, selectors, complete⟩] }) := by
        unfold wgroupAdd
        rw [get_bind, if_neg]
        · rfl
        · intro h
          obtain ⟨g, hg, he⟩ := List.any_eq_true.1 h
          exact hn g hg (by simpa using he)
      refine bind_ok.2 ⟨(), _, hadd, ?_⟩
      have hiff : (if makeDefault = none ∧ s.wgroups.isEmpty = true then true else makeDefault.getD false) = true ↔
          (makeDefault = some true ∨ (makeDefault = none ∧ s.wgroups = [])) := by
        rcases makeDefault with _ | _ | _ <;> simp
      by_cases hc : makeDefault = some true ∨ (makeDefault = none ∧ s.wgroups = [])
      · rw [if_pos (hiff.2 hc), if_pos hc]
        refine bind_ok.2 ⟨⟨nextId (s.wgroups.map (·.id)), name, selectors, complete⟩,
          { s with wgroups := s.wgroups ++ [⟨nextId (s.wgroups.map (·.id)), name, selectors, complete⟩] }, ?_, rfl⟩
        unfold wgroupGetByName
        rw [get_bind]
        have : Store.findWGroup { s with wgroups := s.wgroups ++
            [⟨nextId (s.wgroups.map (·.id)), name, selectors, complete⟩] } name =
            some ⟨nextId (s.wgroups.map (·.id)), name, selectors, complete⟩ := by
          unfold Store.findWGroup
          dsimp only
          rw [List.find?_append, List.find?_eq_none.2]
          · simp
          · intro g hg
            simpa using hn g hg
        rw [this]
        rfl
      · rw [if_neg (fun h => hc (hiff.1 h)), if_neg hc]
        rfl
    obtain ⟨h1, h2⟩ := runTx_of_ok hrun (hfk _ _)
    exact ⟨h1, _, hid, h2⟩
  · rintro ⟨g, hg, rfl⟩
    have hrun : addWeightGroup g.name selectors complete makeDefault s =
        .error (.toronError "weight group already exists") := by
      unfold addWeightGroup
      rw [get_bind, findWGroup_some hw hg]
      rfl
    obtain ⟨h1, h2⟩ := runTx_of_error hrun
    exact ⟨⟨_, h1⟩, h2⟩

/-- C83, changing a weight group. If the group exists and no other group has its new name, it gets what is given and
keeps the rest, and nothing else changes. If another group has the new name, the call fails and nothing changes. If
there is no such group, nothing changes; the call does not fail. -/
theorem C83_edit_group {s : Store} (hr : Reachable s) (name : PyStr) (newName : Option PyStr)
    (selectors : Option (List Sel)) (complete : Option Bool) :
    ((∀ g ∈ s.wgroups, g.name ≠ name) →
      (step (.editWeightGroup name newName selectors complete) s).2 = .ok () ∧
      (step (.editWeightGroup name newName selectors complete) s).1 = s) ∧
    ∀ g ∈ s.wgroups, g.name = name →
      ((∀ x ∈ s.wgroups, x.name = newName.getD name → x = g) →
        (step (.editWeightGroup name newName selectors complete) s).2 = .ok () ∧
        (step (.editWeightGroup name newName selectors complete) s).1 = { s with
          wgroups := s.wgroups.map fun x => if x.name = name then
            ⟨x.id, newName.getD x.name, selectors.getD x.selectors, complete.getD x.complete⟩ else x }) ∧
      ((∃ x ∈ s.wgroups, x.name = newName.getD name ∧ x ≠ g) →
        (∃ e, (step (.editWeightGroup name newName selectors complete) s).2 = .error e) ∧
        (step (.editWeightGroup name newName selectors complete) s).1 = s) := by
  have hw := hr.weightInv
  have hstep : step (.editWeightGroup name newName selectors complete) s =
    runTx (editWeightGroup name newName selectors complete) s := rfl
  rw [hstep]
  refine ⟨fun hn => ?_, ?_⟩
  · refine runTx_of_ok ?_ hr.fkOk
    unfold editWeightGroup
    rw [get_bind, findWGroup_none hn]
    rfl
  · rintro g hg rfl
    have hrun : editWeightGroup g.name newName selectors complete s = wgroupUpdate { g with
        name := newName.getD g.name, selectors := selectors.getD g.selectors,
        complete := complete.getD g.complete } s := by
      unfold editWeightGroup
      rw [get_bind, findWGroup_some hw hg]
    have hthere : ¬ ¬ (s.wgroups.any fun x => x.id == g.id) = true :=
      not_not.2 (List.any_eq_true.2 ⟨g, hg, by simp⟩)
    refine ⟨fun hfree => ?_, fun hclash => ?_⟩
    · refine runTx_of_ok ?_ ?_
      · rw [hrun]
        unfold wgroupUpdate
        rw [get_bind, if_neg hthere, if_neg]
        · show Except.ok ((), _) = _
          refine congrArg (fun l => Except.ok ((), { s with wgroups := l })) (List.map_congr_left fun x hx => ?_)
          dsimp only
          by_cases hxi : x.id = g.id
          · have : x = g := List.inj_on_of_nodup_map hw.gids hx hg hxi
            subst this
            rw [if_pos rfl, if_pos rfl]
          · rw [if_neg hxi, if_neg fun hxn => hxi (congrArg WGroup.id (List.inj_on_of_nodup_map hw.names hx hg hxn))]
        · intro h
          obtain ⟨x, hx, he⟩ := List.any_eq_true.1 h
          simp only [Bool.and_eq_true, bne_iff_ne, beq_iff_eq] at he
          exact he.1 (congrArg WGroup.id (hfree x hx he.2))
      · exact hr.fkOk
    · have hrun' : editWeightGroup g.name newName selectors complete s =
          .error (.integrityError "weight_group: UNIQUE") := by
        rw [hrun]
        unfold wgroupUpdate
        rw [get_bind, if_neg hthere, if_pos]
        · rfl
        · obtain ⟨x, hx, he, hne⟩ := hclash
          refine List.any_eq_true.2 ⟨x, hx, ?_⟩
          simp only [Bool.and_eq_true, bne_iff_ne, beq_iff_eq]
          exact ⟨fun h => hne (List.inj_on_of_nodup_map hw.gids hx hg h), he⟩
      obtain ⟨h1, h2⟩ := runTx_of_error hrun'
      exact ⟨⟨_, h1⟩, h2⟩

/-- C83, dropping a weight group, in a dataspace for which a default is recorded. The group is gone, the other groups
stay, and if it was the default there is none any more. If there is no such group, nothing changes; the call does not
fail. -/
theorem C83_drop_group_partial {s : Store} (hr : Reachable s) (name : PyStr) :
    ((∀ g ∈ s.wgroups, g.name ≠ name) →
      (step (.dropWeightGroup name) s).2 = .ok () ∧ (step (.dropWeightGroup name) s).1 = s) ∧
    ∀ g ∈ s.wgroups, g.name = name → s.defaultWG ≠ none →
      (step (.dropWeightGroup name) s).2 = .ok () ∧
      (step (.dropWeightGroup name) s).1.wgroups = s.wgroups.filter (fun x => x.name != name) ∧
      (step (.dropWeightGroup name) s).1.defaultWG =
        if s.defaultWG = some (some g.id) then none else s.defaultWG := by
  have hw := hr.weightInv
  have hstep : step (.dropWeightGroup name) s = runTx (dropWeightGroup name) s := rfl
  rw [hstep]
  refine ⟨fun hn => ?_, ?_⟩
  · refine runTx_of_ok ?_ hr.fkOk
    unfold dropWeightGroup
    rw [get_bind, findWGroup_none hn]
    rfl
  · rintro g hg rfl hd
    obtain ⟨d, hd⟩ := Option.ne_none_iff_exists'.1 hd
    have hfk : ∀ d gs, fkOk { s with
        wgroups := gs
        weights := if s.fk then s.weights.filter (fun w => w.group != g.id) else s.weights
        defaultWG := d } = true := by
      intro d gs
      have h := hr.fkOk
      unfold fkOk at h ⊢
      dsimp only at h ⊢
      rcases hb : s.fk
      · rfl
      · rw [hb] at h
        simp only [Bool.not_true, Bool.false_or, Bool.and_eq_true, List.all_eq_true, if_true] at h ⊢
        exact ⟨fun w hw => h.1 w (List.mem_of_mem_filter hw), h.2⟩
    have hrun : dropWeightGroup g.name s = .ok ((), { s with
        wgroups := s.wgroups.filter (fun x => x.id != g.id)
        weights := if s.fk then s.weights.filter (fun w => w.group != g.id) else s.weights
        defaultWG := if s.defaultWG = some (some g.id) then none else s.defaultWG }) := by
      unfold dropWeightGroup
      rw [get_bind, findWGroup_some hw hg]
      dsimp only
      refine bind_ok.2 ⟨(), _, rfl, ?_⟩
      rw [get_bind]
      dsimp only
      rw [hd]
      dsimp only
      by_cases hdg : d = some g.id
      · subst hdg
        simp only [if_true]
        rfl
      · have hdg' : ¬ some d = some (some g.id) := by simpa using hdg
        simp only [hdg, hdg', if_false]
        rw [← hd]
        rfl
    obtain ⟨h1, h2⟩ := runTx_of_ok hrun (hfk _ _)
    refine ⟨h1, ?_, ?_⟩ <;> rw [h2]
    dsimp only
    apply List.filter_congr
    intro x hx
    rw [Bool.eq_iff_iff, bne_iff_ne, bne_iff_ne]
    exact not_congr ⟨fun h => congrArg WGroup.name (List.inj_on_of_nodup_map hw.gids hx hg h),
      fun h => congrArg WGroup.id (List.inj_on_of_nodup_map hw.names hx hg h)⟩

/-- Once the default weight group has been dropped no other weight group can be dropped: the call fails with a `KeyError`
and the group stays, until a default is set again. -/
theorem C83_violated_drop :
    ∃ s, Reachable s ∧ (∃ g ∈ s.wgroups, g.name = ['a']) ∧ (∃ g ∈ s.wgroups, g.name = ['b']) ∧
      (step (.dropWeightGroup ['a']) s).2 = .ok () ∧
      (∃ g ∈ (step (.dropWeightGroup ['a']) s).1.wgroups, g.name = ['b']) ∧
      (step (.dropWeightGroup ['b']) (step (.dropWeightGroup ['a']) s).1).2.toBool = false ∧
      (step (.dropWeightGroup ['b']) s).2 = .ok () := by
  refine ⟨run [.addWeightGroup ['a'] [] false none, .addWeightGroup ['b'] [] false none] (Store.new ['u']),
    ⟨_, _, rfl⟩, ?_⟩
  decide +kernel

/-- A new weight group is not the default if another group is there, even if there is no default (because the first one
was added with `make_default=False`, or because the default was dropped). -/
theorem C83_no_default :
    ∃ s, Reachable s ∧ s.defaultWG = none ∧
      (step (.addWeightGroup ['b'] [] false none) s).2 = .ok () ∧
      (step (.addWeightGroup ['b'] [] false none) s).1.defaultWG = none := by
  refine ⟨run [.addWeightGroup ['a'] [] false (some false)] (Store.new ['u']), ⟨_, _, rfl⟩, ?_⟩
  decide +kernel

/-! Non-vacuity -/

example : (∀ g ∈ Demo.store.wgroups, g.name ≠ ['n']) ∧ Demo.store.wgroups ≠ [] := by decide +kernel

example : (∃ g ∈ Demo.store.wgroups, g.name = Demo.wname) ∧ Demo.store.defaultWG ≠ none ∧
    ∀ x ∈ Demo.store.wgroups, x.name ≠ (some ['n']).getD Demo.wname := by decide +kernel

/-! ### Links -/

/-- The only link meant by the reference that has the name is found. -/
theorem getLink_of {s : Store} (hr : Reachable s) {ref n : PyStr} (hr0 : ref ≠ []) (hn0 : n ≠ []) {l : Link}
    (hl : Meant s.links ref l) (hn : l.name = n)
    (hone : ∀ a b, Meant s.links ref a → Meant s.links ref b → a.other = b.other) :
    getLink s.links ref (some n) = .ok l := by
  obtain ⟨h0, _⟩ | ⟨_, fd, hm, ⟨he, _⟩ | ⟨_, h' | ⟨a, ha, b, hb, hne⟩⟩⟩ := getLinksByRef_meant s.links ref
  · exact absurd h0 hr0
  · unfold getLink
    rw [he]
    simp only [Bind.bind, Except.bind]
    rw [if_pos ⟨by simp, by simpa using hn0⟩]
    rcases hf : fd.find? (fun x => some x.name == some n) with _ | x
    · rw [List.find?_eq_none] at hf
      exact absurd (by simp [hn]) (hf l ((hm l).2 hl))
    · have hx := List.mem_of_find?_eq_some hf
      have hxn : x.name = n := by simpa using List.find?_some hf
      have hxm := (hm x).1 hx
      rw [hf, List.inj_on_of_nodup_map hr.linkInv.names hxm.1 hl.1 (by rw [hxn, hn, hone x l hxm hl])]
  · rw [h'] at hm
    exact absurd ((hm l).2 hl) (by simp)
  · exact absurd (hone a b ((hm a).1 ha) ((hm b).1 hb)) hne

private theorem run_then {α : Type} {m : M Unit} {f : Unit → M α} {s t : Store} (h : m s = .ok ((), t)) :
    (m >>= f) s = f () t := by
  show (m s >>= fun p => f p.1 p.2) = _
  rw [h]
  rfl

/-- Taking the default mark from some links never fails. -/
private theorem clear_succeeds {s : Store} (h : LinkInv s) {ls : List Link} (hsub : ∀ l ∈ ls, l ∈ s.links) :
    ∀ t : Store, t.links.map (fun l => (l.id, l.other, l.name)) = s.links.map (fun l => (l.id, l.other, l.name)) →
      ∃ t', ls.forM (fun l => linkUpdate { l with isDefault := false }) t = .ok ((), t') := by
  induction ls with
  | nil => exact fun t _ => ⟨t, rfl⟩
  | cons l ls ih =>
    intro t ht
    have hl := hsub l (by simp)
    have hok : ∃ t', linkUpdate { l with isDefault := false } t = .ok ((), t') := by
      unfold linkUpdate
      rw [get_bind]
      split
      · exact ⟨_, rfl⟩
      rw [if_neg]
      · exact ⟨_, rfl⟩
      · intro hany
        obtain ⟨x, hx, he⟩ := List.any_eq_true.1 hany
        simp only [Bool.and_eq_true, bne_iff_ne, beq_iff_eq, Bool.and_false, Bool.or_false] at he
        have hmem : (x.id, x.other, x.name) ∈ s.links.map (fun l => (l.id, l.other, l.name)) :=
          ht ▸ List.mem_map_of_mem (f := fun l : Link => (l.id, l.other, l.name)) hx
        obtain ⟨y, hy, hye⟩ := List.mem_map.1 hmem
        simp only [Prod.mk.injEq] at hye
        have : y = l := List.inj_on_of_nodup_map h.names hy hl (by rw [hye.2.1, hye.2.2, he.1.2, he.2])
        exact he.1.1 (by rw [← hye.1, this])
    obtain ⟨t1, h1⟩ := hok
    have ht1 := linkUpdate_ok h1
    obtain ⟨t2, h2⟩ := ih (fun x hx => hsub x (by simp [hx])) t1 (by
      rw [← ht, ht1]
      unfold upd
      dsimp only
      rw [List.map_map]
      apply List.map_congr_left
      intro x hx
      have hmem : (x.id, x.other, x.name) ∈ s.links.map (fun l => (l.id, l.other, l.name)) :=
        ht ▸ List.mem_map_of_mem (f := fun l : Link => (l.id, l.other, l.name)) hx
      obtain ⟨y, hy, hye⟩ := List.mem_map.1 hmem
      simp only [Prod.mk.injEq] at hye
      dsimp only [Function.comp_apply]
      by_cases hxl : x.id = l.id
      · have hyl : y = l := List.inj_on_of_nodup_map h.ids hy hl (by rw [hye.1, hxl])
        rw [if_pos hxl, ← hyl, hye.1, hye.2.1, hye.2.2]
      · rw [if_neg hxl])
    exact ⟨t2, bind_ok.2 ⟨(), t1, h1, h2⟩⟩

/-- C83, a new link. The call succeeds exactly if no link between the two dataspaces has the name, and otherwise nothing
changes. (What it adds is in C31.) -/
theorem C83_add_link {s : Store} (hr : Reachable s) (other name : PyStr) (hint : Option PyStr)
    (selectors : List Sel) (isDefault : Option Bool) (otherHash : Option (List Int)) (complete : Bool) :
    ((∀ l ∈ s.links, ¬ (l.other = other ∧ l.name = name)) →
      (step (.addLink other name hint selectors isDefault otherHash complete) s).2 = .ok ()) ∧
    ((∃ l ∈ s.links, l.other = other ∧ l.name = name) →
      (∃ e, (step (.addLink other name hint selectors isDefault otherHash complete) s).2 = .error e) ∧
      (step (.addLink other name hint selectors isDefault otherHash complete) s).1 = s) := by
  have hstep : step (.addLink other name hint selectors isDefault otherHash complete) s =
    runTx (addLink other name hint selectors isDefault otherHash complete) s := rfl
  rw [hstep]
  have hany : ((s.links.filter fun l => l.other == other).any fun l => l.name == name) = true ↔
      ∃ l ∈ s.links, l.other = other ∧ l.name = name := by
    simp only [List.any_eq_true, List.mem_filter, beq_iff_eq, and_assoc]
  refine ⟨fun hfree => ?_, fun hclash => ?_⟩
  · have hrun : ∃ t, addLink other name hint selectors isDefault otherHash complete s = .ok ((), t) := by
      unfold addLink
      rw [get_bind]
      dsimp only
      rw [if_neg (fun h => by obtain ⟨l, hl, h⟩ := hany.1 h; exact hfree l hl h)]
      generalize isDefault.getD (s.links.filter fun l => l.other == other).isEmpty = dflt
      have hadd : ∀ t : Store, (∀ x ∈ t.links, x.other = other → x.name ≠ name ∧ ¬ (x.isDefault = true ∧ dflt = true)) →
          ∃ t', linkAdd ⟨0, other, hint, name, selectors, dflt, otherHash, complete⟩ t = .ok ((), t') := by
        intro t ht
        unfold linkAdd
        rw [get_bind, if_neg]
        · exact ⟨_, rfl⟩
        · intro h
          obtain ⟨x, hx, he⟩ := List.any_eq_true.1 h
          simp only [Bool.and_eq_true, beq_iff_eq, Bool.or_eq_true] at he
          obtain ⟨h1, h2⟩ := ht x hx he.1
          exact he.2.elim h1 h2
      rcases dflt with _ | _
      · rw [if_neg (by simp)]
        obtain ⟨t, ht⟩ := hadd s fun x hx ho => ⟨fun hn => hfree x hx ⟨ho, hn⟩, by simp⟩
        exact ⟨t, ht⟩
      · rw [if_pos rfl, forM_if]
        obtain ⟨t, ht⟩ := clear_succeeds hr.linkInv
          (ls := (s.links.filter fun l => l.other == other).filter fun l => l.isDefault)
          (fun l hl => List.mem_of_mem_filter (List.mem_of_mem_filter hl)) s rfl
        have he := forM_linkUpdate (g := fun l => { l with isDefault := false }) hr.linkInv.ids
          (fun l hl => List.mem_of_mem_filter (List.mem_of_mem_filter hl)) (fun _ _ => rfl) ht
        obtain ⟨t', ht'⟩ := hadd t (by
          intro x hx ho
          rw [he] at hx
          obtain ⟨y, hy, rfl⟩ := List.mem_map.1 hx
          split at ho
          · rename_i hin
            rw [if_pos hin]
            exact ⟨fun hn => hfree y hy ⟨ho, hn⟩, by simp⟩
          · rename_i hin
            rw [if_neg hin]
            refine ⟨fun hn => hfree y hy ⟨ho, hn⟩, fun hd => hin ?_⟩
            exact List.mem_map_of_mem (List.mem_filter.2 ⟨List.mem_filter.2 ⟨hy, by simpa using ho⟩, hd.1⟩))
        exact ⟨t', bind_ok.2 ⟨(), t, ht, ht'⟩⟩
    obtain ⟨t, ht⟩ := hrun
    refine (runTx_of_ok ht ?_).1
    rw [addLink_ok hr.linkInv.ids ht]
    exact hr.fkOk
  · have hrun : addLink other name hint selectors isDefault otherHash complete s =
        .error (.toronError "a link with that name exists") := by
      unfold addLink
      rw [get_bind]
      dsimp only
      rw [if_pos (hany.2 hclash)]
      rfl
    obtain ⟨h1, h2⟩ := runTx_of_error hrun
    exact ⟨⟨_, h1⟩, h2⟩

/-- C83, changing a link that stays a link to the same dataspace, meant by a reference and its name. If no other link
between the two dataspaces has its new name, the link gets what is given and keeps the rest; nothing else changes,
except that no other link to that dataspace is the default if this one is made the default. If another link has the
new name, the call fails and nothing changes. -/
theorem C83_edit_link {s : Store} (hr : Reachable s) {ref : PyStr} (hr0 : ref ≠ []) {l : Link} (hl : Meant s.links ref l)
    (hn0 : l.name ≠ []) (hone : ∀ a b, Meant s.links ref a → Meant s.links ref b → a.other = b.other)
    (c : LinkChanges) (hc : c.other = none) :
    ((∀ x ∈ s.links, x.other = l.other → x.name = c.name.getD l.name → x = l) →
      (step (.editLink ref (some l.name) c) s).2 = .ok () ∧
      (step (.editLink ref (some l.name) c) s).1 = { s with
        links := s.links.map fun x =>
          if x.id = l.id then
            { id := l.id, other := l.other, hint := c.hint.getD l.hint, name := c.name.getD l.name,
              selectors := c.selectors.getD l.selectors, isDefault := c.isDefault.getD l.isDefault,
              otherHash := c.otherHash.getD l.otherHash, complete := c.complete.getD l.complete }
          else if x.other = l.other ∧ c.isDefault = some true then { x with isDefault := false }
          else x }) ∧
    ((∃ x ∈ s.links, x.other = l.other ∧ x.name = c.name.getD l.name ∧ x ≠ l) →
      (∃ e, (step (.editLink ref (some l.name) c) s).2 = .error e) ∧
      (step (.editLink ref (some l.name) c) s).1 = s) := by
  have hinv := hr.linkInv
  have hget := getLink_of hr hr0 hn0 hl rfl hone
  have hstep : step (.editLink ref (some l.name) c) s = runTx (editLink ref (some l.name) c) s := rfl
  rw [hstep]
  have hlift : ∀ {α : Type} (f : Link → M α), (liftE (getLink s.links ref (some l.name)) >>= f) s = f l s := by
    intro α f
    rw [hget]
    rfl
  -- what happens before the link itself is written
  obtain ⟨t, ht, htl⟩ : ∃ t : Store, editLink ref (some l.name) c s = linkUpdate (c.apply l) t ∧
      t = { s with links := s.links.map fun x =>
        if x.other = l.other ∧ c.isDefault = some true then { x with isDefault := false } else x } := by
    unfold editLink
    rw [get_bind, hlift]
    by_cases hd : c.isDefault = some true
    · rw [if_pos hd]
      obtain ⟨t, ht⟩ := clear_succeeds hinv (ls := s.links.filter fun x => x.other == l.other)
        (fun x hx => List.mem_of_mem_filter hx) s rfl
      refine ⟨t, ?_, ?_⟩
      · rw [get_bind]
        exact run_then ht
      · rw [forM_linkUpdate (g := fun l => { l with isDefault := false }) hinv.ids
          (fun l hl => List.mem_of_mem_filter hl) (fun _ _ => rfl) ht]
        congr 1
        apply List.map_congr_left
        intro x hx
        by_cases ho : x.other = l.other
        · rw [if_pos, if_pos ⟨ho, hd⟩]
          exact List.mem_map_of_mem (List.mem_filter.2 ⟨hx, by simp [ho]⟩)
        · rw [if_neg, if_neg (fun hh => ho hh.1)]
          intro hm
          obtain ⟨y, hy, hye⟩ := List.mem_map.1 hm
          have hy1 := List.mem_filter.1 hy
          rw [eq_of_id hinv.ids hy1.1 hx hye] at hy1
          exact ho (by simpa using hy1.2)
    · rw [if_neg hd]
      refine ⟨s, rfl, ?_⟩
      simp [hd]
  have hap : c.apply l =
      { id := l.id, other := l.other, hint := c.hint.getD l.hint, name := c.name.getD l.name,
        selectors := c.selectors.getD l.selectors, isDefault := c.isDefault.getD l.isDefault,
        otherHash := c.otherHash.getD l.otherHash, complete := c.complete.getD l.complete } := by
    unfold LinkChanges.apply
    rw [hc]
    rfl
  have hmem : ∀ x ∈ t.links, ∃ y ∈ s.links, x = (if y.other = l.other ∧ c.isDefault = some true then
      { y with isDefault := false } else y) ∧ x.id = y.id ∧ x.other = y.other ∧ x.name = y.name := by
    intro x hx
    rw [htl] at hx
    obtain ⟨y, hy, rfl⟩ := List.mem_map.1 hx
    refine ⟨y, hy, rfl, ?_⟩
    split <;> exact ⟨rfl, rfl, rfl⟩
  have hthere : ¬ ¬ (t.links.any fun x => x.id == l.id) = true := by
    rw [not_not, List.any_eq_true, htl]
    refine ⟨_, List.mem_map_of_mem hl.1, ?_⟩
    split <;> simp
  refine ⟨fun hfree => ?_, fun hclash => ?_⟩
  · refine runTx_of_ok ?_ ?_
    · rw [ht]
      unfold linkUpdate
      rw [get_bind, if_neg (by rw [hap]; exact hthere), if_neg]
      · show Except.ok ((), _) = _
        rw [hap, htl]
        dsimp only
        rw [List.map_map]
        refine congrArg (fun ls => Except.ok ((), { s with links := ls })) (List.map_congr_left fun x hx => ?_)
        dsimp only [Function.comp_apply]
        by_cases hxi : x.id = l.id
        · rw [if_pos hxi, if_pos]
          split <;> exact hxi
        · rw [if_neg hxi, if_neg]
          split <;> exact hxi
      · intro h
        obtain ⟨x, hx, he⟩ := List.any_eq_true.1 h
        rw [hap] at he
        simp only [Bool.and_eq_true, bne_iff_ne, beq_iff_eq, Bool.or_eq_true] at he
        obtain ⟨y, hy, hxy, h1, h2, h3⟩ := hmem x hx
        have hyl : y ≠ l := fun h => he.1.1 (by rw [h1, h])
        rcases he.2 with he' | he'
        · exact hyl (hfree y hy (by rw [← h2, he.1.2]) (by rw [← h3, he']))
        · have hyo : y.other = l.other := by rw [← h2, he.1.2]
          by_cases hd : c.isDefault = some true
          · rw [hxy, if_pos ⟨hyo, hd⟩] at he'
            exact absurd he'.1 (by simp)
          · rw [hxy, if_neg fun h => hd h.2] at he'
            rcases hcd : c.isDefault with _ | b
            · rw [hcd] at he'
              exact hyl (C31_one_default hr y hy l hl.1 hyo he'.1 he'.2)
            · rcases b
              · rw [hcd] at he'
                exact absurd he'.2 (by simp)
              · exact hd hcd
    · exact hr.fkOk
  · have hrun : editLink ref (some l.name) c s = .error (.integrityError "link: UNIQUE") := by
      rw [ht]
      unfold linkUpdate
      rw [get_bind, if_neg (by rw [hap]; exact hthere), if_pos]
      · rfl
      · obtain ⟨x, hx, ho, hn, hne⟩ := hclash
        rw [htl, hap]
        refine List.any_eq_true.2 ⟨_, List.mem_map_of_mem hx, ?_⟩
        have hxi : x.id ≠ l.id := fun h => hne (List.inj_on_of_nodup_map hinv.ids hx hl.1 h)
        dsimp only
        split <;> simp [hxi, ho, hn]
    obtain ⟨h1, h2⟩ := runTx_of_error hrun
    exact ⟨⟨_, h1⟩, h2⟩

/-- C83, dropping a link meant by a reference and its name: the call succeeds, exactly this link is gone, and the other
links stay as they are. (What becomes of its mappings is in C27.) -/
theorem C83_drop_link {s : Store} (hr : Reachable s) {ref : PyStr} (hr0 : ref ≠ []) {l : Link} (hl : Meant s.links ref l)
    (hn0 : l.name ≠ []) (hone : ∀ a b, Meant s.links ref a → Meant s.links ref b → a.other = b.other) :
    (step (.dropLink ref (some l.name)) s).2 = .ok () ∧
    (step (.dropLink ref (some l.name)) s).1.links = s.links.filter fun x => x.id != l.id := by
  have hget := getLink_of hr hr0 hn0 hl rfl hone
  have hstep : step (.dropLink ref (some l.name)) s = runTx (dropLink ref (some l.name)) s := rfl
  rw [hstep]
  have hrun : dropLink ref (some l.name) s = .ok ((), { s with
      links := s.links.filter (fun x => x.id != l.id),
      maps := if s.fk then s.maps.filter (fun m => m.link != l.id) else s.maps }) := by
    unfold dropLink
    rw [get_bind, hget]
    rfl
  obtain ⟨h1, h2⟩ := runTx_of_ok hrun (by
    have h := hr.fkOk
    unfold fkOk at h ⊢
    dsimp only at h ⊢
    rcases hb : s.fk
    · rfl
    · rw [hb] at h
      simp only [Bool.not_true, Bool.false_or, Bool.and_eq_true, List.all_eq_true, if_true] at h ⊢
      exact ⟨h.1, fun w hw => h.2 w (List.mem_of_mem_filter hw)⟩)
  refine ⟨h1, ?_⟩
  rw [h2]

example : ∃ l ∈ Demo.store.links, l.other = Demo.other ∧ l.name ≠ [] ∧ Demo.other ≠ [] := by decide +kernel

end Toron.Space
