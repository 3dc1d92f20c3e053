/-
C71: the commands that edit links, attributes and selectors.
-/
import Verif.Lemmas.CliEdit
import Verif.Lemmas.Minimal
import Verif.Demo

namespace Toron.CliEdit

open Toron.Selectors (PyStr Sel)
open Toron.Space
open Toron.LoadMapping (Direction LinkArgs Outcome)

/-! ### Adding a link -/

/-- `toron add link` succeeds exactly if no file that an arrow points to has a link of that name from the other file.
Then each of these files has one link more and is otherwise the same, and a file no arrow points to is the same. -/
theorem C71_add {a : LinkArgs} {d : Direction} {hint1 hint2 : Option PyStr} {f1 f2 : Store} (hr1 : Reachable f1)
    (hr2 : Reachable f2) :
    ((addLink a d hint1 hint2 f1 f2).result = .ok () ↔
      (d ≠ .left → ¬ HasLink f2 f1.uid a.name) ∧ (d ≠ .right → ¬ HasLink f1 f2.uid a.name)) ∧
    ((addLink a d hint1 hint2 f1 f2).result = .ok () →
      (d ≠ .left → NewLink a f1.uid hint1 f2 (addLink a d hint1 hint2 f1 f2).right) ∧
      (d = .left → (addLink a d hint1 hint2 f1 f2).right = { f2 with fk := false }) ∧
      (d ≠ .right → NewLink a f2.uid hint2 f1 (addLink a d hint1 hint2 f1 f2).left) ∧
      (d = .right → (addLink a d hint1 hint2 f1 f2).left = { f1 with fk := false })) := by
  obtain ⟨h1e, h1o⟩ := doAdd_spec (a := a) (other := f2.uid) (hint := hint2) hr1
  obtain ⟨h2e, h2o⟩ := doAdd_spec (a := a) (other := f1.uid) (hint := hint1) hr2
  have e1 : (opened f1).uid = f1.uid := rfl
  have e2 : (opened f2).uid = f2.uid := rfl
  unfold addLink
  cases d with
  | left =>
    dsimp only
    rw [e2]
    by_cases h : HasLink f1 f2.uid a.name
    · obtain ⟨e, he⟩ := h1e h
      rw [he]
      exact ⟨⟨fun h => (nomatch h), fun hc => absurd h (hc.2 (by decide))⟩, fun h => (nomatch h)⟩
    · obtain ⟨s', hs, hn⟩ := h1o h
      rw [hs]
      exact ⟨⟨fun _ => ⟨fun hc => absurd rfl hc, fun _ => h⟩, fun _ => rfl⟩,
        fun _ => ⟨fun hc => absurd rfl hc, fun _ => rfl, fun _ => hn, fun h => (nomatch h)⟩⟩
  | right =>
    dsimp only
    rw [e1]
    by_cases h : HasLink f2 f1.uid a.name
    · obtain ⟨e, he⟩ := h2e h
      rw [he]
      exact ⟨⟨fun h => (nomatch h), fun hc => absurd h (hc.1 (by decide))⟩, fun h => (nomatch h)⟩
    · obtain ⟨s', hs, hn⟩ := h2o h
      rw [hs]
      exact ⟨⟨fun _ => ⟨fun _ => h, fun hc => absurd rfl hc⟩, fun _ => rfl⟩,
        fun _ => ⟨fun _ => hn, fun h => (nomatch h), fun hc => absurd rfl hc, fun _ => rfl⟩⟩
  | both =>
    dsimp only
    rw [e1]
    by_cases h : HasLink f2 f1.uid a.name
    · obtain ⟨e, he⟩ := h2e h
      rw [he]
      exact ⟨⟨fun h => (nomatch h), fun hc => absurd h (hc.1 (by decide))⟩, fun h => (nomatch h)⟩
    · obtain ⟨s2, hs2, hn2⟩ := h2o h
      rw [hs2]
      have e3 : s2.uid = f2.uid := by
        obtain ⟨_, _, _, _, rfl⟩ := hn2; rfl
      dsimp only
      rw [e3]
      by_cases h' : HasLink f1 f2.uid a.name
      · obtain ⟨e, he⟩ := h1e h'
        rw [he]
        exact ⟨⟨fun h => (nomatch h), fun hc => absurd h' (hc.2 (by decide))⟩, fun h => (nomatch h)⟩
      · obtain ⟨s1, hs1, hn1⟩ := h1o h'
        rw [hs1]
        exact ⟨⟨fun _ => ⟨fun _ => h, fun _ => h'⟩, fun _ => rfl⟩,
          fun _ => ⟨fun _ => hn2, fun h => (nomatch h), fun _ => hn1, fun h => (nomatch h)⟩⟩

example : (addLink ⟨['k'], [], none⟩ .both none none Demo.store (Store.new Demo.other)).result.toBool = true := by
  decide +kernel

/-- If `toron add link` fails for one direction, nothing is changed. What is missing for the full property: with both
directions the link may have been added in the second file (`C71_violated_half`). -/
theorem C71_add_failed_partial {a : LinkArgs} {d : Direction} {hint1 hint2 : Option PyStr} {f1 f2 : Store}
    (hr1 : Reachable f1) (hr2 : Reachable f2) {e : Err} (hd : d ≠ .both ∨ HasLink f2 f1.uid a.name)
    (h : (addLink a d hint1 hint2 f1 f2).result = .error e) :
    (addLink a d hint1 hint2 f1 f2).left = { f1 with fk := false } ∧
    (addLink a d hint1 hint2 f1 f2).right = { f2 with fk := false } := by
  obtain ⟨h1e, h1o⟩ := doAdd_spec (a := a) (other := f2.uid) (hint := hint2) hr1
  obtain ⟨h2e, h2o⟩ := doAdd_spec (a := a) (other := f1.uid) (hint := hint1) hr2
  have e1 : (opened f1).uid = f1.uid := rfl
  have e2 : (opened f2).uid = f2.uid := rfl
  unfold addLink at h ⊢
  cases d with
  | left =>
    dsimp only at h ⊢
    rw [e2] at h ⊢
    by_cases hh : HasLink f1 f2.uid a.name
    · obtain ⟨e, he⟩ := h1e hh
      rw [he]
      exact ⟨rfl, rfl⟩
    · obtain ⟨s', hs, hn⟩ := h1o hh
      rw [hs] at h
      exact (nomatch h)
  | right =>
    dsimp only at h ⊢
    rw [e1] at h ⊢
    by_cases hh : HasLink f2 f1.uid a.name
    · obtain ⟨e, he⟩ := h2e hh
      rw [he]
      exact ⟨rfl, rfl⟩
    · obtain ⟨s', hs, hn⟩ := h2o hh
      rw [hs] at h
      exact (nomatch h)
  | both =>
    obtain ⟨e, he⟩ := h2e (hd.resolve_left fun h => h rfl)
    dsimp only at h ⊢
    rw [e1, he]
    exact ⟨rfl, rfl⟩

/-- `toron add link` in both directions is not all-or-nothing: if only the first file has a link of that name, the
command fails, but the second file has got the new link. -/
theorem C71_violated_half {a : LinkArgs} {hint1 hint2 : Option PyStr} {f1 f2 : Store} (hr1 : Reachable f1)
    (hr2 : Reachable f2) (h1 : HasLink f1 f2.uid a.name) (h2 : ¬ HasLink f2 f1.uid a.name) :
    (∃ e, (addLink a .both hint1 hint2 f1 f2).result = .error e) ∧
    NewLink a f1.uid hint1 f2 (addLink a .both hint1 hint2 f1 f2).right := by
  obtain ⟨h1e, -⟩ := doAdd_spec (a := a) (other := f2.uid) (hint := hint2) hr1
  obtain ⟨-, h2o⟩ := doAdd_spec (a := a) (other := f1.uid) (hint := hint1) hr2
  have e1 : (opened f1).uid = f1.uid := rfl
  unfold addLink
  dsimp only
  obtain ⟨s2, hs2, hn2⟩ := h2o h2
  rw [e1, hs2]
  have e3 : s2.uid = f2.uid := by
    obtain ⟨_, _, _, _, rfl⟩ := hn2; rfl
  dsimp only
  rw [e3]
  obtain ⟨e, he⟩ := h1e h1
  rw [he]
  exact ⟨⟨e, rfl⟩, hn2⟩

example : HasLink Demo.store (Store.new Demo.other).uid ['l'] ∧ ¬ HasLink (Store.new Demo.other) Demo.store.uid ['l'] :=
  ⟨by unfold HasLink; decide +kernel, by unfold HasLink; decide +kernel⟩

/-! ### Removing a link -/

open Classical in
/-- `toron remove link` removes the link of that name from the other file in each of the files that an arrow points to,
if it is there. It succeeds exactly if one was there. Apart from the link the files are the same. -/
theorem C71_remove {name : PyStr} {d : Direction} {f1 f2 : Store} (hr1 : Reachable f1) (hr2 : Reachable f2)
    (hn : name ≠ []) (h1 : ProperId f1 f2.uid) (h2 : ProperId f2 f1.uid) :
    (removeLink name d f1 f2).left =
      { f1 with links := if d = .right then f1.links else without f1.links f2.uid name, fk := false } ∧
    (removeLink name d f1 f2).right =
      { f2 with links := if d = .left then f2.links else without f2.links f1.uid name, fk := false } ∧
    ((removeLink name d f1 f2).result = .ok () ↔
      (d ≠ .right ∧ HasLink f1 f2.uid name) ∨ (d ≠ .left ∧ HasLink f2 f1.uid name)) := by
  have e1 : (opened f1).uid = f1.uid := rfl
  have e2 : (opened f2).uid = f2.uid := rfl
  have k1 := tryRemove_spec hr1 h1 hn
  have k2 := tryRemove_spec hr2 h2 hn
  have o1 : opened f1 = { f1 with links := f1.links, fk := false } := rfl
  have o2 : opened f2 = { f2 with links := f2.links, fk := false } := rfl
  unfold removeLink
  cases d with
  | left =>
    dsimp only
    rw [e2, k1]
    refine ⟨rfl, rfl, ?_⟩
    by_cases h : HasLink f1 f2.uid name
    · rw [decide_eq_true h]
      exact ⟨fun _ => .inl ⟨by decide, h⟩, fun _ => rfl⟩
    · rw [decide_eq_false h]
      exact ⟨fun h => (nomatch h), fun hc => hc.elim (fun hc => absurd hc.2 h) (fun hc => absurd rfl hc.1)⟩
  | right =>
    dsimp only
    rw [e1, k2]
    refine ⟨rfl, rfl, ?_⟩
    by_cases h : HasLink f2 f1.uid name
    · rw [decide_eq_true h]
      exact ⟨fun _ => .inr ⟨by decide, h⟩, fun _ => rfl⟩
    · rw [decide_eq_false h]
      exact ⟨fun h => (nomatch h), fun hc => hc.elim (fun hc => absurd rfl hc.1) (fun hc => absurd hc.2 h)⟩
  | both =>
    dsimp only
    rw [e2, k1]
    dsimp only
    rw [k2]
    refine ⟨rfl, rfl, ?_⟩
    by_cases h : HasLink f1 f2.uid name
    · rw [decide_eq_true h]
      exact ⟨fun _ => .inl ⟨by decide, h⟩, fun _ => rfl⟩
    · rw [decide_eq_false h]
      by_cases h' : HasLink f2 f1.uid name
      · rw [decide_eq_true h']
        exact ⟨fun _ => .inr ⟨by decide, h'⟩, fun _ => rfl⟩
      · rw [decide_eq_false h']
        exact ⟨fun h => (nomatch h), fun hc => hc.elim (fun hc => absurd hc.2 h) (fun hc => absurd hc.2 h')⟩

example : ProperId Demo.store (Store.new Demo.other).uid ∧ ProperId (Store.new Demo.other) Demo.store.uid ∧
    (removeLink ['l'] .both Demo.store (Store.new Demo.other)).left.links = [] ∧
    (removeLink ['l'] .both Demo.store (Store.new Demo.other)).result.toBool = true := by
  refine ⟨⟨by decide +kernel, by decide +kernel⟩, ⟨by decide +kernel, by rintro l hl; cases hl⟩, by decide +kernel,
    by decide +kernel⟩

/-- `toron remove link` leaves all mappings of the link in the file, although the link is gone: a file opened by a
command checks no foreign keys, so that nothing is deleted with the link. -/
theorem C71_violated_mappings {name : PyStr} {d : Direction} {f1 f2 : Store} (hr1 : Reachable f1) (hr2 : Reachable f2)
    (hn : name ≠ []) (h1 : ProperId f1 f2.uid) (h2 : ProperId f2 f1.uid) :
    (removeLink name d f1 f2).left.maps = f1.maps ∧ (removeLink name d f1 f2).right.maps = f2.maps := by
  obtain ⟨e1, e2, -⟩ := C71_remove (d := d) hr1 hr2 hn h1 h2
  rw [e1, e2]
  exact ⟨rfl, rfl⟩

example : (removeLink ['l'] .both Demo.store (Store.new Demo.other)).left.maps.length = 3 := by decide +kernel

/-- A link that is added after another one was removed may get the mappings of that one: it has the same number, and
the mappings were left in the file. -/
theorem C71_violated_revived :
    let f := (removeLink ['l'] .left Demo.store (Store.new Demo.other)).left
    let g := (addLink ⟨['k'], [], none⟩ .left none none f (Store.new Demo.other)).left
    f.links = [] ∧ g.links.map (fun l => (l.id, l.name)) = [(1, ['k'])] ∧
    (g.maps.filter fun m => m.link == 1).map (·.value) = [10, 30, 30] := by
  decide +kernel

/-- `toron remove link` with an empty name removes the default link, although no link has that name. -/
theorem C71_violated_unnamed :
    ¬ HasLink Demo.store (Store.new Demo.other).uid [] ∧ Demo.store.links.length = 1 ∧
    (removeLink [] .left Demo.store (Store.new Demo.other)).left.links = [] ∧
    (removeLink [] .left Demo.store (Store.new Demo.other)).result.toOption = some () := by
  refine ⟨?_, by decide +kernel, by decide +kernel, by decide +kernel⟩
  unfold HasLink
  decide +kernel

/-! ### Attributes -/

/-- `toron add attribute` skips the names that are registered already. It succeeds exactly if each of the others is
given once, is no reserved name and is not the name of a label column. Then these names are registered after the old
ones, in the given order. Nothing else is changed, and nothing at all if the command fails. -/
theorem C71_attributes {names new : List PyStr} {f : Store} (hr : Reachable f)
    (hnew : new = names.filter fun n => decide (n ∉ f.regAttrs.getD [])) :
    ((addAttributes names f).2 = .ok () ↔ new.Nodup ∧ ∀ n ∈ new, n ∉ reservedNames ∧ n ∉ f.cols) ∧
    ((addAttributes names f).2 = .ok () →
      (addAttributes names f).1 = { f with
        regAttrs := if new = [] then f.regAttrs else some (f.regAttrs.getD [] ++ new), fk := false }) ∧
    ((addAttributes names f).2 ≠ .ok () → (addAttributes names f).1 = { f with fk := false }) := by
  have hc := hr.colInv
  have eo : addAttributes names f = if new = [] then (opened f, .ok ()) else
      step (.setRegisteredAttributes (f.regAttrs.getD [] ++ new)) (opened f) := by
    rw [hnew]; rfl
  by_cases h0 : new = []
  · rw [eo, if_pos h0, if_pos h0, h0]
    exact ⟨⟨fun _ => ⟨List.nodup_nil, fun n hn => (nomatch hn)⟩, fun _ => rfl⟩, fun _ => rfl, fun h => absurd rfl h⟩
  · rw [eo, if_neg h0, if_neg h0, step_of_body (by rfl)]
    have hdisj : ∀ a ∈ f.regAttrs.getD [], a ∉ new := by
      intro a ha hn
      rw [hnew, List.mem_filter, decide_eq_true_eq] at hn
      exact hn.2 ha
    have hfail : ∀ e, setRegisteredAttributes (f.regAttrs.getD [] ++ new) (opened f) = .error e →
        ¬ (new.Nodup ∧ ∀ n ∈ new, n ∉ reservedNames ∧ n ∉ f.cols) →
        ((runTx (setRegisteredAttributes (f.regAttrs.getD [] ++ new)) (opened f)).2 = .ok () ↔
          new.Nodup ∧ ∀ n ∈ new, n ∉ reservedNames ∧ n ∉ f.cols) ∧
        ((runTx (setRegisteredAttributes (f.regAttrs.getD [] ++ new)) (opened f)).2 = .ok () →
          (runTx (setRegisteredAttributes (f.regAttrs.getD [] ++ new)) (opened f)).1 =
            { f with regAttrs := some (f.regAttrs.getD [] ++ new), fk := false }) ∧
        ((runTx (setRegisteredAttributes (f.regAttrs.getD [] ++ new)) (opened f)).2 ≠ .ok () →
          (runTx (setRegisteredAttributes (f.regAttrs.getD [] ++ new)) (opened f)).1 = { f with fk := false }) := by
      intro e he hn
      have : runTx (setRegisteredAttributes (f.regAttrs.getD [] ++ new)) (opened f) = (opened f, .error e) := by
        unfold runTx; rw [he]
      rw [this]
      exact ⟨⟨fun h => (nomatch h), fun h => absurd h hn⟩, fun h => (nomatch h), fun _ => rfl⟩
    have hbody : setRegisteredAttributes (f.regAttrs.getD [] ++ new) (opened f) =
        if ∃ a ∈ f.regAttrs.getD [] ++ new, a ∈ reservedNames then .error (.valueError "reserved name")
        else if ∃ a ∈ f.regAttrs.getD [] ++ new, a ∈ f.cols then .error (.valueError "already used as an index label")
        else if ¬ (f.regAttrs.getD [] ++ new).Nodup then .error (.valueError "attributes must be unique")
        else .ok ((), { opened f with regAttrs := some (f.regAttrs.getD [] ++ new) }) := by
      show (if _ then _ else _ : M Unit) (opened f) = _
      by_cases h1 : ∃ a ∈ f.regAttrs.getD [] ++ new, a ∈ reservedNames
      · rw [if_pos h1, if_pos h1]; rfl
      · rw [if_neg h1, if_neg h1]
        by_cases h2 : ∃ a ∈ f.regAttrs.getD [] ++ new, a ∈ f.cols
        · have h2' : ∃ a ∈ f.regAttrs.getD [] ++ new, a ∈ (opened f).cols := h2
          rw [if_pos h2, if_pos h2']; rfl
        · have h2' : ¬ ∃ a ∈ f.regAttrs.getD [] ++ new, a ∈ (opened f).cols := h2
          rw [if_neg h2, if_neg h2']
          by_cases h3 : ¬ (f.regAttrs.getD [] ++ new).Nodup
          · rw [if_pos h3, if_pos h3]; rfl
          · rw [if_neg h3, if_neg h3]; rfl
    by_cases h1 : ∃ a ∈ f.regAttrs.getD [] ++ new, a ∈ reservedNames
    · refine hfail _ (by rw [hbody, if_pos h1]) fun hn => ?_
      obtain ⟨a, ha, hm⟩ := h1
      rcases List.mem_append.1 ha with ha | ha
      · exact hc.attrsRes a ha hm
      · exact (hn.2 a ha).1 hm
    · rw [if_neg h1] at hbody
      by_cases h2 : ∃ a ∈ f.regAttrs.getD [] ++ new, a ∈ f.cols
      · refine hfail _ (by rw [hbody, if_pos h2]) fun hn => ?_
        obtain ⟨a, ha, hm⟩ := h2
        rcases List.mem_append.1 ha with ha | ha
        · exact hc.disj a ha hm
        · exact (hn.2 a ha).2 hm
      · rw [if_neg h2] at hbody
        by_cases h3 : ¬ (f.regAttrs.getD [] ++ new).Nodup
        · refine hfail _ (by rw [hbody, if_pos h3]) fun hn => h3 ?_
          exact List.nodup_append.2 ⟨hc.attrs, hn.1, fun a ha b hb hab => hdisj a ha (hab ▸ hb)⟩
        · rw [if_neg h3] at hbody
          have hrun : runTx (setRegisteredAttributes (f.regAttrs.getD [] ++ new)) (opened f) =
              ({ f with regAttrs := some (f.regAttrs.getD [] ++ new), fk := false }, .ok ()) := by
            unfold runTx
            rw [hbody]
            rfl
          rw [hrun]
          rw [not_not] at h3
          exact ⟨⟨fun _ => ⟨(List.nodup_append.1 h3).2.1, fun n hn =>
            ⟨fun hm => h1 ⟨n, List.mem_append_right _ hn, hm⟩, fun hm => h2 ⟨n, List.mem_append_right _ hn, hm⟩⟩⟩,
            fun _ => rfl⟩, fun _ => rfl, fun h => absurd rfl h⟩

example : (addAttributes [['d'], ['c'], ['e']] Demo.store).1.regAttrs = some [['c'], ['d'], ['e']] ∧
    (addAttributes [['d'], ['A']] Demo.store).2.toBool = false := by decide +kernel

/-! ### Selectors of a weight group -/

theorem count_erases (y : PyStr) (remove l : List PyStr) :
    (remove.foldl (fun l t => l.erase t) l).count y = l.count y - remove.count y := by
  induction remove generalizing l with
  | nil => rfl
  | cons t r ih =>
    rw [List.foldl_cons, ih, List.count_erase, List.count_cons]
    omega

/-- After `toron update weight` a text is a selector if it occurs more often among the old and the added selectors than
among those to be removed, with line feeds replaced by spaces. -/
theorem C71_selectors {old add remove : List PyStr} {x : PyStr} :
    x ∈ updateSelectors old add remove ↔ ∃ y, flatten y = x ∧ remove.count y < (old ++ add).count y := by
  unfold updateSelectors
  rw [List.mem_map]
  refine exists_congr fun y => ?_
  rw [mem_sortedBy, mem_distinct, ← List.count_pos_iff, count_erases]
  constructor
  · rintro ⟨h, he⟩; exact ⟨he, by omega⟩
  · rintro ⟨he, h⟩; exact ⟨by omega, he⟩

theorem flatten_id {t : PyStr} (h : '\n' ∉ t) : flatten t = t := by
  unfold flatten
  refine (List.map_congr_left fun c hc => if_neg ?_).trans (List.map_id t)
  rintro rfl
  exact h hc

/-- If no selector is there twice or is added while it is there, and no selector contains a line feed, then the new
selectors are the old and the added ones without those to be removed, in order, each once. What is missing for the full
property: see `C71_violated_again` and `C71_violated_repeated`. -/
theorem C71_selectors_partial {old add remove : List PyStr} (hnd : (old ++ add).Nodup)
    (hl : ∀ t ∈ old ++ add, '\n' ∉ t) :
    (∀ x, x ∈ updateSelectors old add remove ↔ (x ∈ old ∨ x ∈ add) ∧ x ∉ remove) ∧
    (updateSelectors old add remove).Nodup ∧
    (updateSelectors old add remove).Pairwise fun a b =>
      ¬ List.Lex (· < ·) (b.map Char.toNat) (a.map Char.toNat) := by
  have hsub : ∀ y ∈ sortedBy textLe (distinct (remove.foldl (fun l t => l.erase t) (old ++ add))), y ∈ old ++ add := by
    intro y hy
    rw [mem_sortedBy, mem_distinct, ← List.count_pos_iff, count_erases] at hy
    exact List.count_pos_iff.1 (by omega)
  have he : updateSelectors old add remove =
      sortedBy textLe (distinct (remove.foldl (fun l t => l.erase t) (old ++ add))) := by
    unfold updateSelectors
    exact (List.map_congr_left fun y hy => flatten_id (hl y (hsub y hy))).trans (List.map_id _)
  refine ⟨fun x => ?_, ?_, ?_⟩
  · rw [C71_selectors, ← List.mem_append, ← List.count_pos_iff, ← List.count_eq_zero]
    have hle : ∀ y, (old ++ add).count y ≤ 1 := fun y => List.nodup_iff_count.1 hnd y
    constructor
    · rintro ⟨y, rfl, h⟩
      have hy : y ∈ old ++ add := List.count_pos_iff.1 (by omega)
      rw [flatten_id (hl y hy)]
      have := hle y
      omega
    · rintro ⟨h1, h2⟩
      exact ⟨x, flatten_id (hl x (List.count_pos_iff.1 h1)), by omega⟩
  · rw [he]
    exact (sortedBy_perm _ _).nodup_iff.2 (nodup_distinct _)
  · rw [he]
    refine (sortedBy_pairwise textLe ?_ ?_ _).imp fun h => ?_
    · intro a b c h1 h2
      exact decide_eq_true (List.le_trans (of_decide_eq_true h1) (of_decide_eq_true h2))
    · intro a b
      rcases List.le_total (a.map Char.toNat) (b.map Char.toNat) with h | h
      · exact .inl (decide_eq_true h)
      · exact .inr (decide_eq_true h)
    · unfold textLe at h
      rw [decide_eq_true_eq] at h
      exact h

example : updateSelectors [['c'], ['a']] [['b']] [['c'], ['d']] = [['a'], ['b']] := by decide +kernel

/-- A selector that is added while it is there is not gone after it is removed in the same command: only one of the two
is taken out. -/
theorem C71_violated_again {old add : List PyStr} {x : PyStr} (h1 : x ∈ old) (h2 : x ∈ add) (hl : '\n' ∉ x) :
    x ∈ updateSelectors old add [x] := by
  rw [C71_selectors]
  refine ⟨x, flatten_id hl, ?_⟩
  have := List.count_pos_iff.2 h1
  have := List.count_pos_iff.2 h2
  rw [List.count_append, List.count_singleton_self]
  omega

/-- Selectors with line feeds can become equal to others, and the new selectors then repeat them. -/
theorem C71_violated_repeated :
    updateSelectors [['a', '\n', 'b']] [['a', ' ', 'b']] [] = [['a', ' ', 'b'], ['a', ' ', 'b']] := by decide +kernel

end Toron.CliEdit
