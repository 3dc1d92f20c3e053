/-
C117: the table of weights, loaded again.
-/
import Verif.Model.WeightTable
import Verif.Spec.WeightTable
import Verif.Props.TableLoad
import Verif.Props.StorePolicies

namespace Toron.TableLoad

open Toron.Selectors (PyStr)
open Toron.Tabular (Cell DictRow Table)
open Toron.Space
open Toron.IndexCsv (idName)
open Toron.QuantCsv (domainName)

/-- The rows that the table says for one group. -/
def saidRows (s : Store) (g : WGroup) : List WeightRow :=
  s.index.map fun r => ⟨some r.id, r.labels, listedWeight s g r.id⟩

theorem cells_length (s : Store) (groups : List WGroup) (r : IndexRec) (h : r.labels.length = s.cols.length) :
    (weightCells s groups r).length = (weightHeader s groups).length := by
  unfold weightCells weightHeader
  split <;> simp [h]

theorem has_of_zip {header : List PyStr} {row : List Cell} {n : PyStr} {c : Cell} (h : (n, c) ∈ header.zip row) :
    Has header row n c := by
  obtain ⟨k, hk⟩ := List.mem_iff_getElem?.1 h
  obtain ⟨h1, h2⟩ := List.getElem?_zip_eq_some.1 hk
  exact ⟨k, h1, h2⟩

theorem header_zip (s : Store) (groups : List WGroup) (r : IndexRec) (h : r.labels.length = s.cols.length) :
    (weightHeader s groups).zip (weightCells s groups r) =
      (idName, Cell.num (r.id : ℚ)) :: (if s.getDomain = [] then [] else [(domainName, Cell.text s.getDomain)]) ++
        s.cols.zip (r.labels.map Cell.text) ++ groups.map fun g => (g.name, numCell (listedWeight s g r.id)) := by
  unfold weightCells weightHeader
  have hg : ∀ f : WGroup → Cell, (groups.map (·.name)).zip (groups.map f) = groups.map fun g => (g.name, f g) := by
    intro f
    induction groups with
    | nil => rfl
    | cons g gs ih => simp [ih]
  have hz : ∀ (a : List PyStr) (b : List Cell), a.length = b.length → ∀ c d, (a ++ c).zip (b ++ d) = a.zip b ++ c.zip d :=
    fun a b hab c d => List.zip_append hab
  rw [List.cons_append, List.cons_append, List.cons_append, List.cons_append, List.zip_cons_cons, hz, hz, hg]
  · by_cases hd : s.getDomain = []
    · simp [hd]
    · simp [hd]
  · split <;> rfl
  · split <;> simp [h]

theorem mem_zip_labels {cols : List PyStr} {labels : List PyStr} (h : labels.length = cols.length) :
    List.Forall₂ (fun c l => (c, Cell.text l) ∈ cols.zip (labels.map Cell.text)) cols labels := by
  rw [List.forall₂_iff_get]
  refine ⟨h.symm, fun i h1 h2 => ?_⟩
  refine List.mem_iff_getElem?.2 ⟨i, List.getElem?_zip_eq_some.2 ⟨?_, ?_⟩⟩
  · rw [List.get_eq_getElem]; exact List.getElem?_eq_getElem h1
  · rw [List.getElem?_map, List.getElem?_eq_getElem h2]; rfl

theorem says_row (rd : Reads) {s : Store} {groups : List WGroup} {g : WGroup} (hg : g ∈ groups) {r : IndexRec}
    (h : r.labels.length = s.cols.length) :
    SaysWeight rd s.cols (weightHeader s groups) g.name (weightCells s groups r)
      ⟨some r.id, r.labels, listedWeight s g r.id⟩ := by
  have hz := header_zip s groups r h
  refine ⟨⟨_, has_of_zip (by rw [hz]; exact List.mem_append_right _ (List.mem_map_of_mem hg)), ?_⟩, ?_, ?_, ?_⟩
  · generalize listedWeight s g r.id = v
    cases v <;> rfl
  · intro i hi
    cases hi
    exact ⟨Cell.num (r.id : ℚ), has_of_zip (by rw [hz]; simp), rfl⟩
  · intro hi; cases hi
  · refine (mem_zip_labels h).imp fun c l hm => has_of_zip ?_
    rw [hz]
    exact List.mem_append_left _ (List.mem_append_right _ hm)

theorem proper_table {s : Store} (hr : Reachable s) {groups : List WGroup} (hn : ColumnNames s (groups.map (·.name))) :
    Proper (weightHeader s groups) (s.index.map (weightCells s groups)) := by
  refine ⟨?_, by simp [weightHeader], fun row hrow => ?_⟩
  · have hid : ∀ c ∈ s.cols, c ≠ idName := fun c hc h => hr.colInv.colsRes c hc (by rw [h]; decide +kernel)
    have hdo : ∀ c ∈ s.cols, c ≠ domainName := fun c hc h => hr.colInv.colsRes c hc (by rw [h]; decide +kernel)
    have hne : idName ≠ domainName := by decide +kernel
    have hcols : s.cols.Nodup := hr.colInv.cols.of_map _
    unfold weightHeader
    rw [List.cons_append, List.cons_append, List.nodup_cons, List.nodup_append', List.nodup_append']
    refine ⟨?_, ⟨?_, hcols, ?_⟩, hn.nodup, ?_⟩
    · intro h
      rcases List.mem_append.1 h with h | h
      · rcases List.mem_append.1 h with h | h
        · split at h
          · cases h
          · exact hne (List.mem_singleton.1 h)
        · exact hid _ h rfl
      · obtain ⟨g, hg, h⟩ := List.mem_map.1 h
        exact hn.id (h ▸ List.mem_map_of_mem hg)
    · split <;> simp
    · intro x hx hc
      split at hx
      · cases hx
      · exact hdo x hc (List.mem_singleton.1 hx)
    · intro x hx hm
      rcases List.mem_append.1 hx with h | h
      · split at h
        · cases h
        · exact hn.domain ((List.mem_singleton.1 h) ▸ hm)
      · exact hn.cols _ hm h
  · obtain ⟨r, hr', rfl⟩ := List.mem_map.1 hrow
    exact cells_length s groups r (hr.indexInv.lens r hr')

theorem filter_one {l : List IndexRec} (h : (l.map (·.id)).Nodup) {r : IndexRec} (hr : r ∈ l) :
    l.filter (fun x => decide (x.id = r.id)) = [r] := by
  induction l with
  | nil => cases hr
  | cons x l ih =>
    rw [List.map_cons, List.nodup_cons] at h
    rcases List.mem_cons.1 hr with rfl | hm
    · rw [List.filter_cons, if_pos (by simp), List.filter_eq_nil_iff.2]
      intro y hy he
      rw [decide_eq_true_eq] at he
      exact h.1 (he ▸ List.mem_map_of_mem hy)
    · have hx : x.id ≠ r.id := fun he => h.1 (he ▸ List.mem_map_of_mem hm)
      rw [List.filter_cons, if_neg (by simpa using hx), ih h.2 hm]

theorem weightsFor_said {s s' : Store} (hr : Reachable s) (hi : ∀ r, r ∈ s'.index ↔ r ∈ s.index) (g : WGroup) (i : Nat) :
    s'.weightsFor (saidRows s g) i = if i ∈ s.ids then (s.weightOf g.id i).toList else [] := by
  unfold Store.weightsFor saidRows
  rw [List.filter_map, List.filterMap_map]
  have hf : s.index.filter ((fun row : WeightRow => decide ((⟨i, row.labels⟩ : IndexRec) ∈ s'.index ∧ i ≠ 0 ∧
      (row.idv = none ∨ row.idv = some i))) ∘ fun r => ⟨some r.id, r.labels, listedWeight s g r.id⟩) =
      s.index.filter fun r => decide (r.id = i ∧ i ≠ 0) := by
    refine List.filter_congr fun r hm => ?_
    rw [Function.comp_apply, decide_eq_decide]
    constructor
    · rintro ⟨_, h2, h | h⟩
      · cases h
      · exact ⟨Option.some.inj h, h2⟩
    · rintro ⟨rfl, h2⟩
      exact ⟨(hi _).2 hm, h2, .inr rfl⟩
  rw [hf]
  by_cases h0 : i = 0
  · have hz : s.weightOf g.id i = none := by
      rw [Option.eq_none_iff_forall_not_mem]
      intro x hx
      obtain ⟨w, hw, _, h2, _⟩ := (weightOf_iff hr.weightInv.pairs).1 hx
      exact hr.weightInv.defined w hw (h2.trans h0)
    rw [List.filter_eq_nil_iff.2 (by intro r _ h; rw [decide_eq_true_eq] at h; exact h.2 h0), hz]
    simp
  · by_cases hm : i ∈ s.ids
    · rw [if_pos hm]
      obtain ⟨r, hrm, rfl⟩ := List.mem_map.1 hm
      have : s.index.filter (fun x => decide (x.id = r.id ∧ r.id ≠ 0)) = [r] := by
        rw [← filter_one hr.indexInv.idsNodup hrm]
        exact List.filter_congr fun x _ => by simp [h0]
      rw [this]
      have hl : listedWeight s g r.id = s.weightOf g.id r.id := by
        unfold listedWeight
        cases s.weightOf g.id r.id with
        | none => exact if_neg h0
        | some w => rfl
      simp only [List.filterMap_cons, List.filterMap_nil, Function.comp_apply, hl]
      cases s.weightOf g.id r.id <;> rfl
    · rw [if_neg hm, List.filter_eq_nil_iff.2]
      · rfl
      · intro r hrm h
        rw [decide_eq_true_eq] at h
        exact hm (h.1 ▸ List.mem_map_of_mem hrm)

theorem askedList_ok {s : Store} {l : List PyStr} {groups : List WGroup} (h : l.mapM (askedGroup s) = .ok groups) :
    groups.map (·.name) = l ∧ ∀ g ∈ groups, g ∈ s.wgroups := by
  induction l generalizing groups with
  | nil => cases h; exact ⟨rfl, fun _ h => absurd h (by simp)⟩
  | cons n l ih =>
    rw [List.mapM_cons] at h
    cases hf : s.findWGroup n with
    | none =>
      have : askedGroup s n = .error (.valueError "weight not found") := by unfold askedGroup; rw [hf]
      rw [this] at h; cases h
    | some g =>
      have : askedGroup s n = .ok g := by unfold askedGroup; rw [hf]
      rw [this] at h
      cases hl : l.mapM (askedGroup s) with
      | error e => rw [hl] at h; cases h
      | ok gs =>
        rw [hl] at h
        cases h
        obtain ⟨h1, h2⟩ := ih hl
        have hm := List.mem_of_find?_eq_some hf
        have hnm := List.find?_some hf
        rw [beq_iff_eq] at hnm
        refine ⟨by rw [List.map_cons, h1, hnm], ?_⟩
        intro x hx
        rcases List.mem_cons.1 hx with rfl | hx
        · exact hm
        · exact h2 x hx

theorem asked_ok {s : Store} {names : Option (List PyStr)} {groups : List WGroup} (h : askedGroups s names = .ok groups) :
    groups.map (·.name) = s.listed names ∧ ∀ g ∈ groups, g ∈ s.wgroups := by
  cases names with
  | none => cases h; exact ⟨rfl, fun _ h => h⟩
  | some l => exact askedList_ok h

theorem getWeights_ok {s : Store} {names : Option (List PyStr)} {header : Bool} {t : List (List Cell)}
    (h : getWeights s names header = .ok t) :
    ∃ groups, groups.map (·.name) = s.listed names ∧ (∀ g ∈ groups, g ∈ s.wgroups) ∧
      t = (if header then [(weightHeader s groups).map Cell.text] else []) ++ s.index.map (weightCells s groups) := by
  unfold getWeights at h
  cases hg : askedGroups s names with
  | error e => rw [hg] at h; cases h
  | ok groups =>
    rw [hg] at h
    cases h
    exact ⟨groups, (asked_ok hg).1, (asked_ok hg).2, rfl⟩

theorem load_said {s s' : Store} (hr : Reachable s) (hr' : Reachable s') (hc : s'.cols = s.cols) {groups : List WGroup}
    (hn : ColumnNames s (groups.map (·.name))) {g : WGroup} (hg : g ∈ groups) (rd : Reads) (p : Policy) :
    insertWeightsTable rd g.name (.seqs ((weightHeader s groups).map Cell.text :: s.index.map (weightCells s groups))) none none p s' =
      step (.insertWeights g.name p (saidRows s g)) s' := by
  have hv : valueName g.name none = g.name := rfl
  refine C99_insert_weights hr' (proper_table hr hn) (.headed _ _) ?_ ?_ ?_ ?_ p
  · intro c hcm
    rw [hc] at hcm
    unfold weightHeader
    exact List.mem_append_left _ (List.mem_append_right _ hcm)
  · rw [hv, hc]
    exact hn.cols _ (List.mem_map_of_mem hg)
  · rw [hv]
    exact fun h => hn.id (h ▸ List.mem_map_of_mem hg)
  · unfold saidRows
    rw [List.forall₂_map_left_iff, List.forall₂_map_right_iff, hc]
    exact List.forall₂_same.2 fun r hrm => says_row rd hg (hr.indexInv.lens r hrm)

/-- **C117** A table from `get_weights` is loaded with `insert_weights` into a dataspace with the same label columns and the
same records (as a copy, or the same one later). If the policy allows it, then the call succeeds; for every record that had a weight in the listed group this
weight is loaded by the policy, and nothing else changes in this group or in other groups. If the policy does not allow it, then
nothing changes. -/
theorem C117_loaded {s s' : Store} (hr : Reachable s) (hr' : Reachable s') (hc : s'.cols = s.cols)
    (hi : ∀ r, r ∈ s'.index ↔ r ∈ s.index) {names : Option (List PyStr)} (hn : ColumnNames s (s.listed names))
    {t : List (List Cell)} (ht : getWeights s names true = .ok t) {n : PyStr} (hmem : n ∈ s.listed names)
    (hg' : (∃ g ∈ s'.wgroups, g.name = n) ∨ ReachableFk s') {p : Policy} (hp : p ≠ .other) (rd : Reads)
    {new old : Nat → Option ℚ} (hnew : ∀ i, s.WeightIs n i (new i)) (hold : ∀ i, s'.WeightIs n i (old i)) :
    ((∀ i ∈ s.ids, p.Allows (old i) (new i).toList) →
      ∃ s'', insertWeightsTable rd n (.seqs t) none none p s' = (s'', .ok ()) ∧
        (∀ i ∈ s.ids, s''.WeightIs n i (p.after (old i) (new i).toList)) ∧
        (∀ i ∉ s.ids, s''.WeightIs n i (old i)) ∧ ∀ m ≠ n, ∀ i x, s''.HasWeight m i x ↔ s'.HasWeight m i x) ∧
    (¬ (∀ i ∈ s.ids, p.Allows (old i) (new i).toList) →
      ∃ e, insertWeightsTable rd n (.seqs t) none none p s' = (s', .error e)) := by
  obtain ⟨groups, h1, h2, rfl⟩ := getWeights_ok ht
  rw [← h1] at hmem hn
  obtain ⟨g, hg, rfl⟩ := List.mem_map.1 hmem
  have hnew' : ∀ i, new i = s.weightOf g.id i := fun i => (weightIs_iff hr.weightInv (h2 g hg)).1 (hnew i)
  have hfor := weightsFor_said hr hi g
  have hcond : (∀ i, (∀ v ∈ s'.weightsFor (saidRows s g) i, 0 ≤ v) ∧ p.Allows (old i) (s'.weightsFor (saidRows s g) i)) ↔
      ∀ i ∈ s.ids, p.Allows (old i) (new i).toList := by
    constructor
    · intro h i him
      have := (h i).2
      rwa [hfor, if_pos him, ← hnew'] at this
    · intro h i
      rw [hfor]
      by_cases him : i ∈ s.ids
      · rw [if_pos him, ← hnew']
        refine ⟨fun v hv => ?_, h i him⟩
        obtain ⟨_, _, _, w, hw, _, _, rfl⟩ := (hnew i v).1 (Option.mem_toList.1 hv)
        exact hr.weightInv.nonneg w hw
      · rw [if_neg him]
        refine ⟨by simp, fun _ => ?_⟩
        cases old i <;> simp
  have hC : ((∀ i, (∀ v ∈ s'.weightsFor (saidRows s g) i, 0 ≤ v) ∧ p.Allows (old i) (s'.weightsFor (saidRows s g) i)) →
      (step (.insertWeights g.name p (saidRows s g)) s').2 = .ok () ∧
      (∀ i, (step (.insertWeights g.name p (saidRows s g)) s').1.WeightIs g.name i
        (p.after (old i) (s'.weightsFor (saidRows s g) i))) ∧
      ∀ n ≠ g.name, ∀ i x, (step (.insertWeights g.name p (saidRows s g)) s').1.HasWeight n i x ↔ s'.HasWeight n i x) ∧
    (¬ (∀ i, (∀ v ∈ s'.weightsFor (saidRows s g) i, 0 ≤ v) ∧ p.Allows (old i) (s'.weightsFor (saidRows s g) i)) →
      (step (.insertWeights g.name p (saidRows s g)) s').2 ≠ .ok () ∧ (step (.insertWeights g.name p (saidRows s g)) s').1 = s') := by
    by_cases hex : ∃ g' ∈ s'.wgroups, g'.name = g.name
    · exact C32_weights hr' hex hp _ hold
    · have hfk := hg'.resolve_left hex
      have hno : ∀ g' ∈ s'.wgroups, g'.name ≠ g.name := fun g' hm he => hex ⟨g', hm, he⟩
      have h0 : ∀ i, old i = none := by
        intro i
        rw [Option.eq_none_iff_forall_not_mem]
        intro x hx
        obtain ⟨g', hm, he, _⟩ := (hold i x).1 hx
        exact hno g' hm he
      simp only [h0]
      exact C32_weights_new_group hfk hno hp _
  have hload := load_said hr hr' hc hn hg rd p
  refine ⟨fun h => ?_, fun h => ?_⟩
  · obtain ⟨e1, e2, e3⟩ := hC.1 (hcond.2 h)
    refine ⟨_, hload.trans (Prod.ext rfl e1), fun i him => ?_, fun i him => ?_, e3⟩
    · have := e2 i
      rwa [hfor, if_pos him, ← hnew'] at this
    · have := e2 i
      rw [hfor, if_neg him] at this
      have ha : p.after (old i) [] = old i := by
        cases p with
        | sum =>
          unfold Policy.after
          cases old i <;> simp
        | replace => rfl
        | abort => cases ho : old i <;> rfl
        | ignore => cases ho : old i <;> rfl
        | other => exact absurd rfl hp
      rwa [ha] at this
  · obtain ⟨e1, e2⟩ := hC.2 fun h' => h (hcond.1 h')
    cases hres : (step (.insertWeights g.name p (saidRows s g)) s').2 with
    | ok u => exact absurd hres e1
    | error e => exact ⟨e, hload.trans (Prod.ext e2 hres)⟩

/-- If the group has no weights in the second dataspace, then it has exactly those of the first one afterwards. -/
theorem C117_restored {s s' : Store} (hr : Reachable s) (hr' : Reachable s') (hc : s'.cols = s.cols)
    (hi : ∀ r, r ∈ s'.index ↔ r ∈ s.index) {names : Option (List PyStr)} (hn : ColumnNames s (s.listed names))
    {t : List (List Cell)} (ht : getWeights s names true = .ok t) {n : PyStr} (hmem : n ∈ s.listed names)
    (hg' : (∃ g ∈ s'.wgroups, g.name = n) ∨ ReachableFk s') {p : Policy} (hp : p ≠ .other) (rd : Reads)
    (hempty : ∀ i x, ¬ s'.HasWeight n i x) :
    ∃ s'', insertWeightsTable rd n (.seqs t) none none p s' = (s'', .ok ()) ∧
      (∀ i x, s''.HasWeight n i x ↔ i ∈ s.ids ∧ s.HasWeight n i x) ∧
      ∀ m ≠ n, ∀ i x, s''.HasWeight m i x ↔ s'.HasWeight m i x := by
  obtain ⟨groups, h1, h2, _⟩ := getWeights_ok ht
  have hex : ∃ g ∈ s.wgroups, g.name = n := by
    rw [← h1] at hmem
    obtain ⟨g, hg, hgn⟩ := List.mem_map.1 hmem
    exact ⟨g, h2 g hg, hgn⟩
  obtain ⟨g, hg, rfl⟩ := hex
  have hnew : ∀ i, s.WeightIs g.name i (s.weightOf g.id i) := fun i => (weightIs_iff hr.weightInv hg).2 rfl
  have hold : ∀ i, s'.WeightIs g.name i none := by
    intro i x
    constructor
    · intro h; cases h
    · intro h; exact absurd h (hempty i x)
  obtain ⟨s'', e1, e2, e3, e4⟩ := (C117_loaded hr hr' hc hi hn ht hmem hg' hp rd hnew hold).1 (by
    intro i _ _
    cases s.weightOf g.id i <;> simp)
  refine ⟨s'', e1, fun i x => ?_, e4⟩
  by_cases him : i ∈ s.ids
  · have ha : p.after none (s.weightOf g.id i).toList = s.weightOf g.id i := by
      cases p with
      | sum => unfold Policy.after; cases s.weightOf g.id i <;> simp
      | replace => unfold Policy.after; cases s.weightOf g.id i <;> simp
      | abort => unfold Policy.after; cases s.weightOf g.id i <;> rfl
      | ignore => unfold Policy.after; cases s.weightOf g.id i <;> rfl
      | other => exact absurd rfl hp
    have h := e2 i him x
    rw [ha] at h
    rw [← h, hnew i x]
    exact ⟨fun h => ⟨him, h⟩, fun h => h.2⟩
  · rw [← e3 i him x]
    constructor
    · intro h; cases h
    · rintro ⟨h, _⟩; exact absurd h him

/-- The table can be made exactly if all the names are names of groups. -/
theorem C117_made {s : Store} {names : List PyStr} {header : Bool} :
    (∃ t, getWeights s (some names) header = .ok t) ↔ ∀ n ∈ names, ∃ g ∈ s.wgroups, g.name = n := by
  constructor
  · rintro ⟨t, ht⟩ n hmem
    obtain ⟨groups, h1, h2, _⟩ := getWeights_ok ht
    change groups.map (·.name) = names at h1
    rw [← h1] at hmem
    obtain ⟨g, hg, hgn⟩ := List.mem_map.1 hmem
    exact ⟨g, h2 g hg, hgn⟩
  · intro h
    have : ∃ gs, names.mapM (askedGroup s) = .ok gs := by
      induction names with
      | nil => exact ⟨[], rfl⟩
      | cons n ns ih =>
        obtain ⟨gs, hgs⟩ := ih fun m hm => h m (List.mem_cons_of_mem _ hm)
        obtain ⟨g, hg, hgn⟩ := h n List.mem_cons_self
        have hfind : ∃ g', askedGroup s n = .ok g' := by
          unfold askedGroup Store.findWGroup
          cases hf : s.wgroups.find? fun g => g.name == n with
          | some g' => exact ⟨g', rfl⟩
          | none => exact absurd (beq_iff_eq.2 hgn) (List.find?_eq_none.1 hf g hg)
        obtain ⟨g', hf⟩ := hfind
        refine ⟨g' :: gs, ?_⟩
        rw [List.mapM_cons, hf, hgs]
        rfl
    obtain ⟨gs, hgs⟩ := this
    have h2 : askedGroups s (some names) = .ok gs := hgs
    unfold getWeights
    rw [h2]
    exact ⟨_, rfl⟩

/-- The demo and a copy without its weights meet the hypotheses. -/
example : Reachable Demo.store ∧ ReachableFk (run (Demo.ops ++ [.dropWeightGroup Demo.wname]) (Store.new ['u'])) ∧
    (run (Demo.ops ++ [.dropWeightGroup Demo.wname]) (Store.new ['u'])).cols = Demo.store.cols ∧
    (run (Demo.ops ++ [.dropWeightGroup Demo.wname]) (Store.new ['u'])).index = Demo.store.index ∧
    (run (Demo.ops ++ [.dropWeightGroup Demo.wname]) (Store.new ['u'])).wgroups = [] ∧
    ColumnNames Demo.store (Demo.store.listed none) ∧ Demo.wname ∈ Demo.store.listed none ∧
    (getWeights Demo.store none true).toOption = some
      [[.text idName, .text Demo.colA, .text Demo.colB, .text Demo.wname],
       [.num 0, .text ['-'], .text ['-'], .num 0], [.num 1, .text Demo.lx, .text Demo.l1, .num 3],
       [.num 2, .text Demo.lx, .text Demo.l2, .num 1], [.num 3, .text Demo.ly, .text Demo.l1, .num 5]] := by
  refine ⟨Demo.reachable, ⟨_, _, by simp [Demo.ops], rfl⟩, by decide +kernel, by decide +kernel, by decide +kernel,
    ⟨by decide +kernel, by decide +kernel, by decide +kernel, by decide +kernel⟩, by decide +kernel, by decide +kernel⟩

/-- Nothing keeps a weight group from having the name of a label column. Then the table has two columns of that name, and it
cannot be loaded. -/
theorem C117_violated_name : ∃ s t rd n, Reachable s ∧ n ∈ s.cols ∧ s.HasWeight n 1 2 ∧
    (getWeights s (some [n]) true).toOption = some t ∧
    (insertWeightsTable rd n (.seqs t) none none .replace s).2.toBool = false := by
  refine ⟨run (Demo.ops ++ [.insertWeights Demo.colA .abort [⟨some 1, [Demo.lx, Demo.l1], some 2⟩]]) (Store.new ['u']),
    [[.text idName, .text Demo.colA, .text Demo.colB, .text Demo.colA],
       [.num 0, .text ['-'], .text ['-'], .num 0], [.num 1, .text Demo.lx, .text Demo.l1, .num 2],
       [.num 2, .text Demo.lx, .text Demo.l2, .none], [.num 3, .text Demo.ly, .text Demo.l1, .none]],
    ⟨fun _ => none, fun _ => none, fun _ => none⟩, Demo.colA, ⟨_, _, rfl⟩, by decide +kernel, ?_, by decide +kernel,
    by decide +kernel⟩
  unfold Store.HasWeight
  decide +kernel

end Toron.TableLoad
