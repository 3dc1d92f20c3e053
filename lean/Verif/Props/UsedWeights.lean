/-
C112: the report about weights that a reading writes to the log says what was used.
-/
import Verif.Lemmas.Store.UsedWeights
import Verif.Props.Adding

namespace Toron.Space

open Toron.Selectors (PyStr Sel CaseMap asciiCase)

/-- If a reading succeeds then a report was written, and it names every weight group at most once. -/
theorem C112_written {s : Store} (hr : Reachable s) {cm : CaseMap} {sels : List Sel} {quantize : Bool}
    (hwf : ∀ g ∈ s.wgroups, ∀ x ∈ g.selectors, x.WF) {rows : List (Nat × Attrs × ℚ)}
    (h : s.call cm sels quantize = .ok rows) :
    ∃ report, s.weightsReport cm sels = .ok report ∧ (report.map (·.1)).Nodup := by
  rcases hf : s.attributeFilter cm sels with e | f
  · simp only [Store.call, hf, bind, Except.bind] at h; cases h
  rcases hd : s.getDefaultWG with e | dflt
  · simp only [Store.call, hf, hd, bind, Except.bind] at h; cases h
  obtain ⟨gs, found, _, _, hrep⟩ := report_of hr hwf hf hd
  exact ⟨_, hrep, fold_names _ _ (by simp)⟩

/-- What the report says: for the attributes that match one of the selectors (for all attributes if there are no
selectors, or if none matches) it names the weight group that applies to these attributes. -/
theorem C112_report {s : Store} (hr : Reachable s) {cm : CaseMap} {sels : List Sel}
    (hwf : ∀ g ∈ s.wgroups, ∀ x ∈ g.selectors, x.WF) {report : List (PyStr × List Attrs)}
    (h : s.weightsReport cm sels = .ok report) (n : PyStr) (a : Attrs) :
    Says report n a ↔ (∃ ag ∈ s.agroups, ag.attrs = a) ∧
      (sels = [] ∨ Sel.evalAny cm a sels = .ok true ∨ ∀ ag ∈ s.agroups, Sel.evalAny cm ag.attrs sels ≠ .ok true) ∧
      ∃ g ∈ s.wgroups, g.name = n ∧ s.Applies cm a g := by
  rcases hf : s.attributeFilter cm sels with e | f
  · simp only [Store.weightsReport, hf, bind, Except.bind] at h; cases h
  rcases hd : s.getDefaultWG with e | dflt
  · simp only [Store.weightsReport, Store.findMatchingWeightGroups, hf, hd, bind, Except.bind] at h; cases h
  obtain ⟨gs, found, hgs, hall, hrep⟩ := report_of hr hwf hf hd
  rw [h] at hrep
  cases hrep
  rw [says_fold]
  have hnil : ¬ Says [] n a := by rintro ⟨e, he, _⟩; cases he
  constructor
  · rintro (h' | ⟨p, hp, hpn, hpa⟩)
    · exact absurd h' hnil
    · obtain ⟨i, hi, rfl⟩ := List.mem_iff_getElem.1 hp
      have hi' : i < gs.length := by rw [hall.length_eq]; exact hi
      obtain ⟨h1, h2, h3⟩ := List.forall₂_iff_get.1 hall |>.2 i hi' hi
      simp only [List.get_eq_getElem] at h1 h2 h3
      have hg := (hgs gs[i]).1 (List.getElem_mem hi')
      rw [h1] at hpa
      subst hpa
      exact ⟨⟨_, hg.1, rfl⟩, hg.2, _, h2, hpn, h3⟩
  · rintro ⟨⟨ag, hag, rfl⟩, hsel, g, hg, hn, hap⟩
    right
    have hm : ag ∈ gs := (hgs ag).2 ⟨hag, hsel⟩
    obtain ⟨i, hi, rfl⟩ := List.mem_iff_getElem.1 hm
    have hi' : i < found.length := by rw [← hall.length_eq]; exact hi
    obtain ⟨h1, h2, h3⟩ := List.forall₂_iff_get.1 hall |>.2 i hi hi'
    simp only [List.get_eq_getElem] at h1 h2 h3
    refine ⟨_, List.getElem_mem hi', ?_, by rw [h1]⟩
    rw [C54_group_unique hr h3 hap]
    exact hn

/-- If no selector of a weight group refers to the attribute `domain`, or the dataspace has no domain, then the report is
right about every quantity that is read: the report names exactly one weight group for its attributes, and the quantity
is split by this group (or given to one record that matches it, when it is at the finest level). Missing: selectors that
refer to the domain, for which the claim is false, see `C112_violated_domain`. -/
theorem C112_used_partial {s : Store} (hr : Reachable s) {cm : CaseMap} {sels : List Sel} {quantize : Bool}
    (hwf : ∀ g ∈ s.wgroups, ∀ x ∈ g.selectors, x.WF) (hu : s.DomainUnused) {rows : List (Nat × Attrs × ℚ)}
    {report : List (PyStr × List Attrs)} (h : s.call cm sels quantize = .ok rows)
    (hrep : s.weightsReport cm sels = .ok report) :
    ∃ shares : List Share, rows = shares.flatMap Share.rows ∧ (shares.map (·.quant)).Nodup ∧
      (∀ q, q ∈ shares.map (·.quant) ↔ q ∈ s.quants ∧ s.Counted q ∧ s.Selected cm sels q) ∧
      ∀ b ∈ shares, ∃ ag ∈ s.agroups, ag.id = b.quant.ag ∧ ∃ name, (∀ n, Says report n ag.attrs ↔ n = name) ∧
        (s.SplitByName name quantize b ∨ (s.AtFinest b.quant ∧ s.GivenToOne b)) := by
  obtain ⟨shares, h1, h2, h3, h4⟩ := split_or_one_attrs hr hwf h
  refine ⟨shares, h1, h2, h3, fun b hb => ?_⟩
  obtain ⟨⟨a, ha, hba⟩, hsp⟩ := h4 b hb
  obtain ⟨ag, hag, hid, rfl⟩ := getAttrs_ok ha
  have hsel : sels = [] ∨ Sel.evalAny cm ag.attrs sels = .ok true := by
    rcases ((h3 b.quant).1 (List.mem_map_of_mem hb)).2.2 with h' | ⟨g, hg, hgi, he⟩
    · exact .inl h'
    · rw [List.inj_on_of_nodup_map hr.quantInv.agIds hg hag (hgi.trans hid.symm)] at he
      exact .inr he
  have named : ∀ g, g ∈ s.wgroups → s.Applies cm ag.attrs g → ∀ n, Says report n ag.attrs ↔ n = g.name := by
    intro g hg hap n
    rw [C112_report hr hwf hrep]
    constructor
    · rintro ⟨_, _, g', _, rfl, hap'⟩
      rw [C54_group_unique hr hap' hap]
    · rintro rfl
      exact ⟨⟨ag, hag, rfl⟩, hsel.imp_right .inl, g, hg, rfl, hap⟩
  refine ⟨ag, hag, hid, ?_⟩
  rcases hsp with ⟨g, hap, hsp⟩ | hone
  · rw [hba, applies_withDomain hu] at hap
    have hg : g ∈ s.wgroups := by
      rcases hap with ⟨_, h', _⟩ | ⟨_, h', _⟩
      · exact h'.1.1
      · exact h'
    exact ⟨g.name, named g hg hap, .inl ⟨g, hg, rfl, hsp⟩⟩
  · rcases hd : s.getDefaultWG with e | dflt
    · rcases hf : s.attributeFilter cm sels with e | f
      · simp only [Store.call, hf, bind, Except.bind] at h; cases h
      · simp only [Store.call, hf, hd, bind, Except.bind] at h; cases h
    · obtain ⟨g, hg, _, hap⟩ := applies_of (cm := cm) (a := ag.attrs) hr.weightInv hwf hd
      exact ⟨g.name, named g hg hap, .inr hone⟩

instance : DecidableEq (PyStr × List Attrs) := inferInstance

namespace Demo

/-- A second weight group, used for the attributes that the selector matches. -/
def twoWeights (sel : Sel) : Store := run
  [.addWeightGroup ['v'] [sel] false (some false),
   .insertWeights ['v'] .abort [⟨none, [lx, l1], some 1⟩, ⟨none, [lx, l2], some 3⟩, ⟨none, [ly, l1], some 1⟩],
   .setDomain ['d']] withBoth

theorem twoWeights_fk (sel : Sel) : ReachableFk (twoWeights sel) :=
  ((withBoth_fk.step _ (by simp)).step _ (by simp)).step _ (by simp)

/-- The selector `[c="m"]`. -/
def isM : Sel := .simple ['c'] (some .eq) (some ['m']) false

/-- Selectors like `[c="…"]`. -/
def onC : Sel → Bool
  | .simple ['c'] (some .eq) (some (_ :: _)) false => true
  | _ => false

theorem onC_spec {x : Sel} (h : onC x = true) : x.WF ∧ "domain".toList ∉ x.names := by
  unfold onC at h
  split at h
  · exact ⟨by unfold Sel.WF; simp [Toron.Selectors.truthy], by simp only [Sel.names]; decide⟩
  · cases h

end Demo

/-- The hypotheses are met in a dataspace with a domain and two weight groups, one for `[c="m"]`: the report names both,
and the amount with `c="m"` is split by the second. -/
example : (∀ g ∈ (Demo.twoWeights Demo.isM).wgroups, ∀ x ∈ g.selectors, x.WF) ∧ (Demo.twoWeights Demo.isM).DomainUnused ∧
    (Demo.twoWeights Demo.isM).domain = some ['d'] ∧
    ((Demo.twoWeights Demo.isM).weightsReport asciiCase []).toOption =
      some [(['v'], [[(['c'], ['m'])]]), (['w'], [[(['c'], ['n'])]])] ∧
    (((Demo.twoWeights Demo.isM).call asciiCase [] false).toOption.map fun r => r.map fun x => (x.1, x.2.2)) =
      some [(3, 7), (1, 5), (2, 15)] := by
  have h : ∀ g ∈ (Demo.twoWeights Demo.isM).wgroups, ∀ x ∈ g.selectors, Demo.onC x = true := by
    have : ((Demo.twoWeights Demo.isM).wgroups.all fun g => g.selectors.all Demo.onC) = true := by decide +kernel
    intro g hg x hx
    exact List.all_eq_true.1 (List.all_eq_true.1 this g hg) x hx
  refine ⟨fun g hg x hx => (Demo.onC_spec (h g hg x hx)).1, .inr fun g hg x hx => (Demo.onC_spec (h g hg x hx)).2,
    by decide +kernel, by decide +kernel, by decide +kernel⟩

/-- The claim without the condition is false: with a weight group for `[domain="d"]` the report of a dataspace with the
domain `d` says that only the default weight group is used, but the amount 20 is split in proportion to the weights of
the other one. -/
theorem C112_violated_domain : ∃ (s : Store) (q : Quant) (rows : List (Nat × Attrs × ℚ)), ReachableFk s ∧
    q ∈ s.quants ∧ q.value = 20 ∧ (s.wgroups.map fun g => (g.name, s.weightIn g 1, s.weightIn g 2)) =
      [(['w'], 3, 1), (['v'], 1, 3)] ∧
    s.weightsReport asciiCase [] = .ok [(['w'], [[(['c'], ['m'])], [(['c'], ['n'])]])] ∧ s.call asciiCase [] false = .ok rows ∧
    (rows.map fun r => (r.1, r.2.2)) = [(3, 7), (1, 5), (2, 15)] := by
  exact ⟨Demo.twoWeights Demo.isD, ⟨1, 1, 1, 20⟩, _, Demo.twoWeights_fk _, by decide +kernel, rfl, by decide +kernel,
    ok_of_toOption (by decide +kernel), ok_of_toOption (a := ((Demo.twoWeights Demo.isD).call asciiCase [] false).toOption.getD [])
      (by decide +kernel), by decide +kernel⟩

/-- If selectors are given and match nothing then nothing is read, but the report names weight groups as if everything
had been read. -/
theorem C112_violated_nothing_read : ∃ (s : Store) (sel : Sel), ReachableFk s ∧ sel.WF ∧
    s.call asciiCase [sel] false = .ok [] ∧ ∃ report, s.weightsReport asciiCase [sel] = .ok report ∧
    (report.flatMap (·.2)).length = 2 ∧ s.weightsReport asciiCase [] = .ok report := by
  refine ⟨Demo.twoWeights Demo.isM, Demo.isD, Demo.twoWeights_fk _, ?_, ok_of_toOption (by decide +kernel),
    [(['v'], [[(['c'], ['m'])]]), (['w'], [[(['c'], ['n'])]])], ok_of_toOption (by decide +kernel), rfl, ok_of_toOption (by decide +kernel)⟩
  unfold Demo.isD Sel.WF
  decide

end Toron.Space
