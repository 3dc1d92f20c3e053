/-
C90: reading depends only on the data that is stored, not on how or in what order it was loaded.
-/
import Verif.Lemmas.Store.SameRead
import Verif.Props.StorePolicies
import Verif.Props.StoreFrame
import Verif.Props.Reader

namespace Toron.Space

open Toron.Selectors (PyStr Sel CaseMap asciiCase)

/-! ### Reading -/

/-- Two dataspaces with the same data give the same result for every call: both fail, or both give the same rows. -/
theorem C90_read {s t : Store} (hrs : Reachable s) (hrt : Reachable t) (h : SameContent s t) (hgs : s.Grouped)
    (hgt : t.Grouped) (hwf : s.SelectorsWF) (cm : CaseMap) {sels : List Sel} (hsel : ∀ x ∈ sels, x.WF) (quantize : Bool)
    (sumBy : List PyStr) :
    BothOr Reader.Same (s.reader cm sels quantize sumBy) (t.reader cm sels quantize sumBy) := by
  refine BothOr.of (fun r hr => reader_same hrs hrt h hgs hgt hwf hsel hr) fun r hr => ?_
  obtain ⟨r', h1, -⟩ := reader_same hrt hrs h.symm hgt hgs (by unfold Store.SelectorsWF; rw [h.groups]; exact hwf) hsel hr
  exact ⟨r', h1⟩

/-- While foreign keys are on, every quantity has its attribute group, as `C90_read` requires. -/
theorem C90_grouped {s : Store} (hr : ReachableFk s) : s.Grouped := fun q hq => hr.refInv.ags q hq

/-- The output of equal results is equal up to the order of rows. -/
theorem C90_output {r r' : Reader} (h : r.Same r') {s t : Store} (hi : t.index = s.index) :
    BothOr (fun out out' => out'.Perm out) (r.output s) (r'.output t) := by
  refine BothOr.of (fun o ho => output_same h s t hi ho) fun o ho => ?_
  obtain ⟨o', h1, -⟩ := output_same h.symm t s hi.symm ho
  exact ⟨o', h1⟩

/-- The translation of equal results is equal. -/
theorem C90_translate {r r' : Reader} (h : r.Same r') (cm : CaseMap) {src src' : Store} (trg : Store)
    (hu : src'.uid = src.uid) (hh : src'.indexHash = src.indexHash) (quantize : Bool) :
    BothOr Reader.Same (r.translate cm src trg quantize) (r'.translate cm src' trg quantize) := by
  refine BothOr.of (fun x hx => translate_same h hu hh hx) fun x hx => ?_
  obtain ⟨x', h1, -⟩ := translate_same h.symm hu.symm hh.symm hx
  exact ⟨x', h1⟩

/-! ### Loading -/

private theorem after_append (p : Policy) (old : Option ℚ) (a b : List ℚ) :
    p.after (p.after old a) b = p.after old (a ++ b) := by
  induction a generalizing old with
  | nil => rw [Policy.after_nil, List.nil_append]
  | cons v a ih => rw [← Policy.after_cons p old v a, ih, List.cons_append, Policy.after_cons]

private theorem allows_append (p : Policy) (old : Option ℚ) (a b : List ℚ) :
    p.Allows old (a ++ b) ↔ p.Allows old a ∧ p.Allows (p.after old a) b := by
  induction a generalizing old with
  | nil => simp [Policy.after_nil, Policy.allows_nil]
  | cons v a ih =>
    rw [List.cons_append, Policy.allows_cons, ih, Policy.allows_cons p old v a, Policy.after_cons, and_assoc]

private theorem allows_perm {p : Policy} {old : Option ℚ} {a b : List ℚ} (h : a.Perm b) :
    p.Allows old a ↔ p.Allows old b := by
  unfold Policy.Allows
  rw [List.length_append, List.length_append, h.length_eq]

private theorem after_perm {p : Policy} (hp : p = .abort ∨ p = .sum) {old : Option ℚ} {a b : List ℚ} (h : a.Perm b)
    (ha : p.Allows old a) : p.after old b = p.after old a := by
  rcases hp with rfl | rfl
  · have h1 : a.length ≤ 1 := by
      have := ha rfl
      rw [List.length_append] at this
      omega
    match a, h1 with
    | [], _ => rw [h.symm.eq_nil]
    | [x], _ => rw [List.perm_singleton.1 h.symm]
  · unfold Policy.after
    rw [h.sum_eq]
    have : b = [] ↔ a = [] := ⟨fun hb => List.perm_nil.1 (hb ▸ h), fun hb => List.perm_nil.1 (hb ▸ h.symm)⟩
    simp only [this]

private theorem groups_eq {l l' : List WGroup}
    (h1 : l'.map (fun g => (g.id, g.name, g.selectors)) = l.map fun g => (g.id, g.name, g.selectors))
    (h2 : l'.map (fun g => (g.id, g.complete)) = l.map fun g => (g.id, g.complete)) : l' = l := by
  induction l generalizing l' with
  | nil => exact List.map_eq_nil_iff.1 h1
  | cons g gs ih =>
    cases l' with
    | nil => cases h1
    | cons g' gs' =>
      rw [List.map_cons, List.map_cons, List.cons.injEq] at h1 h2
      obtain ⟨h1, h1'⟩ := h1
      obtain ⟨h2, h2'⟩ := h2
      rw [ih h1' h2']
      obtain ⟨i, n, x, c⟩ := g
      obtain ⟨i', n', x', c'⟩ := g'
      simp only [Prod.mk.injEq] at h1 h2
      obtain ⟨rfl, rfl, rfl⟩ := h1
      obtain ⟨-, rfl⟩ := h2
      rfl

/-- What loading quantities leaves alone. -/
theorem load_setting {s : Store} (hr : Reachable s) (al ap : Bool) (p : Policy) (rows : List QuantRow) {t : Store}
    (ht : t = (step (.insertQuantities2 al ap p rows) s).1) :
    t.cols = s.cols ∧ t.index = s.index ∧ t.structs = s.structs ∧ t.wgroups = s.wgroups ∧ t.defaultWG = s.defaultWG ∧
      t.domain = s.domain ∧ t.weights = s.weights ∧ t.regAttrs = s.regAttrs := by
  subst ht
  have h := fun q hq => C76_unrelated s hr (.insertQuantities2 al ap p rows) q hq
  exact ⟨h .columns (by simp [Op.may]), h .labels (by simp [Op.may]), (h .partitions (by simp [Op.may])).1,
    groups_eq (h .groups (by simp [Op.may])) (h .groupState (by simp [Op.may])), h .defaultGroup (by simp [Op.may]),
    h .domain (by simp [Op.may]), h .weights (by simp [Op.may]), h .attributes (by simp [Op.may])⟩

private theorem same_of {s t u : Store}
    (ht : t.cols = s.cols ∧ t.index = s.index ∧ t.structs = s.structs ∧ t.wgroups = s.wgroups ∧ t.defaultWG = s.defaultWG ∧
      t.domain = s.domain ∧ t.weights = s.weights ∧ t.regAttrs = s.regAttrs)
    (hu : u.cols = s.cols ∧ u.index = s.index ∧ u.structs = s.structs ∧ u.wgroups = s.wgroups ∧ u.defaultWG = s.defaultWG ∧
      u.domain = s.domain ∧ u.weights = s.weights ∧ u.regAttrs = s.regAttrs)
    {f : List PyStr → Attrs → Option ℚ} (h1 : ∀ l a, t.QuantityIs l a (f l a)) (h2 : ∀ l a, u.QuantityIs l a (f l a)) :
    SameContent t u := by
  obtain ⟨a1, a2, a3, a4, a5, a6, a7, -⟩ := ht
  obtain ⟨b1, b2, b3, b4, b5, b6, b7, -⟩ := hu
  refine ⟨b1.trans a1.symm, b2.trans a2.symm, b3.trans a3.symm, b4.trans a4.symm, b5.trans a5.symm, b6.trans a6.symm,
    fun n i x => ?_, fun l a x => (h2 l a x).symm.trans (h1 l a x)⟩
  unfold Store.HasWeight
  rw [a4, a7, b4, b7]

private theorem no_attrs {s : Store} (hat : s.regAttrs.getD [] = []) (al ap : Bool) (p : Policy) (rows : List QuantRow) :
    step (.insertQuantities2 al ap p rows) s = (s, .error (.toronError "no attributes registered")) := by
  have : insertQuantities2 al ap p rows s = .error (.toronError "no attributes registered") := by
    unfold insertQuantities2
    simp only [bind, StateT.bind, get, getThe, MonadStateOf.get, StateT.get, pure, Except.pure, Except.bind]
    rw [if_pos hat]
    rfl
  show runTx (insertQuantities2 al ap p rows) s = _
  unfold runTx
  rw [this]

private theorem quantitiesFor_perm (s : Store) {rows rows' : List QuantRow} (h : rows.Perm rows') (l : List PyStr) (a : Attrs) :
    (s.quantitiesFor rows l a).Perm (s.quantitiesFor rows' l a) := (h.filter _).map _

/-- When a second value for the same cell is refused or added, the order of the rows does not matter: loading them in
any order has the same outcome and gives the same data. -/
theorem C90_order {s : Store} (hr : Reachable s) (ha : s.Anchored) (hne : [] ∉ s.regAttrs.getD []) (al ap : Bool) {p : Policy}
    (hp : p = .abort ∨ p = .sum) {rows rows' : List QuantRow} (h : rows.Perm rows') :
    ((step (.insertQuantities2 al ap p rows) s).2 = .ok () ↔ (step (.insertQuantities2 al ap p rows') s).2 = .ok ()) ∧
      SameContent (step (.insertQuantities2 al ap p rows) s).1 (step (.insertQuantities2 al ap p rows') s).1 := by
  obtain ⟨old, hold⟩ := C32_quantities_table hr
  by_cases hat : s.regAttrs.getD [] = []
  · rw [no_attrs hat, no_attrs hat]
    exact ⟨Iff.rfl, SameContent.refl s⟩
  have hpo : p ≠ .other := by rcases hp with rfl | rfl <;> simp
  have hl := load_setting hr al ap p rows rfl
  have hl' := load_setting hr al ap p rows' rfl
  have h1 := C32_quantities hr ha hat hne (al := al) (ap := ap) hpo rows hold
  have h2 := C32_quantities hr ha hat hne (al := al) (ap := ap) hpo rows' hold
  have hiff : ((∀ row ∈ rows', s.Accepts al ap row) ∧ ∀ l a, p.Allows (old l a) (s.quantitiesFor rows' l a)) ↔
      ((∀ row ∈ rows, s.Accepts al ap row) ∧ ∀ l a, p.Allows (old l a) (s.quantitiesFor rows l a)) := by
    simp only [h.mem_iff, fun l a => allows_perm (p := p) (old := old l a) (quantitiesFor_perm s h l a)]
  rw [hiff] at h2
  by_cases hc : (∀ row ∈ rows, s.Accepts al ap row) ∧ ∀ l a, p.Allows (old l a) (s.quantitiesFor rows l a)
  · obtain ⟨e1, q1⟩ := h1.1 hc
    obtain ⟨e2, q2⟩ := h2.1 hc
    refine ⟨iff_of_true e1 e2, same_of hl hl' q1 fun l a => ?_⟩
    rw [← after_perm hp (quantitiesFor_perm s h l a) (hc.2 l a)]
    exact q2 l a
  · obtain ⟨e1, q1⟩ := h1.2 hc
    obtain ⟨e2, q2⟩ := h2.2 hc
    refine ⟨iff_of_false e1 e2, ?_⟩
    rw [q1, q2]
    exact SameContent.refl s

/-- Rows may be loaded in one call or in several: with any policy, the calls for the parts all succeed exactly if the
call for the whole does, and then the data is the same. -/
theorem C90_batches {s : Store} (hr : ReachableFk s) (hne : [] ∉ s.regAttrs.getD []) (al ap : Bool) {p : Policy}
    (hp : p ≠ .other) (rows rows' : List QuantRow) {t u : Store}
    (ht : t = (step (.insertQuantities2 al ap p rows) s).1) (hu : u = (step (.insertQuantities2 al ap p rows') t).1) :
    ((step (.insertQuantities2 al ap p (rows ++ rows')) s).2 = .ok () ↔
      (step (.insertQuantities2 al ap p rows) s).2 = .ok () ∧ (step (.insertQuantities2 al ap p rows') t).2 = .ok ()) ∧
    ((step (.insertQuantities2 al ap p (rows ++ rows')) s).2 = .ok () →
      SameContent (step (.insertQuantities2 al ap p (rows ++ rows')) s).1 u) := by
  obtain ⟨old, hold⟩ := C32_quantities_table hr.reachable
  by_cases hat : s.regAttrs.getD [] = []
  · rw [no_attrs hat, no_attrs hat]
    simp
  have hrt : ReachableFk t := ht ▸ hr.step _ (by simp)
  have hl := load_setting hr.reachable al ap p (rows ++ rows') rfl
  have hlt := load_setting hr.reachable al ap p rows ht
  have hlu := load_setting hrt.reachable al ap p rows' hu
  obtain ⟨a1, a2, a3, a4, a5, a6, a7, a8⟩ := hlt
  have hlu' : u.cols = s.cols ∧ u.index = s.index ∧ u.structs = s.structs ∧ u.wgroups = s.wgroups ∧
      u.defaultWG = s.defaultWG ∧ u.domain = s.domain ∧ u.weights = s.weights ∧ u.regAttrs = s.regAttrs := by
    rw [a1, a2, a3, a4, a5, a6, a7, a8] at hlu
    exact hlu
  have hattrs : ∀ row, t.rowAttrs row = s.rowAttrs row := fun row => by unfold Store.rowAttrs; rw [a8]
  have hacc : ∀ row, t.Accepts al ap row ↔ s.Accepts al ap row := by
    intro row
    unfold Store.Accepts Store.getDomain
    rw [hattrs, a1, a2, a3, a6]
  have hfor : ∀ l a, t.quantitiesFor rows' l a = s.quantitiesFor rows' l a := by
    intro l a
    unfold Store.quantitiesFor
    simp only [hattrs]
  have happ : ∀ l a, s.quantitiesFor (rows ++ rows') l a = s.quantitiesFor rows l a ++ s.quantitiesFor rows' l a := by
    intro l a
    unfold Store.quantitiesFor
    rw [List.filter_append, List.map_append]
  have hw := C32_quantities hr.reachable (C32_anchored hr) hat hne (al := al) (ap := ap) hp (rows ++ rows') hold
  have h1 := C32_quantities hr.reachable (C32_anchored hr) hat hne (al := al) (ap := ap) hp rows hold
  have hiff : ((∀ row ∈ rows ++ rows', s.Accepts al ap row) ∧
        ∀ l a, p.Allows (old l a) (s.quantitiesFor (rows ++ rows') l a)) ↔
      ((∀ row ∈ rows, s.Accepts al ap row) ∧ ∀ l a, p.Allows (old l a) (s.quantitiesFor rows l a)) ∧
      ((∀ row ∈ rows', s.Accepts al ap row) ∧
        ∀ l a, p.Allows (p.after (old l a) (s.quantitiesFor rows l a)) (s.quantitiesFor rows' l a)) := by
    simp only [happ, allows_append, List.mem_append, or_imp, forall_and]
    tauto
  by_cases hc : (∀ row ∈ rows, s.Accepts al ap row) ∧ ∀ l a, p.Allows (old l a) (s.quantitiesFor rows l a)
  · obtain ⟨e1, q1⟩ := h1.1 hc
    rw [← ht] at q1
    have h2 := C32_quantities hrt.reachable (C32_anchored hrt) (a8 ▸ hat) (a8 ▸ hne) (al := al) (ap := ap) hp rows' q1
    rw [← hu] at h2
    simp only [hacc, hfor] at h2
    by_cases hc' : (∀ row ∈ rows', s.Accepts al ap row) ∧
        ∀ l a, p.Allows (p.after (old l a) (s.quantitiesFor rows l a)) (s.quantitiesFor rows' l a)
    · obtain ⟨e2, q2⟩ := h2.1 hc'
      obtain ⟨e, q⟩ := hw.1 (hiff.2 ⟨hc, hc'⟩)
      refine ⟨iff_of_true e ⟨e1, e2⟩, fun _ => same_of hl hlu' q fun l a => ?_⟩
      rw [happ, ← after_append]
      exact q2 l a
    · obtain ⟨e2, q2⟩ := h2.2 hc'
      obtain ⟨e, q⟩ := hw.2 fun hh => hc' (hiff.1 hh).2
      exact ⟨iff_of_false e fun hh => e2 hh.2, fun hh => absurd hh e⟩
  · obtain ⟨e1, q1⟩ := h1.2 hc
    obtain ⟨e, q⟩ := hw.2 fun hh => hc (hiff.1 hh).1
    exact ⟨iff_of_false e fun hh => e1 hh.1, fun hh => absurd hh e⟩

/-- The order of rows of weights does not matter either: same outcome, same weights in all groups. -/
theorem C90_weights_order {s : Store} (hr : Reachable s) {name : PyStr} (hg : ∃ g ∈ s.wgroups, g.name = name) {p : Policy}
    (hp : p = .abort ∨ p = .sum) {rows rows' : List WeightRow} (h : rows.Perm rows') :
    ((step (.insertWeights name p rows) s).2 = .ok () ↔ (step (.insertWeights name p rows') s).2 = .ok ()) ∧
      ∀ n i x, (step (.insertWeights name p rows) s).1.HasWeight n i x ↔
        (step (.insertWeights name p rows') s).1.HasWeight n i x := by
  have hpo : p ≠ .other := by rcases hp with rfl | rfl <;> simp
  obtain ⟨g, hgm, hgn⟩ := hg
  have hold : ∀ i, s.WeightIs name i (s.weightOf g.id i) := fun i => hgn ▸ (weightIs_iff hr.weightInv hgm).2 rfl
  have h1 := C32_weights hr ⟨g, hgm, hgn⟩ hpo rows hold
  have h2 := C32_weights hr ⟨g, hgm, hgn⟩ hpo rows' hold
  have hpf : ∀ i, (s.weightsFor rows i).Perm (s.weightsFor rows' i) := fun i => (h.filter _).filterMap _
  have hiff : (∀ i, (∀ v ∈ s.weightsFor rows' i, 0 ≤ v) ∧ p.Allows (s.weightOf g.id i) (s.weightsFor rows' i)) ↔
      ∀ i, (∀ v ∈ s.weightsFor rows i, 0 ≤ v) ∧ p.Allows (s.weightOf g.id i) (s.weightsFor rows i) := by
    exact forall_congr' fun i => and_congr (forall_congr' fun v => by rw [(hpf i).mem_iff]) (allows_perm (hpf i).symm)
  rw [hiff] at h2
  by_cases hc : ∀ i, (∀ v ∈ s.weightsFor rows i, 0 ≤ v) ∧ p.Allows (s.weightOf g.id i) (s.weightsFor rows i)
  · obtain ⟨e1, q1, o1⟩ := h1.1 hc
    obtain ⟨e2, q2, o2⟩ := h2.1 hc
    refine ⟨iff_of_true e1 e2, fun n i x => ?_⟩
    by_cases hn : n = name
    · rw [hn, ← q1 i x, ← q2 i x, after_perm hp (hpf i) (hc i).2]
    · rw [o1 n hn, o2 n hn]
  · obtain ⟨e1, q1⟩ := h1.2 hc
    obtain ⟨e2, q2⟩ := h2.2 hc
    exact ⟨iff_of_false e1 e2, fun n i x => by rw [q1, q2]⟩

/-- With the replacing policy the order does matter: the last row wins. -/
theorem C90_replace_order :
    ∃ rows rows' : List QuantRow, rows.Perm rows' ∧
      (step (.insertQuantities2 false false .replace rows) Demo.store).2 = .ok () ∧
      (step (.insertQuantities2 false false .replace rows') Demo.store).2 = .ok () ∧
      ¬ SameContent (step (.insertQuantities2 false false .replace rows) Demo.store).1
        (step (.insertQuantities2 false false .replace rows') Demo.store).1 := by
  refine ⟨[⟨none, [Demo.ly, Demo.l1], [(['c'], ['n'])], 1⟩, ⟨none, [Demo.ly, Demo.l1], [(['c'], ['n'])], 2⟩],
    [⟨none, [Demo.ly, Demo.l1], [(['c'], ['n'])], 2⟩, ⟨none, [Demo.ly, Demo.l1], [(['c'], ['n'])], 1⟩], .swap _ _ _,
    by decide +kernel, by decide +kernel, fun h => ?_⟩
  have h1 : Store.HasQuantity (step (.insertQuantities2 false false .replace [⟨none, [Demo.ly, Demo.l1], [(['c'], ['n'])], 2⟩,
      ⟨none, [Demo.ly, Demo.l1], [(['c'], ['n'])], 1⟩]) Demo.store).1 [Demo.ly, Demo.l1] [(['c'], ['n'])] 1 := by
    unfold Store.HasQuantity
    decide +kernel
  have h2 : ¬ Store.HasQuantity (step (.insertQuantities2 false false .replace [⟨none, [Demo.ly, Demo.l1], [(['c'], ['n'])], 1⟩,
      ⟨none, [Demo.ly, Demo.l1], [(['c'], ['n'])], 2⟩]) Demo.store).1 [Demo.ly, Demo.l1] [(['c'], ['n'])] 1 := by
    unfold Store.HasQuantity
    decide +kernel
  exact h2 ((h.quantities _ _ _).1 h1)

/-! ### What does not matter at all -/

/-- Operations about links, mappings, registered attributes, the order of display and reopening do not change what any
call reads. -/
theorem C90_unrelated {s : Store} (hr : Reachable s) (op : Op)
    (hop : ∀ q ∈ [Part.columns, .labels, .partitions, .groups, .groupState, .weights, .defaultGroup, .quantities, .locations,
      .domain], q ∉ op.may) (cm : CaseMap) (sels : List Sel) (quantize : Bool) (sumBy : List PyStr) :
    (step op s).1.reader cm sels quantize sumBy = s.reader cm sels quantize sumBy := by
  have h := fun q hq => C76_unrelated s hr op q (hop q hq)
  have h1 := h .columns (by simp)
  have h2 := h .labels (by simp)
  have h3 := (h .partitions (by simp)).1
  have h4 := groups_eq (h .groups (by simp)) (h .groupState (by simp))
  have h5 := h .weights (by simp)
  have h6 := h .defaultGroup (by simp)
  have h7 := (h .quantities (by simp)).1
  have h8 := (h .quantities (by simp)).2
  have h9 := h .locations (by simp)
  have h10 := h .domain (by simp)
  generalize (step op s).1 = t at *
  obtain ⟨⟩ := t
  obtain ⟨⟩ := s
  simp only [SamePart] at h1 h2 h5 h6 h9 h10
  subst h1 h2 h3 h4 h5 h6 h7 h8 h9 h10
  rfl

/-! ### Examples -/

namespace Demo

/-- Two rows for the demo dataspace, one of them for a whole district. -/
def newRows : List QuantRow := [⟨none, [lx, []], [(['c'], ['n'])], 5⟩, ⟨none, [ly, l1], [(['c'], ['n'])], 6⟩]

def newLoaded : Store := (step (.insertQuantities2 false false .abort newRows) store).1

def reloadedRev : Store := (step (.insertQuantities2 false false .abort newRows.reverse) store).1

theorem newLoaded_fk : ReachableFk newLoaded := reachableFk.step _ (by simp)

theorem reloadedRev_fk : ReachableFk reloadedRev := reachableFk.step _ (by simp)

theorem newLoaded_same : SameContent newLoaded reloadedRev :=
  (C90_order reachable (C32_anchored reachableFk) (by decide +kernel) false false (.inl rfl)
    (List.reverse_perm newRows).symm).2

/-- The tables differ, the data is the same. -/
example : newLoaded.quants ≠ reloadedRev.quants ∧ SameContent newLoaded reloadedRev := ⟨by decide +kernel, newLoaded_same⟩

theorem newLoaded_selectors : newLoaded.SelectorsWF := by
  have h : newLoaded.wgroups.flatMap (·.selectors) = [] := by decide +kernel
  intro g hg x hx
  exact absurd (List.mem_flatMap.2 ⟨g, hg, hx⟩) (by rw [h]; simp)

/-- And it is read in the same way. -/
example : BothOr Reader.Same (newLoaded.reader asciiCase [] true []) (reloadedRev.reader asciiCase [] true []) ∧
    (newLoaded.reader asciiCase [] true []).toBool = true :=
  ⟨C90_read newLoaded_fk.reachable reloadedRev_fk.reachable newLoaded_same (C90_grouped newLoaded_fk)
    (C90_grouped reloadedRev_fk) newLoaded_selectors asciiCase (by simp) true [], by decide +kernel⟩

/-- Loading in two calls. -/
example : (step (.insertQuantities2 false false .sum (newRows ++ newRows)) store).2 = .ok () ∧
    SameContent (step (.insertQuantities2 false false .sum (newRows ++ newRows)) store).1
      (step (.insertQuantities2 false false .sum newRows) (step (.insertQuantities2 false false .sum newRows) store).1).1 := by
  have h : (step (.insertQuantities2 false false .sum (newRows ++ newRows)) store).2 = .ok () := by decide +kernel
  exact ⟨h, (C90_batches reachableFk (by decide +kernel) false false (by simp) newRows newRows rfl rfl).2 h⟩

/-- Dropping the link does not change what is read. -/
example : (step (.dropLink other none) store).2 = .ok () ∧
    (step (.dropLink other none) store).1.reader asciiCase [] true [] = store.reader asciiCase [] true [] :=
  ⟨by decide +kernel, C90_unrelated reachable _ (by decide) asciiCase [] true []⟩

/-- Weights in another order. -/
example : (∃ g ∈ store.wgroups, g.name = (store.wgroups.map (·.name)).head!) ∧
    (step (.insertWeights (store.wgroups.map (·.name)).head! .sum
      [⟨none, [lx, l1], some 1⟩, ⟨none, [lx, l2], some 2⟩]) store).2 = .ok () := by
  decide +kernel

end Demo

end Toron.Space
