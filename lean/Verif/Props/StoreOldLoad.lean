/-
C92: the older method for loading quantities.
-/
import Verif.Lemmas.Store.OldLoad
import Verif.Props.StorePolicies
import Verif.Model.Store.Read
import Verif.Lemmas.SelectorsEq
import Verif.Demo

namespace Toron.Space

open Toron.Selectors (PyStr asciiCase)

theorem attrColumns_eq (s : Store) (attributes : List PyStr) :
    (if s.getDomain = [] then attributes else attributes.filter fun a => a ≠ "domain".toList) = s.attrColumns attributes :=
  rfl

/-- The older method succeeds exactly if every row of the domain that has attributes has a label for every column and
no quantity is given twice or is there already; then what is stored are the quantities from before and those of the
rows; otherwise nothing changes. -/
theorem C92_old_method {s : Store} (hr : Reachable s) (ha : s.Anchored) {attributes : List PyStr} (hne : [] ∉ attributes)
    (rows : List QuantRow) {old : List PyStr → Attrs → Option ℚ} (hold : ∀ l a, s.QuantityIs l a (old l a)) :
    ((∀ row ∈ rows, s.InDomain row → s.namedAttrs attributes row = [] ∨
        (row.labels.length = s.cols.length ∧ s.cols ≠ [])) ∧
      (∀ l a, ((old l a).toList ++ s.plainFor attributes rows l a).length ≤ 1) →
      (step (.insertQuantities attributes rows) s).2 = .ok () ∧
      ∀ l a, (step (.insertQuantities attributes rows) s).1.QuantityIs l a
        ((old l a).toList ++ s.plainFor attributes rows l a).head?) ∧
    (¬ ((∀ row ∈ rows, s.InDomain row → s.namedAttrs attributes row = [] ∨
        (row.labels.length = s.cols.length ∧ s.cols ≠ [])) ∧
      (∀ l a, ((old l a).toList ++ s.plainFor attributes rows l a).length ≤ 1)) →
      (step (.insertQuantities attributes rows) s).2 ≠ .ok () ∧ (step (.insertQuantities attributes rows) s).1 = s) := by
  have hmem : [] ∉ s.attrColumns attributes := by
    unfold Store.attrColumns
    split
    · exact hne
    · exact fun h => hne (List.mem_filter.1 h).1
  have hacc : (∀ row ∈ s.newRows rows, (s.withAttrs (s.attrColumns attributes)).Accepts true true row) ↔
      ∀ row ∈ rows, s.InDomain row → s.namedAttrs attributes row = [] ∨
        (row.labels.length = s.cols.length ∧ s.cols ≠ []) := by
    unfold Store.newRows
    simp only [List.mem_map, List.mem_filter, decide_eq_true_eq, forall_exists_index, and_imp]
    constructor
    · intro h row hrow hd
      rcases (h _ row hrow hd rfl).2 with h' | h'
      · exact .inl h'
      · exact .inr ⟨h'.1, h'.2.1⟩
    · rintro h _ row hrow hd rfl
      refine ⟨.inl rfl, (h row hrow hd).imp id fun h' => ⟨h'.1, h'.2, .inl rfl, .inl rfl⟩⟩
  have hall : (∀ l a, Policy.abort.Allows (old l a) ((s.withAttrs (s.attrColumns attributes)).quantitiesFor
      (s.newRows rows) l a)) ↔ ∀ l a, ((old l a).toList ++ s.plainFor attributes rows l a).length ≤ 1 := by
    simp only [quantitiesFor_newRows, Policy.Allows, forall_const]
  have hafter : ∀ l a, Policy.abort.after (old l a) ((s.withAttrs (s.attrColumns attributes)).quantitiesFor
      (s.newRows rows) l a) = ((old l a).toList ++ s.plainFor attributes rows l a).head? := by
    intro l a
    rw [quantitiesFor_newRows]
    cases old l a <;> rfl
  have hspec := insertQuantities2Rows_spec (al := true) (ap := true) (p := .abort) (by decide) (s.newRows rows)
    (s := s.withAttrs (s.attrColumns attributes)) hr.structLens hr.colInv.cols hr.indexInv.lens hmem
    ⟨hr.quantInv.ids, hr.quantInv.pairs, hr.quantInv.locIds, hr.quantInv.locLabels, hr.quantInv.locLens,
      hr.quantInv.agIds, hr.quantInv.agAttrs⟩ ha (old := old) hold
  rw [hacc, hall] at hspec
  have htwin := insertQuantityRows_twin (s.attrColumns attributes) rows s
  have hstep : step (.insertQuantities attributes rows) s =
      runTx (rows.forM (insertQuantityRow (s.attrColumns attributes))) s := rfl
  rw [hstep]
  unfold runTx
  rcases hspec with ⟨hc, L, G, Q, h1, _, h3⟩ | ⟨hc, e, h1⟩
  · refine ⟨fun _ => ?_, fun h => absurd hc h⟩
    rw [h1] at htwin
    cases hrun : rows.forM (insertQuantityRow (s.attrColumns attributes)) s with
    | error e => rw [hrun] at htwin; cases htwin
    | ok x =>
      obtain ⟨⟨⟩, s1⟩ := x
      rw [hrun] at htwin
      have heq := htwin.eq
      have hfk : fkOk s1 = true := by
        have h := hr.fkOk
        have e1 : s.fk = s1.fk := by have h := congrArg Store.fk heq; exact h
        have e2 : s.weights = s1.weights := by have h := congrArg Store.weights heq; exact h
        have e3 : s.index = s1.index := by have h := congrArg Store.index heq; exact h
        have e4 : s.maps = s1.maps := by have h := congrArg Store.maps heq; exact h
        unfold fkOk at h ⊢
        rwa [e1, e2, e3, e4] at h
      dsimp only
      rw [if_pos hfk]
      refine ⟨rfl, fun l a => ?_⟩
      have h4 := h3 l a
      rw [hafter, heq] at h4
      exact h4
  · refine ⟨fun h => absurd h hc, fun _ => ?_⟩
    rw [h1] at htwin
    cases hrun : rows.forM (insertQuantityRow (s.attrColumns attributes)) s with
    | error e => exact ⟨(by intro h; cases h), rfl⟩
    | ok x => rw [hrun] at htwin; cases htwin

theorem insertQuantity2Row_noDomain {al ap : Bool} {p : Policy} {row : QuantRow} {s : Store}
    (h : row.domain = none ∨ row.domain = some s.getDomain) :
    insertQuantity2Row al ap p row.noDomain s = insertQuantity2Row al ap p row s := by
  unfold insertQuantity2Row
  simp only [bind, StateT.bind, get, getThe, MonadStateOf.get, StateT.get, pure, Except.pure, Except.bind]
  have h1 : ¬ (row.domain ≠ none ∧ row.domain ≠ some s.getDomain) := by tauto
  have h2 : ¬ (row.noDomain.domain ≠ none ∧ row.noDomain.domain ≠ some s.getDomain) := fun h => h.1 rfl
  rw [if_neg h1, if_neg h2]
  rfl

theorem insertQuantity2Rows_noDomain {al ap : Bool} {p : Policy} (rows : List QuantRow) : ∀ {s : Store},
    (∀ row ∈ rows, row.domain = none ∨ row.domain = some s.getDomain) →
    (rows.map QuantRow.noDomain).forM (insertQuantity2Row al ap p) s = rows.forM (insertQuantity2Row al ap p) s := by
  induction rows with
  | nil => exact fun _ => rfl
  | cons row rows ih =>
    intro s h
    rw [List.map_cons, forM_row, forM_row, insertQuantity2Row_noDomain (h row (List.mem_cons_self ..))]
    cases hr : insertQuantity2Row al ap p row s with
    | error e => rfl
    | ok x =>
      have hdom : x.2.domain = s.domain := ((insertQuantity2Row_does al ap p row).steps _ _ _ hr).domain_eq (by decide)
      refine ih fun row' h' => ?_
      have := h row' (List.mem_cons_of_mem _ h')
      unfold Store.getDomain at this ⊢
      rwa [hdom]

/-- For rows of the dataspace's domain and the registered attributes, the older method has the effect of the newer one
that refuses nothing but values that are there already. -/
theorem C92_same_as_newer {s : Store} {attributes : List PyStr} (ha : s.regAttrs = some (s.attrColumns attributes))
    (hne : s.attrColumns attributes ≠ []) {rows : List QuantRow}
    (hd : ∀ row ∈ rows, row.domain = some s.getDomain ∨ (row.domain = none ∧ s.getDomain = [])) :
    (step (.insertQuantities attributes rows) s).1 = (step (.insertQuantities2 true true .abort rows) s).1 ∧
    ((step (.insertQuantities attributes rows) s).2 = .ok () ↔
      (step (.insertQuantities2 true true .abort rows) s).2 = .ok ()) := by
  have hs : s.withAttrs (s.attrColumns attributes) = s := by unfold Store.withAttrs; rw [← ha]
  have htwin := insertQuantityRows_twin (s.attrColumns attributes) rows s
  have h1 : s.newRows rows = rows.map QuantRow.noDomain := by
    unfold Store.newRows
    rw [List.filter_eq_self.2]
    intro row hrow
    rw [decide_eq_true_eq]
    exact (hd row hrow).elim .inr fun h => .inl h.2
  rw [h1, hs, insertQuantity2Rows_noDomain rows fun row hrow => (hd row hrow).elim .inr fun h => .inl h.1] at htwin
  have hstep : step (.insertQuantities attributes rows) s =
      runTx (rows.forM (insertQuantityRow (s.attrColumns attributes))) s := rfl
  have hstep2 : step (.insertQuantities2 true true .abort rows) s =
      runTx (rows.forM (insertQuantity2Row true true .abort)) s := by
    have : insertQuantities2 true true .abort rows s = rows.forM (insertQuantity2Row true true .abort) s := by
      unfold insertQuantities2
      simp only [bind, StateT.bind, get, getThe, MonadStateOf.get, StateT.get, pure, Except.pure, Except.bind]
      rw [if_neg (by rw [ha]; exact hne)]
    show runTx (insertQuantities2 true true .abort rows) s = _
    unfold runTx
    rw [this]
  rw [hstep, hstep2]
  unfold runTx
  cases hrun : rows.forM (insertQuantityRow (s.attrColumns attributes)) s with
  | error e =>
    cases hrun2 : rows.forM (insertQuantity2Row true true .abort) s with
    | error e' => exact ⟨rfl, by constructor <;> intro h <;> cases h⟩
    | ok x => rw [hrun, hrun2] at htwin; cases htwin
  | ok x =>
    obtain ⟨⟨⟩, s1⟩ := x
    cases hrun2 : rows.forM (insertQuantity2Row true true .abort) s with
    | error e' => rw [hrun, hrun2] at htwin; cases htwin
    | ok y =>
      obtain ⟨⟨⟩, s2⟩ := y
      rw [hrun, hrun2] at htwin
      have h2 := htwin.eq
      have hreg : s1.regAttrs = s.regAttrs := by
        have hd := Does.forM (l := rows) fun r _ => insertQuantityRow_does (s.attrColumns attributes) r
        exact (hd.steps _ _ _ hrun).regAttrs_eq (by decide)
      have h3 : s2 = s1 := by
        rw [h2]
        unfold Store.withAttrs
        rw [← ha, ← hreg]
      rw [h3]
      exact ⟨rfl, Iff.rfl⟩

/-- The older method does not check combinations of columns: a quantity can be loaded without complaint and is never
read. -/
theorem C92_read_violated : ∃ s, Reachable s ∧ ∃ attributes rows,
    (step (.insertQuantities attributes rows) s).2 = .ok () ∧
    (∃ row ∈ rows, s.InDomain row ∧ row.value = 5 ∧
      (step (.insertQuantities attributes rows) s).1.HasQuantity row.labels (s.namedAttrs attributes row) 5) ∧
    (((step (.insertQuantities attributes rows) s).1.disaggregate asciiCase none false).toOption.map fun l =>
      (l.map fun x => x.2.2).sum) = some 107 ∧
    ((s.disaggregate asciiCase none false).toOption.map fun l => (l.map fun x => x.2.2).sum) = some 107 := by
  refine ⟨Demo.store, Demo.reachable, [['c']], [⟨none, [[], ['1']], [(['c'], ['m'])], 5⟩], by decide +kernel,
    ⟨_, List.mem_singleton.2 rfl, by decide +kernel, rfl, ?_⟩, by decide +kernel, by decide +kernel⟩
  unfold Store.HasQuantity
  decide +kernel

/-- Nor does it check labels: a quantity with labels that no record has can be loaded without complaint, and then
nothing can be read any more, although it could before. -/
theorem C92_labels_violated : ∃ s, Reachable s ∧ (s.disaggregate asciiCase none false).toBool = true ∧
    ∃ attributes rows, (step (.insertQuantities attributes rows) s).2 = .ok () ∧
      ((step (.insertQuantities attributes rows) s).1.disaggregate asciiCase none false).toBool = false :=
  ⟨Demo.store, Demo.reachable, by decide +kernel, [['c']], [⟨none, [['z'], []], [(['c'], ['m'])], 5⟩],
    by decide +kernel, by decide +kernel⟩

namespace Demo

/-- A dataspace with a domain. -/
def withDomain : Store := run (ops ++ [.setDomain ['p']]) (Store.new ['u'])

/-- Rows of this domain and of another one, with an attribute that is not registered. -/
def plainRows : List QuantRow := [⟨some ['p'], [lx, l1], [(['c'], ['m']), (['d'], ['n'])], 5⟩,
  ⟨some ['q'], [lx, l1], [(['c'], ['m']), (['d'], ['n'])], 6⟩, ⟨some ['p'], [lx], [(['c'], []), (['d'], [])], 7⟩,
  ⟨some ['p'], [ly, l2], [(['c'], ['m']), (['d'], [])], 8⟩]

example : Reachable withDomain ∧ [] ∉ [['c'], ['d'], ['d', 'o', 'm', 'a', 'i', 'n']] ∧
    (∀ row ∈ plainRows, withDomain.InDomain row →
      withDomain.namedAttrs [['c'], ['d'], ['d', 'o', 'm', 'a', 'i', 'n']] row = [] ∨
        (row.labels.length = withDomain.cols.length ∧ withDomain.cols ≠ [])) ∧
    withDomain.plainFor [['c'], ['d']] plainRows [lx, l1] [(['c'], ['m']), (['d'], ['n'])] = [5] ∧
    withDomain.plainFor [['c'], ['d']] plainRows [ly, l2] [(['c'], ['m'])] = [8] ∧
    (step (.insertQuantities [['c'], ['d']] plainRows) withDomain).1.quants.length = 4 :=
  ⟨⟨_, _, rfl⟩, by decide, by decide +kernel, by decide +kernel, by decide +kernel, by decide +kernel⟩

theorem withDomain_reachableFk : ReachableFk withDomain := reachableFk.step _ (by simp)

example : withDomain.Anchored := C32_anchored withDomain_reachableFk

example : store.regAttrs = some (store.attrColumns [['c']]) ∧ store.attrColumns [['c']] ≠ [] ∧ store.getDomain = [] := by
  decide +kernel

end Demo

end Toron.Space
