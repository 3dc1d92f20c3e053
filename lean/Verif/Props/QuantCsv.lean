/-
C67: written quantities can be loaded again.
-/
import Verif.Lemmas.QuantCsv
import Verif.Props.IndexCsv
import Verif.Demo

namespace Toron.QuantCsv

open Toron.Selectors (PyStr)
open Toron.Space
open Toron.MappingCsv (Table)
open Toron.IndexCsv (Floats)

/-- While foreign keys are on, the quantities can be written if an attribute is registered. -/
theorem C67_written {F : Floats} {s : Store} (hr : ReachableFk s) (hat : s.regAttrs.getD [] ≠ []) :
    ∃ t, writeQuantities F s = .ok t := by
  obtain ⟨rows, h⟩ := quantViews_exists (s := s) (s.regAttrs.getD []) s.locs hr.refInv.ags
  refine ⟨⟨headerOf s, rows.map (writeView F)⟩, ?_⟩
  unfold writeQuantities Store.selectQuantities2
  rw [if_neg hat, h]
  rfl

/-- Loading written quantities into a dataspace of the same layout: if the labels fit and the policy allows it for every
cell, then every cell (labels and attribute set) gets what the policy says; otherwise nothing changes. It is needed that
no column is named `quantity` and that all attributes in use are registered. -/
theorem C67_loaded_partial {F : Floats} {s s' : Store} (hr : Reachable s) (hr' : Reachable s') (ha : s'.Anchored)
    (hne : [] ∉ s'.regAttrs.getD []) (hcols : s.cols ≠ []) (hn : PlainNames s) (hreg : AllRegistered s)
    (hl : SameLayout s s') {t : Table} (h : writeQuantities F s = .ok t) {al ap : Bool} {p : Policy} (hp : p ≠ .other)
    {v old : List PyStr → Attrs → Option ℚ} (hv : ∀ l a, s.QuantityIs l a (v l a))
    (hold : ∀ l a, s'.QuantityIs l a (old l a)) :
    (((∀ l a x, v l a = some x → Fits s' al ap l) ∧ ∀ l a, p.Allows (old l a) (v l a).toList) →
      (loadQuantities F quantityName al ap p t s').2 = .ok () ∧
      ∀ l a, (loadQuantities F quantityName al ap p t s').1.QuantityIs l a (p.after (old l a) (v l a).toList)) ∧
    (¬ ((∀ l a x, v l a = some x → Fits s' al ap l) ∧ ∀ l a, p.Allows (old l a) (v l a).toList) →
      (loadQuantities F quantityName al ap p t s').2 ≠ .ok () ∧
      (loadQuantities F quantityName al ap p t s').1 = s') := by
  obtain ⟨qs, rows, h1, h2, h3, h4⟩ := readRows_written hr hr' hn hreg hl h al ap p
  have hat : s'.regAttrs.getD [] ≠ [] := by
    intro h0
    have hs : s.regAttrs.getD [] = [] := by
      rw [List.eq_nil_iff_forall_not_mem]
      intro a ha
      have := (hl.attrs a).2 ha
      rw [h0] at this
      cases this
    unfold writeQuantities Store.selectQuantities2 at h
    rw [if_pos hs] at h
    cases h
  have hf : ∀ l a, s'.quantitiesFor rows l a = (v l a).toList :=
    fun l a => quantitiesFor_written hr.quantInv hr.attrInv h1 h2 h3 (hv l a)
  have hacc := accepts_written (al := al) (ap := ap) hr.quantInv hr.attrInv (hl.cols ▸ hcols) hl h2 h3
  have hfit : (∀ row ∈ rows, s'.Accepts al ap row) ↔ ∀ l a x, v l a = some x → Fits s' al ap l := by
    rw [hacc]
    exact ⟨fun h l a x hx => h l a x ((hv l a x).1 hx), fun h l a x hx => h l a x ((hv l a x).2 hx)⟩
  have := C32_quantities hr' ha hat hne (al := al) (ap := ap) hp rows hold
  simp only [hf, hfit] at this
  rw [h4]
  exact this

/-- Into a dataspace without quantities, with labels of every kind allowed: afterwards both have the same quantities. -/
theorem C67_copied_partial {F : Floats} {s s' : Store} (hr : Reachable s) (hr' : Reachable s')
    (hne : [] ∉ s'.regAttrs.getD []) (hcols : s.cols ≠ []) (hn : PlainNames s) (hreg : AllRegistered s)
    (hl : SameLayout s s') {t : Table} (h : writeQuantities F s = .ok t) {p : Policy} (hp : p ≠ .other)
    (hq : s'.quants = []) :
    (loadQuantities F quantityName true true p t s').2 = .ok () ∧
    ∀ l a x, (loadQuantities F quantityName true true p t s').1.HasQuantity l a x ↔ s.HasQuantity l a x := by
  obtain ⟨v, hv⟩ := C32_quantities_table hr
  have hnone : ∀ l a, s'.QuantityIs l a none := by
    intro l a x
    constructor
    · intro h; cases h
    · rintro ⟨q, hm, -⟩
      rw [hq] at hm
      cases hm
  have ha : s'.Anchored := by
    intro q hm
    rw [hq] at hm
    cases hm
  obtain ⟨h1, h2⟩ := (C67_loaded_partial hr hr' ha hne hcols hn hreg hl h (al := true) (ap := true) hp hv hnone).1
    ⟨fun _ _ _ _ => ⟨.inl rfl, .inl rfl⟩, by
      intro l a _
      rcases v l a with _ | x
      · exact Nat.zero_le _
      · exact Nat.le_refl _⟩
  refine ⟨h1, fun l a x => ?_⟩
  rw [← h2 l a x, ← hv l a x]
  rcases v l a with _ | y
  · cases p <;> first | exact absurd rfl hp | exact Iff.rfl
  · cases p with
    | other => exact absurd rfl hp
    | sum =>
      show (if (none : Option ℚ) = none ∧ ([y] : List ℚ) = [] then none else some ((none : Option ℚ).getD 0 + [y].sum)) =
        some x ↔ _
      rw [if_neg (fun h => (nomatch h.2)), List.sum_singleton]
      show some (0 + y) = some x ↔ _
      rw [zero_add]
    | replace => exact Iff.rfl
    | abort => exact Iff.rfl
    | ignore => exact Iff.rfl

/-- Into the same dataspace, with a policy that keeps or replaces values: nothing changes. -/
theorem C67_unchanged_partial {F : Floats} {s : Store} (hr : Reachable s) (ha : s.Anchored)
    (hne : [] ∉ s.regAttrs.getD []) (hcols : s.cols ≠ []) (hn : PlainNames s) (hreg : AllRegistered s)
    {t : Table} (h : writeQuantities F s = .ok t) {p : Policy} (hp : p = .ignore ∨ p = .replace) :
    (loadQuantities F quantityName true true p t s).2 = .ok () ∧
    ∀ l a x, (loadQuantities F quantityName true true p t s).1.HasQuantity l a x ↔ s.HasQuantity l a x := by
  obtain ⟨v, hv⟩ := C32_quantities_table hr
  have hpo : p ≠ .other := by rcases hp with rfl | rfl <;> exact fun h => (nomatch h)
  obtain ⟨h1, h2⟩ := (C67_loaded_partial hr hr ha hne hcols hn hreg ⟨rfl, fun _ => Iff.rfl, .inr rfl⟩ h (al := true)
    (ap := true) hpo hv hv).1 ⟨fun _ _ _ _ => ⟨.inl rfl, .inl rfl⟩, by
      intro l a hab
      rcases hp with rfl | rfl <;> exact (nomatch hab)⟩
  refine ⟨h1, fun l a x => ?_⟩
  rw [← h2 l a x, ← hv l a x]
  rcases hp with rfl | rfl <;> rcases v l a with _ | y <;> exact Iff.rfl

/-- With `abort`, loading into the same dataspace is refused if there is a quantity, and nothing changes. -/
theorem C67_refused_partial {F : Floats} {s : Store} (hr : Reachable s) (ha : s.Anchored)
    (hne : [] ∉ s.regAttrs.getD []) (hcols : s.cols ≠ []) (hn : PlainNames s) (hreg : AllRegistered s)
    {t : Table} (h : writeQuantities F s = .ok t) {al ap : Bool} (hq : ∃ l a x, s.HasQuantity l a x) :
    (loadQuantities F quantityName al ap .abort t s).2 ≠ .ok () ∧
    (loadQuantities F quantityName al ap .abort t s).1 = s := by
  obtain ⟨v, hv⟩ := C32_quantities_table hr
  obtain ⟨l, a, x, hx⟩ := hq
  refine (C67_loaded_partial hr hr ha hne hcols hn hreg ⟨rfl, fun _ => Iff.rfl, .inr rfl⟩ h (al := al)
    (ap := ap) (p := .abort) (fun h => (nomatch h)) hv hv).2 fun hc => ?_
  have := hc.2 l a rfl
  rw [(hv l a x).2 hx] at this
  exact absurd (show 2 ≤ 1 from this) (by decide)

/-! ### Violations -/

namespace Demo

/-- Some float texts that can be read again. -/
abbrev floats : Floats := IndexCsv.Demo.floats

/-- The same layout as `Space.Demo.store`, without quantities. -/
def emptyOps : List Op := [.addIndexColumns [['A'], ['B']], .setRegisteredAttributes [['c']]]

def empty : Store := run emptyOps (Store.new ['v'])

/-- The quantities of two attribute sets that differ only in an attribute that is not registered. -/
def mixedOps : List Op := emptyOps ++
  [.insertQuantities [['c'], ['d']] [⟨none, [['x'], ['1']], [(['c'], ['m']), (['d'], ['p'])], 1⟩,
     ⟨none, [['x'], ['1']], [(['c'], ['m']), (['d'], ['q'])], 2⟩]]

def mixed : Store := run mixedOps (Store.new ['u'])

/-- Label columns `A` and `quantity`. -/
def namedOps : List Op :=
  [.addIndexColumns [['A'], quantityName], .setRegisteredAttributes [['c']],
   .insertIndex none [] .abort .abort [⟨none, some [['x'], ['k']], []⟩],
   .insertQuantities2 true true .abort [⟨none, [['x'], ['k']], [(['c'], ['m'])], 1⟩]]

def named : Store := run namedOps (Store.new ['u'])

def table (s : Store) : Table := (writeQuantities floats s).toOption.getD ⟨[], []⟩

theorem empty_reachable : ReachableFk empty := ⟨['v'], emptyOps, by simp [emptyOps], rfl⟩
theorem mixed_reachable : ReachableFk mixed := ⟨['u'], mixedOps, by simp [mixedOps, emptyOps], rfl⟩
theorem named_reachable : ReachableFk named := ⟨['u'], namedOps, by simp [namedOps], rfl⟩
theorem unreg_reachable : ReachableFk unreg := ⟨['u'], unregOps, by simp [unregOps, Space.Demo.ops], rfl⟩

theorem layout {s s' : Store} (h1 : s'.cols = s.cols) (h2 : s'.regAttrs.getD [] = s.regAttrs.getD [])
    (h3 : s.getDomain = []) : SameLayout s s' := ⟨h1, fun a => by rw [h2], .inl h3⟩

end Demo

theorem of_toBool {α : Type} {e : Except Err α} (h : e.toBool = false) {a : α} : e ≠ .ok a := by
  rintro rfl
  cases h

/-- A quantity whose attributes are not registered (any more) has a row in the table, without attributes. Loading the
table skips it and reports success. -/
theorem C67_violated_lost : ∃ (F : Floats) (s s' : Store) (t : Table), ReachableFk s ∧ ReachableFk s' ∧ SameLayout s s' ∧
    PlainNames s ∧ s'.quants = [] ∧ writeQuantities F s = .ok t ∧ t.rows.length = s.quants.length ∧
    s.HasQuantity [['x'], ['1']] [(['d'], ['p'])] 5 ∧
    (loadQuantities F quantityName true true .abort t s').2.toOption = some () ∧
    ∀ q ∈ (loadQuantities F quantityName true true .abort t s').1.quants, q.value ≠ 5 := by
  refine ⟨Demo.floats, unreg, Demo.empty, Demo.table unreg, Demo.unreg_reachable, Demo.empty_reachable,
    Demo.layout ?_ ?_ ?_, ⟨?_, ?_⟩, ?_, ?_, ?_, ?_, ?_, ?_⟩
  · decide +kernel
  · decide +kernel
  · decide +kernel
  · decide +kernel
  · decide +kernel
  · decide +kernel
  · exact Space.ok_of_toOption (by decide +kernel)
  · decide +kernel
  · unfold Store.HasQuantity
    decide +kernel
  · decide +kernel
  · decide +kernel

/-- Two quantities whose attribute sets differ only in an attribute that is not registered cannot be copied: with
`abort` the table is refused although the other dataspace is empty, and with `sum` they become one. -/
theorem C67_violated_mixed : ∃ (F : Floats) (s s' : Store) (t : Table), ReachableFk s ∧ ReachableFk s' ∧ SameLayout s s' ∧
    PlainNames s ∧ s'.quants = [] ∧ writeQuantities F s = .ok t ∧ s.quants.map (·.value) = [1, 2] ∧
    (loadQuantities F quantityName true true .abort t s').2 ≠ .ok () ∧
    (loadQuantities F quantityName true true .sum t s').2.toOption = some () ∧
    (loadQuantities F quantityName true true .sum t s').1.quants.map (·.value) = [3] ∧
    (loadQuantities F quantityName true true .sum t s').1.agroups.map (·.attrs) = [[(['c'], ['m'])]] := by
  refine ⟨Demo.floats, Demo.mixed, Demo.empty, Demo.table Demo.mixed, Demo.mixed_reachable, Demo.empty_reachable,
    Demo.layout ?_ ?_ ?_, ⟨?_, ?_⟩, ?_, ?_, ?_, ?_, ?_, ?_, ?_⟩
  · decide +kernel
  · decide +kernel
  · decide +kernel
  · decide +kernel
  · decide +kernel
  · decide +kernel
  · exact Space.ok_of_toOption (by decide +kernel)
  · decide +kernel
  · exact of_toBool (by decide +kernel)
  · decide +kernel
  · decide +kernel
  · decide +kernel

/-- A label column may be named `quantity`. Then the table has two columns of this name, and the value is read as the
label: with `ignore`, loading the table into the same dataspace is refused, or stores the quantity a second time under a
wrong label. -/
theorem C67_violated_name : ∃ (F : Floats) (s : Store) (t : Table), ReachableFk s ∧ quantityName ∈ s.cols ∧
    AllRegistered s ∧ writeQuantities F s = .ok t ∧ s.locs.map (·.labels) = [[['x'], ['k']]] ∧
    (loadQuantities F quantityName false false .ignore t s).2 ≠ .ok () ∧
    (loadQuantities F quantityName true true .ignore t s).2.toOption = some () ∧
    (loadQuantities F quantityName true true .ignore t s).1.locs.map (·.labels) = [[['x'], ['k']], [['x'], F.text 1]] ∧
    (loadQuantities F quantityName true true .ignore t s).1.quants.map (·.value) = [1, 1] := by
  refine ⟨Demo.floats, Demo.named, Demo.table Demo.named, Demo.named_reachable, ?_, ?_, ?_, ?_, ?_, ?_, ?_, ?_⟩
  · decide +kernel
  · unfold AllRegistered
    decide +kernel
  · exact Space.ok_of_toOption (by decide +kernel)
  · decide +kernel
  · exact of_toBool (by decide +kernel)
  · decide +kernel
  · decide +kernel
  · decide +kernel

/-! ### The hypotheses can be met -/

example : (∃ t, writeQuantities Demo.floats Space.Demo.store = .ok t) ∧ Space.Demo.store.Anchored ∧
    [] ∉ Space.Demo.store.regAttrs.getD [] ∧ Space.Demo.store.cols ≠ [] ∧ PlainNames Space.Demo.store ∧
    AllRegistered Space.Demo.store ∧ Space.Demo.store.HasQuantity [['x'], []] [(['c'], ['m'])] 100 := by
  refine ⟨C67_written Space.Demo.reachableFk (by decide +kernel), C32_anchored Space.Demo.reachableFk, by decide +kernel,
    by decide +kernel, ⟨by decide +kernel, by decide +kernel⟩, ?_, ?_⟩
  · unfold AllRegistered
    decide +kernel
  · unfold Store.HasQuantity
    decide +kernel

example : SameLayout Space.Demo.store Demo.empty ∧ [] ∉ Demo.empty.regAttrs.getD [] ∧ Demo.empty.quants = [] :=
  ⟨Demo.layout (by decide +kernel) (by decide +kernel) (by decide +kernel), by decide +kernel, by decide +kernel⟩

end Toron.QuantCsv
