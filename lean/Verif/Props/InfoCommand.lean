/-
C116: the command `info` shows the registered attributes and which of them have data.
-/
import Verif.Lemmas.InfoCommand
import Verif.Props.Info

namespace Toron.Info

open Toron.Selectors (PyStr)
open Toron.Space Toron.Spec Toron.QuantCsv

theorem infoText_nonempty {num : Gran → ℚ} {s : Store} {i : Info} (h : infoText num s = .ok i) :
    i.partitions ≠ [] ∧ i.links ≠ [] := by
  unfold infoText at h
  cases hp : partitionLines num s with
  | error e => rw [hp] at h; cases h
  | ok parts =>
    rw [hp] at h
    cases hw : weightTexts s with
    | error e => rw [hw] at h; cases h
    | ok w =>
      rw [hw] at h
      cases h
      refine ⟨?_, ?_⟩
      · show parts ≠ []
        unfold partitionLines at hp
        cases h1 : Format.sortDefinitions (s.partDefs.getD []) s.displayOrder with
        | error e => rw [h1] at hp; cases hp
        | ok defs =>
          rw [h1] at hp
          change (defs.mapM (granOf num s) >>= fun grans => _) = _ at hp
          cases h2 : defs.mapM (granOf num s) with
          | error e => rw [h2] at hp; cases hp
          | ok grans =>
            rw [h2] at hp
            change (Format.formatGranularity grans >>= fun texts => _) = _ at hp
            cases h3 : Format.formatGranularity grans with
            | error e => rw [h3] at hp; cases hp
            | ok texts =>
              rw [h3] at hp
              change Except.ok _ = _ at hp
              cases hp
              split
              · simp
              · rename_i hz
                rw [ne_eq, List.map_eq_nil_iff]
                exact hz
      · show linkLines s ≠ []
        by_cases hl : s.links = []
        · rw [C75_none.2 hl]; simp
        · obtain ⟨os, _, hos, _, hf⟩ := C75_links hl
          intro h0
          rw [h0] at hf
          cases hf
          obtain ⟨l, hl⟩ := List.exists_mem_of_ne_nil _ hl
          exact absurd ((hos l.other).2 ⟨l, hl, rfl⟩) (by simp)

theorem outputText_eq (st : Style) (filename : PyStr) (columns : Nat) (created : PyStr) {i : Info} (attrs : List PyStr)
    (hp : i.partitions ≠ []) (hl : i.links ≠ []) :
    outputText st filename columns created i attrs =
      asText (reportLines st (rule filename columns) filename i.domain i.partitions (commas i.weights) (orNone (commas attrs))
        i.links created) := by
  obtain ⟨p, ps, hp⟩ := List.exists_cons_of_ne_nil hp
  obtain ⟨l, ls, hl⟩ := List.exists_cons_of_ne_nil hl
  have hind : ∀ ts : List PyStr, (ts.map fun l => ' ' :: ' ' :: l).flatMap (fun l => l ++ ['\n']) =
      ts.flatMap fun l => ' ' :: ' ' :: l ++ ['\n'] := by
    intro ts
    induction ts with
    | nil => rfl
    | cons t ts ih => rw [List.map_cons, List.flatMap_cons, ih, List.flatMap_cons]
  have e1 : "\n".toList = ['\n'] := by decide +kernel
  have e2 : "  ".toList = [' ', ' '] := by decide +kernel
  have e3 : ":".toList = [':'] := by decide +kernel
  have t1 : "domain".toList = ['d', 'o', 'm', 'a', 'i', 'n'] := by decide +kernel
  have t2 : "partitions".toList = ['p', 'a', 'r', 't', 'i', 't', 'i', 'o', 'n', 's'] := by decide +kernel
  have t3 : "weights".toList = ['w', 'e', 'i', 'g', 'h', 't', 's'] := by decide +kernel
  have t4 : "attributes".toList = ['a', 't', 't', 'r', 'i', 'b', 'u', 't', 'e', 's'] := by decide +kernel
  have t5 : "incoming links".toList = ['i', 'n', 'c', 'o', 'm', 'i', 'n', 'g', ' ', 'l', 'i', 'n', 'k', 's'] := by
    decide +kernel
  have t6 : "created".toList = ['c', 'r', 'e', 'a', 't', 'e', 'd'] := by decide +kernel
  unfold asText reportLines sectionLines outputText
  rw [e1, e2, e3, t1, t2, t3, t4, t5, t6, hp, hl]
  simp only [List.flatMap_append, List.flatMap_cons, List.flatMap_nil, List.map_nil, List.cons_append, List.nil_append,
    List.append_nil, hind, List.map_cons, List.append_assoc]
  have hj : ∀ t : PyStr, ∀ ts : List PyStr, ∀ rest : PyStr, ' ' :: ' ' :: (t ++ '\n' :: (ts.flatMap (fun l => ' ' :: ' ' :: (l ++ ['\n'])) ++ rest)) =
      ' ' :: ' ' :: (indentJoin (t :: ts) ++ '\n' :: rest) := by
    intro t ts rest
    have := congrArg (· ++ rest) (indentJoin_text t ts)
    simp only [List.flatMap_cons, List.cons_append, List.append_assoc, List.nil_append] at this
    exact this.symm
  rw [hj p ps, hj l ls]

theorem loadedAttributes_ok {s : Store} (h : AllRegistered s) :
    loadedAttributes (s.regAttrs.getD []) s =
      .ok ((s.regAttrs.getD []).filter fun a => decide (a ∈ s.attrNames)) := by
  unfold loadedAttributes
  rw [if_pos]
  rw [List.all_eq_true]
  intro a ha
  rw [decide_eq_true_eq]
  exact registered_iff.1 h a ha

theorem joined_nil {ts : List PyStr} (h : ts ≠ [[]]) : joined ts = [] ↔ ts = [] := by
  rw [← commas_eq]
  match ts with
  | [] => simp [commas]
  | [t] =>
    have : t ≠ [] := fun h0 => h (by rw [h0])
    simp [commas, this]
  | t :: u :: ts => simp [commas]

/-- **C116** If every attribute in use is registered, then `info` writes a report: the parts of the summary (C75), and all
registered attributes in their order, in dim style exactly if no stored quantity has the attribute. -/
theorem C116_attributes {s : Store} (hr : Reachable s) (ha : AllRegistered s) (hne : s.regAttrs.getD [] ≠ [[]])
    {num : Gran → ℚ} {i : Info}
    (hi : infoText num s = .ok i) (st : Style) (filename : PyStr) (columns : Nat) (created : PyStr) :
    ∃ texts : List PyStr,
      List.Forall₂ (fun a t => (Loaded s a → t = a) ∧ (¬ Loaded s a → t = st.dim ++ a ++ st.reset))
        (s.regAttrs.getD []) texts ∧
      infoOutput num st filename columns created s = .ok (asText (reportLines st (rule filename columns) filename i.domain
        i.partitions (joined i.weights) (if texts = [] then "None".toList else joined texts) i.links created)) := by
  refine ⟨attributeTexts st (s.regAttrs.getD []) ((s.regAttrs.getD []).filter fun a => decide (a ∈ s.attrNames)), ?_, ?_⟩
  · unfold attributeTexts
    rw [List.forall₂_map_right_iff]
    refine List.forall₂_same.2 fun a hmem => ⟨fun h => ?_, fun h => ?_⟩
    · rw [if_pos]
      exact List.mem_filter.2 ⟨hmem, decide_eq_true ((loaded_iff hr).2 h)⟩
    · rw [if_neg]
      intro hx
      exact h ((loaded_iff hr).1 (of_decide_eq_true (List.mem_filter.1 hx).2))
  · obtain ⟨hp, hl⟩ := infoText_nonempty hi
    have hn : "None".toList = noneText := by decide +kernel
    unfold infoOutput
    rw [hi]
    change (loadedAttributes (s.regAttrs.getD []) s >>= fun loaded => _) = _
    rw [loadedAttributes_ok ha]
    change Except.ok _ = _
    rw [outputText_eq _ _ _ _ _ hp hl, commas_eq, commas_eq, hn]
    congr 3
    unfold orNone
    refine if_congr (joined_nil ?_) rfl rfl
    intro h
    unfold attributeTexts at h
    obtain ⟨a, rest, hreg⟩ := List.exists_cons_of_ne_nil (l := s.regAttrs.getD []) (by rintro h0; rw [h0] at h; cases h)
    rw [hreg] at h hne
    rw [List.map_cons, List.cons.injEq, List.map_eq_nil_iff] at h
    obtain ⟨h1, rfl⟩ := h
    have ha : a = [] := by
      split at h1
      · exact h1
      · rw [List.append_eq_nil_iff, List.append_eq_nil_iff] at h1
        exact h1.1.2
    exact hne (by rw [ha])

/-- Otherwise it fails, with an error that the command line does not turn into a message. -/
theorem C116_fails {s : Store} {num : Gran → ℚ} {i : Info} (hi : infoText num s = .ok i) (st : Style) (filename : PyStr)
    (columns : Nat) (created : PyStr) :
    infoOutput num st filename columns created s = .error (.runtimeError "node contains unregistered attributes") ↔
      ¬ AllRegistered s := by
  constructor
  · intro h ha
    unfold infoOutput at h
    rw [hi] at h
    change (loadedAttributes (s.regAttrs.getD []) s >>= fun loaded => _) = _ at h
    rw [loadedAttributes_ok ha] at h
    cases h
  · intro h
    unfold infoOutput
    rw [hi]
    change (loadedAttributes (s.regAttrs.getD []) s >>= fun loaded => _) = _
    have : loadedAttributes (s.regAttrs.getD []) s = .error (.runtimeError "node contains unregistered attributes") := by
      unfold loadedAttributes
      rw [if_neg]
      intro hall
      refine h (registered_iff.2 fun a ha => ?_)
      exact of_decide_eq_true (List.all_eq_true.1 hall a ha)
    rw [this]
    rfl

/-- In histories that register attributes only in addition to those that are registered, and load only quantities with
registered attributes, every attribute in use is registered. -/
theorem C116_registered_partial {s : Store} (h : ReachableRegistering s) : AllRegistered s := registering_registered h

/-- So `info` writes a report for every dataspace with such a history, if its summary can be made (see C75). -/
theorem C116_report_partial {s : Store} (h : ReachableRegistering s) (hk : ReachableKeeping s) (hs : ReachableShown s)
    (hd : ReachableDefaulted s) (num : Gran → ℚ)
    (hnum : ∀ a b : ℚ, (a = 0 ∨ ∃ r ∈ s.structs, r.gran.map num = some a) →
      (b = 0 ∨ ∃ r ∈ s.structs, r.gran.map num = some b) → a ≠ b → 1 / 10 ^ 17 < |a - b|)
    (st : Style) (filename : PyStr) (columns : Nat) (created : PyStr) :
    ∃ text, infoOutput num st filename columns created s = .ok text := by
  obtain ⟨i, hi, _⟩ := C75_summary_partial hk hs hd num hnum
  unfold infoOutput
  rw [hi]
  change ∃ text, (loadedAttributes (s.regAttrs.getD []) s >>= fun loaded => _) = _
  rw [loadedAttributes_ok (C116_registered_partial h)]
  exact ⟨_, rfl⟩

/-- The rule below and above the name of the file is as long as the name, but shorter than a line of the terminal. -/
theorem C116_rule (filename : PyStr) (columns : Nat) :
    (rule filename columns).length = min filename.length (columns - 1) ∧ ∀ c ∈ rule filename columns, c = '─' := by
  unfold rule
  refine ⟨?_, fun c hc => (List.mem_replicate.1 hc).2⟩
  rw [List.length_replicate]
  omega

namespace Demo

open Toron.Space.Demo

/-- Quantities are loaded, then an attribute is added that has no data. -/
def twoAttrs : Store := run (ops ++ [.setRegisteredAttributes [['d'], ['c']]]) (Store.new ['u'])

/-- Quantities are loaded, then the attributes are replaced. -/
def replaced : Store := run (ops ++ [.setRegisteredAttributes [['d']]]) (Store.new ['u'])

/-- Quantities are loaded with an attribute that is not registered. -/
def oldLoaded : Store := run (ops ++ [.insertQuantities [['e']] [⟨none, [lx, l2], [(['e'], ['m'])], 3⟩]]) (Store.new ['u'])

/-- A report can be made, with one attribute dim. -/
example : Reachable twoAttrs ∧ AllRegistered twoAttrs ∧ twoAttrs.regAttrs.getD [] = [['d'], ['c']] ∧
    (infoText (fun _ => 1) twoAttrs).toBool ∧ (loadedAttributes (twoAttrs.regAttrs.getD []) twoAttrs).toOption = some [['c']] := by
  refine ⟨⟨_, _, rfl⟩, ?_, by decide +kernel, by decide +kernel, by decide +kernel⟩
  unfold AllRegistered
  decide +kernel

/-- A check of a call. -/
def registers (s : Store) : Op → Bool
  | .setRegisteredAttributes as => (s.regAttrs.getD []).all fun a => decide (a ∈ as)
  | .insertQuantities names _ => names.all fun a => decide (a ∈ s.regAttrs.getD [])
  | _ => true

/-- A check of a history, call by call. -/
def registersAll : List Op → Store → Bool
  | [], _ => true
  | op :: ops, s => registers s op && registersAll ops (step op s).1

theorem registering_of_check {ops : List Op} {s : Store} (h : registersAll ops s = true) :
    ∀ pre op post, ops = pre ++ op :: post → Registering (run pre s) op := by
  induction ops generalizing s with
  | nil => intro pre op post he; simp at he
  | cons o ops ih =>
    intro pre op post he
    rw [registersAll, Bool.and_eq_true] at h
    cases pre with
    | nil =>
      cases he
      obtain ⟨h, _⟩ := h
      cases o with
      | setRegisteredAttributes as => exact fun a ha => of_decide_eq_true (List.all_eq_true.1 h a ha)
      | insertQuantities names _ => exact fun a ha => of_decide_eq_true (List.all_eq_true.1 h a ha)
      | _ => trivial
    | cons x pre =>
      cases he
      exact ih h.2 pre op post rfl

/-- The history of this dataspace only adds attributes. -/
example : ReachableRegistering twoAttrs := by
  refine ⟨_, _, ?_, rfl⟩
  exact registering_of_check (by decide +kernel)

end Demo

/-- If the registered attributes are replaced after quantities were loaded, `info` fails although nothing else is wrong:
the summary itself can be made. -/
theorem C116_violated_replaced : ∃ s, Reachable s ∧ ∃ num i, infoText num s = .ok i ∧ ∀ st filename columns created,
    infoOutput num st filename columns created s = .error (.runtimeError "node contains unregistered attributes") := by
  refine ⟨Demo.replaced, ⟨_, _, rfl⟩, fun _ => 1, ?_⟩
  have h : (infoText (fun _ => 1) Demo.replaced).toBool = true := by decide +kernel
  have hn : ¬ AllRegistered Demo.replaced := by
    unfold AllRegistered
    decide +kernel
  cases hi : infoText (fun _ => 1) Demo.replaced with
  | error e => rw [hi] at h; cases h
  | ok i => exact ⟨i, rfl, fun st f c d => (C116_fails hi st f c d).2 hn⟩

/-- The same after `insert_quantities` was used with an attribute that is not registered, which it accepts. -/
theorem C116_violated_old : ∃ s, Reachable s ∧ ∃ num i, infoText num s = .ok i ∧ ∀ st filename columns created,
    infoOutput num st filename columns created s = .error (.runtimeError "node contains unregistered attributes") := by
  refine ⟨Demo.oldLoaded, ⟨_, _, rfl⟩, fun _ => 1, ?_⟩
  have h : (infoText (fun _ => 1) Demo.oldLoaded).toBool = true := by decide +kernel
  have hn : ¬ AllRegistered Demo.oldLoaded := by
    unfold AllRegistered
    decide +kernel
  cases hi : infoText (fun _ => 1) Demo.oldLoaded with
  | error e => rw [hi] at h; cases h
  | ok i => exact ⟨i, rfl, fun st f c d => (C116_fails hi st f c d).2 hn⟩

end Toron.Info
