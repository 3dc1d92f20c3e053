/-
C89: units of measure do not matter. The specification (`Verif/Spec/Units.lean`) says what it means to give
all numbers of a call, and to find all numbers of a dataspace or of a result, in other units.
-/
import Verif.Lemmas.Store.UnitsRead
import Verif.Demo

namespace Toron.Space

open Toron.Selectors (PyStr Sel CaseMap)

/-- After every history of calls with all weights, mapping values and amounts given in other units, the
dataspace is the one that the same history in the old units makes, in the new units. In particular ids,
proportions, completeness and all texts are the same. -/
theorem C89_store (uid : PyStr) (ops : List Op) (u : Units) :
    run (ops.map (·.inUnits u)) (Store.new uid) = (run ops (Store.new uid)).inUnits u :=
  run_units ops (Store.new uid)

/-- Every call of the history has the same outcome in both units: it succeeds in one if and only if it
succeeds in the other, and fails with the same error. -/
theorem C89_outcomes (uid : PyStr) (ops : List Op) (u : Units) :
    outcomes (ops.map (·.inUnits u)) (Store.new uid) = outcomes ops (Store.new uid) :=
  outcomes_units ops (Store.new uid)

/-- Reading the dataspace made in other units gives the same rows, with every amount in the new unit of
amounts. The units of weights and mapping values have no influence. (`quantize=False`.) -/
theorem C89_read (uid : PyStr) (ops : List Op) (u : Units) (cm : CaseMap) (sel : List Sel) (sumBy : List PyStr) :
    (run (ops.map (·.inUnits u)) (Store.new uid)).reader cm sel false sumBy =
      ((run ops (Store.new uid)).reader cm sel false sumBy).map (Reader.inUnits u) := by
  rw [C89_store]
  exact reader_units cm sel false (by simp) sumBy

/-- If the unit of amounts stays the same, then quantized reading gives the same result too, in whatever units
the weights and the mapping values are. -/
theorem C89_quantized (uid : PyStr) (ops : List Op) (u : Units) (hu : u.amount = 1) (cm : CaseMap) (sel : List Sel)
    (q : Bool) (sumBy : List PyStr) :
    (run (ops.map (·.inUnits u)) (Store.new uid)).reader cm sel q sumBy =
      (run ops (Store.new uid)).reader cm sel q sumBy := by
  rw [C89_store, reader_units cm sel q (fun _ => hu) sumBy]
  have h : ∀ r : Reader, r.inUnits u = r := by
    intro r
    unfold Reader.inUnits
    rw [hu]
    simp
  cases (run ops (Store.new uid)).reader cm sel q sumBy with
  | error e => rfl
  | ok r => exact congrArg Except.ok (h r)

/-- Translating the result: the amounts come out in their own unit, and in whatever units the two dataspaces
store weights, mapping values and their own amounts. -/
theorem C89_translate (r : Reader) (cm : CaseMap) (uidS uidT : PyStr) (opsS opsT : List Op) (u us ut : Units) :
    (r.inUnits u).translate cm (run (opsS.map (·.inUnits us)) (Store.new uidS))
        (run (opsT.map (·.inUnits ut)) (Store.new uidT)) false =
      (r.translate cm (run opsS (Store.new uidS)) (run opsT (Store.new uidT)) false).map (Reader.inUnits u) := by
  rw [C89_store, C89_store]
  exact translate_units r u us ut cm _ _ false (by simp)

/-- Quantized translation does not depend on the units of the two dataspaces either. -/
theorem C89_translate_quantized (r : Reader) (cm : CaseMap) (uidS uidT : PyStr) (opsS opsT : List Op) (us ut : Units)
    (q : Bool) :
    r.translate cm (run (opsS.map (·.inUnits us)) (Store.new uidS)) (run (opsT.map (·.inUnits ut)) (Store.new uidT)) q =
      r.translate cm (run opsS (Store.new uidS)) (run opsT (Store.new uidT)) q := by
  rw [C89_store, C89_store]
  let one : Units := ⟨1, 1, 1, one_pos, one_pos⟩
  have h : ∀ r : Reader, r.inUnits one = r := by
    intro r
    unfold Reader.inUnits
    simp [one]
  have := translate_units r one us ut cm (run opsS (Store.new uidS)) (run opsT (Store.new uidT)) q fun _ => rfl
  rw [h] at this
  rw [this]
  cases r.translate cm (run opsS (Store.new uidS)) (run opsT (Store.new uidT)) q with
  | error e => rfl
  | ok r => exact congrArg Except.ok (h r)

/-- The table that a result prints: the same labels and attributes, each sum in the new unit. -/
theorem C89_output (r : Reader) (s : Store) (u : Units) :
    (r.inUnits u).output s = (r.output s).map (List.map fun x => (x.1, x.2.1, x.2.2.map (u.amount * ·))) :=
  output_units r

/-- Thousands of people instead of people, and other factors. -/
def Demo.units : Units := ⟨1/1000, 5, 1/100, by norm_num, by norm_num⟩

/-- The history of the demonstration in other units: the numbers differ, the proportions do not. -/
example : (run (Demo.ops.map (·.inUnits Demo.units)) (Store.new ['u'])).weights =
      [⟨1, 1, 1, 3/1000⟩, ⟨2, 1, 2, 1/1000⟩, ⟨3, 1, 3, 5/1000⟩] ∧
    (run (Demo.ops.map (·.inUnits Demo.units)) (Store.new ['u'])).maps =
      [⟨1, 1, 1, 1, [0xC0#8], 50, some (1/4)⟩, ⟨2, 1, 1, 2, [0xC0#8], 150, some (3/4)⟩,
       ⟨3, 1, 2, 3, [0xC0#8], 150, some 1⟩] := by decide +kernel

/-- Reading it gives rows; nothing fails. -/
example : ((run (Demo.ops.map (·.inUnits Demo.units)) (Store.new ['u'])).reader ⟨id, id⟩ [] false []).toOption.map
      (fun r => r.rows.map fun x => (x.index, x.value)) =
    some [(3, some (7/100)), (1, some (3/4)), (2, some (1/4))] := by decide +kernel

/-- Quantized reading is not independent of the unit of amounts: one hundred persons are divided into 75 and
25, but one hundred persons given as one "hundred" are divided into 1 and 0. -/
theorem C89_quantized_depends_on_amount_unit : ∃ uid ops, ∃ (u : Units) (cm : CaseMap),
    (((run (ops.map (·.inUnits u)) (Store.new uid)).reader cm [] true []).toOption.map fun r => r.rows.map (·.value)) =
      some [some (7/100), some 1, some 0] ∧
    (((run ops (Store.new uid)).reader cm [] true []).toOption.map fun r => (r.inUnits u).rows.map (·.value)) =
      some [some (7/100), some (75/100), some (25/100)] :=
  ⟨['u'], Demo.ops, Demo.units, ⟨id, id⟩, by decide +kernel⟩

end Toron.Space
