/-
Reading a dataspace and translating what was read to other dataspaces, computed with 53 significant bits (see
`Model/Binary`, `Model/BinaryRead` and, for the exact numbers, `Model/Reader`).
-/
import Verif.Model.BinaryRead
import Verif.Model.BinaryTranslate
import Verif.Model.Reader

namespace Toron.Space

open Toron.Selectors (PyStr Sel CaseMap getGreatestUniqueSpecificity)

/-- The proportion that `refresh_proportions` (`data_models.py` lines 1241-1250) stores for a mapping, from the values of
the mappings with the same link and source record. -/
def Store.computedProp (s : Store) (m : Mapping) : ℚ :=
  let total := Binary.plusAll ((s.findMaps m.link m.other).map (·.value))
  if total = 0 then Binary.fl (1 / ((s.findMaps m.link m.other).length : ℚ)) else Binary.fl (m.value / total)

/-- `quant_value * rel.proportion` (`reader.py` line 334); a NULL is a `TypeError`. `held` is the number that is stored as
the proportion of a mapping, if it is not NULL. -/
def scaleByF (held : Mapping → ℚ) (v : Option ℚ) (m : Mapping) : Except Err (List (Nat × ℚ)) :=
  match v, m.prop with
  | some v, some _ => .ok [(m.index, Binary.fl (v * held m))]
  | _, _ => .error (.typeError "unsupported operand type(s) for *")

/-- One row of `quant_data` (`reader.py` lines 318-343). -/
def Store.translateRowF (trg : Store) (held : Mapping → ℚ) (link : Nat) (quantize : Bool) (row : ReaderRow) :
    Except Err (List ReaderRow) :=
  if row.index = 0 then .ok [row]
  else do
    let items ← flatMapE (scaleByF held row.value) (trg.findMaps link row.index)
    let items ←
      if quantize then
        match row.value with
        | some v => Binary.quantizeValues items v
        | none => .error (.typeError "unsupported operand type(s) for -")
      else .ok items
    .ok (items.map fun x => ⟨x.1, row.attrs, some x.2⟩)

/-- `NodeReader.translate` (`reader.py` lines 267-350). -/
def Reader.translateF (r : Reader) (cm : CaseMap) (src trg : Store) (held : Mapping → ℚ) (quantize : Bool) :
    Except Err Reader := do
  let chooser ← trg.linkChooser src.uid (src.indexHash.map Int.ofNat)
  let links ← flatMapE (fun a => do
    let l ← getGreatestUniqueSpecificity cm a chooser.2 chooser.1
    .ok [(a, l)]) r.attrData
  let rows ← flatMapE (fun row : ReaderRow =>
    match lookupLink links row.attrs with
    | some l => trg.translateRowF held l quantize row
    | none => .ok []) r.rows
  .ok { r with rows := rows }

/-- `space(*selectors, quantize=…, sum_by_attrs=…)` (`space.py` lines 2884-2972). -/
def Store.readerF (s : Store) (cm : CaseMap) (selectors : List Sel) (quantize : Bool) (sumBy : List PyStr) :
    Except Err Reader := do
  let data ← s.callF cm selectors quantize
  .ok (Reader.new (data.map fun d => (d.1, s.keepAttrs sumBy d.2.1, some d.2.2)))

/-- A reader translated from one dataspace to the next, with exact numbers: `reader >> space >> space …`
(`NodeReader.__rshift__`, `reader.py` lines 356-359). -/
def Reader.along (cm : CaseMap) (quantize : Bool) : Store → List Store → Reader → Except Err Reader
  | _, [], r => .ok r
  | src, trg :: rest, r => do
    let r' ← r.translate cm src trg quantize
    Reader.along cm quantize trg rest r'

/-- The same with floating-point numbers. Each dataspace comes with the proportions that are stored in it. -/
def Reader.alongF (cm : CaseMap) (quantize : Bool) : Store → List (Store × (Mapping → ℚ)) → Reader → Except Err Reader
  | _, [], r => .ok r
  | src, trg :: rest, r => do
    let r' ← r.translateF cm src trg.1 trg.2 quantize
    Reader.alongF cm quantize trg.1 rest r'

/-- The dataspaces with the proportions that are computed for them (`refresh_proportions`, `data_models.py` lines 1241-1250). -/
def withProps (ts : List Store) : List (Store × (Mapping → ℚ)) := ts.map fun t => (t, t.computedProp)

end Toron.Space
