/-
Model of the summary of a dataspace: `get_dataspace_info_text` (`src/toron/data_service.py` lines 1143-1233), which
`DataSpace.__repr__` (`src/toron/space.py` lines 2974-3008) and the command `info` (`src/toron/cli/command_info.py`) print.

The date of creation is left out.
-/
import Verif.Model.Format
import Verif.Model.Store.Read

namespace Toron.Info

open Toron.Selectors (PyStr)
open Toron.Space
open Toron.Format (formatGranularity sortDefinitions)

/-- `', '.join(texts)`. -/
def commas : List PyStr → PyStr
  | [] => []
  | [t] => t
  | t :: ts => t ++ ',' :: ' ' :: commas ts

/-- `a <= b` for texts: the order by the codes of the characters. -/
def textLe (a b : PyStr) : Bool := decide (a.map Char.toNat ≤ b.map Char.toNat)

/-- `'None'`. -/
def noneText : PyStr := ['N', 'o', 'n', 'e']

/-- `_get_granularity` (lines 1166-1170). `num` gives the float that was stored for a granularity. -/
def granOf (num : Gran → ℚ) (s : Store) (labels : List PyStr) : Except Err (Option ℚ) :=
  if s.structs = [] then .ok none
  else match s.structByLabels labels.toFinset with
    | some r => .ok (r.gran.map num)
    | none => .error (.keyError "no structure matching labels")

/-- A line about a partition (lines 1173-1176). -/
def partLine (g : PyStr) (labels : List PyStr) : PyStr := g ++ ' ' :: ' ' :: commas labels

/-- The lines about partitions (lines 1157-1178). -/
def partitionLines (num : Gran → ℚ) (s : Store) : Except Err (List PyStr) := do
  let defs ← sortDefinitions (s.partDefs.getD []) s.displayOrder
  let grans ← defs.mapM (granOf num s)
  let texts ← formatGranularity grans
  .ok (if texts.zip defs = [] then [noneText] else (texts.zip defs).map fun p => partLine p.1 p.2)

/-- The id of the default weight group (lines 1183-1187): only `RuntimeError` is caught. -/
def defaultId (s : Store) : Except Err (Option Nat) :=
  match s.getDefaultWG with
  | .ok g => .ok (some g.id)
  | .error (.runtimeError _) => .ok none
  | .error e => .error e

/-- `' (default)'`, `' (default, incomplete)'`, `' (incomplete)'`, `''` (lines 1189-1192). -/
def groupNote (dflt : Option Nat) (g : WGroup) : PyStr :=
  if some g.id = dflt then
    if g.complete then " (default)".toList else " (default, incomplete)".toList
  else if g.complete then [] else " (incomplete)".toList

/-- The texts about weight groups (lines 1180-1196). -/
def weightTexts (s : Store) : Except Err (List PyStr) :=
  if s.wgroups.isEmpty then .ok [noneText]
  else do
    let d ← defaultId s
    .ok ((sortedBy (fun a b : WGroup => textLe a.name b.name) s.wgroups).map fun g =>
      g.name ++ groupNote d g)

/-- The note about a link (lines 1201-1208). -/
def linkNote (l : Link) : PyStr :=
  if l.isDefault then
    if l.complete then " (default)".toList else " (default, locally incomplete)".toList
  else if l.complete then [] else " (locally incomplete)".toList

/-- `sorted(links, key=lambda x: (x.other_unique_id, x.id))` (line 1210). -/
def linkLe (a b : Link) : Bool :=
  if a.other = b.other then decide (a.id ≤ b.id) else textLe a.other b.other

/-- How the other dataspace is named (lines 1214-1215). -/
def spaceRef (l : Link) : PyStr :=
  if l.hint.getD [] = [] then '[' :: l.other.take 7 ++ [']'] else l.hint.getD []

/-- The line about the links from one dataspace (lines 1212-1219). -/
def linkLine (ls : List Link) : Option PyStr :=
  match ls with
  | [] => none
  | l :: _ => some (spaceRef l ++ ':' :: ' ' ::
      commas (sortedBy textLe (ls.map fun x => x.name ++ linkNote x)))

/-- The lines about links (lines 1198-1221). The links are sorted, so that `groupby` gives one group for each dataspace. -/
def linkLines (s : Store) : List PyStr :=
  if s.links.isEmpty then [noneText]
  else
    let sorted := sortedBy linkLe s.links
    (distinct (sorted.map (·.other))).filterMap fun o => linkLine (sorted.filter fun l => decide (l.other = o))

/-- The summary. -/
structure Info where
  domain : PyStr
  partitions : List PyStr
  weights : List PyStr
  links : List PyStr
  deriving DecidableEq, Repr

/-- `get_dataspace_info_text` (lines 1143-1233). -/
def infoText (num : Gran → ℚ) (s : Store) : Except Err Info := do
  let parts ← partitionLines num s
  let weights ← weightTexts s
  .ok ⟨if s.getDomain = [] then noneText else s.getDomain, parts, weights, linkLines s⟩

end Toron.Info
