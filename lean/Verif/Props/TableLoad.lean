/-
C99: the form of a table does not matter.
-/
import Verif.Lemmas.TableLoad
import Verif.Demo

namespace Toron.TableLoad

open Toron.Selectors (PyStr)
open Toron.Tabular (Cell DictRow Table)
open Toron.Space
open Toron.IndexCsv (idName)
open Toron.QuantCsv (domainName)

variable {rd : Reads} {t t1 t2 : Table} {columns c1 c2 : Option (List PyStr)} {header header1 header2 : List PyStr}
  {rows rows1 rows2 : List (List Cell)} {s : Store}

/-- The columns that are columns of weight groups. -/
def isGroup (s : Store) (weights : Option (List PyStr)) (n : PyStr) : Bool :=
  match weights with
  | none => (s.findWGroup n).isSome
  | some l => decide (n ∈ l)

/-- Whatever form a table has, the same rows and column names are taken from it. -/
theorem C99_forms (hp : Proper header rows) (h : Form t columns header rows) : normalize t columns = (rows, header) :=
  normalize_form hp h

/-- `insert_index` depends only on what the rows say in the label columns, the weight columns and `index_id`, not on the
order or number of the other columns or the form of the table. -/
theorem C99_insert_index (hp : Proper header rows) (hf : Form t columns header rows) (hcols : s.cols ≠ [])
    {weights : Option (List PyStr)} (hw : ∀ n ∈ weights.getD [], n ∈ header)
    (hall : (∀ c ∈ s.cols, c ∈ header) ∨ ∀ c ∈ s.cols, c ∉ header) {R : List IndexRow}
    (h : List.Forall₂ (SaysIndex rd s.cols (header.filter (isGroup s weights)) header) rows R) (pl pw : Policy) :
    insertIndexTable rd t columns weights pl pw s = step (.insertIndex weights (header.filter (isGroup s weights)) pl pw R) s := by
  unfold insertIndexTable
  rw [normalize_form hp hf]
  obtain ⟨os, h1, h2⟩ := mapM_indexRow (groups := isGroup s weights) hp.names hp.nonempty hcols hp.full h
  have hnot : ¬ ((header.any fun h => decide (h ∈ s.cols)) = true ∧ ¬ ∀ c ∈ s.cols, c ∈ header) := by
    rintro ⟨h3, h4⟩
    rcases hall with h5 | h5
    · exact h4 h5
    · obtain ⟨x, h6, h7⟩ := List.any_eq_true.1 h3
      exact h5 x (by simpa using h7) h6
  dsimp only
  rw [if_neg (fun h => h hw), if_neg hcols, if_neg hnot]
  show (match rows.mapM (indexRow rd s.cols (isGroup s weights) header) with | .error e => _ | .ok rows => _) = _
  rw [h1]
  show runTx (insertIndex _ _ _ _ _) s = runTx (insertIndex _ _ _ _ _) s
  rw [h2]
  exact congrArg (runTx · s) (insertIndex_skip weights (header.filter (isGroup s weights)) pl pw R)

/-- So two tables that say the same lead to the same dataspace and the same error. (The weight columns have to be in the
same order among themselves: otherwise the weights get other row ids.) -/
theorem C99_insert_index_same_partial (hp1 : Proper header1 rows1) (hf1 : Form t1 c1 header1 rows1) (hp2 : Proper header2 rows2)
    (hf2 : Form t2 c2 header2 rows2) (hcols : s.cols ≠ [])
    {weights : Option (List PyStr)} (hw1 : ∀ n ∈ weights.getD [], n ∈ header1) (hw2 : ∀ n ∈ weights.getD [], n ∈ header2)
    (hall1 : (∀ c ∈ s.cols, c ∈ header1) ∨ ∀ c ∈ s.cols, c ∉ header1)
    (hall2 : (∀ c ∈ s.cols, c ∈ header2) ∨ ∀ c ∈ s.cols, c ∉ header2) {R : List IndexRow}
    (horder : header1.filter (isGroup s weights) = header2.filter (isGroup s weights))
    (h1 : List.Forall₂ (SaysIndex rd s.cols (header1.filter (isGroup s weights)) header1) rows1 R)
    (h2 : List.Forall₂ (SaysIndex rd s.cols (header2.filter (isGroup s weights)) header2) rows2 R) (pl pw : Policy) :
    insertIndexTable rd t1 c1 weights pl pw s = insertIndexTable rd t2 c2 weights pl pw s := by
  rw [C99_insert_index hp1 hf1 hcols hw1 hall1 h1, C99_insert_index hp2 hf2 hcols hw2 hall2 h2, horder]

/-- `update_index` depends only on the ids and labels of the rows, if no other cell is an empty text and (with
`merge_on_conflict`) the ids are numbers. -/
theorem C99_update_index_partial (hp : Proper header rows) (hf : Form t columns header rows) (hid : idName ∈ header)
    (hcols : ∀ c ∈ s.cols, c ∈ header) {merge : Bool} {R : List (Nat × List PyStr)}
    (h : List.Forall₂ (SaysRecord rd s.cols header) rows R)
    (hempty : List.Forall₂ (fun row r => Cell.text [] ∈ row → [] ∈ r.2) rows R)
    (hnum : merge = true → List.Forall₂ (fun row r => ∀ c, Has header row idName c → c = .num r.1) rows R) :
    updateIndexTable rd t columns merge s = step (.updateIndex merge R) s := by
  unfold updateIndexTable
  rw [normalize_form hp hf]
  dsimp only
  rw [if_neg (fun h => h hid), if_neg (fun h => h hcols)]
  have h2 : List.Forall₂ (UpdateRow rd merge s.cols header) rows R := by
    clear hp hf
    induction h with
    | nil => exact .nil
    | cons h1 _ ih =>
      cases hempty with
      | cons e1 e2 =>
        refine .cons ⟨h1, e1, fun hm => ?_⟩ (ih e2 fun hm => ?_)
        · cases hnum hm with
          | cons n1 n2 => exact n1
        · cases hnum hm with
          | cons n1 n2 => exact n2
  show runTx _ s = runTx (updateIndex merge R) s
  unfold updateIndex
  refine runTx_same (bind_left ?_)
  refine foldlM_same (P := fun (acc : UpdateAcc) _ => merge = false → acc.merged = []) ?_ ?_ h2 ⟨[], false⟩ s fun _ => rfl
  · intro b _ _ s hr ha
    exact updateIndexCells_same hp.names hr b ha s
  · intro b c s b' s' ha hst hm
    subst hm
    exact updateIndexRow_merged hst (ha rfl)

theorem C99_update_index_same_partial (hp1 : Proper header1 rows1) (hf1 : Form t1 c1 header1 rows1) (hp2 : Proper header2 rows2)
    (hf2 : Form t2 c2 header2 rows2) (hid1 : idName ∈ header1) (hid2 : idName ∈ header2)
    (hcols1 : ∀ c ∈ s.cols, c ∈ header1) (hcols2 : ∀ c ∈ s.cols, c ∈ header2) {R : List (Nat × List PyStr)}
    (h1 : List.Forall₂ (SaysRecord rd s.cols header1) rows1 R) (h2 : List.Forall₂ (SaysRecord rd s.cols header2) rows2 R)
    (hempty1 : List.Forall₂ (fun row r => Cell.text [] ∈ row → [] ∈ r.2) rows1 R)
    (hempty2 : List.Forall₂ (fun row r => Cell.text [] ∈ row → [] ∈ r.2) rows2 R) :
    updateIndexTable rd t1 c1 false s = updateIndexTable rd t2 c2 false s := by
  rw [C99_update_index_partial hp1 hf1 hid1 hcols1 h1 hempty1 (fun h => by cases h),
    C99_update_index_partial hp2 hf2 hid2 hcols2 h2 hempty2 (fun h => by cases h)]

theorem Form.not_empty (hf : Form t columns header rows) (h : rows ≠ []) : isEmptyList t = false := by
  cases hf with
  | headed => rfl
  | named =>
    cases rows with
    | nil => exact absurd rfl h
    | cons _ _ => rfl
  | dicts => rfl
  | dictsNamed _ _ ds h2 =>
    cases h2 with
    | nil => exact absurd rfl h
    | cons _ _ => rfl

/-- `delete_index` depends only on the ids and labels of the rows. -/
theorem C99_delete_index (hp : Proper header rows) (hf : Form t columns header rows) (hid : idName ∈ header)
    (hcols : ∀ c ∈ s.cols, c ∈ header) {R : List (Nat × List PyStr)} (hne : R ≠ [])
    (h : List.Forall₂ (SaysRecord rd s.cols header) rows R) :
    deleteIndexTable rd t columns s = step (.deleteIndex (.rows R)) s := by
  have hrows : rows ≠ [] := by
    rintro rfl
    cases h
    exact hne rfl
  unfold deleteIndexTable
  rw [normalize_form hp hf]
  dsimp only
  rw [if_neg (by rw [hf.not_empty hrows]; simp), if_neg (fun h => h hid), if_neg (fun h => h hcols)]
  show runTx _ s = runTx (deleteIndex (.rows R)) s
  unfold deleteIndex
  rw [if_neg (by cases R with | nil => exact absurd rfl hne | cons _ _ => simp [Target.isEmpty])]
  refine runTx_same (bind_left ?_)
  refine foldlM_same (P := fun _ _ => True) ?_ (fun _ _ _ _ _ _ _ => trivial) h false s trivial
  intro b _ _ s hr _
  exact deleteIndexCells_same hp.names hr b s

theorem C99_delete_index_same (hp1 : Proper header1 rows1) (hf1 : Form t1 c1 header1 rows1) (hp2 : Proper header2 rows2)
    (hf2 : Form t2 c2 header2 rows2) (hid1 : idName ∈ header1) (hid2 : idName ∈ header2)
    (hcols1 : ∀ c ∈ s.cols, c ∈ header1) (hcols2 : ∀ c ∈ s.cols, c ∈ header2) {R : List (Nat × List PyStr)} (hne : R ≠ [])
    (h1 : List.Forall₂ (SaysRecord rd s.cols header1) rows1 R) (h2 : List.Forall₂ (SaysRecord rd s.cols header2) rows2 R) :
    deleteIndexTable rd t1 c1 s = deleteIndexTable rd t2 c2 s := by
  rw [C99_delete_index hp1 hf1 hid1 hcols1 hne h1, C99_delete_index hp2 hf2 hid2 hcols2 hne h2]

/-- The name of the value column of `insert_weights` and `update_weights`. -/
def valueName (name : PyStr) (value : Option PyStr) : PyStr := if value.getD [] = [] then name else value.getD []

/-- `insert_weights` depends only on what the rows say. -/
theorem C99_insert_weights (hr : Reachable s) (hp : Proper header rows) (hf : Form t columns header rows)
    (hcols : ∀ c ∈ s.cols, c ∈ header) {name : PyStr} {value : Option PyStr} (hv : valueName name value ∉ s.cols)
    (hvi : valueName name value ≠ idName) {R : List WeightRow}
    (h : List.Forall₂ (SaysWeight rd s.cols header (valueName name value)) rows R) (p : Policy) :
    insertWeightsTable rd name t columns value p s = step (.insertWeights name p R) s := by
  unfold insertWeightsTable
  rw [normalize_form hp hf]
  dsimp only
  show _ = runTx (insertWeights name p R) s
  unfold insertWeights
  by_cases ho : p = .other
  · rw [if_pos ho, if_pos ho]
    rfl
  rw [if_neg ho, if_neg (fun h => h hcols), if_neg ho]
  refine runTx_same (bind_same fun g s' hg => bind_left ?_)
  have hs : s'.index = s.index := ((wgroupGetOrAdd_does name).steps _ _ _ hg).index_eq (by decide)
  refine foldlM_same (P := fun _ s' => ∀ x ∈ s'.index, x.labels.length = s.cols.length) ?_ ?_ h false s'
    (by rw [hs]; exact hr.indexInv.lens)
  · intro b _ _ s hr' hs
    exact insertWeightCells_same hp.names hv hvi hr' g.id p b hs
  · intro b c s b' s' hs hst
    rw [((insertWeightRow_does ..).steps _ _ _ hst).index_eq (by decide)]
    exact hs

theorem C99_insert_weights_same (hr : Reachable s) (hp1 : Proper header1 rows1) (hf1 : Form t1 c1 header1 rows1)
    (hp2 : Proper header2 rows2) (hf2 : Form t2 c2 header2 rows2) (hcols1 : ∀ c ∈ s.cols, c ∈ header1)
    (hcols2 : ∀ c ∈ s.cols, c ∈ header2) {name : PyStr} {v1 v2 : Option PyStr} (hv1 : valueName name v1 ∉ s.cols)
    (hvi1 : valueName name v1 ≠ idName) (hv2 : valueName name v2 ∉ s.cols) (hvi2 : valueName name v2 ≠ idName)
    {R : List WeightRow} (h1 : List.Forall₂ (SaysWeight rd s.cols header1 (valueName name v1)) rows1 R)
    (h2 : List.Forall₂ (SaysWeight rd s.cols header2 (valueName name v2)) rows2 R) (p : Policy) :
    insertWeightsTable rd name t1 c1 v1 p s = insertWeightsTable rd name t2 c2 v2 p s := by
  rw [C99_insert_weights hr hp1 hf1 hcols1 hv1 hvi1 h1, C99_insert_weights hr hp2 hf2 hcols2 hv2 hvi2 h2]

/-- `update_weights` depends only on the ids, labels and values of the rows. -/
theorem C99_update_weights (hr : Reachable s) (hp : Proper header rows) (hf : Form t columns header rows) (hid : idName ∈ header)
    (hcols : ∀ c ∈ s.cols, c ∈ header) {name : PyStr} {value : Option PyStr} (hv : valueName name value ∈ header)
    {R : List (Nat × List PyStr × ℚ)}
    (h : List.Forall₂ (fun row r => SaysRecord rd s.cols header row (r.1, r.2.1) ∧
      ∃ c, Has header row (valueName name value) c ∧ rd.sqlOf c = some r.2.2) rows R) :
    updateWeightsTable rd name t columns value s = step (.updateWeights name R) s := by
  unfold updateWeightsTable
  rw [normalize_form hp hf]
  dsimp only
  show _ = runTx (updateWeights name R) s
  unfold updateWeights
  rw [if_neg (fun h => h hid), if_neg (fun h => h hv), if_neg (fun h => h hcols)]
  refine runTx_same (bind_same fun g s' hg => bind_left ?_)
  have hs : s'.index = s.index := ((wgroupGetByName_does name).steps _ _ _ hg).index_eq (by decide)
  refine foldlM_same (P := fun _ s' => ∀ x ∈ s'.index, x.labels.length = s.cols.length) ?_ ?_ h false s'
    (by rw [hs]; exact hr.indexInv.lens)
  · intro b _ _ s hr' hs
    exact updateWeightCells_same hp.names hr'.1 hr'.2 g.id b hs
  · intro b c s b' s' hs hst
    rw [((updateWeightRow_does ..).steps _ _ _ hst).index_eq (by decide)]
    exact hs

theorem C99_update_weights_same (hr : Reachable s) (hp1 : Proper header1 rows1) (hf1 : Form t1 c1 header1 rows1)
    (hp2 : Proper header2 rows2) (hf2 : Form t2 c2 header2 rows2) (hid1 : idName ∈ header1) (hid2 : idName ∈ header2)
    (hcols1 : ∀ c ∈ s.cols, c ∈ header1) (hcols2 : ∀ c ∈ s.cols, c ∈ header2) {name : PyStr} {v1 v2 : Option PyStr}
    (hv1 : valueName name v1 ∈ header1) (hv2 : valueName name v2 ∈ header2) {R : List (Nat × List PyStr × ℚ)}
    (h1 : List.Forall₂ (fun row r => SaysRecord rd s.cols header1 row (r.1, r.2.1) ∧
      ∃ c, Has header1 row (valueName name v1) c ∧ rd.sqlOf c = some r.2.2) rows1 R)
    (h2 : List.Forall₂ (fun row r => SaysRecord rd s.cols header2 row (r.1, r.2.1) ∧
      ∃ c, Has header2 row (valueName name v2) c ∧ rd.sqlOf c = some r.2.2) rows2 R) :
    updateWeightsTable rd name t1 c1 v1 s = updateWeightsTable rd name t2 c2 v2 s := by
  rw [C99_update_weights hr hp1 hf1 hid1 hcols1 hv1 h1, C99_update_weights hr hp2 hf2 hid2 hcols2 hv2 h2]

/-- `insert_quantities2` depends only on what the rows say. -/
theorem C99_insert_quantities (hp : Proper header rows) (hf : Form t columns header rows) (hreg : s.regAttrs.getD [] ≠ [])
    (hcols : ∀ c ∈ s.cols, c ∈ header) {value : PyStr} (hv : value ∈ header) {R : List QuantRow}
    (h : List.Forall₂ (SaysQuantity rd s.cols (s.regAttrs.getD []) header value) rows R) (al ap : Bool) (p : Policy) :
    insertQuantitiesTable rd value t columns al ap p s = step (.insertQuantities2 al ap p R) s := by
  unfold insertQuantitiesTable
  rw [normalize_form hp hf]
  dsimp only
  have hc : ∀ c ∈ s.cols ++ [value], c ∈ header := by
    intro c hc
    rcases List.mem_append.1 hc with hc | hc
    · exact hcols c hc
    · rw [List.mem_singleton.1 hc]
      exact hv
  rw [if_neg hreg, if_neg (fun h => h hc)]
  have h1 : rows.mapM (quantRow rd s.cols ((s.regAttrs.getD []).filter fun a => decide (a ∈ header)) value header) =
      .ok (R.map fun r => if r.attrs.all fun kv => decide (kv.2 = []) then { r with value := 0 } else r) := by
    refine mapM_ok ?_
    rw [List.forall₂_map_right_iff]
    exact h.imp fun row r hr => quantRow_says hp.names hr
  rw [h1]
  show runTx (insertQuantities2 al ap p _) s = runTx (insertQuantities2 al ap p R) s
  congr 1
  unfold insertQuantities2
  have h2 : ∀ R : List QuantRow,
      (R.map fun r => if r.attrs.all fun kv => decide (kv.2 = []) then { r with value := 0 } else r).forM
        (insertQuantity2Row al ap p) = R.forM (insertQuantity2Row al ap p) := by
    intro R
    induction R with
    | nil => rfl
    | cons r R ih =>
      rw [List.map_cons]
      show (insertQuantity2Row al ap p _ >>= fun _ => List.forM _ _) = (insertQuantity2Row al ap p r >>= fun _ => List.forM _ _)
      rw [ih, insertQuantity2Row_value]
  rw [h2]

theorem C99_insert_quantities_same (hp1 : Proper header1 rows1) (hf1 : Form t1 c1 header1 rows1) (hp2 : Proper header2 rows2)
    (hf2 : Form t2 c2 header2 rows2) (hreg : s.regAttrs.getD [] ≠ []) (hcols1 : ∀ c ∈ s.cols, c ∈ header1)
    (hcols2 : ∀ c ∈ s.cols, c ∈ header2) {v1 v2 : PyStr} (hv1 : v1 ∈ header1) (hv2 : v2 ∈ header2) {R : List QuantRow}
    (h1 : List.Forall₂ (SaysQuantity rd s.cols (s.regAttrs.getD []) header1 v1) rows1 R)
    (h2 : List.Forall₂ (SaysQuantity rd s.cols (s.regAttrs.getD []) header2 v2) rows2 R) (al ap : Bool) (p : Policy) :
    insertQuantitiesTable rd v1 t1 c1 al ap p s = insertQuantitiesTable rd v2 t2 c2 al ap p s := by
  rw [C99_insert_quantities hp1 hf1 hreg hcols1 hv1 h1, C99_insert_quantities hp2 hf2 hreg hcols2 hv2 h2]

/-! ### Where the form matters -/

/-- Numbers are read from texts of one digit. -/
def digitReads : Reads where
  int := fun t => match t with
    | [c] => if c.isDigit then some (c.toNat - 48 : Nat) else none
    | _ => none
  float := fun t => match t with
    | [c] => if c.isDigit then some ((c.toNat - 48 : Nat) : ℚ) else none
    | _ => none
  sql := fun t => match t with
    | [c] => if c.isDigit then some ((c.toNat - 48 : Nat) : ℚ) else none
    | _ => none

/-- `update_index` passes over a row if *any* cell is an empty text, also one of a column that has nothing to do with the
dataspace: here the label of record 3 is changed, but not if the table has a column of notes in which the cell is empty. -/
theorem C99_update_empty_violated :
    ((updateIndexTable digitReads (.seqs [[.num 3, .text Demo.ly, .text Demo.l2]]) (some [idName, Demo.colA, Demo.colB]) false
      Demo.store).1.index.find? (fun r => r.id == 3)).map (·.labels) = some [Demo.ly, Demo.l2] ∧
    ((updateIndexTable digitReads (.seqs [[.num 3, .text Demo.ly, .text Demo.l2, .text []]])
      (some [idName, Demo.colA, Demo.colB, ['n']]) false Demo.store).1.index.find? (fun r => r.id == 3)).map (·.labels) =
        some [Demo.ly, Demo.l1] ∧
    (updateIndexTable digitReads (.seqs [[.num 3, .text Demo.ly, .text Demo.l2, .text []]])
      (some [idName, Demo.colA, Demo.colB, ['n']]) false Demo.store).2.toBool = true := by
  decide +kernel

/-- With `merge_on_conflict` a row about a record that an earlier row has merged into another one is an error, but not if the
ids are texts (as in a CSV file): then the row is passed over silently. -/
theorem C99_update_text_id_violated :
    (updateIndexTable digitReads (.seqs [[.num 1, .text Demo.lx, .text Demo.l2], [.num 2, .text Demo.ly, .text Demo.l2]])
      (some [idName, Demo.colA, Demo.colB]) true Demo.store).2.toBool = false ∧
    (updateIndexTable digitReads (.seqs [[.text ['1'], .text Demo.lx, .text Demo.l2], [.text ['2'], .text Demo.ly, .text Demo.l2]])
      (some [idName, Demo.colA, Demo.colB]) true Demo.store).2.toBool = true := by
  decide +kernel

/-- A row that is shorter than the header and lacks labels: `insert_weights` gives the weight to the first record with the
labels that are left. Here the row has the label x but no label in the second column. -/
theorem C99_short_row_violated :
    (insertWeightsTable digitReads ['v'] (.seqs [[.num 9, .text Demo.lx]]) (some [['v'], Demo.colA, Demo.colB]) none .abort
      Demo.store).2.toBool = true ∧
    (insertWeightsTable digitReads ['v'] (.seqs [[.num 9, .text Demo.lx]]) (some [['v'], Demo.colA, Demo.colB]) none .abort
      Demo.store).1.weights = Demo.store.weights ++ [⟨4, 2, 1, 9⟩] := by
  decide +kernel

/-- Of dictionaries only the keys of the first count: here the second has a weight, and it is lost. With a header (where the
first row has an empty cell) it is loaded. -/
theorem C99_keys_lost :
    (insertIndexTable digitReads (.dicts [[(Demo.colA, .text Demo.ly), (Demo.colB, .text Demo.l2)],
      [(Demo.colA, .text ['z']), (Demo.colB, .text Demo.l1), (Demo.wname, .num 7)]]) none none .abort .abort Demo.store).2.toBool =
        true ∧
    (insertIndexTable digitReads (.dicts [[(Demo.colA, .text Demo.ly), (Demo.colB, .text Demo.l2)],
      [(Demo.colA, .text ['z']), (Demo.colB, .text Demo.l1), (Demo.wname, .num 7)]]) none none .abort .abort Demo.store).1.weights =
        Demo.store.weights ∧
    (insertIndexTable digitReads (.seqs [[.text Demo.colA, .text Demo.colB, .text Demo.wname],
      [.text Demo.ly, .text Demo.l2, .none], [.text ['z'], .text Demo.l1, .num 7]]) none none .abort .abort Demo.store).1.weights =
        Demo.store.weights ++ [⟨4, 1, 5, 7⟩] := by
  decide +kernel

/-- Column names given although the table has a header: the header is loaded as a record. -/
theorem C99_header_violated :
    ((insertIndexTable digitReads (.seqs [[.text Demo.colA, .text Demo.colB], [.text Demo.ly, .text Demo.l2]])
      (some [Demo.colA, Demo.colB]) none .abort .abort Demo.store).1.index.map (·.labels)) =
      Demo.store.index.map (·.labels) ++ [[Demo.colA, Demo.colB], [Demo.ly, Demo.l2]] := by
  decide +kernel

/-! ### The hypotheses can be met -/

namespace Demo1

open Toron.Space.Demo

/-- The same records with weights: as rows with a header, and with the columns in another order, an extra column and ids
left empty. -/
def h1 : List PyStr := [colA, colB, wname]
def r1 : List (List Cell) := [[.text ly, .text l2, .num 4], [.text ['z'], .text [], .text []]]
def h2 : List PyStr := [wname, ['n'], colB, idName, colA]
def r2 : List (List Cell) := [[.text ['4'], .none, .text l2, .text [], .text ly], [.none, .num 1, .text [], .text [], .text ['z']]]
def said : List IndexRow := [⟨none, some [ly, l2], [some 4]⟩, ⟨none, some [['z'], []], [none]⟩]

theorem p1 : Proper h1 r1 := ⟨by decide, by decide, by decide⟩
theorem p2 : Proper h2 r2 := ⟨by decide, by decide, by decide⟩

theorem cols_eq : Demo.store.cols = [colA, colB] := by decide +kernel
theorem group1 : h1.filter (isGroup Demo.store none) = [wname] := by decide +kernel
theorem group2 : h2.filter (isGroup Demo.store none) = [wname] := by decide +kernel

theorem says1 : List.Forall₂ (SaysIndex digitReads [colA, colB] [wname] h1) r1 said := by
  refine .cons ⟨?_, by simp, by simp, fun _ => Or.inl (by decide), ?_⟩ (.cons ⟨?_, by simp, by simp, fun _ => Or.inl (by decide), ?_⟩ .nil)
  · rintro _ ⟨⟩
    exact .cons ⟨0, rfl, rfl⟩ (.cons ⟨1, rfl, rfl⟩ .nil)
  · exact .cons ⟨_, ⟨2, rfl, rfl⟩, by simp, by simp, rfl⟩ .nil
  · rintro _ ⟨⟩
    exact .cons ⟨0, rfl, rfl⟩ (.cons ⟨1, rfl, rfl⟩ .nil)
  · exact .cons ⟨_, ⟨2, rfl, rfl⟩, Or.inr rfl⟩ .nil

theorem says2 : List.Forall₂ (SaysIndex digitReads [colA, colB] [wname] h2) r2 said := by
  refine .cons ⟨?_, by simp, by simp, fun _ => Or.inr ⟨3, rfl, rfl⟩, ?_⟩
    (.cons ⟨?_, by simp, by simp, fun _ => Or.inr ⟨3, rfl, rfl⟩, ?_⟩ .nil)
  · rintro _ ⟨⟩
    exact .cons ⟨4, rfl, rfl⟩ (.cons ⟨2, rfl, rfl⟩ .nil)
  · exact .cons ⟨_, ⟨0, rfl, rfl⟩, by simp, by simp, by decide +kernel⟩ .nil
  · rintro _ ⟨⟩
    exact .cons ⟨4, rfl, rfl⟩ (.cons ⟨2, rfl, rfl⟩ .nil)
  · exact .cons ⟨_, ⟨0, rfl, rfl⟩, Or.inl rfl⟩ .nil

example : insertIndexTable digitReads (.seqs (h1.map Cell.text :: r1)) none none .abort .abort Demo.store =
    insertIndexTable digitReads (.dicts (r2.map h2.zip)) none none .abort .abort Demo.store := by
  refine C99_insert_index_same_partial (R := said) p1 (.headed h1 r1) p2 (.dicts h2 _ _ _ (.cons (List.Perm.refl _) .nil)) ?_ (by simp) (by simp)
    (Or.inl ?_) (Or.inl ?_) (group1.trans group2.symm) ?_ ?_ .abort .abort
  · rw [cols_eq]; simp
  · rw [cols_eq]; decide
  · rw [cols_eq]; decide
  · rw [cols_eq, group1]; exact says1
  · rw [cols_eq, group2]; exact says2

/-- Ids and labels: numbers and texts. -/
def u1 : List PyStr := [idName, colA, colB]
def v1 : List (List Cell) := [[.num 1, .text lx, .text l1], [.num 3, .text ly, .text l2]]
def u2 : List PyStr := [colB, colA, idName, ['n']]
def v2 : List (List Cell) := [[.text l1, .text lx, .text ['1'], .none], [.text l2, .text ly, .text ['3'], .num 0]]
def ids : List (Nat × List PyStr) := [(1, [lx, l1]), (3, [ly, l2])]

theorem q1 : Proper u1 v1 := ⟨by decide, by decide, by decide⟩
theorem q2 : Proper u2 v2 := ⟨by decide, by decide, by decide⟩

theorem records1 : List.Forall₂ (SaysRecord digitReads [colA, colB] u1) v1 ids :=
  .cons ⟨⟨_, ⟨0, rfl, rfl⟩, by decide +kernel⟩, .cons ⟨1, rfl, rfl⟩ (.cons ⟨2, rfl, rfl⟩ .nil)⟩
    (.cons ⟨⟨_, ⟨0, rfl, rfl⟩, by decide +kernel⟩, .cons ⟨1, rfl, rfl⟩ (.cons ⟨2, rfl, rfl⟩ .nil)⟩ .nil)

theorem records2 : List.Forall₂ (SaysRecord digitReads [colA, colB] u2) v2 ids :=
  .cons ⟨⟨_, ⟨2, rfl, rfl⟩, by decide +kernel⟩, .cons ⟨1, rfl, rfl⟩ (.cons ⟨0, rfl, rfl⟩ .nil)⟩
    (.cons ⟨⟨_, ⟨2, rfl, rfl⟩, by decide +kernel⟩, .cons ⟨1, rfl, rfl⟩ (.cons ⟨0, rfl, rfl⟩ .nil)⟩ .nil)

example : updateIndexTable digitReads (.seqs v1) (some u1) false Demo.store =
    updateIndexTable digitReads (.seqs (u2.map Cell.text :: v2)) none false Demo.store := by
  refine C99_update_index_same_partial (R := ids) q1 (.named u1 v1) q2 (.headed u2 v2) (by decide) (by decide) ?_ ?_ ?_ ?_
    (.cons (by decide) (.cons (by decide) .nil)) (.cons (by decide) (.cons (by decide) .nil))
  · rw [cols_eq]; decide
  · rw [cols_eq]; decide
  · rw [cols_eq]; exact records1
  · rw [cols_eq]; exact records2

example : deleteIndexTable digitReads (.seqs v1) (some u1) Demo.store =
    deleteIndexTable digitReads (.dicts (v2.map u2.zip)) (some u2) Demo.store := by
  refine C99_delete_index_same (R := ids) q1 (.named u1 v1) q2
    (.dictsNamed u2 v2 _ (.cons (List.Perm.refl _) (.cons (List.Perm.refl _) .nil))) (by decide) (by decide) ?_ ?_ (by decide) ?_ ?_
  · rw [cols_eq]; decide
  · rw [cols_eq]; decide
  · rw [cols_eq]; exact records1
  · rw [cols_eq]; exact records2

/-- Weights and quantities. -/
def wh : List PyStr := [colB, ['v'], colA]
def wr : List (List Cell) := [[.text l1, .text ['7'], .text lx]]

example : insertWeightsTable digitReads ['v'] (.seqs wr) (some wh) none .abort Demo.store =
    step (.insertWeights ['v'] .abort [⟨none, [lx, l1], some 7⟩]) Demo.store := by
  refine C99_insert_weights (header := wh) Demo.reachable ⟨by decide, by decide, by decide⟩ (.named wh wr) ?_ ?_ (by decide) ?_ .abort
  · rw [cols_eq]; decide
  · rw [cols_eq]; decide
  · rw [cols_eq]
    exact .cons ⟨⟨_, ⟨1, rfl, rfl⟩, by decide +kernel⟩, by simp, fun _ => by decide, .cons ⟨2, rfl, rfl⟩ (.cons ⟨0, rfl, rfl⟩ .nil)⟩ .nil

def uh : List PyStr := [colB, wname, idName, colA]
def ur : List (List Cell) := [[.text l1, .text ['7'], .num 1, .text lx]]

example : updateWeightsTable digitReads wname (.seqs ur) (some uh) none Demo.store =
    step (.updateWeights wname [(1, [lx, l1], 7)]) Demo.store := by
  refine C99_update_weights (header := uh) Demo.reachable ⟨by decide, by decide, by decide⟩ (.named uh ur) (by decide) ?_ (by decide) ?_
  · rw [cols_eq]; decide
  · rw [cols_eq]
    exact .cons ⟨⟨⟨_, ⟨2, rfl, rfl⟩, by decide +kernel⟩, .cons ⟨3, rfl, rfl⟩ (.cons ⟨0, rfl, rfl⟩ .nil)⟩, _, ⟨1, rfl, rfl⟩, by decide +kernel⟩ .nil

def qh : List PyStr := [['c'], colB, ['v'], colA]
def qr : List (List Cell) := [[.text ['m'], .text l1, .text ['7'], .text lx], [.none, .text l2, .num 2, .text lx]]

theorem reg_eq : Demo.store.regAttrs.getD [] = [['c']] := by decide +kernel

example : insertQuantitiesTable digitReads ['v'] (.seqs qr) (some qh) false false .sum Demo.store =
    step (.insertQuantities2 false false .sum [⟨none, [lx, l1], [(['c'], ['m'])], 7⟩, ⟨none, [lx, l2], [(['c'], [])], 2⟩]) Demo.store := by
  refine C99_insert_quantities (header := qh) ⟨by decide, by decide, by decide⟩ (.named qh qr) ?_ ?_ (by decide) ?_ false false .sum
  · rw [reg_eq]; decide
  · rw [cols_eq]; decide
  · rw [cols_eq, reg_eq]
    refine .cons ⟨by simp, fun _ => by decide, .cons ⟨3, rfl, rfl⟩ (.cons ⟨1, rfl, rfl⟩ .nil), ?_, ⟨_, ⟨2, rfl, rfl⟩, by decide +kernel⟩⟩
      (.cons ⟨by simp, fun _ => by decide, .cons ⟨3, rfl, rfl⟩ (.cons ⟨1, rfl, rfl⟩ .nil), ?_, ⟨_, ⟨2, rfl, rfl⟩, by decide +kernel⟩⟩ .nil)
    · rw [show ([['c']] : List PyStr).filter (fun a => decide (a ∈ qh)) = [['c']] by decide]
      exact .cons ⟨rfl, Or.inl ⟨0, rfl, rfl⟩⟩ .nil
    · rw [show ([['c']] : List PyStr).filter (fun a => decide (a ∈ qh)) = [['c']] by decide]
      exact .cons ⟨rfl, Or.inr ⟨rfl, 0, rfl, rfl⟩⟩ .nil

end Demo1

end Toron.TableLoad
