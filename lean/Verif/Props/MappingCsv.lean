/-
C63 and C64: reading and writing mappings as tables (`src/toron/cli/command_mapping.py`).
-/
import Verif.Lemmas.MappingCsv
import Verif.Props.IndexCode
import Verif.Props.Reader

namespace Toron.MappingCsv

open Toron.Selectors (PyStr)
open Toron.Space
open Toron.IndexCode (isCode toId toCode)

/-! ### C63: reading a table -/

section

variable {edge : PyStr → Option PyStr} {cols1 cols2 : List PyStr} {u1 u2 : List Byte} {link : PyStr} {t : Table}

/-- Missing: tables with several columns that name the link (see `C63_violated_name`), and the order of rows (see
`C63_violated_order`). The first column that names the link holds the values and separates the columns of the two
files (unless this column itself holds index codes). Every row gives one line, in order, with the labels that are
under the file's column names in its part, the records of its index codes, and its value. -/
theorem C63_rows_partial {lines : List Line} (h : readTable edge cols1 cols2 u1 u2 link t = .ok lines) :
    ∃ v code1 code2 part1 part2, FirstLink edge link t.header v ∧
      PartOk cols1 u1 t v code1 part1 ∧ PartOk cols2 u2 t v code2 part2 ∧
      (code1 ≠ some v → code2 ≠ some v →
        part1 = (0, v) ∧ part2 = (v + 1, t.header.length) ∨ part1 = (v + 1, t.header.length) ∧ part2 = (0, v)) ∧
      List.Forall₂ (Says t.header cols1 cols2 u1 u2 v code1 code2 part1 part2) t.rows lines := by
  unfold readTable at h
  simp only [bindE_ok] at h
  obtain ⟨p, hp, l1, h1, l2, h2, h⟩ := h
  obtain ⟨hv, hs, he1, he2, hp1, hp2, hparts⟩ := columnPositions_ok hp
  have hpart : ∀ {x : Nat} {q : Nat × Nat}, q = partOf p.value t.header.length x →
      (x < p.value → q = (0, p.value)) ∧ (p.value < x → q = (p.value + 1, t.header.length)) := by
    rintro x q rfl
    unfold partOf leftPart rightPart
    exact ⟨fun h => if_pos h, fun h => if_neg (by omega)⟩
  have hf := scan_found hs
  have ho := scan_only hs
  refine ⟨p.value, p.code1, p.code2, p.part1, p.part2, hv, ?_, ?_, hparts, ?_⟩
  · refine ⟨fun i j c a b d e f g => slice_nodup (labelPositions_nodup h1) a b d e f g, fun x hx => ⟨?_, hpart (hp1 x hx)⟩,
      fun x hx hy => ho.1 x (.inl rfl) hx hy, he1⟩
    rcases hf.1 x hx with h | h
    · cases h
    · exact h
  · refine ⟨fun i j c a b d e f g => slice_nodup (labelPositions_nodup h2) a b d e f g, fun x hx => ⟨?_, hpart (hp2 x hx)⟩,
      fun x hx hy => ho.2 x (.inl rfl) hx hy, he2⟩
    rcases hf.2 x hx with h | h
    · cases h
    · exact h
  · rw [mapM_forall₂] at h
    refine h.imp fun row x hx => ?_
    rw [readRow_ok] at hx
    obtain ⟨a, b, c, d, e⟩ := hx
    exact ⟨indexId_ok.1 a, (location_ok h1 b).2, indexId_ok.1 c, (location_ok h2 d).2, e⟩

theorem scan_none {n : Nat} {rows : List (List PyStr)}
    (h : ∀ row ∈ rows, ∀ c ∈ row, isCode c u1 = .ok false ∧ isCode c u2 = .ok false) :
    scan u1 u2 n none none rows = .ok (none, none) := by
  have key : ∀ {u : List Byte} {rows : List (List PyStr)}, (∀ row ∈ rows, ∀ c ∈ row, isCode c u = .ok false) →
      codePosition u rows = .ok none := by
    intro u rows h
    obtain ⟨r, hr⟩ := codePosition_exists (uid := u) (rows := rows) fun row hrow c hc => ⟨false, h row hrow c hc⟩
    rw [hr]
    cases r with
    | none => rfl
    | some p =>
      obtain ⟨row, hrow, c, hc, ht⟩ := ((codePosition_ok hr p).1 rfl p).2 rfl
      rw [h row hrow c (List.mem_of_getElem? hc)] at ht
      cases ht
  induction n generalizing rows with
  | zero => rfl
  | succ n ih =>
    unfold scan
    split
    · rfl
    · show (codePosition u1 (rows.take 8) >>= _) = _
      rw [key (fun row hr c hc => (h row (List.mem_of_mem_take hr) c hc).1)]
      show (codePosition u2 (rows.take 8) >>= _) = _
      rw [key (fun row hr c hc => (h row (List.mem_of_mem_take hr) c hc).2)]
      exact ih fun row hr => h row (List.mem_of_mem_drop hr)

theorem location_at {header cols row : List PyStr} {p : Nat × Nat} (hs : slice header p = cols) (hnd : cols.Nodup)
    (hrow : p.1 + cols.length ≤ row.length) :
    ∃ l, labelPositions header cols p = .ok l ∧ location l row = .ok ((row.drop p.1).take cols.length) := by
  unfold labelPositions
  rw [hs, if_pos hnd]
  refine ⟨_, rfl, ?_⟩
  unfold location
  rw [mapM_forall₂, List.forall₂_map_left_iff, List.forall₂_iff_get]
  have hlen : ((row.drop p.1).take cols.length).length = cols.length := by
    rw [List.length_take, List.length_drop]; omega
  refine ⟨hlen.symm, fun i h1 h2 => ?_⟩
  have hf : (cols.findIdx? fun x => x == cols.get ⟨i, h1⟩) = some i := by
    rw [List.findIdx?_eq_some_iff_getElem]
    refine ⟨h1, by simp, fun j hj he => ?_⟩
    have := (List.Nodup.getElem_inj_iff hnd (i := j) (hi := Nat.lt_trans hj h1) (hj := h1)).1 (by simpa using he)
    exact absurd this (Nat.ne_of_lt hj)
  rw [hf]
  show cell row (i + p.1) = _
  rw [cell_ok]
  rw [List.get_eq_getElem, List.getElem_take, List.getElem_drop, List.getElem?_eq_getElem (by omega)]
  congr 1
  simp only [Nat.add_comm]

/-- A table whose header is the label columns of the first file, the link, and the label columns of the second
file, and which has no index codes, is read without errors: the labels are the cells before and after the value. -/
theorem C63_plain (h1 : cols1.Nodup) (h2 : cols2.Nodup) (hl : ∀ c ∈ cols1, ¬ NamesLink edge link c)
    {rows : List (List PyStr × PyStr × List PyStr)}
    (hlen : ∀ r ∈ rows, r.1.length = cols1.length ∧ r.2.2.length = cols2.length)
    (hno : ∀ r ∈ rows, ∀ c ∈ r.1 ++ r.2.1 :: r.2.2, isCode c u1 = .ok false ∧ isCode c u2 = .ok false) :
    readTable edge cols1 cols2 u1 u2 link
      ⟨cols1 ++ link :: cols2, rows.map fun r => r.1 ++ r.2.1 :: r.2.2⟩ =
      .ok (rows.map fun r => ⟨none, r.1, none, r.2.2, r.2.1⟩) := by
  have hv : valuePosition edge link (cols1 ++ link :: cols2) = some cols1.length := by
    rw [valuePosition_some]
    refine ⟨⟨link, by simp, .inl rfl⟩, fun j c hj hc => ?_⟩
    rw [List.getElem?_append_left hj] at hc
    exact hl c (List.mem_of_getElem? hc)
  have e1 : slice (cols1 ++ link :: cols2) (leftPart cols1.length) = cols1 := by
    unfold slice leftPart
    simp
  have e2 : slice (cols1 ++ link :: cols2) (rightPart cols1.length (cols1 ++ link :: cols2).length) = cols2 := by
    unfold slice rightPart
    dsimp only
    rw [List.take_length, show cols1 ++ link :: cols2 = (cols1 ++ [link]) ++ cols2 by simp,
      show cols1.length + 1 = (cols1 ++ [link]).length by simp, List.drop_left]
  have hscan : scan u1 u2 32 none none (rows.map fun r => r.1 ++ r.2.1 :: r.2.2) = .ok (none, none) := by
    apply scan_none
    intro row hrow
    obtain ⟨r, hr, rfl⟩ := List.mem_map.1 hrow
    exact hno r hr
  have hp : columnPositions edge cols1 cols2 u1 u2 link ⟨cols1 ++ link :: cols2, rows.map fun r => r.1 ++ r.2.1 :: r.2.2⟩ =
      .ok ⟨none, leftPart cols1.length, none, rightPart cols1.length (cols1 ++ link :: cols2).length, cols1.length⟩ := by
    unfold columnPositions
    dsimp only
    rw [hv]
    dsimp only
    rw [hscan]
    show (if _ then _ else _) = _
    rw [if_pos ⟨e1.symm, e2.symm⟩]
  unfold readTable
  rw [hp]
  rw [bindE_ok]
  refine ⟨_, rfl, ?_⟩
  have f1 : ∃ l, labelPositions (cols1 ++ link :: cols2) cols1 (leftPart cols1.length) = .ok l := by
    unfold labelPositions; rw [e1, if_pos h1]; exact ⟨_, rfl⟩
  have f2 : ∃ l, labelPositions (cols1 ++ link :: cols2) cols2 (rightPart cols1.length (cols1 ++ link :: cols2).length) = .ok l := by
    unfold labelPositions; rw [e2, if_pos h2]; exact ⟨_, rfl⟩
  obtain ⟨l1, g1⟩ := f1
  obtain ⟨l2, g2⟩ := f2
  rw [bindE_ok]
  refine ⟨l1, g1, ?_⟩
  rw [bindE_ok]
  refine ⟨l2, g2, ?_⟩
  rw [mapM_forall₂, List.forall₂_map_left_iff, List.forall₂_map_right_iff, List.forall₂_same]
  intro r hr
  rw [readRow_ok]
  obtain ⟨n1, n2⟩ := hlen r hr
  obtain ⟨l1', k1, k1'⟩ := location_at (row := r.1 ++ r.2.1 :: r.2.2) e1 h1 (by simp [leftPart]; omega)
  obtain ⟨l2', k2, k2'⟩ := location_at (row := r.1 ++ r.2.1 :: r.2.2) e2 h2 (by simp [rightPart]; omega)
  rw [g1] at k1
  rw [g2] at k2
  cases k1
  cases k2
  refine ⟨rfl, ?_, rfl, ?_, ?_⟩
  · rw [k1']
    congr 1
    unfold leftPart
    rw [List.drop_zero, ← n1, List.take_left']
    rfl
  · rw [k2']
    congr 1
    unfold rightPart
    dsimp only
    rw [← n1, ← n2, show r.1 ++ r.2.1 :: r.2.2 = (r.1 ++ [r.2.1]) ++ r.2.2 by simp,
      show r.1.length + 1 = (r.1 ++ [r.2.1]).length by simp, List.drop_left, List.take_length]
  · show (r.1 ++ r.2.1 :: r.2.2)[cols1.length]? = some r.2.1
    rw [← n1]
    simp

end

namespace Demo

/-- Two unique ids, and a code of each: records 17 and 5. -/
def u1 : List Byte := [1, 2, 3]
def u2 : List Byte := [4, 5, 6]
def code17 : PyStr := ['1', '7', 'X', '2', '9', 'D', 'F', 'D', '8', '1', '9']
def code5 : PyStr := ['5', 'X', 'C', 'F', '4', '4', 'B', '8', '7', '2']
def noEdge : PyStr → Option PyStr := fun _ => none

/-- A table with index codes of the first file on the right, and labels of the second file on the left. -/
def table : Table := ⟨[['n'], ['l'], ['q'], ['c'], ['p']],
  [[['y'], ['1', '0'], ['z'], code17, ['x']], [['w'], ['3'], ['z'], [], ['x']]]⟩

theorem table_read : readTable noEdge [['p'], ['r']] [['n']] u1 u2 ['l'] table =
    .ok [⟨some 17, [['x'], []], none, [['y']], ['1', '0']⟩, ⟨none, [['x'], []], none, [['w']], ['3']⟩] :=
  ok_of_toOption (by decide +kernel)

end Demo

-- the hypotheses of `C63_rows_partial` can be met
example : ∃ lines, readTable Demo.noEdge [['p'], ['r']] [['n']] Demo.u1 Demo.u2 ['l'] Demo.table = .ok lines :=
  ⟨_, Demo.table_read⟩

-- the hypotheses of `C63_plain` can be met
example : (∀ c ∈ [['p']], ¬ NamesLink Demo.noEdge ['l'] c) ∧
    (∀ r ∈ [([['x']], ['4'], [['y'], ['z']])], ∀ c ∈ r.1 ++ r.2.1 :: r.2.2,
      isCode c Demo.u1 = .ok false ∧ isCode c Demo.u2 = .ok false) := by
  refine ⟨by simp [NamesLink, Demo.noEdge], ?_⟩
  intro r hr c hc
  have h1 : ∀ c ∈ [['x'], ['4'], ['y'], ['z']], (isCode c Demo.u1).toOption = some false ∧
      (isCode c Demo.u2).toOption = some false := by decide +kernel
  rw [List.mem_singleton] at hr
  subst hr
  exact ⟨ok_of_toOption (h1 c hc).1, ok_of_toOption (h1 c hc).2⟩

/-- The exception, if there is one. -/
def errorOf {α : Type} : Except Err α → Option Err
  | .ok _ => none
  | .error e => some e

theorem error_of {α : Type} {x : Except Err α} {e : Err} (h : errorOf x = some e) : x = .error e := by
  cases x with
  | ok _ => cases h
  | error _ => cases h; rfl

/-- C63 is violated if a label column has the name of the link: in a table laid out as the program itself writes it
(index code, labels, link, index code, labels) the label `7` is taken for the value, which is 10. -/
theorem C63_violated_name : readTable Demo.noEdge [['p']] [['n']] Demo.u1 Demo.u2 ['p']
    ⟨[['c'], ['p'], ['p'], ['c'], ['n']], [[Demo.code17, ['7'], ['1', '0'], Demo.code5, ['y']]]⟩ =
    .ok [⟨some 17, [[]], some 5, [['y']], ['7']⟩] := ok_of_toOption (by decide +kernel)

/-- C63 is violated if labels look like index codes: whether a table can be read depends on the order of its
rows. -/
theorem C63_violated_order : ∃ (header : List PyStr) (rows rows' : List (List PyStr)), rows.Perm rows' ∧
    (∃ lines, readTable Demo.noEdge [['p']] [['n']] Demo.u1 Demo.u2 ['l'] ⟨header, rows⟩ = .ok lines) ∧
    ∃ m, readTable Demo.noEdge [['p']] [['n']] Demo.u1 Demo.u2 ['l'] ⟨header, rows'⟩ = .error (.toronError m) := by
  refine ⟨[['c'], ['p'], ['l'], ['n']],
    List.replicate 8 [Demo.code17, Demo.code17, ['1'], ['y']] ++ [[Demo.code17, ['x'], ['1'], ['y']]],
    [[Demo.code17, ['x'], ['1'], ['y']]] ++ List.replicate 8 [Demo.code17, Demo.code17, ['1'], ['y']],
    List.perm_append_comm, ⟨_, ok_of_toOption (a := List.replicate 8 ⟨some 17, [Demo.code17], none, [['y']], ['1']⟩ ++
      [⟨some 17, [['x']], none, [['y']], ['1']⟩]) (by decide +kernel)⟩, "no index codes found, unable to match by label columns", error_of (by decide +kernel)⟩

end Toron.MappingCsv
