/-
C69: tables printed on the command line are read as the same tables.
-/
import Verif.Lemmas.Csv
import Verif.Model.MappingCsv
import Mathlib.Algebra.Order.BigOperators.Group.List

namespace Toron.Csv

open Toron.Selectors (PyStr)
open Toron.MappingCsv (Table)

/-- A table on standard output (`writer.writerow(header)`, `writer.writerows(rows)`, as in
`src/toron/cli/command_index.py` lines 105-112). -/
def printTable (t : Table) : PyStr := writeRows (t.header :: t.rows)

/-- A table on standard input: the first row is the header (`next(reader)`). -/
def readTable (limit : Nat) (text : PyStr) : Except String Table := do
  match ← readStdin limit text with
  | [] => .error "StopIteration"
  | header :: rows => .ok ⟨header, rows⟩

/-- What is read from standard input after rows were printed: the same rows, with every line end within a cell
replaced by a line feed. If such a cell is longer than the limit for cells, no table is read. -/
theorem C69_read (limit : Nat) (rows : List (List PyStr)) :
    ((∀ row ∈ rows, ∀ f ∈ row, (translate f).length ≤ limit) →
      readStdin limit (writeRows rows) = .ok (rows.map (·.map translate))) ∧
    ((∃ row ∈ rows, ∃ f ∈ row, limit < (translate f).length) →
      readStdin limit (writeRows rows) = .error "field larger than field limit") := by
  unfold readStdin readRows
  rw [translate_rows]
  constructor
  · intro h
    apply go_rows
    intro row hr f hf
    obtain ⟨r, hr', rfl⟩ := List.mem_map.1 hr
    obtain ⟨f, hf', rfl⟩ := List.mem_map.1 hf
    exact h r hr' f hf'
  · rintro ⟨row, hr, f, hf, hl⟩
    exact go_rows_long _ ⟨_, List.mem_map_of_mem hr, _, List.mem_map_of_mem hf, hl⟩

/-- Rows without carriage returns and with cells within the limit are read as they were printed, whatever commas,
quotes, line feeds, blanks and empty cells they contain. -/
theorem C69_roundtrip_partial {limit : Nat} {rows : List (List PyStr)} (hcr : ∀ row ∈ rows, ∀ f ∈ row, '\r' ∉ f)
    (hl : ∀ row ∈ rows, ∀ f ∈ row, f.length ≤ limit) : readStdin limit (writeRows rows) = .ok rows := by
  rw [(C69_read limit rows).1]
  · congr 1
    rw [List.map_congr_left (g := id), List.map_id]
    intro row hr
    rw [List.map_congr_left (g := id), List.map_id]
    · rfl
    · intro f hf
      exact translate_id (hcr row hr f hf)
  · intro row hr f hf
    rw [translate_id (hcr row hr f hf)]
    exact hl row hr f hf

example : readStdin fieldLimit (writeRows [["".toList, "a,\"b\"\nc".toList], ["".toList], [], [" x ".toList]]) =
    .ok [["".toList, "a,\"b\"\nc".toList], ["".toList], [], [" x ".toList]] :=
  C69_roundtrip_partial (by decide) (by decide)

/-- The same for a table with a header. -/
theorem C69_table_partial {limit : Nat} {t : Table} (hcr : ∀ row ∈ t.header :: t.rows, ∀ f ∈ row, '\r' ∉ f)
    (hl : ∀ row ∈ t.header :: t.rows, ∀ f ∈ row, f.length ≤ limit) : readTable limit (printTable t) = .ok t := by
  unfold readTable printTable
  rw [C69_roundtrip_partial hcr hl]
  rfl

example : readTable fieldLimit (printTable ⟨["county".toList, "value".toList], [["A, B".toList, "1".toList]]⟩) =
    .ok ⟨["county".toList, "value".toList], [["A, B".toList, "1".toList]]⟩ := C69_table_partial (by decide) (by decide)

/-- Different rows are printed as different texts: the loss is in the reading. -/
theorem C69_injective {a b : List (List PyStr)} (h : writeRows a = writeRows b) : a = b := by
  have key : ∀ {limit : Nat} {rows : List (List PyStr)}, (∀ row ∈ rows, ∀ f ∈ row, f.length ≤ limit) →
      readRows limit (writeRows rows) = .ok rows := fun h => go_rows _ h
  have hb : ∀ rows : List (List PyStr), ∀ row ∈ rows, ∀ f ∈ row, f.length ≤ (rows.map fun r => (r.map List.length).sum).sum := by
    intro rows row hr f hf
    exact le_trans (List.single_le_sum (by simp) _ (List.mem_map_of_mem hf))
      (List.single_le_sum (by simp) _ (List.mem_map_of_mem (f := fun r : List PyStr => (r.map List.length).sum) hr))
  have h1 := key (limit := (a.map fun r => (r.map List.length).sum).sum + (b.map fun r => (r.map List.length).sum).sum)
    (rows := a) fun row hr f hf => le_trans (hb a row hr f hf) (Nat.le_add_right _ _)
  have h2 := key (limit := (a.map fun r => (r.map List.length).sum).sum + (b.map fun r => (r.map List.length).sum).sum)
    (rows := b) fun row hr f hf => le_trans (hb b row hr f hf) (Nat.le_add_left _ _)
  rw [h, h2] at h1
  exact (Except.ok.inj h1).symm

/-- A printed table whose cells contain a carriage return is never read as the same table: standard input translates
the line ends within the quotes, while standard output writes them as they are. -/
theorem C69_violated_cr {limit : Nat} {rows : List (List PyStr)} (h : ∃ row ∈ rows, ∃ f ∈ row, '\r' ∈ f) :
    readStdin limit (writeRows rows) ≠ .ok rows := by
  obtain ⟨row, hr, f, hf, hc⟩ := h
  intro he
  by_cases hl : ∀ row ∈ rows, ∀ f ∈ row, (translate f).length ≤ limit
  · rw [(C69_read limit rows).1 hl] at he
    have he := Except.ok.inj he
    rw [← he] at hr
    obtain ⟨r, -, rfl⟩ := List.mem_map.1 hr
    obtain ⟨g, -, rfl⟩ := List.mem_map.1 hf
    exact translate_no_cr _ hc
  · rw [(C69_read limit rows).2] at he
    · exact (nomatch he)
    · by_contra hn
      apply hl
      intro row hr f hf
      by_contra hlt
      exact hn ⟨row, hr, f, hf, by omega⟩

example : readStdin fieldLimit (writeRows [["a\rb".toList]]) = .ok [["a\nb".toList]] := by decide +kernel

/-- Two different tables are read as the same one: nothing tells a label with a carriage return from one with a line
feed. -/
theorem C69_violated_coincide : ∃ a b : List (List PyStr), a ≠ b ∧
    readStdin fieldLimit (writeRows a) = readStdin fieldLimit (writeRows b) ∧
    (readStdin fieldLimit (writeRows a)).toBool = true :=
  ⟨[["a\rb".toList]], [["a\nb".toList]], by decide +kernel, by decide +kernel, by decide +kernel⟩

theorem long_cell (limit : Nat) :
    readStdin limit (writeRows [[List.replicate (limit + 1) 'a']]) = .error "field larger than field limit" := by
  refine (C69_read _ _).2 ⟨_, List.mem_singleton.2 rfl, _, List.mem_singleton.2 rfl, ?_⟩
  rw [translate_id, List.length_replicate]
  · exact Nat.lt_add_one limit
  · intro h
    have := List.eq_of_mem_replicate h
    exact absurd this (by decide)

/-- A cell of 131073 characters, a long label or name, is printed but can not be read. -/
theorem C69_violated_long : ∃ rows : List (List PyStr),
    readStdin fieldLimit (writeRows rows) = .error "field larger than field limit" := ⟨_, long_cell fieldLimit⟩

end Toron.Csv
