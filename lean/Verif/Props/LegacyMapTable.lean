/-
C124: how the legacy mapper reads its table.
-/
import Verif.Spec.MapTable
import Verif.Props.Edge
import Verif.Props.LegacyLinkRoundtrip

namespace Toron.Legacy

open Toron.Selectors (PyStr)

theorem read_ok {numberIn : PyStr → ℚ} {t : MapTable} {e : Edge} (h : t.read numberIn = .ok e) :
    ∃ pos rows, MappingCsv.valuePosition Edge.edgeName (IndexCode.strip t.name) (t.header.map IndexCode.strip) = some pos ∧
      readRows numberIn pos 1 t.rows = .ok rows ∧ e = { name := t.name, leftKeys := (t.header.map IndexCode.strip).take pos, rightKeys := (t.header.map IndexCode.strip).drop (pos + 1), rows := rows, toLeft := decide ('<' ∈ t.direction), toRight := decide ('>' ∈ t.direction), selectors := t.selectors } := by
  unfold MapTable.read at h
  dsimp only at h
  cases hp : MappingCsv.valuePosition Edge.edgeName (IndexCode.strip t.name) (t.header.map IndexCode.strip) with
  | none => rw [hp] at h; cases h
  | some pos =>
    rw [hp] at h
    dsimp only at h
    cases hr : readRows numberIn pos 1 t.rows with
    | error e' => rw [hr] at h; cases h
    | ok rows =>
      rw [hr] at h
      cases h
      exact ⟨pos, rows, rfl, hr, rfl⟩

theorem readRows_lines (numberIn : PyStr → ℚ) (pos : Nat) (k : Nat) (lines : List Line)
    (h : ∀ l ∈ lines, l.left.length = pos) : readRows numberIn pos k (lines.map Line.cells) = .ok (numbered k lines) := by
  induction lines generalizing k with
  | nil => rfl
  | cons l ls ih =>
    have hl := h l List.mem_cons_self
    have hlabel : ∀ ts : List PyStr, (ts.map Cell.text).map Cell.label = ts := by
      intro ts
      rw [List.map_map]
      exact List.map_id ts
    have hget : l.cells[pos]? = some (.number l.value) := by
      unfold Line.cells
      rw [List.getElem?_append_right (by simp [hl])]
      simp [hl]
    have htake : (l.cells.take pos).map Cell.label = l.left := by
      unfold Line.cells
      rw [List.take_left' (by simp [hl]), hlabel]
    have hdrop : (l.cells.drop (pos + 1)).map Cell.label = l.right := by
      unfold Line.cells
      have : l.left.map Cell.text ++ Cell.number l.value :: l.right.map Cell.text =
          (l.left.map Cell.text ++ [Cell.number l.value]) ++ l.right.map Cell.text := by simp
      rw [this, List.drop_left' (by simp [hl]), hlabel]
    rw [List.map_cons]
    cases hc : l.cells with
    | nil =>
      unfold Line.cells at hc
      simp at hc
    | cons c cs =>
      rw [hc] at hget htake hdrop
      rw [readRows, hget]
      dsimp only [Cell.value]
      rw [ih _ fun l' hl' => h l' (List.mem_cons_of_mem _ hl')]
      dsimp only
      rw [htake, hdrop]
      rfl

theorem readRows_skip (numberIn : PyStr → ℚ) (pos k : Nat) (rows : List (List Cell)) :
    readRows numberIn pos k rows = readRows numberIn pos k (rows.filter fun r => decide (r ≠ [])) := by
  induction rows generalizing k with
  | nil => rfl
  | cons r rs ih =>
    cases r with
    | nil =>
      rw [readRows, ih]
      rfl
    | cons c cs =>
      have : ((c :: cs) :: rs).filter (fun r => decide (r ≠ [])) = (c :: cs) :: rs.filter fun r => decide (r ≠ []) := by
        rw [List.filter_cons_of_pos]
        simp
      rw [this, readRows, readRows, ih]

/-- **C124.** A table of rows, each with as many labels before the value as there are columns before the column of the link, is
read row by row: the labels and the value are those of the row, and rows without cells are skipped. The columns before the
column that names the link are those of the left node, the others those of the right node; blanks around headers do not
matter. -/
theorem C124_read (numberIn : PyStr → ℚ) {t : MapTable} {pre post : List PyStr} {col : PyStr} {lines : List Line}
    (hh : t.header.map IndexCode.strip = pre ++ col :: post) (hcol : Names (IndexCode.strip t.name) col)
    (hpre : ∀ c ∈ pre, Foreign (IndexCode.strip t.name) c) (hrows : t.rows.filter (fun r => decide (r ≠ [])) = lines.map Line.cells)
    (hlines : ∀ l ∈ lines, l.left.length = pre.length) :
    ∃ e, t.read numberIn = .ok e ∧ e.leftKeys = pre ∧ e.rightKeys = post ∧ e.rows = numbered 1 lines ∧
      (e.toLeft = true ↔ '<' ∈ t.direction) ∧ (e.toRight = true ↔ '>' ∈ t.direction) ∧ e.selectors = t.selectors := by
  have hp : MappingCsv.valuePosition Edge.edgeName (IndexCode.strip t.name) (t.header.map IndexCode.strip) = some pre.length := by
    rw [hh]
    exact Edge.C73_column hcol hpre
  have hr : readRows numberIn pre.length 1 t.rows = .ok (numbered 1 lines) := by
    rw [readRows_skip, hrows]
    exact readRows_lines numberIn pre.length 1 lines hlines
  refine ⟨{ name := t.name, leftKeys := (t.header.map IndexCode.strip).take pre.length, rightKeys := (t.header.map IndexCode.strip).drop (pre.length + 1), rows := numbered 1 lines, toLeft := decide ('<' ∈ t.direction), toRight := decide ('>' ∈ t.direction), selectors := t.selectors }, ?_, ?_, ?_, rfl, ?_, ?_, rfl⟩
  · unfold MapTable.read
    dsimp only
    rw [hp]
    dsimp only
    rw [hr]
  · show (t.header.map IndexCode.strip).take pre.length = pre
    rw [hh, List.take_left']
    rfl
  · show (t.header.map IndexCode.strip).drop (pre.length + 1) = post
    have : pre ++ col :: post = (pre ++ [col]) ++ post := by simp
    rw [hh, this, List.drop_left' (by simp)]
  · exact decide_eq_true_iff
  · exact decide_eq_true_iff

/-- **C124.** If no column names the link, the table is refused and both nodes stay as they are. -/
theorem C124_missing (numberIn : PyStr → ℚ) {t : MapTable}
    (h : ∀ c ∈ t.header.map IndexCode.strip, Foreign (IndexCode.strip t.name) c) (a : MatchArgs) (left right : Linked) :
    ∃ tag, t.add numberIn a left right = (left, right, .error (.valueError tag)) := by
  have hp := Edge.C73_column_missing h
  refine ⟨"name is not in data", ?_⟩
  unfold MapTable.add MapTable.read
  dsimp only
  rw [hp]

theorem readRows_fails (numberIn : PyStr → ℚ) (pos k : Nat) (rows : List (List Cell)) :
    (∃ e, readRows numberIn pos k rows = .error e) ↔
      ∃ r ∈ rows, r ≠ [] ∧ (r.length ≤ pos ∨ r[pos]? = some .missing) := by
  induction rows generalizing k with
  | nil => simp [readRows]
  | cons r rs ih =>
    cases r with
    | nil => rw [readRows, ih]; simp
    | cons c cs =>
      rw [readRows]
      have hcons : ∀ P : List Cell → Prop, (∃ r ∈ (c :: cs) :: rs, P r) ↔ P (c :: cs) ∨ ∃ r ∈ rs, P r := fun P => by simp
      rw [hcons]
      cases hg : (c :: cs)[pos]? with
      | none =>
        rw [List.getElem?_eq_none_iff] at hg
        exact ⟨fun _ => .inl ⟨by simp, .inl hg⟩, fun _ => ⟨_, rfl⟩⟩
      | some v =>
        have hlen := (List.getElem?_eq_some_iff.1 hg).1
        dsimp only
        cases v with
        | missing => exact ⟨fun _ => .inl ⟨by simp, .inr rfl⟩, fun _ => ⟨_, rfl⟩⟩
        | number q =>
          dsimp only [Cell.value]
          rw [← ih (k + 1)]
          cases readRows numberIn pos (k + 1) rs with
          | error e => exact ⟨fun _ => .inr ⟨e, rfl⟩, fun _ => ⟨e, rfl⟩⟩
          | ok x =>
            constructor
            · rintro ⟨e, he⟩; cases he
            · rintro (⟨_, h1 | h1⟩ | ⟨e, he⟩)
              · omega
              · cases h1
              · cases he
        | text s =>
          dsimp only [Cell.value]
          rw [← ih (k + 1)]
          cases readRows numberIn pos (k + 1) rs with
          | error e => exact ⟨fun _ => .inr ⟨e, rfl⟩, fun _ => ⟨e, rfl⟩⟩
          | ok x =>
            constructor
            · rintro ⟨e, he⟩; cases he
            · rintro (⟨_, h1 | h1⟩ | ⟨e, he⟩)
              · omega
              · cases h1
              · cases he

/-- **C124.** If a column names the link, the table is refused exactly if a row that is not empty ends before this column or has
no value in it; then both nodes stay as they are. -/
theorem C124_refused (numberIn : PyStr → ℚ) {t : MapTable} {pre post : List PyStr} {col : PyStr}
    (hh : t.header.map IndexCode.strip = pre ++ col :: post) (hcol : Names (IndexCode.strip t.name) col)
    (hpre : ∀ c ∈ pre, Foreign (IndexCode.strip t.name) c) :
    ((∃ err, t.read numberIn = .error err) ↔
      ∃ r ∈ t.rows, r ≠ [] ∧ (r.length ≤ pre.length ∨ r[pre.length]? = some .missing)) ∧
    ∀ err, t.read numberIn = .error err → ∀ (a : MatchArgs) (left right : Linked),
      t.add numberIn a left right = (left, right, .error err) := by
  have hp : MappingCsv.valuePosition Edge.edgeName (IndexCode.strip t.name) (t.header.map IndexCode.strip) = some pre.length := by
    rw [hh]
    exact Edge.C73_column hcol hpre
  constructor
  · rw [← readRows_fails numberIn pre.length 1 t.rows]
    unfold MapTable.read
    dsimp only
    rw [hp]
    dsimp only
    cases readRows numberIn pre.length 1 t.rows with
    | error e => exact ⟨fun _ => ⟨e, rfl⟩, fun _ => ⟨e, rfl⟩⟩
    | ok x =>
      constructor
      · rintro ⟨_, he⟩; cases he
      · rintro ⟨_, he⟩; cases he
  · intro err he a left right
    unfold MapTable.add
    rw [he]

theorem numbered_runs (k : Nat) (lines : List Line) : (numbered k lines).map (·.run) = List.range' k lines.length := by
  induction lines generalizing k with
  | nil => rfl
  | cons l ls ih => rw [numbered, List.map_cons, ih]; rfl

theorem numbered_get (k : Nat) (lines : List Line) (i : Nat) :
    (numbered k lines)[i]? = lines[i]?.map fun l => ⟨k + i, l.left, l.right, l.value⟩ := by
  induction lines generalizing k i with
  | nil => rfl
  | cons l ls ih =>
    cases i with
    | zero => rfl
    | succ i =>
      rw [numbered, List.getElem?_cons_succ, List.getElem?_cons_succ, ih]
      have : k + 1 + i = k + (i + 1) := by omega
      rw [this]

/-- **C124, partial.** From the table to what is read of the link: a row of the table that belongs to one record of the left node,
fits a record of the right node, and is the only row with its labels for this record, comes back with its value. It needs that
matches may not overlap and no weight is zero (C113, C123). -/
theorem C124_roundtrip_partial (numberIn : PyStr → ℚ) {t : MapTable} {pre post : List PyStr} {col : PyStr} {lines : List Line}
    (hh : t.header.map IndexCode.strip = pre ++ col :: post) (hcol : Names (IndexCode.strip t.name) col)
    (hpre : ∀ c ∈ pre, Foreign (IndexCode.strip t.name) c) (hrows : t.rows.filter (fun r => decide (r ≠ [])) = lines.map Line.cells)
    (hlines : ∀ l ∈ lines, l.left.length = pre.length) {left right : Node} (hl : Reachable left) (hr : Reachable right)
    {a : MatchArgs} (ho : a.overlap = false) (hz : ∀ w ∈ right.weights, w.value ≠ 0) {e : Edge} (he : t.read numberIn = .ok e)
    {fl fr : List Found} (hf : e.found a left right = .ok (fl, fr)) (link : Nat) {i : Nat} {l : Line} (hi : lines[i]? = some l)
    {q : Space.IndexRec} (hq : left.fitting pre l.left = [q]) (hq0 : q.id ≠ 0) (hd : partsOf fr (i + 1) ≠ [])
    (hone : ∀ (k : Nat) (m : Line), lines[k]? = some m → k ≠ i → right.comesBack post m.right = right.comesBack post l.right →
      q ∉ left.fitting pre m.left) :
    ⟨some q.id, some l.value, right.comesBack post l.right⟩ ∈
      reconstructed right.index (storedRelations link e.rows fl fr) := by
  obtain ⟨e', he', h1, h2, h3, -⟩ := C124_read numberIn hh hcol hpre hrows hlines
  rw [he] at he'
  cases he'
  have hff : left.findMatches a e.leftKeys (e.rows.map fun r => (r.run, r.left)) = .ok fl ∧
      right.findMatches a e.rightKeys (e.rows.map fun r => (r.run, r.right)) = .ok fr := by
    unfold Edge.found at hf
    obtain ⟨x, hfl, hf⟩ := Toron.MappingCsv.bindE_ok.1 hf
    obtain ⟨y, hfr, hf⟩ := Toron.MappingCsv.bindE_ok.1 hf
    cases hf
    exact ⟨hfl, hfr⟩
  have hn : (e.rows.map (·.run)).Nodup := by
    rw [h3, numbered_runs]
    exact List.nodup_range'
  have hn' : ((e.rows.map fun r => (r.run, r.left)).map (·.1)).Nodup := by rw [List.map_map]; exact hn
  have hx : (⟨1 + i, l.left, l.right, l.value⟩ : TableRow) ∈ e.rows := by
    rw [h3]
    apply List.mem_of_getElem? (i := i)
    rw [numbered_get, hi]
    rfl
  rw [h2] at hff
  refine C123_single_partial hr ho hn hff.2 hz link (j := q.id) hq0 hx ?_ ?_ ?_
  · rw [h1] at hff
    exact C113_single hl hn' hff.1 (List.mem_map.2 ⟨_, hx, rfl⟩) hq
  · show partsOf fr (1 + i) ≠ []
    rw [Nat.add_comm]
    exact hd
  · intro y hy hne hb hmem
    have hy' := hy
    rw [h3] at hy'
    obtain ⟨k, hk⟩ := List.mem_iff_getElem?.1 hy'
    rw [numbered_get, Option.map_eq_some_iff] at hk
    obtain ⟨m, hm, rfl⟩ := hk
    have hki : k ≠ i := by
      rintro rfl
      exact hne rfl
    apply hone k m hm hki hb
    rw [partsOf_eq, List.map_map] at hmem
    obtain ⟨p, hp, hpj⟩ := List.mem_map.1 hmem
    have hpj : p.index = q.id := hpj
    rw [List.mem_filter, beq_iff_eq] at hp
    rw [h1] at hff
    have hqi : q ∈ left.index := by
      have : q ∈ left.fitting pre l.left := by rw [hq]; exact List.mem_singleton_self _
      exact (List.mem_filter.1 this).1
    have hrow : (p.run, m.left) ∈ e.rows.map fun r => (r.run, r.left) := List.mem_map.2 ⟨_, hy, by rw [hp.2]⟩
    obtain ⟨l', hl', hex | ⟨w, c, all, _, _, h4, _, h5, h6⟩⟩ := found_ok hff.1 p hp.1
    · rw [run_unique hn' hl' hrow] at hex
      obtain ⟨r, hfr, hre⟩ := (fit_exact hl).1 hex.2.2
      have hrm : r ∈ left.fitting pre m.left := by rw [hfr]; exact List.mem_singleton_self _
      have : r = q := List.inj_on_of_nodup_map hl.inv.ids (List.mem_filter.1 hrm).1 hqi (by rw [hre, hpj])
      rw [← this]
      exact hrm
    · rw [run_unique hn' hl' hrow] at h5
      obtain ⟨⟨r, hrm, hre⟩, -⟩ := mem_weightRows hl h5 h6
      have : r = q := List.inj_on_of_nodup_map hl.inv.ids (List.mem_filter.1 hrm).1 hqi (by rw [hre, hpj])
      rw [← this]
      exact hrm

/-! ### Violations -/

/-- **C124, violated.** A value that is a text is never refused, even if it is not a number: whatever the text is, the row is taken
and counts as the number that SQLite finds at its beginning. -/
theorem C124_violated_text (numberIn : PyStr → ℚ) (s : PyStr) (left right : PyStr) :
    (⟨['p'], [['A'], ['p'], ['B']], [[.text left, .text s, .text right]], ['>'], []⟩ : MapTable).read numberIn =
      .ok ⟨['p'], [['A']], [['B']], [⟨1, [left], [right], numberIn s⟩], false, true, []⟩ := by
  have hs : ∀ c : Char, Selectors.isSpace c = false → IndexCode.strip [c] = [c] := by
    intro c hc
    unfold IndexCode.strip
    simp [hc]
  have hp : MappingCsv.valuePosition Edge.edgeName ['p'] [['A'], ['p'], ['B']] = some 1 := by decide +kernel
  unfold MapTable.read
  dsimp only
  have hm : [['A'], ['p'], ['B']].map IndexCode.strip = [['A'], ['p'], ['B']] := by
    rw [List.map_cons, List.map_cons, List.map_cons, List.map_nil, hs 'p' (by decide), hs 'A' (by decide), hs 'B' (by decide)]
  rw [hs 'p' (by decide), hm, hp]
  rfl

theorem zip_blank {header labels : List PyStr} {k : Nat} {cl : PyStr × PyStr} (h : cl.2 ≠ []) :
    cl ∈ header.zip (labels ++ List.replicate k []) ↔ cl ∈ header.zip labels := by
  induction labels generalizing header with
  | nil =>
    rw [List.nil_append, List.zip_nil_right]
    constructor
    · intro hc
      exact absurd (List.eq_of_mem_replicate (List.of_mem_zip hc).2) h
    · intro hc
      cases hc
  | cons l ls ih =>
    cases header with
    | nil => simp
    | cons c cs => rw [List.cons_append, List.zip_cons_cons, List.zip_cons_cons, List.mem_cons, List.mem_cons, ih]

theorem zip_extra {header labels : List PyStr} (extra : List PyStr) (h : header.length ≤ labels.length) :
    header.zip (labels ++ extra) = header.zip labels := by
  induction labels generalizing header with
  | nil =>
    have : header = [] := by simpa using h
    rw [this]
    rfl
  | cons l ls ih =>
    cases header with
    | nil => rfl
    | cons c cs => rw [List.cons_append, List.zip_cons_cons, List.zip_cons_cons, ih (by simpa using h)]

/-- **C124, violated.** A row that is longer or shorter than the header is not noticed if only cells after the value are concerned:
it is read; missing cells are taken as empty, so that the row refers to all records with the other labels, and cells beyond the
header are ignored. -/
theorem C124_violated_ragged (numberIn : PyStr → ℚ) (l : Line) (hl : l.left.length = 1) (n : Node) :
    ((⟨['p'], [['A'], ['p'], ['B'], ['C']], [l.cells], ['>'], []⟩ : MapTable).read numberIn).toOption.map
      (fun e => (e.rightKeys, e.rows)) = some ([['B'], ['C']], [⟨1, l.left, l.right, l.value⟩]) ∧
    (∀ (header labels : List PyStr) (k : Nat), n.fitting header labels = n.fitting header (labels ++ List.replicate k [])) ∧
    ∀ header labels extra : List PyStr, header.length ≤ labels.length →
      n.fitting header (labels ++ extra) = n.fitting header labels := by
  refine ⟨?_, ?_, ?_⟩
  · have hs : ∀ c : Char, Selectors.isSpace c = false → IndexCode.strip [c] = [c] := by
      intro c hc
      unfold IndexCode.strip
      simp [hc]
    have hm : [['A'], ['p'], ['B'], ['C']].map IndexCode.strip = [['A'], ['p'], ['B'], ['C']] := by
      rw [List.map_cons, List.map_cons, List.map_cons, List.map_cons, List.map_nil, hs 'p' (by decide), hs 'A' (by decide),
        hs 'B' (by decide), hs 'C' (by decide)]
    have hp : MappingCsv.valuePosition Edge.edgeName ['p'] [['A'], ['p'], ['B'], ['C']] = some 1 := by decide +kernel
    have hr := readRows_lines numberIn 1 1 [l] (by simpa using hl)
    unfold MapTable.read
    dsimp only
    rw [hs 'p' (by decide), hm, hp]
    dsimp only
    rw [show [l.cells] = [l].map Line.cells from rfl, hr]
    rfl
  · intro header labels k
    unfold Node.fitting
    apply List.filter_congr
    intro r _
    rw [decide_eq_decide]
    constructor
    · intro h cl hcl hne
      exact h cl ((zip_blank hne).1 hcl) hne
    · intro h cl hcl hne
      exact h cl ((zip_blank hne).2 hcl) hne
  · intro header labels extra hle
    unfold Node.fitting
    rw [zip_extra extra hle]

namespace TableDemo

/-- A table with a shorthand, blanks around the headers, and an empty row. -/
def table : MapTable where
  name := ['p']
  header := [[' ', 'A'], ['B'], ['p', ':', ' ', 'l', ' ', '-', '>', ' ', 'r', ' '], ['A'], ['B']]
  rows := [[.text ['x'], .text ['1'], .number 10, .text ['y'], .text ['1']], [],
    [.text ['x'], .text ['2'], .number 7, .text ['x'], .text []]]
  direction := ['-', '>']
  selectors := []

def lines : List Line := [⟨[['x'], ['1']], 10, [['y'], ['1']]⟩, ⟨[['x'], ['2']], 7, [['x'], []]⟩]

theorem names : Names ['p'] ['p', ':', ' ', 'l', ' ', '-', '>', ' ', 'r'] := by
  right
  obtain ⟨h1, h2⟩ := Edge.C73_sound (e := ⟨['p'], ['l'], ['-', '>'], ['r'], none⟩)
    (s := ['p', ':', ' ', 'l', ' ', '-', '>', ' ', 'r']) (by decide +kernel)
  have ht : ∀ c : Char, Selectors.isSpace c = false → Edge.Trimmed [c] := by
    intro c hc
    exact ⟨fun d hd => by cases hd; exact hc, fun d hd => by cases hd; exact hc⟩
  exact ⟨_, h1, ht _ (by decide), ht _ (by decide), ht _ (by decide), h2, rfl⟩

theorem foreign {c : PyStr} (h1 : c ≠ ['p']) (h2 : Edge.parseEdge c = none) : Foreign ['p'] c :=
  ⟨h1, fun e he hw _ => (Edge.C73_none c).1 h2 ⟨e, he, hw⟩⟩

end TableDemo

open TableDemo in
/-- The table is read. -/
example : ∃ e, table.read (fun _ => 0) = .ok e ∧ e.leftKeys = [['A'], ['B']] ∧ e.rightKeys = [['A'], ['B']] ∧
    e.rows = [⟨1, [['x'], ['1']], [['y'], ['1']], 10⟩, ⟨2, [['x'], ['2']], [['x'], []], 7⟩] := by
  obtain ⟨e, h, h1, h2, h3, -⟩ := C124_read (fun _ => 0) (t := table) (pre := [['A'], ['B']]) (post := [['A'], ['B']])
    (col := ['p', ':', ' ', 'l', ' ', '-', '>', ' ', 'r']) (lines := lines) (by decide +kernel) names
    (by
      intro c hc
      simp only [List.mem_cons, List.not_mem_nil, or_false] at hc
      rcases hc with rfl | rfl
      · exact foreign (by decide) (by decide +kernel)
      · exact foreign (by decide) (by decide +kernel))
    (by rfl) (by decide +kernel)
  exact ⟨e, h, h1, h2, h3⟩

open TableDemo in
/-- From the table to the link: the county comes back with its value. -/
example : ∃ (e : Edge) (fl fr : List Found), table.read (fun _ => 0) = .ok e ∧
    e.found (MapDemo.args false) MapDemo.node MapDemo.node = .ok (fl, fr) ∧
    ⟨some 2, some 7, [some ['x'], none]⟩ ∈ reconstructed MapDemo.node.index (storedRelations 1 e.rows fl fr) := by
  have hpre : ∀ c ∈ [['A'], ['B']], Foreign (IndexCode.strip table.name) c := by
    intro c hc
    simp only [List.mem_cons, List.not_mem_nil, or_false] at hc
    rcases hc with rfl | rfl
    · exact foreign (by decide) (by decide +kernel)
    · exact foreign (by decide) (by decide +kernel)
  obtain ⟨e, h, h1, h2, h3, -⟩ := C124_read (fun _ => 0) (t := table) (pre := [['A'], ['B']]) (post := [['A'], ['B']])
    (col := ['p', ':', ' ', 'l', ' ', '-', '>', ' ', 'r']) (lines := lines) (by decide +kernel) names hpre
    (by rfl) (by decide +kernel)
  have hf : e.found (MapDemo.args false) MapDemo.node MapDemo.node =
      .ok ([⟨1, 1, none, none⟩, ⟨2, 2, none, none⟩], [⟨1, 3, none, none⟩, ⟨2, 1, some 3, some [true, false]⟩,
        ⟨2, 2, some 4, some [true, false]⟩]) := by
    unfold Edge.found
    rw [h1, h2, h3]
    rfl
  refine ⟨e, _, _, h, hf, ?_⟩
  have := C124_roundtrip_partial (fun _ => 0) (t := table) (pre := [['A'], ['B']]) (post := [['A'], ['B']])
    (col := ['p', ':', ' ', 'l', ' ', '-', '>', ' ', 'r']) (lines := lines) (by decide +kernel) names hpre
    (by rfl) (by decide +kernel) MapDemo.node_reachable MapDemo.node_reachable (a := MapDemo.args false) rfl (by decide +kernel)
    h hf 1 (i := 1) (l := ⟨[['x'], ['2']], 7, [['x'], []]⟩) rfl (q := ⟨2, [['x'], ['2']]⟩) (by decide +kernel) (by decide)
    (by decide +kernel)
    (by
      intro k m hk hki
      match k with
      | 0 =>
        cases hk
        decide +kernel
      | 1 => exact absurd rfl hki
      | k + 2 => cases hk)
  have e' : MapDemo.node.comesBack [['A'], ['B']] [['x'], []] = [some ['x'], none] := by decide +kernel
  rw [← e']
  exact this

/-- **C124, violated.** Blanks around the name do not matter when the column is looked for, but the link is stored under the name
with the blanks. -/
theorem C124_violated_name : ∃ (t : MapTable) (e : Edge), t.read (fun _ => 0) = .ok e ∧ IndexCode.strip t.name ∈ t.header ∧
    e.name ≠ IndexCode.strip t.name := by
  obtain ⟨e, h, -⟩ := C124_read (fun _ => 0) (t := ⟨['p', ' '], [['A'], ['p'], ['B']], [], ['>'], []⟩) (pre := [['A']])
    (post := [['B']]) (col := ['p']) (lines := []) (by decide +kernel) (.inl (by decide +kernel))
    (by
      intro c hc
      have e' : IndexCode.strip ['p', ' '] = ['p'] := by decide +kernel
      show Foreign (IndexCode.strip ['p', ' ']) c
      rw [e']
      simp only [List.mem_cons, List.not_mem_nil, or_false] at hc
      rcases hc with rfl
      exact TableDemo.foreign (by decide) (by decide +kernel))
    rfl (by simp)
  refine ⟨_, e, h, by decide +kernel, ?_⟩
  obtain ⟨pos, rows, _, _, he⟩ := read_ok h
  rw [he]
  show (['p', ' '] : PyStr) ≠ IndexCode.strip ['p', ' ']
  decide +kernel

end Toron.Legacy
