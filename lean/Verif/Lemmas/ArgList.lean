/-
Lemmas about names on the command line.
-/
import Verif.Model.ArgList
import Verif.Spec.ArgList
import Verif.Lemmas.Csv
import Mathlib.Tactic.Set

namespace Toron.Csv

open Toron.Selectors (PyStr isSpace)
open Toron.IndexCode (strip)

theorem isLineBreak_iff {c : Char} : isLineBreak c = true ↔ c ∈ lineEnds := by
  have key : ∀ d : Char, c = d ↔ c.toNat = d.toNat := fun d =>
    ⟨fun h => by rw [h], fun h => Char.ext (UInt32.toNat_inj.1 h)⟩
  unfold isLineBreak lineEnds
  simp only [List.mem_cons, List.not_mem_nil, or_false, key, Bool.or_eq_true, Bool.and_eq_true, decide_eq_true_eq,
    beq_iff_eq]
  have e : ('\n'.toNat = 10 ∧ '\x0b'.toNat = 11 ∧ '\x0c'.toNat = 12 ∧ '\r'.toNat = 13) ∧
    ('\x1c'.toNat = 28 ∧ '\x1d'.toNat = 29 ∧ '\x1e'.toNat = 30) ∧
    ('\u0085'.toNat = 133 ∧ '\u2028'.toNat = 8232 ∧ '\u2029'.toNat = 8233) := by decide
  obtain ⟨⟨e1, e2, e3, e4⟩, ⟨e5, e6, e7⟩, e8, e9, e10⟩ := e
  rw [e1, e2, e3, e4, e5, e6, e7, e8, e9, e10]
  omega

theorem oneLine_iff {f : PyStr} : OneLine f ↔ ∀ c ∈ f, isLineBreak c = false := by
  unfold OneLine
  constructor
  · intro h c hc
    rw [← Bool.not_eq_true, isLineBreak_iff]
    exact h c hc
  · intro h c hc
    rw [← isLineBreak_iff, Bool.not_eq_true]
    exact h c hc

theorem OneLine.append {a b : PyStr} (ha : OneLine a) (hb : OneLine b) : OneLine (a ++ b) := by
  intro c hc
  rcases List.mem_append.1 hc with h | h
  · exact ha c h
  · exact hb c h

theorem unbreak_id {word : Char → Bool} {prev : Bool} {f : PyStr} (h : '\n' ∉ f) : unbreak word prev f = f := by
  induction f generalizing prev with
  | nil => rfl
  | cons c t ih =>
    rw [unbreak]
    · rw [if_neg (fun e => h (by rw [e.1]; exact List.mem_cons_self)), ih (fun e => h (List.mem_cons_of_mem _ e))]
    · rintro t' rfl rfl
      exact h (by simp)

theorem argLine_id {word : Char → Bool} {f : PyStr} (h : OneLine f) : argLine word f = f := by
  unfold argLine
  rw [unbreak_id (fun e => h _ e (by decide)), List.filter_eq_self]
  intro c hc
  rw [oneLine_iff.1 h c hc]
  rfl

theorem argLine_oneLine {word : Char → Bool} (f : PyStr) : OneLine (argLine word f) := by
  rw [oneLine_iff]
  intro c hc
  have := (List.mem_filter.1 hc).2
  simpa using this

/-! ### Stripping -/

theorem dropWhile_blank {a b : PyStr} (h : ∀ c ∈ a, isSpace c = true) :
    (a ++ b).dropWhile isSpace = b.dropWhile isSpace := by
  induction a with
  | nil => rfl
  | cons c a ih =>
    rw [List.cons_append, List.dropWhile_cons, if_pos (h c List.mem_cons_self),
      ih fun c hc => h c (List.mem_cons_of_mem _ hc)]

theorem dropWhile_self {a : PyStr} (h : ∀ c, a.head? = some c → isSpace c = false) : a.dropWhile isSpace = a := by
  cases a with
  | nil => rfl
  | cons c a => rw [List.dropWhile_cons, if_neg (by rw [h c rfl]; decide)]

theorem strip_pad {pre name post : PyStr} (hpre : ∀ c ∈ pre, isSpace c = true) (hpost : ∀ c ∈ post, isSpace c = true)
    (hn : name ≠ []) (hh : ∀ c, name.head? = some c → isSpace c = false)
    (hl : ∀ c, name.getLast? = some c → isSpace c = false) : strip (pre ++ name ++ post) = name := by
  unfold strip
  have e : (name ++ post).dropWhile isSpace = name ++ post := dropWhile_self (by
    intro c hc
    obtain ⟨x, t, rfl⟩ := List.exists_cons_of_ne_nil hn
    exact hh c (by simpa using hc))
  rw [List.append_assoc, dropWhile_blank hpre, e, List.reverse_append,
    dropWhile_blank (fun c hc => hpost c (List.mem_reverse.1 hc)), dropWhile_self, List.reverse_reverse]
  intro c hc
  rw [List.head?_reverse] at hc
  exact hl c hc

theorem dropWhile_head {a : PyStr} {c : Char} (h : (a.dropWhile isSpace).head? = some c) : isSpace c = false := by
  have := List.head?_dropWhile_not (p := isSpace) a
  rw [h] at this
  simpa using this

theorem strip_infix (f : PyStr) : ∃ a b, f = a ++ strip f ++ b := by
  unfold strip
  have h1 : f = f.takeWhile isSpace ++ f.dropWhile isSpace := (List.takeWhile_append_dropWhile).symm
  generalize f.dropWhile isSpace = g at h1 ⊢
  have h2 : g.reverse = g.reverse.takeWhile isSpace ++ g.reverse.dropWhile isSpace :=
    (List.takeWhile_append_dropWhile).symm
  have h3 := congrArg List.reverse h2
  rw [List.reverse_reverse, List.reverse_append] at h3
  exact ⟨f.takeWhile isSpace, (g.reverse.takeWhile isSpace).reverse, by rw [List.append_assoc, ← h3, ← h1]⟩

theorem strip_last {f : PyStr} {c : Char} (h : (strip f).getLast? = some c) : isSpace c = false := by
  unfold strip at h
  rw [List.getLast?_reverse] at h
  exact dropWhile_head h

theorem strip_head {f : PyStr} {c : Char} (h : (strip f).head? = some c) : isSpace c = false := by
  unfold strip at h
  rw [List.head?_reverse] at h
  set g := f.dropWhile isSpace with hg
  have h2 : g.reverse = g.reverse.takeWhile isSpace ++ g.reverse.dropWhile isSpace :=
    (List.takeWhile_append_dropWhile).symm
  have h3 : g.reverse.getLast? = some c := by
    rw [h2, List.getLast?_append, h]; rfl
  rw [List.getLast?_reverse] at h3
  rw [hg] at h3
  exact dropWhile_head h3

/-! ### One line -/

/-- The characters of a line, without its end. -/
def scan (limit : Nat) : PyStr → Parser → Except String Parser
  | [], p => .ok p
  | c :: t, p => do
    let p ← process limit p (some c)
    scan limit t p

theorem processLine_scan {limit : Nat} (a b : PyStr) (p : Parser) :
    processLine limit (a ++ b) p = scan limit a p >>= processLine limit b := by
  induction a generalizing p with
  | nil => rfl
  | cons c a ih =>
    rw [List.cons_append, processLine, scan]
    cases process limit p (some c) with
    | error e => rfl
    | ok q => exact ih q

theorem processLine_eq {limit : Nat} (a : PyStr) (p : Parser) :
    processLine limit a p = scan limit a p >>= fun q => process limit q none := by
  have := processLine_scan (limit := limit) a [] p
  rw [List.append_nil] at this
  rw [this]
  rfl

theorem lines_line {a : PyStr} (h : '\n' ∉ a) : lines (a ++ ['\n']) = [a ++ ['\n']] := by
  induction a with
  | nil => rfl
  | cons c a ih =>
    rw [List.cons_append, lines, if_neg (fun e => h (by rw [e]; exact List.mem_cons_self)),
      ih fun e => h (List.mem_cons_of_mem _ e)]

/-- The end of the text ends a line like a line feed, outside quotes. -/
theorem readLine_end {limit : Nat} {a : PyStr} {row : List PyStr}
    (h : readLines limit [a ++ ['\n']] .new = .ok [row]) (hn : ∀ f ∈ row, '\n' ∉ f) :
    readLines limit [a] .new = .ok [row] := by
  rw [readLines, processLine_scan] at h
  rw [readLines, processLine_eq]
  cases hs : scan limit a .new with
  | error e => rw [hs] at h; exact (nomatch h)
  | ok q =>
    rw [hs] at h
    obtain ⟨st, cell, cells⟩ := q
    cases st with
    | inQuoted =>
      exfalso
      change (processLine limit ['\n'] ⟨.inQuoted, cell, cells⟩ >>= _) = _ at h
      rw [processLine, process] at h
      dsimp only at h
      rw [if_neg (by decide)] at h
      unfold Parser.add at h
      dsimp only at h
      by_cases hl : limit ≤ cell.length
      · rw [if_pos hl] at h; exact (nomatch h)
      · rw [if_neg hl] at h
        change Except.ok (if cell ++ ['\n'] ≠ [] ∨ _ then _ else _) = _ at h
        rw [if_pos (.inl (by simp))] at h
        have := List.cons.inj (Except.ok.inj h)
        exact hn (cell ++ ['\n']) (by rw [← this.1]; simp) (by simp)
    | startRecord => exact h
    | startField => exact h
    | inField => exact h
    | quoteInQuoted => exact h
    | eatLineEnd => exact h

theorem doubled_mem {f : PyStr} {c : Char} (h : c ∈ doubled f) : c ∈ f := by
  induction f with
  | nil => exact h
  | cons d f ih =>
    rw [doubled] at h
    by_cases hq : d = '"'
    · rw [if_pos hq] at h
      simp only [List.mem_cons] at h ⊢
      rcases h with rfl | rfl | h
      · exact .inl hq.symm
      · exact .inl hq.symm
      · exact .inr (ih h)
    · rw [if_neg hq] at h
      rcases List.mem_cons.1 h with rfl | h
      · exact List.mem_cons_self
      · exact List.mem_cons_of_mem _ (ih h)

theorem writeCell_mem {f : PyStr} {c : Char} (h : c ∈ writeCell f) : c = '"' ∨ c ∈ f := by
  unfold writeCell at h
  by_cases hs : f.any special = true
  · rw [if_pos hs] at h
    rcases List.mem_cons.1 h with rfl | h
    · exact .inl rfl
    · rcases List.mem_append.1 h with h | h
      · exact .inr (doubled_mem h)
      · exact .inl (List.mem_singleton.1 h)
  · rw [if_neg hs] at h
    exact .inr h

theorem joinCells_mem {c : Char} : ∀ {row : List PyStr}, c ∈ joinCells row → c = '"' ∨ c = ',' ∨ ∃ f ∈ row, c ∈ f
  | [], h => by cases h
  | [f], h => by
    rcases writeCell_mem h with h | h
    · exact .inl h
    · exact .inr (.inr ⟨f, by simp, h⟩)
  | f :: g :: rest, h => by
    rw [joinCells] at h
    rcases List.mem_append.1 h with h | h
    · rcases writeCell_mem h with h | h
      · exact .inl h
      · exact .inr (.inr ⟨f, by simp, h⟩)
    · rcases List.mem_cons.1 h with h | h
      · exact .inr (.inl h)
      · rcases joinCells_mem h with h | h | ⟨f, hf, h⟩
        · exact .inl h
        · exact .inr (.inl h)
        · exact .inr (.inr ⟨f, List.mem_cons_of_mem _ hf, h⟩)

theorem joinCells_oneLine {row : List PyStr} (h : ∀ f ∈ row, OneLine f) : OneLine (joinCells row) := by
  intro c hc
  rcases joinCells_mem hc with rfl | rfl | ⟨f, hf, hc⟩
  · decide
  · decide
  · exact h f hf c hc

theorem firstRow_cells {limit : Nat} {row : List PyStr} (h1 : ∀ f ∈ row, OneLine f)
    (hl : ∀ f ∈ row, f.length ≤ limit) : firstRow limit (joinCells row) = .ok (if row = [[]] then [] else row) := by
  by_cases h0 : row = [[]]
  · subst h0; rfl
  · rw [if_neg h0]
    have hg := go_row (limit := limit) (t := []) hl
    rw [List.append_nil] at hg
    unfold go writeRow at hg
    rw [if_neg h0, lines_line (fun e => joinCells_oneLine h1 _ e (by decide))] at hg
    have := readLine_end hg (fun f hf e => h1 f hf _ e (by decide))
    unfold firstRow
    rw [this]
    rfl

theorem argNames_cells {limit : Nat} {word : Char → Bool} {row : List PyStr} (h1 : ∀ f ∈ row, OneLine f)
    (hl : ∀ f ∈ row, f.length ≤ limit) :
    argNames limit word (joinCells row) = .ok ((row.map strip).filter fun f => !f.isEmpty) := by
  unfold argNames
  rw [argLine_id (joinCells_oneLine h1), firstRow_cells h1 hl]
  by_cases h0 : row = [[]]
  · subst h0; rfl
  · rw [if_neg h0]; rfl

theorem normalizeArgs_cells {limit : Nat} {word : Char → Bool} (rows : List (List PyStr))
    (h1 : ∀ row ∈ rows, ∀ f ∈ row, OneLine f) (hl : ∀ row ∈ rows, ∀ f ∈ row, f.length ≤ limit) :
    normalizeArgs limit word (rows.map joinCells) = .ok ((rows.flatten.map strip).filter fun f => !f.isEmpty) := by
  induction rows with
  | nil => rfl
  | cons row rows ih =>
    rw [List.map_cons, normalizeArgs, argNames_cells (h1 row List.mem_cons_self) (hl row List.mem_cons_self),
      ih (fun r hr => h1 r (List.mem_cons_of_mem _ hr)) (fun r hr => hl r (List.mem_cons_of_mem _ hr)),
      List.flatten_cons, List.map_append, List.filter_append]
    rfl

/-! ### Any line -/

/-- The characters read so far, or left to be read. -/
def Parser.Within (p : Parser) (l : PyStr) : Prop := (∀ c ∈ p.cell, c ∈ l) ∧ ∀ f ∈ p.cells, ∀ c ∈ f, c ∈ l

/-- On one line no line end is passed over, and cells are no longer than what was read. -/
structure Parser.Good (p : Parser) (l : PyStr) (n : Nat) : Prop where
  within : p.Within l
  short : p.cell.length ≤ n
  state : p.state ≠ .eatLineEnd

theorem Parser.Good.add {p : Parser} {l : PyStr} {n limit : Nat} (h : p.Good l n) (hn : n < limit) {c : Char} (hc : c ∈ l)
    {st : State} (hst : st ≠ .eatLineEnd) : ∃ q, p.add limit st c = .ok q ∧ q.Good l (n + 1) := by
  have hs := h.short
  refine ⟨_, if_neg (by omega), ⟨⟨?_, h.within.2⟩, ?_, hst⟩⟩
  · intro d hd
    rcases List.mem_append.1 hd with hd | hd
    · exact h.within.1 d hd
    · rw [List.mem_singleton.1 hd]; exact hc
  · show (p.cell ++ [c]).length ≤ n + 1
    rw [List.length_append, List.length_singleton]; omega

theorem Parser.Good.save {p : Parser} {l : PyStr} {n : Nat} (h : p.Good l n) {st : State} (hst : st ≠ .eatLineEnd) (m : Nat) :
    (p.save st).Good l m := by
  refine ⟨⟨(by intro c hc; cases hc), ?_⟩, Nat.zero_le _, hst⟩
  intro f hf
  rcases List.mem_append.1 hf with hf | hf
  · exact h.within.2 f hf
  · rw [List.mem_singleton.1 hf]; exact h.within.1

theorem Parser.Good.process {p : Parser} {l : PyStr} {n limit : Nat} (h : p.Good l n) (hn : n < limit) {c : Char}
    (hc : c ∈ l) (h1 : c ∉ lineEnds) : ∃ q, process limit p (some c) = .ok q ∧ q.Good l (n + 1) := by
  have hr : ¬ (c = '\n' ∨ c = '\r') := by
    rintro (rfl | rfl)
    · exact h1 (by decide)
    · exact h1 (by decide)
  have hs := h.short
  have hf : ∃ q, inField limit p (some c) = .ok q ∧ q.Good l (n + 1) := by
    unfold inField
    dsimp only
    rw [if_neg hr]
    by_cases h2 : c = ','
    · rw [if_pos h2]; exact ⟨_, rfl, h.save (by decide) _⟩
    · rw [if_neg h2]; exact h.add hn hc (by decide)
  have hsf : ∃ q, startField limit p (some c) = .ok q ∧ q.Good l (n + 1) := by
    unfold startField
    dsimp only
    rw [if_neg hr]
    by_cases h2 : c = '"'
    · rw [if_pos h2]; exact ⟨_, rfl, ⟨h.within, by show p.cell.length ≤ n + 1; omega, (fun h => nomatch h)⟩⟩
    · rw [if_neg h2]
      by_cases h2 : c = ','
      · rw [if_pos h2]; exact ⟨_, rfl, h.save (by decide) _⟩
      · rw [if_neg h2]; exact h.add hn hc (by decide)
  unfold Csv.process
  cases hst : p.state with
  | startRecord => dsimp only; rw [if_neg hr]; exact hsf
  | startField => exact hsf
  | inField => exact hf
  | inQuoted =>
    dsimp only
    by_cases h2 : c = '"'
    · rw [if_pos h2]; exact ⟨_, rfl, ⟨h.within, by show p.cell.length ≤ n + 1; omega, (fun h => nomatch h)⟩⟩
    · rw [if_neg h2]; exact h.add hn hc (by decide)
  | quoteInQuoted =>
    dsimp only
    by_cases h2 : c = '"'
    · subst h2; rw [if_pos rfl]; exact h.add hn hc (by decide)
    · rw [if_neg (by simpa using h2)]; exact hf
  | eatLineEnd => exact absurd hst h.state

theorem Parser.Good.scan {l : PyStr} {limit : Nat} (h1 : OneLine l) (a : PyStr) (ha : ∀ c ∈ a, c ∈ l) {p : Parser} {n : Nat}
    (h : p.Good l n) (hn : n + a.length ≤ limit) : ∃ q m, scan limit a p = .ok q ∧ q.Good l m := by
  induction a generalizing p n with
  | nil => exact ⟨p, n, rfl, h⟩
  | cons c a ih =>
    rw [List.length_cons] at hn
    obtain ⟨q, hq, hg⟩ := h.process (limit := limit) (by omega) (ha c List.mem_cons_self) (h1 c (ha c List.mem_cons_self))
    rw [Csv.scan, hq]
    exact ih (fun c hc => ha c (List.mem_cons_of_mem _ hc)) hg (by omega)

theorem firstRow_good {limit : Nat} {l : PyStr} (h1 : OneLine l) (hl : l.length ≤ limit) :
    ∃ row, firstRow limit l = .ok row ∧ ∀ f ∈ row, ∀ c ∈ f, c ∈ l := by
  obtain ⟨q, m, hs, hg⟩ := Parser.Good.scan h1 l (fun _ h => h) (p := .new) (n := 0)
    ⟨⟨(by intro c hc; cases hc), (by intro c hc; cases hc)⟩, Nat.le_refl _, by decide⟩ (by omega : 0 + l.length ≤ limit)
  unfold firstRow
  rw [readLines, processLine_eq, hs]
  obtain ⟨st, cell, cells⟩ := q
  have hsave : ∀ f ∈ cells ++ [cell], ∀ c ∈ f, c ∈ l := by
    intro f hf
    rcases List.mem_append.1 hf with hf | hf
    · exact hg.within.2 f hf
    · rw [List.mem_singleton.1 hf]; exact hg.within.1
  cases st with
  | startRecord => exact ⟨_, rfl, hg.within.2⟩
  | startField => exact ⟨_, rfl, hsave⟩
  | inField => exact ⟨_, rfl, hsave⟩
  | inQuoted =>
    refine ⟨cells ++ [cell], ?_, hsave⟩
    show (match (if cell ≠ [] ∨ State.inQuoted = .inQuoted then [cells ++ [cell]] else []) with
      | [] => _ | row :: _ => _) = _
    rw [if_pos (.inr rfl)]
  | quoteInQuoted => exact ⟨_, rfl, hsave⟩
  | eatLineEnd => exact absurd rfl hg.state

end Toron.Csv
