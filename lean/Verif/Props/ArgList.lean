/-
C70: names given on the command line.
-/
import Verif.Lemmas.ArgList

namespace Toron.Csv

open Toron.Selectors (PyStr isSpace)
open Toron.IndexCode (strip)

/-- Names can be given in any grouping, as one argument each or several with commas in between, with or without blanks
around them, and quoted as in CSV: the names are found in the order given. What is missing for the full property: a
cell has to be quoted with the blanks around the name (`C70_violated_blank`). -/
theorem C70_names_partial {limit : Nat} {word : Char → Bool} {args : List (List (PyStr × PyStr × PyStr))}
    (hn : ∀ arg ∈ args, ∀ x ∈ arg, Blank x.1 ∧ IsName x.2.1 ∧ Blank x.2.2 ∧ (x.1 ++ x.2.1 ++ x.2.2).length ≤ limit) :
    normalizeArgs limit word (args.map fun arg => joinCells (arg.map fun x => x.1 ++ x.2.1 ++ x.2.2)) =
      .ok (args.flatten.map (·.2.1)) := by
  have e : (args.map fun arg => joinCells (arg.map fun x => x.1 ++ x.2.1 ++ x.2.2)) =
      (args.map fun arg => arg.map fun x => x.1 ++ x.2.1 ++ x.2.2).map joinCells := by
    rw [List.map_map]; rfl
  rw [e, normalizeArgs_cells]
  · congr 1
    have : ∀ l : List (PyStr × PyStr × PyStr), (∀ x ∈ l, Blank x.1 ∧ IsName x.2.1 ∧ Blank x.2.2) →
        ((l.map fun x => x.1 ++ x.2.1 ++ x.2.2).map strip).filter (fun f => !f.isEmpty) = l.map (·.2.1) := by
      intro l hl
      rw [List.map_map, List.map_congr_left (g := fun x => x.2.1), List.filter_eq_self.2]
      · intro f hf
        obtain ⟨x, hx, rfl⟩ := List.mem_map.1 hf
        have := (hl x hx).2.1.1
        cases h : x.2.1 with
        | nil => exact absurd h this
        | cons _ _ => rfl
      · intro x hx
        obtain ⟨h1, h2, h3⟩ := hl x hx
        exact strip_pad h1.2 h3.2 h2.1 h2.2.2.1 h2.2.2.2
    rw [← this]
    · rw [show (args.map fun arg => arg.map fun x => x.1 ++ x.2.1 ++ x.2.2).flatten =
        args.flatten.map fun x => x.1 ++ x.2.1 ++ x.2.2 from List.map_flatten.symm]
    · intro x hx
      obtain ⟨arg, ha, hx⟩ := List.mem_flatten.1 hx
      obtain ⟨h1, h2, h3, -⟩ := hn arg ha x hx
      exact ⟨h1, h2, h3⟩
  · intro row hr f hf
    obtain ⟨arg, ha, rfl⟩ := List.mem_map.1 hr
    obtain ⟨x, hx, rfl⟩ := List.mem_map.1 hf
    obtain ⟨h1, h2, h3, -⟩ := hn arg ha x hx
    exact (h1.1.append h2.2.1).append h3.1
  · intro row hr f hf
    obtain ⟨arg, ha, rfl⟩ := List.mem_map.1 hr
    obtain ⟨x, hx, rfl⟩ := List.mem_map.1 hf
    exact (hn arg ha x hx).2.2.2

theorem joinCells_plain : ∀ {row : List PyStr}, (∀ f ∈ row, ∀ c ∈ f, special c = false) → joinCells row = commas row
  | [], _ => rfl
  | [f], h => by
    rw [joinCells, commas, writeCell, if_neg]
    rw [Bool.not_eq_true, List.any_eq_false]
    intro c hc
    rw [h f (by simp) c hc]
    decide
  | f :: g :: rest, h => by
    have := joinCells_plain (row := g :: rest) fun x hx => h x (List.mem_cons_of_mem _ hx)
    rw [joinCells, commas, this, writeCell, if_neg]
    · simp
    · rw [Bool.not_eq_true, List.any_eq_false]
      intro c hc
      rw [h f (by simp) c hc]
      decide

/-- Names without commas and quotes can just be written down, with commas and blanks in between. -/
theorem C70_plain {limit : Nat} {word : Char → Bool} {args : List (List (PyStr × PyStr × PyStr))}
    (hn : ∀ arg ∈ args, ∀ x ∈ arg, Blank x.1 ∧ IsName x.2.1 ∧ Blank x.2.2 ∧ (x.1 ++ x.2.1 ++ x.2.2).length ≤ limit)
    (hp : ∀ arg ∈ args, ∀ x ∈ arg, ',' ∉ x.2.1 ∧ '"' ∉ x.2.1) :
    normalizeArgs limit word (args.map fun arg => commas (arg.map fun x => x.1 ++ x.2.1 ++ x.2.2)) =
      .ok (args.flatten.map (·.2.1)) := by
  rw [← C70_names_partial (word := word) hn]
  congr 1
  apply List.map_congr_left
  intro arg ha
  rw [joinCells_plain]
  intro f hf c hc
  obtain ⟨x, hx, rfl⟩ := List.mem_map.1 hf
  obtain ⟨h1, h2, h3, -⟩ := hn arg ha x hx
  obtain ⟨h4, h5⟩ := hp arg ha x hx
  have h6 := ((h1.1.append h2.2.1).append h3.1) c hc
  have h7 : c ≠ ',' ∧ c ≠ '"' := by
    rcases List.mem_append.1 hc with hc | hc
    · rcases List.mem_append.1 hc with hc | hc
      · have := h1.2 c hc
        exact ⟨fun e => absurd (e ▸ this) (by decide), fun e => absurd (e ▸ this) (by decide)⟩
      · exact ⟨fun e => h4 (e ▸ hc), fun e => h5 (e ▸ hc)⟩
    · have := h3.2 c hc
      exact ⟨fun e => absurd (e ▸ this) (by decide), fun e => absurd (e ▸ this) (by decide)⟩
  unfold special
  simp only [Bool.or_eq_false_iff, beq_eq_false_iff_ne]
  exact ⟨⟨⟨h7.1, h7.2⟩, fun e => h6 (e ▸ by decide)⟩, fun e => h6 (e ▸ by decide)⟩

/-- The example of the documentation, `['A , B', ' ,C ']`: also empty cells are passed over. -/
example : (normalizeArgs fieldLimit Char.isAlphanum ["A , B".toList, " ,C ".toList]).toOption =
    some ["A".toList, "B".toList, "C".toList] := by decide +kernel

example : (normalizeArgs fieldLimit Char.isAlphanum ["state, county".toList, "\"Name, short\"".toList]).toOption =
    some ["state".toList, "county".toList, "Name, short".toList] := by decide +kernel

instance (f : PyStr) : Decidable (OneLine f) := by unfold OneLine; infer_instance
instance (f : PyStr) : Decidable (Blank f) := by unfold Blank; infer_instance

/-- The hypotheses can be met. -/
example : IsName "Name, short".toList ∧ Blank "  ".toList ∧ ¬ IsName " x".toList := by
  refine ⟨⟨by decide, by decide, by decide, by decide⟩, by decide, ?_⟩
  intro h
  exact absurd (h.2.2.1 ' ' rfl) (by decide)

/-! ### The names found -/

theorem add_mono {limit L : Nat} (hL : limit ≤ L) {st : State} {c : Char} {p q : Parser}
    (h : p.add limit st c = .ok q) : p.add L st c = .ok q := by
  unfold Parser.add at h ⊢
  by_cases hl : limit ≤ p.cell.length
  · rw [if_pos hl] at h; exact (nomatch h)
  · rw [if_neg hl] at h
    by_cases hl' : L ≤ p.cell.length
    · omega
    · rw [if_neg hl', h]

theorem inField_mono {limit L : Nat} (hL : limit ≤ L) {c : Option Char} {p q : Parser}
    (h : inField limit p c = .ok q) : inField L p c = .ok q := by
  cases c with
  | none => exact h
  | some c =>
    unfold inField at h ⊢
    dsimp only at h ⊢
    by_cases h1 : c = '\n' ∨ c = '\r'
    · rw [if_pos h1] at h ⊢; exact h
    · rw [if_neg h1] at h ⊢
      by_cases h2 : c = ','
      · rw [if_pos h2] at h ⊢; exact h
      · rw [if_neg h2] at h ⊢; exact add_mono hL h

theorem startField_mono {limit L : Nat} (hL : limit ≤ L) {c : Option Char} {p q : Parser}
    (h : startField limit p c = .ok q) : startField L p c = .ok q := by
  cases c with
  | none => exact h
  | some c =>
    unfold startField at h ⊢
    dsimp only at h ⊢
    by_cases h1 : c = '\n' ∨ c = '\r'
    · rw [if_pos h1] at h ⊢; exact h
    · rw [if_neg h1] at h ⊢
      by_cases h3 : c = '"'
      · rw [if_pos h3] at h ⊢; exact h
      · rw [if_neg h3] at h ⊢
        by_cases h2 : c = ','
        · rw [if_pos h2] at h ⊢; exact h
        · rw [if_neg h2] at h ⊢; exact add_mono hL h

theorem process_mono {limit L : Nat} (hL : limit ≤ L) {c : Option Char} {p q : Parser}
    (h : process limit p c = .ok q) : process L p c = .ok q := by
  obtain ⟨st, cell, cells⟩ := p
  cases st with
  | startRecord =>
    cases c with
    | none => exact h
    | some c =>
      unfold process at h ⊢
      dsimp only at h ⊢
      by_cases h1 : c = '\n' ∨ c = '\r'
      · rw [if_pos h1] at h ⊢; exact h
      · rw [if_neg h1] at h ⊢; exact startField_mono hL h
  | startField => exact startField_mono hL h
  | inField => exact inField_mono hL h
  | inQuoted =>
    cases c with
    | none => exact h
    | some c =>
      unfold process at h ⊢
      dsimp only at h ⊢
      by_cases h1 : c = '"'
      · rw [if_pos h1] at h ⊢; exact h
      · rw [if_neg h1] at h ⊢; exact add_mono hL h
  | quoteInQuoted =>
    unfold process at h ⊢
    dsimp only at h ⊢
    by_cases h1 : c = some '"'
    · rw [if_pos h1] at h ⊢; exact add_mono hL h
    · rw [if_neg h1] at h ⊢; exact inField_mono hL h
  | eatLineEnd =>
    cases c with
    | none => exact h
    | some c => exact h

theorem processLine_mono {limit L : Nat} (hL : limit ≤ L) {l : PyStr} {p q : Parser}
    (h : processLine limit l p = .ok q) : processLine L l p = .ok q := by
  induction l generalizing p with
  | nil => exact process_mono hL h
  | cons c l ih =>
    rw [processLine] at h ⊢
    cases h1 : process limit p (some c) with
    | error e => rw [h1] at h; exact (nomatch h)
    | ok r => rw [h1] at h; rw [process_mono hL h1]; exact ih h

theorem firstRow_mono {limit L : Nat} (hL : limit ≤ L) {l : PyStr} {row : List PyStr}
    (h : firstRow limit l = .ok row) : firstRow L l = .ok row := by
  unfold firstRow at h ⊢
  rw [readLines] at h ⊢
  cases h1 : processLine limit l .new with
  | error e => rw [h1] at h; exact (nomatch h)
  | ok r => rw [h1] at h; rw [processLine_mono hL h1]; exact h

theorem argNames_clean {limit : Nat} {word : Char → Bool} {v : PyStr} {names : List PyStr}
    (h : argNames limit word v = .ok names) : ∀ f ∈ names, IsName f := by
  unfold argNames at h
  cases h1 : firstRow limit (argLine word v) with
  | error e => rw [h1] at h; exact (nomatch h)
  | ok row =>
    rw [h1] at h
    have h := Except.ok.inj h
    subst h
    obtain ⟨row', h2, h3⟩ := firstRow_good (limit := max limit (argLine word v).length) (argLine_oneLine v)
      (Nat.le_max_right _ _)
    rw [firstRow_mono (Nat.le_max_left _ _) h1] at h2
    have h2 := Except.ok.inj h2
    subst h2
    intro f hf
    obtain ⟨hf, hne⟩ := List.mem_filter.1 hf
    obtain ⟨g, hg, rfl⟩ := List.mem_map.1 hf
    refine ⟨?_, ?_, fun c => strip_head, fun c => strip_last⟩
    · intro e
      rw [e] at hne
      exact absurd hne (by decide)
    · intro c hc
      obtain ⟨a, b, he⟩ := strip_infix g
      exact argLine_oneLine v c (h3 g hg c (by rw [he]; simp [hc]))

/-- Whatever the arguments are, what is taken from them are names: not empty, on one line, no blanks at the ends. -/
theorem C70_clean {limit : Nat} {word : Char → Bool} {args : List PyStr} {names : List PyStr}
    (h : normalizeArgs limit word args = .ok names) : ∀ f ∈ names, IsName f := by
  induction args generalizing names with
  | nil => cases h; intro f hf; cases hf
  | cons v vs ih =>
    rw [normalizeArgs] at h
    cases h1 : argNames limit word v with
    | error e => rw [h1] at h; exact (nomatch h)
    | ok a =>
      cases h2 : normalizeArgs limit word vs with
      | error e => rw [h1, h2] at h; exact (nomatch h)
      | ok b =>
        rw [h1, h2] at h
        have h := Except.ok.inj h
        subst h
        intro f hf
        rcases List.mem_append.1 hf with hf | hf
        · exact argNames_clean h1 f hf
        · exact ih h2 f hf

theorem unbreak_length (word : Char → Bool) : ∀ (prev : Bool) (t : PyStr), (unbreak word prev t).length ≤ t.length
  | _, [] => by simp [unbreak]
  | prev, [c] => by
    rw [unbreak]
    · split <;> simp [unbreak]
    · rintro _ _ h; cases h
  | prev, c :: d :: t => by
    by_cases h : c = '\r' ∧ d = '\n'
    · obtain ⟨rfl, rfl⟩ := h
      rw [unbreak]
      have := unbreak_length word false t
      split
      · simp only [List.length_cons]; omega
      · simp only [List.length_cons]; omega
    · rw [unbreak]
      · split
        · have := unbreak_length word false (d :: t)
          simp only [List.length_cons] at this ⊢; omega
        · have := unbreak_length word (word c) (d :: t)
          simp only [List.length_cons] at this ⊢; omega
      · rintro t' rfl e
        exact h ⟨rfl, (List.cons.inj e).1⟩

/-- Arguments within the limit for cells are never refused. -/
theorem C70_accepts {limit : Nat} {word : Char → Bool} {args : List PyStr} (h : ∀ v ∈ args, v.length ≤ limit) :
    ∃ names, normalizeArgs limit word args = .ok names := by
  induction args with
  | nil => exact ⟨[], rfl⟩
  | cons v vs ih =>
    obtain ⟨b, hb⟩ := ih fun v hv => h v (List.mem_cons_of_mem _ hv)
    have hl : (argLine word v).length ≤ limit :=
      Nat.le_trans (List.length_filter_le _ _) (Nat.le_trans (unbreak_length word false v) (h v List.mem_cons_self))
    obtain ⟨row, hr, -⟩ := firstRow_good (argLine_oneLine v) hl
    refine ⟨(row.map strip).filter (fun f => !f.isEmpty) ++ b, ?_⟩
    rw [normalizeArgs, argNames, hr, hb]
    rfl

example : ∀ v ∈ ["\"A, B".toList, "\"\"x\"".toList], v.length ≤ fieldLimit := by decide

/-! ### Line ends within arguments -/

theorem startsWord_eq {word : Char → Bool} {t : PyStr} : startsWord word t = t.head?.any word := by
  cases t <;> rfl

theorem head_broken {word : Char → Bool} {nl : PyStr} (hnl : nl.head?.any word = false) (hne : nl ≠ []) :
    ∀ (f : PyStr) (ls : List PyStr), (broken nl (f :: ls)).head?.any word = f.head?.any word
  | f, [] => rfl
  | [], g :: rest => by
    rw [broken, List.nil_append]
    cases nl with
    | nil => exact absurd rfl hne
    | cons c t => exact hnl
  | c :: f, g :: rest => rfl

theorem unbreak_line {word : Char → Bool} {nl : PyStr} (hnl : nl = ['\n'] ∨ nl = ['\r', '\n'])
    (hw : word '\n' = false) (t : PyStr) (f : PyStr) (hf : OneLine f) (prev : Bool) :
    unbreak word prev (f ++ nl ++ t) =
      f ++ (if (if f = [] then prev else f.getLast?.any word) && t.head?.any word then [' '] else nl) ++
        unbreak word false t := by
  induction f generalizing prev with
  | nil =>
    rw [List.nil_append, List.nil_append, if_pos rfl, ← startsWord_eq]
    rcases hnl with rfl | rfl
    · show unbreak word prev ('\n' :: t) = _
      rw [unbreak]
      · by_cases h : (prev && startsWord word t) = true
        · rw [if_pos ⟨rfl, h⟩, if_pos h]; rfl
        · rw [if_neg (fun e => h e.2), if_neg h, hw]; rfl
      · rintro _ h; exact absurd h (by decide)
    · show unbreak word prev ('\r' :: '\n' :: t) = _
      rw [unbreak]
      by_cases h : (prev && startsWord word t) = true
      · rw [if_pos h, if_pos h]; rfl
      · rw [if_neg h, if_neg h]; rfl
  | cons c f ih =>
    have hc := hf c List.mem_cons_self
    rw [List.cons_append, List.cons_append, unbreak]
    · rw [if_neg (fun e => hc (by rw [e.1]; decide)), ih (fun c hc => hf c (List.mem_cons_of_mem _ hc))]
      have e : (if c :: f = [] then prev else (c :: f).getLast?.any word) =
          if f = [] then word c else f.getLast?.any word := by
        cases f with
        | nil => simp
        | cons d f => simp
      rw [e, List.cons_append, List.cons_append]
    · rintro t' rfl
      exact absurd (by decide) hc

theorem argLine_broken {word : Char → Bool} {nl : PyStr} (hnl : nl = ['\n'] ∨ nl = ['\r', '\n'])
    (hw : word '\n' = false) (hw' : word '\r' = false) :
    ∀ ls : List PyStr, (∀ f ∈ ls, OneLine f) → argLine word (broken nl ls) = unbroken word ls
  | [], _ => rfl
  | [f], h => argLine_id (h f (by simp))
  | f :: g :: rest, h => by
    have ih := argLine_broken hnl hw hw' (g :: rest) fun x hx => h x (List.mem_cons_of_mem _ hx)
    have hh : nl.head?.any word = false := by
      rcases hnl with rfl | rfl
      · exact hw
      · exact hw'
    have hne : nl ≠ [] := by rcases hnl with rfl | rfl <;> simp
    unfold argLine at ih ⊢
    rw [broken, unbreak_line hnl hw _ f (h f (by simp)), head_broken hh hne, List.filter_append, List.filter_append,
      ih, unbroken]
    congr 2
    · rw [List.filter_eq_self]
      intro c hc
      rw [oneLine_iff.1 (h f (by simp)) c hc]
      rfl
    · have e : (if f = [] then false else f.getLast?.any word) = f.getLast?.any word := by
        cases f with
        | nil => rfl
        | cons _ _ => rw [if_neg (by simp)]
      rw [e]
      split
      · rfl
      · rcases hnl with rfl | rfl <;> rfl

theorem unbroken_oneLine {word : Char → Bool} : ∀ {ls : List PyStr}, (∀ f ∈ ls, OneLine f) → OneLine (unbroken word ls)
  | [], _ => by intro c hc; cases hc
  | [f], h => h f (by simp)
  | f :: g :: rest, h => by
    refine (OneLine.append (h f (by simp)) ?_).append (unbroken_oneLine fun x hx => h x (List.mem_cons_of_mem _ hx))
    split
    · decide
    · intro c hc; cases hc

/-- An argument that goes over several lines is read as one line, with a blank where the break is between two words.
(`word` is any set of characters without the line ends.) -/
theorem C70_lines {limit : Nat} {word : Char → Bool} (hw : word '\n' = false) (hw' : word '\r' = false)
    {lineEnd : PyStr} (hnl : lineEnd = ['\n'] ∨ lineEnd = ['\r', '\n']) {ls : List PyStr} (h : ∀ f ∈ ls, OneLine f)
    (args : List PyStr) :
    normalizeArgs limit word (broken lineEnd ls :: args) = normalizeArgs limit word (unbroken word ls :: args) := by
  rw [normalizeArgs, normalizeArgs, argNames, argNames, argLine_broken hnl hw hw' ls h, argLine_id (unbroken_oneLine h)]

example : (normalizeArgs fieldLimit Char.isAlphanum [broken ['\n'] ["New".toList, "York,".toList, "Ohio".toList]]).toOption =
    some ["New York".toList, "Ohio".toList] := by decide +kernel

/-- A blank before a quote takes the quote its meaning: a list written in the usual way, with a blank after the comma, is
taken apart within the quotes. Blanks do not matter for names without quotes (`C70_plain`). -/
theorem C70_violated_blank : ∃ args : List PyStr, ∀ word : Char → Bool,
    normalizeArgs fieldLimit word args = .ok [['A'], ['"', 'B'], ['C', '"']] ∧
    args = [['A', ',', ' ', '"', 'B', ',', ' ', 'C', '"']] ∧
    normalizeArgs fieldLimit word [['A', ',', '"', 'B', ',', ' ', 'C', '"']] = .ok [['A'], ['B', ',', ' ', 'C']] := by
  refine ⟨_, fun word => ⟨?_, rfl, ?_⟩⟩
  · rw [normalizeArgs, argNames, argLine_id (by decide), normalizeArgs]
    have : firstRow fieldLimit ['A', ',', ' ', '"', 'B', ',', ' ', 'C', '"'] =
      .ok [['A'], [' ', '"', 'B'], [' ', 'C', '"']] := rfl
    rw [this]
    rfl
  · rw [normalizeArgs, argNames, argLine_id (by decide), normalizeArgs]
    have : firstRow fieldLimit ['A', ',', '"', 'B', ',', ' ', 'C', '"'] =
      .ok [['A'], ['B', ',', ' ', 'C']] := rfl
    rw [this]
    rfl

end Toron.Csv
