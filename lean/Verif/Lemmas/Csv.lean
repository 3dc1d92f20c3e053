/-
Lemmas about reading and writing CSV.
-/
import Verif.Model.Csv
import Mathlib.Tactic.ByContra

namespace Toron.Csv

open Toron.Selectors (PyStr)

/-! ### Character by character -/

/-- Reading the rest of a text. -/
def go (limit : Nat) (p : Parser) (t : PyStr) : Except String (List (List PyStr)) := readLines limit (lines t) p

theorem lines_ne {t : PyStr} (h : t ≠ []) : lines t ≠ [] := by
  cases t with
  | nil => exact absurd rfl h
  | cons c t =>
    unfold lines
    split
    · simp
    · split <;> simp

theorem go_char {limit : Nat} {p : Parser} {c : Char} {t : PyStr} (hc : c ≠ '\n') (ht : t ≠ []) :
    go limit p (c :: t) = process limit p (some c) >>= fun p => go limit p t := by
  unfold go
  rw [lines, if_neg hc]
  rcases hl : lines t with _ | ⟨l, ls⟩
  · exact absurd hl (lines_ne ht)
  · dsimp only
    rw [readLines, processLine]
    cases process limit p (some c) with
    | error e => rfl
    | ok q => rfl

theorem go_newline {limit : Nat} {p : Parser} {t : PyStr} :
    go limit p ('\n' :: t) = process limit p (some '\n') >>= fun p => process limit p none >>= fun p =>
      if p.state = .startRecord then go limit .new t >>= fun rows => .ok (p.cells :: rows) else go limit p t := by
  unfold go
  rw [lines, if_pos rfl, readLines, processLine]
  cases process limit p (some '\n') with
  | error e => rfl
  | ok q => rfl

theorem go_nil {limit : Nat} : go limit .new [] = .ok [] := rfl

/-! ### Cells -/

theorem go_quoted {limit : Nat} {fs : List PyStr} {t : PyStr} (ht : t ≠ []) (f acc : PyStr)
    (h : (acc ++ f).length ≤ limit) :
    go limit ⟨.inQuoted, acc, fs⟩ (doubled f ++ '"' :: t) = go limit ⟨.quoteInQuoted, acc ++ f, fs⟩ t := by
  induction f generalizing acc with
  | nil =>
    rw [doubled, List.nil_append, go_char (by decide) ht, List.append_nil]
    rfl
  | cons c f ih =>
    have hl : ¬ limit ≤ acc.length := by
      rw [List.length_append, List.length_cons] at h; omega
    have e : acc ++ c :: f = (acc ++ [c]) ++ f := by simp
    rw [e] at h
    rw [doubled]
    by_cases hq : c = '"'
    · subst hq
      rw [if_pos rfl, List.cons_append, List.cons_append, go_char (by decide) (by simp)]
      show go limit ⟨.quoteInQuoted, acc, fs⟩ _ = _
      rw [go_char (by decide) (by simp)]
      simp only [process, if_true, Parser.add, if_neg hl]
      rw [e]
      exact ih _ h
    · rw [if_neg hq, List.cons_append]
      by_cases hn : c = '\n'
      · subst hn
        rw [go_newline]
        simp only [process, Parser.add, if_neg hl, if_neg hq]
        rw [e]
        exact ih _ h
      · rw [go_char hn (by simp)]
        simp only [process, Parser.add, if_neg hl, if_neg hq]
        rw [e]
        exact ih _ h

theorem go_plain {limit : Nat} {fs : List PyStr} {t : PyStr} (ht : t ≠ []) (f acc : PyStr)
    (hf : ∀ c ∈ f, special c = false) (h : (acc ++ f).length ≤ limit) :
    go limit ⟨.inField, acc, fs⟩ (f ++ t) = go limit ⟨.inField, acc ++ f, fs⟩ t := by
  induction f generalizing acc with
  | nil => rw [List.nil_append, List.append_nil]
  | cons c f ih =>
    have hl : ¬ limit ≤ acc.length := by
      rw [List.length_append, List.length_cons] at h; omega
    have e : acc ++ c :: f = (acc ++ [c]) ++ f := by simp
    rw [e] at h
    have hc := hf c List.mem_cons_self
    unfold special at hc
    simp only [Bool.or_eq_false_iff, beq_eq_false_iff_ne] at hc
    obtain ⟨⟨⟨h1, h2⟩, h3⟩, h4⟩ := hc
    rw [List.cons_append, go_char h3 (by simp [ht])]
    simp only [process, inField, Parser.add, if_neg hl, if_neg h1, h3, h4, or_self, if_false]
    rw [e]
    exact ih _ (fun c hc => hf c (List.mem_cons_of_mem _ hc)) h

/-- What is read after a cell. -/
def after (limit : Nat) (fs : List PyStr) (d : Char) (t : PyStr) : Except String (List (List PyStr)) :=
  if d = ',' then go limit ⟨.startField, [], fs⟩ t
  else go limit .new t >>= fun rows => .ok (fs :: rows)

theorem go_end {limit : Nat} {fs : List PyStr} {acc : PyStr} {d : Char} {t : PyStr} (hd : d = ',' ∧ t ≠ [] ∨ d = '\n')
    {st : State} (hst : st = .inField ∨ st = .quoteInQuoted ∨ st = .startField) :
    go limit ⟨st, acc, fs⟩ (d :: t) = after limit (fs ++ [acc]) d t := by
  unfold after
  rcases hd with ⟨rfl, ht⟩ | rfl
  · rw [go_char (by decide) ht, if_pos rfl]
    rcases hst with rfl | rfl | rfl <;> rfl
  · rw [go_newline, if_neg (by decide)]
    rcases hst with rfl | rfl | rfl <;> rfl

theorem go_cell {limit : Nat} {fs : List PyStr} {f : PyStr} {d : Char} {t : PyStr} (hd : d = ',' ∧ t ≠ [] ∨ d = '\n')
    (hf : f.length ≤ limit) {st : State}
    (hst : st = .startField ∨ st = .startRecord ∧ ¬ (f = [] ∧ d = '\n')) :
    go limit ⟨st, [], fs⟩ (writeCell f ++ d :: t) = after limit (fs ++ [f]) d t := by
  unfold writeCell
  by_cases hs : f.any special = true
  · rw [if_pos hs, List.cons_append, List.append_assoc, List.singleton_append, go_char (by decide) (by simp)]
    have : process limit ⟨st, [], fs⟩ (some '"') = .ok ⟨.inQuoted, [], fs⟩ := by
      rcases hst with rfl | ⟨rfl, _⟩ <;> rfl
    rw [this]
    show go limit ⟨.inQuoted, [], fs⟩ _ = _
    rw [go_quoted (by simp) f [] (by simpa using hf), List.nil_append]
    exact go_end hd (.inr (.inl rfl))
  · rw [if_neg hs]
    have hs : ∀ c ∈ f, special c = false := by
      intro c hc
      rw [Bool.not_eq_true, List.any_eq_false] at hs
      exact Bool.eq_false_iff.2 (hs c hc)
    cases f with
    | nil =>
      rcases hst with rfl | ⟨rfl, hne⟩
      · exact go_end hd (.inr (.inr rfl))
      · rcases hd with ⟨rfl, ht⟩ | rfl
        · rw [List.nil_append, go_char (by decide) ht]
          rfl
        · exact absurd ⟨rfl, rfl⟩ hne
    | cons c f =>
      have hc := hs c List.mem_cons_self
      unfold special at hc
      simp only [Bool.or_eq_false_iff, beq_eq_false_iff_ne] at hc
      obtain ⟨⟨⟨h1, h2⟩, h3⟩, h4⟩ := hc
      rw [List.cons_append, go_char h3 (by simp)]
      have hl : ¬ limit ≤ ([] : PyStr).length := by
        rw [List.length_cons] at hf; simp; omega
      have : process limit ⟨st, [], fs⟩ (some c) = .ok ⟨.inField, [c], fs⟩ := by
        rcases hst with rfl | ⟨rfl, _⟩ <;>
          simp only [process, startField, Parser.add, if_neg hl, h1, h2, h3, h4, or_self, if_false, List.nil_append]
      rw [this]
      show go limit ⟨.inField, [c], fs⟩ _ = _
      rw [go_plain (by simp) f [c] (fun c hc => hs c (List.mem_cons_of_mem _ hc)) (by simpa using hf)]
      exact go_end hd (.inl rfl)

theorem go_cells {limit : Nat} {t : PyStr} : ∀ (row : List PyStr) (fs : List PyStr) (st : State), row ≠ [] →
    (∀ f ∈ row, f.length ≤ limit) → (st = .startField ∨ st = .startRecord ∧ row ≠ [[]]) →
    go limit ⟨st, [], fs⟩ (joinCells row ++ '\n' :: t) = go limit .new t >>= fun rows => .ok ((fs ++ row) :: rows)
  | [], _, _, h, _, _ => absurd rfl h
  | [f], fs, st, _, hf, hst => by
    rw [joinCells, go_cell (.inr rfl) (hf f (by simp))]
    · rfl
    · rcases hst with h | ⟨h, hne⟩
      · exact .inl h
      · exact .inr ⟨h, fun hf => hne (by rw [hf.1])⟩
  | f :: g :: rest, fs, st, _, hf, hst => by
    rw [joinCells, List.append_assoc, List.cons_append, go_cell (.inl ⟨rfl, by simp⟩) (hf f (by simp))]
    · unfold after
      rw [if_pos rfl, go_cells (g :: rest) (fs ++ [f]) .startField (by simp)
        (fun x hx => hf x (List.mem_cons_of_mem _ hx)) (.inl rfl), List.append_assoc]
      rfl
    · rcases hst with h | ⟨h, _⟩
      · exact .inl h
      · exact .inr ⟨h, fun h => absurd h.2 (by decide)⟩

theorem go_row {limit : Nat} {t : PyStr} {row : List PyStr} (hf : ∀ f ∈ row, f.length ≤ limit) :
    go limit .new (writeRow row ++ t) = go limit .new t >>= fun rows => .ok (row :: rows) := by
  unfold writeRow
  by_cases h1 : row = [[]]
  · subst h1
    rw [if_pos rfl]
    show go limit .new ('"' :: '"' :: '\n' :: t) = _
    rw [go_char (by decide) (by simp)]
    show go limit ⟨.inQuoted, [], []⟩ _ = _
    rw [go_char (by decide) (by simp)]
    show go limit ⟨.quoteInQuoted, [], []⟩ _ = _
    rw [go_newline]
    rfl
  · rw [if_neg h1, List.append_assoc, List.singleton_append]
    by_cases h0 : row = []
    · subst h0
      rw [joinCells, List.nil_append, go_newline]
      rfl
    · exact go_cells row [] .startRecord h0 hf (.inr ⟨rfl, h1⟩)


theorem go_rows {limit : Nat} (rows : List (List PyStr)) (h : ∀ row ∈ rows, ∀ f ∈ row, f.length ≤ limit) :
    go limit .new (writeRows rows) = .ok rows := by
  induction rows with
  | nil => rfl
  | cons row rows ih =>
    rw [writeRows, List.flatMap_cons, go_row (h row List.mem_cons_self)]
    have := ih fun r hr => h r (List.mem_cons_of_mem _ hr)
    unfold writeRows at this
    rw [this]
    rfl

/-! ### Cells that are too long -/

/-- The error for a cell that is too long. -/
def tooLong : String := "field larger than field limit"

theorem go_quoted_long {limit : Nat} {fs : List PyStr} {t : PyStr} (ht : t ≠ []) (f acc : PyStr)
    (ha : acc.length ≤ limit) (h : limit < (acc ++ f).length) :
    go limit ⟨.inQuoted, acc, fs⟩ (doubled f ++ '"' :: t) = .error tooLong := by
  induction f generalizing acc with
  | nil => rw [List.append_nil] at h; omega
  | cons c f ih =>
    have e : acc ++ c :: f = (acc ++ [c]) ++ f := by simp
    rw [e] at h
    rw [doubled]
    by_cases hl : limit ≤ acc.length
    · by_cases hq : c = '"'
      · subst hq
        rw [if_pos rfl, List.cons_append, List.cons_append, go_char (by decide) (by simp)]
        show go limit ⟨.quoteInQuoted, acc, fs⟩ _ = _
        rw [go_char (by decide) (by simp)]
        simp only [process, if_true, Parser.add, if_pos hl]
        rfl
      · rw [if_neg hq, List.cons_append]
        by_cases hn : c = '\n'
        · subst hn
          rw [go_newline]
          simp only [process, Parser.add, if_pos hl, if_neg hq]
          rfl
        · rw [go_char hn (by simp)]
          simp only [process, Parser.add, if_pos hl, if_neg hq]
          rfl
    · have ha' : (acc ++ [c]).length ≤ limit := by
        rw [List.length_append, List.length_singleton]; omega
      by_cases hq : c = '"'
      · subst hq
        rw [if_pos rfl, List.cons_append, List.cons_append, go_char (by decide) (by simp)]
        show go limit ⟨.quoteInQuoted, acc, fs⟩ _ = _
        rw [go_char (by decide) (by simp)]
        simp only [process, if_true, Parser.add, if_neg hl]
        exact ih _ ha' h
      · rw [if_neg hq, List.cons_append]
        by_cases hn : c = '\n'
        · subst hn
          rw [go_newline]
          simp only [process, Parser.add, if_neg hl, if_neg hq]
          exact ih _ ha' h
        · rw [go_char hn (by simp)]
          simp only [process, Parser.add, if_neg hl, if_neg hq]
          exact ih _ ha' h

theorem go_plain_long {limit : Nat} {fs : List PyStr} {t : PyStr} (ht : t ≠ []) (f acc : PyStr)
    (hf : ∀ c ∈ f, special c = false) (ha : acc.length ≤ limit) (h : limit < (acc ++ f).length) :
    go limit ⟨.inField, acc, fs⟩ (f ++ t) = .error tooLong := by
  induction f generalizing acc with
  | nil => rw [List.append_nil] at h; omega
  | cons c f ih =>
    have e : acc ++ c :: f = (acc ++ [c]) ++ f := by simp
    rw [e] at h
    have hc := hf c List.mem_cons_self
    unfold special at hc
    simp only [Bool.or_eq_false_iff, beq_eq_false_iff_ne] at hc
    obtain ⟨⟨⟨h1, h2⟩, h3⟩, h4⟩ := hc
    rw [List.cons_append, go_char h3 (by simp [ht])]
    by_cases hl : limit ≤ acc.length
    · simp only [process, inField, Parser.add, if_pos hl, if_neg h1, h3, h4, or_self, if_false]
      rfl
    · simp only [process, inField, Parser.add, if_neg hl, if_neg h1, h3, h4, or_self, if_false]
      exact ih _ (fun c hc => hf c (List.mem_cons_of_mem _ hc))
        (by rw [List.length_append, List.length_singleton]; omega) h

theorem go_cell_long {limit : Nat} {fs : List PyStr} {f : PyStr} {t : PyStr} (ht : t ≠ [])
    (hf : limit < f.length) {st : State} (hst : st = .startField ∨ st = .startRecord) :
    go limit ⟨st, [], fs⟩ (writeCell f ++ t) = .error tooLong := by
  unfold writeCell
  by_cases hs : f.any special = true
  · rw [if_pos hs, List.cons_append, List.append_assoc, List.singleton_append, go_char (by decide) (by simp)]
    have : process limit ⟨st, [], fs⟩ (some '"') = .ok ⟨.inQuoted, [], fs⟩ := by
      rcases hst with rfl | rfl <;> rfl
    rw [this]
    show go limit ⟨.inQuoted, [], fs⟩ _ = _
    exact go_quoted_long ht f [] (by simp) (by simpa using hf)
  · rw [if_neg hs]
    have hs : ∀ c ∈ f, special c = false := by
      intro c hc
      rw [Bool.not_eq_true, List.any_eq_false] at hs
      exact Bool.eq_false_iff.2 (hs c hc)
    cases f with
    | nil => simp at hf
    | cons c f =>
      have hc := hs c List.mem_cons_self
      unfold special at hc
      simp only [Bool.or_eq_false_iff, beq_eq_false_iff_ne] at hc
      obtain ⟨⟨⟨h1, h2⟩, h3⟩, h4⟩ := hc
      rw [List.cons_append, go_char h3 (by simp [ht])]
      by_cases hl : limit ≤ ([] : PyStr).length
      · have : process limit ⟨st, [], fs⟩ (some c) = .error tooLong := by
          rcases hst with rfl | rfl <;>
            simp only [process, startField, Parser.add, if_pos hl, h1, h2, h3, h4, or_self, if_false] <;> rfl
        rw [this]
        rfl
      · have : process limit ⟨st, [], fs⟩ (some c) = .ok ⟨.inField, [c], fs⟩ := by
          rcases hst with rfl | rfl <;>
            simp only [process, startField, Parser.add, if_neg hl, h1, h2, h3, h4, or_self, if_false, List.nil_append]
        rw [this]
        show go limit ⟨.inField, [c], fs⟩ _ = _
        refine go_plain_long ht f [c] (fun c hc => hs c (List.mem_cons_of_mem _ hc)) ?_ (by simpa using hf)
        simp at hl ⊢; omega

theorem go_cells_long {limit : Nat} {t : PyStr} : ∀ (row : List PyStr) (fs : List PyStr) (st : State),
    (∃ f ∈ row, limit < f.length) → (st = .startField ∨ st = .startRecord) →
    go limit ⟨st, [], fs⟩ (joinCells row ++ '\n' :: t) = .error tooLong
  | [], _, _, h, _ => by obtain ⟨_, h, _⟩ := h; cases h
  | [f], fs, st, hf, hst => by
    obtain ⟨g, hg, hl⟩ := hf
    rw [List.mem_singleton] at hg
    subst hg
    exact go_cell_long (by simp) hl hst
  | f :: g :: rest, fs, st, hf, hst => by
    rw [joinCells, List.append_assoc, List.cons_append]
    by_cases h : limit < f.length
    · exact go_cell_long (by simp) h hst
    · rw [go_cell (.inl ⟨rfl, by simp⟩) (by omega)]
      · unfold after
        rw [if_pos rfl]
        refine go_cells_long (g :: rest) (fs ++ [f]) .startField ?_ (.inl rfl)
        obtain ⟨x, hx, hl⟩ := hf
        rcases List.mem_cons.1 hx with rfl | hx
        · exact absurd hl h
        · exact ⟨x, hx, hl⟩
      · rcases hst with h | h
        · exact .inl h
        · exact .inr ⟨h, fun h => absurd h.2 (by decide)⟩

theorem go_row_long {limit : Nat} {t : PyStr} {row : List PyStr} (hf : ∃ f ∈ row, limit < f.length) :
    go limit .new (writeRow row ++ t) = .error tooLong := by
  unfold writeRow
  rw [if_neg, List.append_assoc, List.singleton_append]
  · exact go_cells_long row [] .startRecord hf (.inr rfl)
  · rintro rfl
    obtain ⟨f, hf, hl⟩ := hf
    rw [List.mem_singleton] at hf
    subst hf
    simp at hl

theorem go_rows_long {limit : Nat} (rows : List (List PyStr)) (h : ∃ row ∈ rows, ∃ f ∈ row, limit < f.length) :
    go limit .new (writeRows rows) = .error tooLong := by
  induction rows with
  | nil => obtain ⟨_, h, _⟩ := h; cases h
  | cons row rows ih =>
    rw [writeRows, List.flatMap_cons]
    by_cases hr : ∃ f ∈ row, limit < f.length
    · exact go_row_long hr
    · rw [go_row (fun f hf => by by_contra hc; exact hr ⟨f, hf, by omega⟩)]
      have := ih (by
        obtain ⟨r, hr', hl⟩ := h
        rcases List.mem_cons.1 hr' with rfl | hr'
        · exact absurd hl hr
        · exact ⟨r, hr', hl⟩)
      unfold writeRows at this
      rw [this]
      rfl

/-! ### Line ends -/

theorem translate_cr_lf {t : PyStr} : translate ('\r' :: '\n' :: t) = '\n' :: translate t := by
  rw [translate]

theorem translate_cons {c : Char} {t : PyStr} (h : ¬ (c = '\r' ∧ t.head? = some '\n')) :
    translate (c :: t) = (if c = '\r' then '\n' else c) :: translate t := by
  rw [translate]
  rintro t' rfl rfl
  exact h ⟨rfl, rfl⟩

theorem translate_id {t : PyStr} (h : '\r' ∉ t) : translate t = t := by
  induction t with
  | nil => rfl
  | cons c t ih =>
    have hc : c ≠ '\r' := fun e => h (by simp [e])
    rw [translate_cons (fun e => hc e.1), if_neg hc, ih (fun e => h (List.mem_cons_of_mem _ e))]

theorem translate_no_cr : ∀ t : PyStr, '\r' ∉ translate t
  | [] => by simp [translate]
  | [c] => by
    rw [translate_cons (by simp)]
    by_cases h : c = '\r'
    · simp [h, translate]
    · simpa [h, translate] using Ne.symm h
  | c :: d :: t => by
    by_cases h : c = '\r' ∧ d = '\n'
    · obtain ⟨rfl, rfl⟩ := h
      rw [translate_cr_lf]
      have := translate_no_cr t
      simpa using this
    · rw [translate_cons (by simpa using h)]
      have := translate_no_cr (d :: t)
      by_cases h : c = '\r'
      · simpa [h] using this
      · simp [h, this, Ne.symm h]

theorem translate_append {a b : PyStr} (h : a.getLast? ≠ some '\r') : translate (a ++ b) = translate a ++ translate b := by
  match a, h with
  | [], _ => rfl
  | [c], h =>
    have hc : c ≠ '\r' := fun e => h (by simp [e])
    rw [List.singleton_append, translate_cons (fun e => hc e.1), translate_cons (fun e => hc e.1)]
    rfl
  | c :: d :: a, h =>
    have h' : (d :: a).getLast? ≠ some '\r' := by simpa using h
    by_cases hh : c = '\r' ∧ d = '\n'
    · obtain ⟨rfl, rfl⟩ := hh
      rw [List.cons_append, List.cons_append, translate_cr_lf, translate_cr_lf, List.cons_append]
      congr 1
      apply translate_append
      intro e
      apply h
      rcases ha : a with _ | ⟨x, a⟩
      · rw [ha] at e; simp at e
      · rw [ha] at e; simpa using e
    · rw [List.cons_append, translate_cons (by simpa using hh), translate_cons (by simpa using hh), translate_append h',
        List.cons_append]

theorem translate_nil_iff {f : PyStr} : translate f = [] ↔ f = [] := by
  constructor
  · intro h
    match f with
    | [] => rfl
    | [c] => rw [translate_cons (by simp)] at h; simp at h
    | c :: d :: t =>
      by_cases hh : c = '\r' ∧ d = '\n'
      · obtain ⟨rfl, rfl⟩ := hh
        rw [translate_cr_lf] at h; simp at h
      · rw [translate_cons (by simpa using hh)] at h; simp at h
  · rintro rfl; rfl

theorem special_translate : ∀ f : PyStr, (translate f).any special = f.any special
  | [] => rfl
  | [c] => by
    rw [translate_cons (by simp)]
    by_cases h : c = '\r'
    · subst h; rfl
    · rw [if_neg h]; rfl
  | c :: d :: t => by
    by_cases h : c = '\r' ∧ d = '\n'
    · obtain ⟨rfl, rfl⟩ := h
      rw [translate_cr_lf]
      rfl
    · rw [translate_cons (by simpa using h), List.any_cons, List.any_cons (a := c), special_translate (d :: t)]
      by_cases h : c = '\r'
      · subst h; rfl
      · rw [if_neg h]

theorem doubled_head {f : PyStr} : (doubled f ++ ['"']).head? = some '\n' ↔ f.head? = some '\n' := by
  cases f with
  | nil => simp [doubled]
  | cons c f =>
    rw [doubled]
    by_cases h : c = '"'
    · subst h; simp
    · rw [if_neg h]; simp

theorem translate_doubled : ∀ f : PyStr, translate (doubled f ++ ['"']) = doubled (translate f) ++ ['"']
  | [] => rfl
  | [c] => by
    rw [translate_cons (by simp), doubled]
    by_cases h : c = '"'
    · subst h; rfl
    · rw [if_neg h, List.cons_append, translate_cons (by simp [doubled])]
      by_cases h2 : c = '\r'
      · subst h2; rfl
      · rw [if_neg h2]
        simp only [doubled, translate, if_neg h]
        rfl
  | c :: d :: t => by
    by_cases h : c = '\r' ∧ d = '\n'
    · obtain ⟨rfl, rfl⟩ := h
      have := translate_doubled t
      rw [translate_cr_lf, doubled, if_neg (by decide), doubled, if_neg (by decide), List.cons_append,
        List.cons_append, translate_cr_lf, this, doubled, if_neg (by decide)]
      rfl
    · have ih := translate_doubled (d :: t)
      rw [translate_cons (by simpa using h), doubled]
      by_cases hq : c = '"'
      · subst hq
        rw [if_pos rfl, List.cons_append, List.cons_append, translate_cons (by simp), translate_cons (by simp), ih,
          if_neg (by decide), doubled, if_pos rfl]
        rfl
      · rw [if_neg hq, List.cons_append, translate_cons (by rw [doubled_head]; simpa using h), ih, doubled]
        by_cases h2 : c = '\r'
        · subst h2; rfl
        · rw [if_neg h2, if_neg hq]
          rfl

theorem writeCell_last (f : PyStr) : (writeCell f).getLast? ≠ some '\r' := by
  unfold writeCell
  by_cases h : f.any special = true
  · rw [if_pos h, ← List.cons_append, List.getLast?_append]
    simp
  · rw [if_neg h]
    intro hl
    exact h (List.any_eq_true.2 ⟨'\r', List.mem_of_getLast? hl, rfl⟩)

theorem translate_cell (f : PyStr) : translate (writeCell f) = writeCell (translate f) := by
  unfold writeCell
  rw [special_translate]
  by_cases h : f.any special = true
  · rw [if_pos h, if_pos h, translate_cons (by simp), if_neg (by decide), translate_doubled]
  · rw [if_neg h, if_neg h]

theorem joinCells_last : ∀ row : List PyStr, (joinCells row).getLast? ≠ some '\r'
  | [] => by simp [joinCells]
  | [f] => writeCell_last f
  | f :: g :: rest => by
    rw [joinCells, List.getLast?_append]
    have := joinCells_last (g :: rest)
    rcases h : joinCells (g :: rest) with _ | ⟨x, l⟩
    · simp
    · rw [h] at this
      simpa using this

theorem translate_cells : ∀ row : List PyStr, translate (joinCells row) = joinCells (row.map translate)
  | [] => rfl
  | [f] => translate_cell f
  | f :: g :: rest => by
    rw [joinCells, translate_append (writeCell_last f), translate_cons (by simp), if_neg (by decide),
      translate_cell, translate_cells (g :: rest)]
    rfl

theorem translate_row (row : List PyStr) (t : PyStr) :
    translate (writeRow row ++ t) = writeRow (row.map translate) ++ translate t := by
  unfold writeRow
  have e : row.map translate = [[]] ↔ row = [[]] := by
    rcases row with _ | ⟨f, _ | ⟨g, row⟩⟩
    · simp
    · simp [translate_nil_iff]
    · simp
  rw [translate_append (by rw [List.getLast?_append]; simp), translate_append]
  · by_cases h : row = [[]]
    · rw [if_pos h, if_pos (e.2 h)]; rfl
    · rw [if_neg h, if_neg (fun h' => h (e.1 h')), translate_cells]; rfl
  · split
    · decide
    · exact joinCells_last row

theorem translate_rows (rows : List (List PyStr)) :
    translate (writeRows rows) = writeRows (rows.map (·.map translate)) := by
  induction rows with
  | nil => rfl
  | cons row rows ih =>
    unfold writeRows at ih ⊢
    rw [List.flatMap_cons, translate_row, ih, List.map_cons, List.flatMap_cons]

end Toron.Csv
