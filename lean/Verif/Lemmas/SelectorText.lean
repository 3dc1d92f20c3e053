/-
Reading the text of selectors.
-/
import Verif.Spec.SelectorText
import Verif.Spec.Selectors
import Mathlib.Data.List.Basic
import Mathlib.Tactic.ByContra

namespace Toron.Selectors

open Toron.Selectors.Spec

/-! ### Characters -/

theorem isBlank_iff {c : Char} : isBlank c = true ↔ c ∈ [' ', '\t', '\x0c', '\r', '\n'] := by
  unfold isBlank
  simp only [Bool.or_eq_true, beq_iff_eq, List.mem_cons, List.not_mem_nil, or_false, or_assoc]

theorem isFirstChar_iff {c : Char} : isFirstChar c = true ↔ First c := by
  unfold isFirstChar First
  simp only [Bool.or_eq_true, Bool.and_eq_true, decide_eq_true_eq, beq_iff_eq, or_assoc]

theorem isOtherChar_iff {c : Char} : isOtherChar c = true ↔ Other c := by
  unfold isOtherChar Other
  simp only [Bool.or_eq_true, Bool.and_eq_true, decide_eq_true_eq, beq_iff_eq, or_assoc, isFirstChar_iff]

/-- The text does not begin with a character of an identifier. -/
def Stops (t : List Char) : Prop := ∀ c cs, t = c :: cs → isOtherChar c = false

theorem mem_takeWhile {p : Char → Bool} {l : List Char} {x : Char} (h : x ∈ l.takeWhile p) : p x = true := by
  induction l with
  | nil => cases h
  | cons y ys ih =>
    rw [List.takeWhile_cons] at h
    by_cases hy : p y = true
    · rw [if_pos hy] at h
      rcases List.mem_cons.1 h with rfl | h
      · exact hy
      · exact ih h
    · rw [if_neg hy] at h
      cases h

theorem dropWhile_nil {p : Char → Bool} {l : List Char} : l.dropWhile p = [] ↔ ∀ x ∈ l, p x = true := by
  induction l with
  | nil => simp
  | cons y ys ih =>
    rw [List.dropWhile_cons]
    by_cases hy : p y = true
    · rw [if_pos hy, ih]; simp [hy]
    · rw [if_neg hy]; simp [hy]

theorem takeWhile_append_stop {p : Char → Bool} {a r : List Char} (ha : ∀ x ∈ a, p x = true)
    (hr : ∀ c cs, r = c :: cs → p c = false) :
    (a ++ r).takeWhile p = a ∧ (a ++ r).dropWhile p = r := by
  induction a with
  | nil =>
    cases r with
    | nil => simp
    | cons c cs =>
      have := hr c cs rfl
      simp [this]
  | cons x xs ih =>
    have hx := ha x (by simp)
    have := ih fun y hy => ha y (by simp [hy])
    simp [hx, this.1, this.2]

theorem skipBlanks_append {w t : List Char} (hw : Blank w) (ht : ∀ c cs, t = c :: cs → isBlank c = false) :
    skipBlanks (w ++ t) = t :=
  (takeWhile_append_stop (fun x hx => isBlank_iff.2 (hw x hx)) ht).2

theorem skipBlanks_spec (t : List Char) : ∃ w, Blank w ∧ t = w ++ skipBlanks t :=
  ⟨t.takeWhile isBlank, fun _ hx => isBlank_iff.1 (mem_takeWhile hx), List.takeWhile_append_dropWhile.symm⟩

theorem skipBlanks_eq_nil {t : List Char} : skipBlanks t = [] ↔ Blank t := by
  unfold skipBlanks
  rw [dropWhile_nil]
  exact ⟨fun h x hx => isBlank_iff.1 (h x hx), fun h x hx => isBlank_iff.2 (h x hx)⟩

/-! ### Tokens -/

theorem lexIdentifier_sound {t a r : List Char} (h : lexIdentifier t = some (a, r)) : Identifier a ∧ t = a ++ r := by
  unfold lexIdentifier at h
  have hall : ∀ l : List Char, ∀ x ∈ l.takeWhile isOtherChar, Other x := fun l x hx =>
    isOtherChar_iff.1 (mem_takeWhile hx)
  rcases t with _ | ⟨c, cs⟩
  · cases h
  simp only at h
  by_cases h1 : isFirstChar c = true
  · rw [if_pos h1] at h
    simp only [Option.some.injEq, Prod.mk.injEq] at h
    obtain ⟨rfl, rfl⟩ := h
    exact ⟨.inr ⟨c, _, isFirstChar_iff.1 h1, hall cs, .inl rfl⟩,
      by rw [List.cons_append, List.takeWhile_append_dropWhile]⟩
  rw [if_neg h1] at h
  by_cases h2 : (c == '-') = true
  · rw [if_pos h2] at h
    rw [beq_iff_eq] at h2
    subst h2
    rcases cs with _ | ⟨d, ds⟩
    · cases h
      exact ⟨.inl rfl, rfl⟩
    simp only at h
    by_cases h3 : isFirstChar d = true
    · rw [if_pos h3] at h
      simp only [Option.some.injEq, Prod.mk.injEq] at h
      obtain ⟨rfl, rfl⟩ := h
      exact ⟨.inr ⟨d, _, isFirstChar_iff.1 h3, hall ds, .inr rfl⟩,
        by rw [List.cons_append, List.cons_append, List.takeWhile_append_dropWhile]⟩
    · rw [if_neg h3] at h
      cases h
      exact ⟨.inl rfl, rfl⟩
  · rw [if_neg h2] at h
    cases h

theorem other_of_first {c : Char} (h : isFirstChar c = true) : isOtherChar c = true := by
  unfold isOtherChar
  rw [h]
  rfl

theorem lexIdentifier_complete {a r : List Char} (h : Identifier a) (hr : Stops r) :
    lexIdentifier (a ++ r) = some (a, r) := by
  have hdash : isFirstChar '-' = false := by decide
  rcases h with rfl | ⟨c, cs, hc, hcs, rfl | rfl⟩
  · unfold lexIdentifier
    simp only [List.cons_append, List.nil_append, hdash, Bool.false_eq_true, if_false, beq_self_eq_true, if_true]
    rcases r with _ | ⟨d, ds⟩
    · rfl
    · have : isFirstChar d = false := by
        by_contra hf
        have := other_of_first (by simpa using hf)
        rw [hr d ds rfl] at this
        cases this
      simp [this]
  · have ht := takeWhile_append_stop (p := isOtherChar) (a := cs) (r := r)
      (fun x hx => isOtherChar_iff.2 (hcs x hx)) hr
    unfold lexIdentifier
    simp only [List.cons_append, isFirstChar_iff.2 hc, if_true, ht.1, ht.2]
  · have ht := takeWhile_append_stop (p := isOtherChar) (a := cs) (r := r)
      (fun x hx => isOtherChar_iff.2 (hcs x hx)) hr
    unfold lexIdentifier
    simp only [List.cons_append, hdash, Bool.false_eq_true, if_false, beq_self_eq_true, isFirstChar_iff.2 hc,
      if_true, ht.1, ht.2]

theorem lexString_true {q c : Char} {t b r : List Char} :
    lexString q true (c :: t) = some (b, r) ↔
    c ≠ '\n' ∧ ∃ b', b = c :: b' ∧ lexString q false t = some (b', r) := by
  rw [lexString]
  by_cases h : (c == '\n') = true
  · rw [if_pos h]
    rw [beq_iff_eq] at h
    simp [h]
  · rw [if_neg h, if_neg (by simp)]
    rw [beq_iff_eq] at h
    simp only [Bool.not_true, Bool.and_false, Option.map_eq_some_iff, Prod.mk.injEq, Prod.exists]
    constructor
    · rintro ⟨x, y, he, rfl, rfl⟩
      exact ⟨h, x, rfl, he⟩
    · rintro ⟨_, b', rfl, he⟩
      exact ⟨b', r, he, rfl, rfl⟩

theorem lexString_sound {q : Char} (hq : q ≠ '\\') (hqn : q ≠ '\n') : ∀ (n : Nat) {t b r : List Char}, t.length ≤ n →
    lexString q false t = some (b, r) → t = b ++ q :: r ∧ ∃ v, Quoted q b v := by
  intro n
  induction n with
  | zero =>
    intro t b r hn h
    rcases t with _ | ⟨c, cs⟩
    · cases h
    · simp at hn
  | succ n ih =>
    intro t b r hn h
    rcases t with _ | ⟨c, cs⟩
    · cases h
    rw [lexString] at h
    by_cases h1 : (c == '\n') = true
    · rw [if_pos h1] at h; cases h
    rw [if_neg h1] at h
    by_cases h2 : (c == q && !false) = true
    · rw [if_pos h2] at h
      cases h
      simp at h2
      exact ⟨by rw [h2]; rfl, [], .nil⟩
    rw [if_neg h2] at h
    simp only [Option.map_eq_some_iff, Prod.mk.injEq, Prod.exists] at h
    obtain ⟨b1, r1, he, rfl, rfl⟩ := h
    simp only [Bool.not_false, Bool.and_true, beq_iff_eq] at h1 h2
    simp only [List.length_cons] at hn
    by_cases h3 : c = '\\'
    · subst h3
      simp only [beq_self_eq_true, Bool.not_false, Bool.and_true] at he
      rcases cs with _ | ⟨d, ds⟩
      · cases he
      obtain ⟨hd, b2, rfl, he2⟩ := lexString_true.1 he
      obtain ⟨e, v, hv⟩ := ih (by simp only [List.length_cons] at hn; omega) he2
      refine ⟨by rw [e]; rfl, ?_⟩
      by_cases hdq : d = q
      · subst hdq
        exact ⟨_, .quote hv⟩
      · exact ⟨_, .other hdq hd hv⟩
    · have : (c == '\\' && !false) = false := by simpa using h3
      rw [this] at he
      obtain ⟨e, v, hv⟩ := ih (by omega) he
      exact ⟨by rw [e]; rfl, _, .plain h2 h3 h1 hv⟩

theorem lexString_complete {q : Char} (hq : q ≠ '\\') (hqn : q ≠ '\n') {b v : List Char} (h : Quoted q b v)
    (r : List Char) : lexString q false (b ++ q :: r) = some (b, r) := by
  have hbn : ('\\' == '\n') = false := by decide
  have hbq : ('\\' == q) = false := by simpa using fun h => hq h.symm
  induction h with
  | nil =>
    rw [List.nil_append, lexString, if_neg (by simpa using hqn), if_pos (by simp)]
  | @plain c b v h1 h2 h3 _ ih =>
    rw [List.cons_append, lexString, if_neg (by simpa using h3), if_neg (by simpa using h1)]
    have : (c == '\\' && !false) = false := by simpa using h2
    rw [this, ih]
    rfl
  | @quote b v _ ih =>
    rw [List.cons_append, lexString, if_neg (by rw [hbn]; simp), if_neg (by rw [hbq]; simp)]
    have : ('\\' == '\\' && !false) = true := by simp
    rw [this, List.cons_append, (lexString_true (b := q :: b) (r := r)).2 ⟨hqn, b, rfl, ih⟩]
    rfl
  | @other c b v h1 h2 _ ih =>
    rw [List.cons_append, lexString, if_neg (by rw [hbn]; simp), if_neg (by rw [hbq]; simp)]
    have : ('\\' == '\\' && !false) = true := by simp
    rw [this, List.cons_append, (lexString_true (b := c :: b) (r := r)).2 ⟨h2, b, rfl, ih⟩]
    rfl

theorem unescape_quoted {q : Char} (hq : q ≠ '\\') {b v : List Char} (h : Quoted q b v) :
    unescape q b = v ∧ (∀ cs, b ≠ q :: cs) := by
  induction h with
  | nil => exact ⟨rfl, by simp⟩
  | @plain c b v h1 h2 h3 _ ih =>
    refine ⟨?_, by simp [h1]⟩
    rw [unescape.eq_def]
    simp only
    rw [if_neg (by simpa using h2), ih.1]
  | @quote b v _ ih =>
    refine ⟨?_, by simp [Ne.symm hq]⟩
    rw [unescape.eq_def]
    simp [ih.1]
  | @other c b v h1 h2 _ ih =>
    refine ⟨?_, by simp [Ne.symm hq]⟩
    rw [unescape.eq_def]
    simp only [beq_self_eq_true, if_true]
    rw [if_neg (by simpa using h1)]
    congr 1
    rw [unescape.eq_def]
    simp only
    by_cases hc : c = '\\'
    · subst hc
      rw [if_pos (by simp)]
      rcases b with _ | ⟨d, ds⟩
      · rw [← ih.1]; rfl
      · have hd : d ≠ q := fun he => ih.2 ds (by rw [he])
        simp only
        rw [if_neg (by simpa using hd), ih.1]
    · rw [if_neg (by simpa using hc), ih.1]

theorem quoted_functional {q : Char} (hq : q ≠ '\\') {b v v' : List Char} (h : Quoted q b v) (h' : Quoted q b v') :
    v = v' := (unescape_quoted hq h).1.symm.trans (unescape_quoted hq h').1

/-- The operator a text stands for. -/
theorem lexOperator_sound {t o r : List Char} (h : lexOperator t = some (o, r)) :
    ∃ op, o = OpText op ∧ t = OpText op ++ r := by
  unfold lexOperator at h
  split at h
  · cases h; exact ⟨.eq, rfl, rfl⟩
  · rename_i c r' _
    by_cases hc : (c == '~' || c == '|' || c == '^' || c == '$' || c == '*') = true
    · rw [if_pos hc] at h
      cases h
      simp only [Bool.or_eq_true, beq_iff_eq, or_assoc] at hc
      rcases hc with rfl | rfl | rfl | rfl | rfl
      · exact ⟨.word, rfl, rfl⟩
      · exact ⟨.dash, rfl, rfl⟩
      · exact ⟨.prefix, rfl, rfl⟩
      · exact ⟨.suffix, rfl, rfl⟩
      · exact ⟨.sub, rfl, rfl⟩
    · rw [if_neg hc] at h; cases h
  · cases h

theorem lexOperator_complete (op : Op) (r : List Char) : lexOperator (OpText op ++ r) = some (OpText op, r) := by
  cases op <;> rfl

theorem ofStr_opText (op : Op) : Op.ofStr (OpText op) = some op := by cases op <;> rfl

theorem truthy_opText (op : Op) : truthy (some (OpText op)) = true := by cases op <;> rfl

/-! ### One simple selector -/

theorem mkSimple_compare {a v : List Char} {op : Op} {ic : Bool} {s : Sel}
    (h : mkSimple a (some (OpText op)) (some v) ic = .ok s) : v ≠ [] ∧ s = .simple a (some op) (some v) ic := by
  unfold mkSimple at h
  simp only [truthy_opText, ofStr_opText] at h
  rcases v with _ | ⟨c, cs⟩
  · exfalso
    simp [truthy] at h
  · refine ⟨by simp, ?_⟩
    simp [truthy] at h
    exact h.symm

theorem mkSimple_compare' {a v : List Char} {op : Op} {ic : Bool} (hv : v ≠ []) :
    mkSimple a (some (OpText op)) (some v) ic = .ok (.simple a (some op) (some v) ic) := by
  unfold mkSimple
  simp only [truthy_opText, ofStr_opText]
  rcases v with _ | ⟨c, cs⟩
  · exact absurd rfl hv
  · simp [truthy]

theorem mkSimple_none {a : List Char} {op : Op} {ic : Bool} {s : Sel} :
    mkSimple a (some (OpText op)) none ic ≠ .ok s := by
  unfold mkSimple
  rw [truthy_opText]
  simp [truthy]

theorem lexValue_sound {t r : List Char} {v : Option PyStr} (h : lexValue t = some (v, r)) :
    v = none ∨ ∃ q body x, (q = '"' ∨ q = '\'') ∧ Quoted q body x ∧ v = some x ∧ t = q :: (body ++ q :: r) := by
  unfold lexValue at h
  rcases t with _ | ⟨c, cs⟩
  · cases h
  simp only at h
  have key : ∀ q : Char, q ≠ '\\' → q ≠ '\n' → (q = '"' ∨ q = '\'') → c = q →
      ((lexString q false cs).map fun r => (some (unescape q r.1), r.2)) = some (v, r) →
      ∃ q body x, (q = '"' ∨ q = '\'') ∧ Quoted q body x ∧ v = some x ∧ c :: cs = q :: (body ++ q :: r) := by
    intro q hq hqn hq' hc h
    simp only [Option.map_eq_some_iff, Prod.mk.injEq, Prod.exists] at h
    obtain ⟨b, r', he, rfl, rfl⟩ := h
    obtain ⟨e, x, hx⟩ := lexString_sound hq hqn _ (Nat.le_refl _) he
    exact ⟨q, b, x, hq', hx, by rw [(unescape_quoted hq hx).1], by rw [hc, e]⟩
  by_cases h1 : (c == '"') = true
  · rw [if_pos h1] at h
    exact .inr (key '"' (by decide) (by decide) (.inl rfl) (by simpa using h1) h)
  rw [if_neg h1] at h
  by_cases h2 : (c == '\'') = true
  · rw [if_pos h2] at h
    exact .inr (key '\'' (by decide) (by decide) (.inr rfl) (by simpa using h2) h)
  rw [if_neg h2] at h
  simp only [Option.map_eq_some_iff, Prod.mk.injEq] at h
  obtain ⟨_, _, rfl, _⟩ := h
  exact .inl rfl

theorem lexValue_complete {q : Char} (hq : q = '"' ∨ q = '\'') {body v : List Char} (h : Quoted q body v)
    (r : List Char) : lexValue (q :: (body ++ q :: r)) = some (some v, r) := by
  unfold lexValue
  simp only
  rcases hq with rfl | rfl
  · rw [if_pos (by decide), lexString_complete (by decide) (by decide) h]
    simp only [Option.map_some, (unescape_quoted (by decide) h).1]
  · rw [if_neg (by decide), if_pos (by decide), lexString_complete (by decide) (by decide) h]
    simp only [Option.map_some, (unescape_quoted (by decide) h).1]

theorem lexIgnoreCase_sound (t : List Char) : ∃ f, t = f ++ (lexIgnoreCase t).2 ∧
    ((lexIgnoreCase t).1 = false ∧ f = [] ∨ (lexIgnoreCase t).1 = true ∧ (f = ['i'] ∨ f = ['I'])) := by
  unfold lexIgnoreCase
  rcases t with _ | ⟨c, cs⟩
  · exact ⟨[], rfl, .inl ⟨rfl, rfl⟩⟩
  simp only
  by_cases h : (c == 'i' || c == 'I') = true
  · rw [if_pos h]
    simp only [Bool.or_eq_true, beq_iff_eq] at h
    exact ⟨[c], rfl, .inr ⟨rfl, by simpa using h⟩⟩
  · rw [if_neg h]
    exact ⟨[], rfl, .inl ⟨rfl, rfl⟩⟩

theorem parseSimple_sound {t r : List Char} {s : Sel} (h : parseSimple t = some (s, r)) :
    ∃ t', t = t' ++ r ∧ ∀ w, Blank w → Reads (w ++ '[' :: t') s := by
  unfold parseSimple at h
  rw [Option.bind_eq_bind, Option.bind_eq_some_iff] at h
  obtain ⟨⟨attr, r0⟩, h0, h⟩ := h
  obtain ⟨ha, e0⟩ := lexIdentifier_sound h0
  obtain ⟨w1, hw1, ew1⟩ := skipBlanks_spec t
  obtain ⟨w2, hw2, ew2⟩ := skipBlanks_spec r0
  simp only at h
  rcases hs : skipBlanks r0 with _ | ⟨c, r1⟩
  · rw [hs] at h; cases h
  rw [hs] at h ew2
  simp only at h
  by_cases hc : (c == ']') = true
  · rw [if_pos hc] at h
    simp only [Option.map_eq_some_iff, Prod.mk.injEq] at h
    obtain ⟨s', hs', rfl, rfl⟩ := h
    have : s' = .simple attr none none false := by
      simp [mkSimple, truthy, Except.toOption] at hs'
      exact hs'.symm
    subst this
    rw [beq_iff_eq] at hc
    subst hc
    refine ⟨w1 ++ (attr ++ (w2 ++ [']'])), ?_, fun w hw => .has hw hw1 ha hw2⟩
    rw [ew1, e0, ew2]
    simp
  rw [if_neg hc, Option.bind_eq_bind, Option.bind_eq_some_iff] at h
  obtain ⟨⟨o, r2⟩, h2, h⟩ := h
  obtain ⟨op, rfl, e2⟩ := lexOperator_sound h2
  simp only [Option.bind_eq_bind, Option.bind_eq_some_iff] at h
  obtain ⟨⟨v, r3⟩, h3, h⟩ := h
  obtain ⟨w3, hw3, ew3⟩ := skipBlanks_spec r2
  obtain ⟨w4, hw4, ew4⟩ := skipBlanks_spec r3
  simp only at h
  obtain ⟨f, ef, hf⟩ := lexIgnoreCase_sound (skipBlanks r3)
  obtain ⟨w5, hw5, ew5⟩ := skipBlanks_spec (lexIgnoreCase (skipBlanks r3)).2
  rcases hs5 : skipBlanks (lexIgnoreCase (skipBlanks r3)).2 with _ | ⟨d, r5⟩
  · rw [hs5] at h; cases h
  rw [hs5] at h ew5
  simp only at h
  by_cases hd : (d == ']') = true
  · rw [if_pos hd] at h
    simp only [Option.map_eq_some_iff, Prod.mk.injEq] at h
    obtain ⟨s', hs', rfl, rfl⟩ := h
    have hs' : mkSimple attr (some (OpText op)) v (lexIgnoreCase (skipBlanks r3)).1 = .ok s' := by
      rcases hm : mkSimple attr (some (OpText op)) v (lexIgnoreCase (skipBlanks r3)).1 with e | y
      · rw [hm] at hs'; cases hs'
      · rw [hm] at hs'; cases hs'; rfl
    rw [beq_iff_eq] at hd
    subst hd
    rcases lexValue_sound h3 with rfl | ⟨q, body, x, hq, hx, rfl, e3⟩
    · exact absurd hs' mkSimple_none
    · obtain ⟨hne, rfl⟩ := mkSimple_compare hs'
      refine ⟨w1 ++ (attr ++ (w2 ++ (OpText op ++ (w3 ++ q :: (body ++ q :: (w4 ++ (f ++ (w5 ++ [']'])))))))), ?_,
        fun w hw => .compare hw hw1 ha hw2 hw3 hq hx hne hw4 hf hw5⟩
      rw [ew1, e0, ew2, e2, ew3, e3, ew4, ef, ew5]
      simp
  · rw [if_neg hd] at h
    cases h

theorem notBlank_close : isBlank ']' = false := by decide

theorem identifier_head {a : List Char} (h : Identifier a) : ∃ c cs, a = c :: cs ∧ isBlank c = false := by
  have hf : ∀ c, First c → isBlank c = false := by
    intro c hc
    by_contra hb
    have hb := isBlank_iff.1 (by simpa using hb)
    simp only [List.mem_cons, List.not_mem_nil, or_false] at hb
    rw [← isFirstChar_iff] at hc
    rcases hb with rfl | rfl | rfl | rfl | rfl <;> exact absurd hc (by decide)
  rcases h with rfl | ⟨c, cs, hc, _, rfl | rfl⟩
  · exact ⟨_, _, rfl, by decide⟩
  · exact ⟨_, _, rfl, hf c hc⟩
  · exact ⟨_, _, rfl, by decide⟩

theorem stops_blank_append {w t : List Char} (hw : Blank w) (ht : Stops t) : Stops (w ++ t) := by
  rcases w with _ | ⟨x, xs⟩
  · exact ht
  · intro c cs he
    rw [List.cons_append, List.cons.injEq] at he
    have := hw x (by simp)
    rw [he.1] at this
    simp only [List.mem_cons, List.not_mem_nil, or_false] at this
    rcases this with rfl | rfl | rfl | rfl | rfl <;> decide

theorem stops_op (op : Op) (t : List Char) : Stops (OpText op ++ t) := by
  intro c cs he
  cases op <;> simp only [OpText, List.cons_append, List.nil_append, List.cons.injEq] at he <;>
    rw [← he.1] <;> decide

theorem head_op (op : Op) (t : List Char) : ∃ c cs, OpText op ++ t = c :: cs ∧ isBlank c = false ∧ (c == ']') = false := by
  cases op
  all_goals exact ⟨_, _, rfl, by decide, by decide⟩

theorem parseSimple_has {w1 a w2 r : List Char} (hw1 : Blank w1) (ha : Identifier a) (hw2 : Blank w2) :
    parseSimple (w1 ++ (a ++ (w2 ++ ']' :: r))) = some (.simple a none none false, r) := by
  obtain ⟨c, cs, hc, hcb⟩ := identifier_head ha
  have h1 : skipBlanks (w1 ++ (a ++ (w2 ++ ']' :: r))) = a ++ (w2 ++ ']' :: r) :=
    skipBlanks_append hw1 (by rw [hc]; intro x xs he; cases he; exact hcb)
  have h2 : lexIdentifier (a ++ (w2 ++ ']' :: r)) = some (a, w2 ++ ']' :: r) :=
    lexIdentifier_complete ha (stops_blank_append hw2 (by intro x xs he; cases he; decide))
  have h3 : skipBlanks (w2 ++ ']' :: r) = ']' :: r :=
    skipBlanks_append hw2 (by intro x xs he; cases he; decide)
  unfold parseSimple
  rw [h1, h2]
  simp only [Option.bind_eq_bind, Option.bind_some, h3, beq_self_eq_true, if_true]
  rfl

theorem parseSimple_compare {w1 a w2 w3 w4 w5 body v f r : List Char} {op : Op} {q : Char} {ic : Bool}
    (hw1 : Blank w1) (ha : Identifier a) (hw2 : Blank w2) (hw3 : Blank w3) (hq : q = '"' ∨ q = '\'')
    (hb : Quoted q body v) (hv : v ≠ []) (hw4 : Blank w4)
    (hf : ic = false ∧ f = [] ∨ ic = true ∧ (f = ['i'] ∨ f = ['I'])) (hw5 : Blank w5) :
    parseSimple (w1 ++ (a ++ (w2 ++ (OpText op ++ (w3 ++ q :: (body ++ q :: (w4 ++ (f ++ (w5 ++ ']' :: r)))))))))
      = some (.simple a (some op) (some v) ic, r) := by
  obtain ⟨c, cs, hc, hcb⟩ := identifier_head ha
  have h1 : ∀ t, skipBlanks (w1 ++ (a ++ t)) = a ++ t := fun t =>
    skipBlanks_append hw1 (by rw [hc]; intro x xs he; cases he; exact hcb)
  have h2 : ∀ t, lexIdentifier (a ++ (w2 ++ (OpText op ++ t))) = some (a, w2 ++ (OpText op ++ t)) := fun t =>
    lexIdentifier_complete ha (stops_blank_append hw2 (stops_op op t))
  have h3 : ∀ t, skipBlanks (w2 ++ (OpText op ++ t)) = OpText op ++ t := fun t =>
    skipBlanks_append hw2 (by
      obtain ⟨c, cs, he, hb, _⟩ := head_op op t
      rw [he]; intro x xs he; cases he; exact hb)
  have hqb : isBlank q = false := by rcases hq with rfl | rfl <;> decide
  have h4 : ∀ t, skipBlanks (w3 ++ q :: t) = q :: t := fun t =>
    skipBlanks_append hw3 (by intro x xs he; cases he; exact hqb)
  have h7 : skipBlanks (w5 ++ ']' :: r) = ']' :: r :=
    skipBlanks_append hw5 (by intro x xs he; cases he; decide)
  have hblank : ∀ x ∈ [' ', '\t', '\x0c', '\r', '\n'], (x == 'i' || x == 'I') = false := by decide
  have h56 : ∃ r4, lexIgnoreCase (skipBlanks (w4 ++ (f ++ (w5 ++ ']' :: r)))) = (ic, r4) ∧
      skipBlanks r4 = ']' :: r := by
    rcases hf with ⟨rfl, rfl⟩ | ⟨rfl, rfl | rfl⟩
    · have : skipBlanks (w4 ++ ([] ++ (w5 ++ ']' :: r))) = ']' :: r := by
        rw [List.nil_append, ← List.append_assoc]
        exact skipBlanks_append (by
          intro x hx
          rcases List.mem_append.1 hx with hx | hx
          · exact hw4 x hx
          · exact hw5 x hx) (by intro x xs he; cases he; decide)
      rw [this]
      exact ⟨']' :: r, rfl, by unfold skipBlanks; rw [List.dropWhile_cons, notBlank_close]; rfl⟩
    · have : skipBlanks (w4 ++ (['i'] ++ (w5 ++ ']' :: r))) = ['i'] ++ (w5 ++ ']' :: r) :=
        skipBlanks_append hw4 (by intro x xs he; cases he; decide)
      rw [this]
      exact ⟨_, rfl, h7⟩
    · have : skipBlanks (w4 ++ (['I'] ++ (w5 ++ ']' :: r))) = ['I'] ++ (w5 ++ ']' :: r) :=
        skipBlanks_append hw4 (by intro x xs he; cases he; decide)
      rw [this]
      exact ⟨_, rfl, h7⟩
  obtain ⟨r4, h5, h6⟩ := h56
  unfold parseSimple
  rw [h1, h2]
  simp only [Option.bind_eq_bind, Option.bind_some, h3]
  obtain ⟨c, cs, he, _, hcl⟩ := head_op op (w3 ++ q :: (body ++ q :: (w4 ++ (f ++ (w5 ++ ']' :: r)))))
  rw [he]
  simp only [hcl, Bool.false_eq_true, if_false]
  rw [← he, lexOperator_complete]
  simp only [Option.bind_some, h4]
  rw [lexValue_complete hq hb]
  simp only [Option.bind_some, h5, h6, beq_self_eq_true, if_true]
  rw [mkSimple_compare' hv]
  rfl

/-! ### Selectors -/

theorem stripPrefix_some {p t r : List Char} : stripPrefix p t = some r ↔ t = p ++ r := by
  unfold stripPrefix
  constructor
  · intro h
    by_cases hp : p.isPrefixOf t = true
    · rw [if_pos hp] at h
      rw [List.isPrefixOf_iff_prefix] at hp
      obtain ⟨u, rfl⟩ := hp
      simp only [List.drop_left, Option.some.injEq] at h
      rw [h]
    · rw [if_neg hp] at h; cases h
  · rintro rfl
    rw [if_pos (by rw [List.isPrefixOf_iff_prefix]; exact ⟨r, rfl⟩), List.drop_left]

theorem stripPrefix_none_of_ne {p t : List Char} {n : Nat} (h : t[n]? ≠ p[n]?) (hn : n < p.length) :
    stripPrefix p t = none := by
  rcases hs : stripPrefix p t with _ | r
  · rfl
  · rw [stripPrefix_some.1 hs, List.getElem?_append_left hn] at h
    exact absurd rfl h

theorem parse_sound (n : Nat) :
    (∀ t s r, parseOne n t = some (s, r) → ∃ t', t = t' ++ r ∧ Reads t' s) ∧
    (∀ t l r, parseMany n t = some (l, r) → ∃ t', t = t' ++ r ∧ ReadsMany t' l) := by
  induction n with
  | zero => exact ⟨fun t s r h => (by cases h), fun t l r h => (by cases h)⟩
  | succ n ih =>
    obtain ⟨ih1, ih2⟩ := ih
    constructor
    · intro t s r h
      rw [parseOne] at h
      obtain ⟨w, hw, ew⟩ := skipBlanks_spec t
      have step : ∀ (p : List Char) (mk : List Sel → Sel) (r1 : List Char),
          stripPrefix p (skipBlanks t) = some r1 →
          ((parseMany n r1).map fun x => (mk x.1, x.2)) = some (s, r) →
          ∃ t' l, t = (w ++ (p ++ t')) ++ r ∧ ReadsMany t' l ∧ s = mk l := by
        intro p mk r1 hp h
        simp only [Option.map_eq_some_iff, Prod.mk.injEq, Prod.exists] at h
        obtain ⟨l, r', he, rfl, rfl⟩ := h
        obtain ⟨t', e', hl⟩ := ih2 _ _ _ he
        refine ⟨t', l, ?_, hl, rfl⟩
        rw [ew, stripPrefix_some.1 hp, e']
        simp
      rcases h1 : stripPrefix ['['] (skipBlanks t) with _ | r1
      · rw [h1] at h
        simp only at h
        rcases h2 : stripPrefix [':', 'i', 's', '('] (skipBlanks t) with _ | r1
        · rw [h2] at h
          simp only at h
          rcases h3 : stripPrefix [':', 'n', 'o', 't', '('] (skipBlanks t) with _ | r1
          · rw [h3] at h
            simp only at h
            rcases h4 : stripPrefix [':', 'w', 'h', 'e', 'r', 'e', '('] (skipBlanks t) with _ | r1
            · rw [h4] at h; cases h
            · rw [h4] at h
              obtain ⟨t', l, e, hl, rfl⟩ := step _ mkWhere _ h4 h
              exact ⟨_, e, .whr hw hl⟩
          · rw [h3] at h
            obtain ⟨t', l, e, hl, rfl⟩ := step _ mkNeg _ h3 h
            exact ⟨_, e, .neg hw hl⟩
        · rw [h2] at h
          obtain ⟨t', l, e, hl, rfl⟩ := step _ mkAny _ h2 h
          exact ⟨_, e, .any hw hl⟩
      · rw [h1] at h
        obtain ⟨t', e, hR⟩ := parseSimple_sound h
        refine ⟨w ++ '[' :: t', ?_, hR w hw⟩
        rw [ew, stripPrefix_some.1 h1, e]
        simp
    · intro t l r h
      rw [parseMany] at h
      rcases h1 : parseOne n t with _ | ⟨s, r1⟩
      · rw [h1] at h; cases h
      rw [h1] at h
      simp only at h
      obtain ⟨t1, e1, hR⟩ := ih1 _ _ _ h1
      obtain ⟨w, hw, ew⟩ := skipBlanks_spec r1
      rcases h2 : skipBlanks r1 with _ | ⟨c, r2⟩
      · rw [h2] at h; cases h
      rw [h2] at h ew
      simp only at h
      by_cases hc : (c == ',') = true
      · rw [if_pos hc] at h
        simp only [Option.map_eq_some_iff, Prod.mk.injEq, Prod.exists] at h
        obtain ⟨l', r', he, rfl, rfl⟩ := h
        obtain ⟨t', e', hl⟩ := ih2 _ _ _ he
        rw [beq_iff_eq] at hc
        subst hc
        refine ⟨t1 ++ (w ++ ',' :: t'), ?_, .more hR hw hl⟩
        rw [e1, ew, e']
        simp
      rw [if_neg hc] at h
      by_cases hc' : (c == ')') = true
      · rw [if_pos hc'] at h
        cases h
        rw [beq_iff_eq] at hc'
        subst hc'
        refine ⟨t1 ++ (w ++ [')']), ?_, .one hR hw⟩
        rw [e1, ew]
        simp
      · rw [if_neg hc'] at h
        cases h

theorem parse_complete (n : Nat) :
    (∀ t s, Reads t s → 2 * t.length ≤ n → ∀ r, parseOne n (t ++ r) = some (s, r)) ∧
    (∀ t l, ReadsMany t l → 2 * t.length ≤ n → ∀ r, parseMany n (t ++ r) = some (l, r)) := by
  induction n with
  | zero =>
    constructor
    · intro t s h hn
      exfalso
      cases h <;> simp at hn
    · intro t l h hn
      exfalso
      cases h <;> simp at hn
  | succ n ih =>
    obtain ⟨ih1, ih2⟩ := ih
    constructor
    · intro t s h hn r
      rw [parseOne]
      have hstart : ∀ {w : List Char} (c : Char) (x : List Char), Blank w → isBlank c = false →
          skipBlanks (w ++ c :: x) = c :: x := fun c x hw hc =>
        skipBlanks_append hw (by intro y ys he; cases he; exact hc)
      have hsq : ∀ x, stripPrefix ['['] ('[' :: x) = some x := fun x => stripPrefix_some.2 rfl
      have hc1 : ∀ x, stripPrefix ['['] (':' :: x) = none := fun x =>
        stripPrefix_none_of_ne (n := 0) (by simp) (by simp)
      have hc2 : ∀ c x, c ≠ 'i' → stripPrefix [':', 'i', 's', '('] (':' :: c :: x) = none := fun c x hc =>
        stripPrefix_none_of_ne (n := 1) (by simpa using hc) (by simp)
      have hc3 : ∀ c x, c ≠ 'n' → stripPrefix [':', 'n', 'o', 't', '('] (':' :: c :: x) = none := fun c x hc =>
        stripPrefix_none_of_ne (n := 1) (by simpa using hc) (by simp)
      have hc4 : ∀ x, stripPrefix [':', 'i', 's', '('] (':' :: 'i' :: 's' :: '(' :: x) = some x := fun x =>
        stripPrefix_some.2 rfl
      have hc5 : ∀ x, stripPrefix [':', 'n', 'o', 't', '('] (':' :: 'n' :: 'o' :: 't' :: '(' :: x) = some x := fun x =>
        stripPrefix_some.2 rfl
      have hc6 : ∀ x, stripPrefix [':', 'w', 'h', 'e', 'r', 'e', '('] (':' :: 'w' :: 'h' :: 'e' :: 'r' :: 'e' :: '(' :: x) = some x :=
        fun x => stripPrefix_some.2 rfl
      cases h with
      | @has w a w1 w2 hw hw1 ha hw2 =>
        simp only [List.append_assoc, List.cons_append, List.nil_append]
        rw [hstart _ _ hw (by decide)]
        rw [hsq]
        exact parseSimple_has hw1 ha hw2
      | @compare w w1 a w2 op w3 q body v w4 ic f w5 hw hw1 ha hw2 hw3 hq hb hv hw4 hf hw5 =>
        simp only [List.append_assoc, List.cons_append, List.nil_append]
        rw [hstart _ _ hw (by decide)]
        rw [hsq]
        exact parseSimple_compare hw1 ha hw2 hw3 hq hb hv hw4 hf hw5
      | @any w t l hw hl =>
        have hlen : 2 * t.length ≤ n := by simp at hn; omega
        have e : w ++ ([':', 'i', 's', '('] ++ t) ++ r = w ++ ':' :: ('i' :: 's' :: '(' :: (t ++ r)) := by simp
        rw [e, hstart _ _ hw (by decide)]
        rw [hc1, hc4]
        simp only [ih2 _ _ hl hlen, Option.map_some]
      | @neg w t l hw hl =>
        have hlen : 2 * t.length ≤ n := by simp at hn; omega
        have e : w ++ ([':', 'n', 'o', 't', '('] ++ t) ++ r = w ++ ':' :: ('n' :: 'o' :: 't' :: '(' :: (t ++ r)) := by simp
        rw [e, hstart _ _ hw (by decide)]
        rw [hc1, hc2 _ _ (by decide), hc5]
        simp only [ih2 _ _ hl hlen, Option.map_some]
        rfl
      | @whr w t l hw hl =>
        have hlen : 2 * t.length ≤ n := by simp at hn; omega
        have e : w ++ ([':', 'w', 'h', 'e', 'r', 'e', '('] ++ t) ++ r =
            w ++ ':' :: ('w' :: 'h' :: 'e' :: 'r' :: 'e' :: '(' :: (t ++ r)) := by simp
        rw [e, hstart _ _ hw (by decide)]
        rw [hc1, hc2 _ _ (by decide), hc3 _ _ (by decide), hc6]
        simp only [ih2 _ _ hl hlen, Option.map_some]
        rfl
    · intro t l h hn r
      rw [parseMany]
      cases h with
      | @one t s w hR hw =>
        have hlen : 2 * t.length ≤ n := by simp at hn; omega
        have e : t ++ (w ++ [')']) ++ r = t ++ (w ++ ')' :: r) := by simp
        rw [e, ih1 _ _ hR hlen]
        simp only
        rw [skipBlanks_append hw (by intro x xs he; cases he; decide)]
        rfl
      | @more t s w t' l hR hw hl =>
        have hlen : 2 * t.length ≤ n := by simp at hn; omega
        have hlen' : 2 * t'.length ≤ n := by simp at hn; omega
        have e : t ++ (w ++ ',' :: t') ++ r = t ++ (w ++ ',' :: (t' ++ r)) := by simp
        rw [e, ih1 _ _ hR hlen]
        simp only
        rw [skipBlanks_append hw (by intro x xs he; cases he; decide)]
        simp only [beq_self_eq_true, if_true, ih2 _ _ hl hlen', Option.map_some]

theorem reads_length {t : List Char} {s : Sel} (h : Reads t s) : 0 < t.length := by
  cases h <;> simp <;> omega

theorem reads_not_blank {t : List Char} {s : Sel} (h : Reads t s) : ¬ Blank t := by
  intro hb
  have hno : ∀ c, c ∈ t → c ≠ '[' ∧ c ≠ ':' := by
    intro c hc
    have := hb c hc
    simp only [List.mem_cons, List.not_mem_nil, or_false] at this
    rcases this with rfl | rfl | rfl | rfl | rfl <;> decide
  cases h with
  | has => exact (hno '[' (by simp)).1 rfl
  | compare => exact (hno '[' (by simp)).1 rfl
  | any => exact (hno ':' (by simp)).2 rfl
  | neg => exact (hno ':' (by simp)).2 rfl
  | whr => exact (hno ':' (by simp)).2 rfl

theorem parseStart_iff (n : Nat) : ∀ t l, 2 * t.length + 1 ≤ n → (parseStart n t = some l ↔ ReadsAll t l) := by
  induction n with
  | zero => intro t l hn; omega
  | succ n ih =>
    intro t l hn
    constructor
    · intro h
      rw [parseStart] at h
      rcases h1 : parseOne n t with _ | ⟨s, r⟩
      · rw [h1] at h; cases h
      rw [h1] at h
      simp only at h
      obtain ⟨t1, e1, hR⟩ := (parse_sound n).1 _ _ _ h1
      by_cases hb : skipBlanks r = []
      · rw [if_pos hb] at h
        cases h
        rw [e1]
        exact .one hR (skipBlanks_eq_nil.1 hb)
      · rw [if_neg hb] at h
        simp only [Option.map_eq_some_iff] at h
        obtain ⟨l', he, rfl⟩ := h
        rw [e1]
        refine .more hR ((ih r l' ?_).1 he)
        have := reads_length hR
        rw [e1] at hn
        simp at hn
        omega
    · intro h
      rw [parseStart]
      cases h with
      | @one t s w hR hw =>
        rw [(parse_complete n).1 _ _ hR (by simp at hn; omega)]
        simp only
        rw [if_pos (skipBlanks_eq_nil.2 hw)]
      | @more t s t' l hR hl =>
        have := reads_length hR
        rw [(parse_complete n).1 _ _ hR (by simp at hn; omega)]
        simp only
        have hb : ¬ Blank t' := by
          intro hb
          cases hl with
          | one hR' _ => exact reads_not_blank hR' fun c hc => hb c (by simp [hc])
          | more hR' _ => exact reads_not_blank hR' fun c hc => hb c (by simp [hc])
        rw [if_neg (fun h => hb (skipBlanks_eq_nil.1 h)), (ih t' l (by simp at hn; omega)).2 hl]
        rfl

theorem parseSelector_iff {t : List Char} {s : Sel} :
    parseSelector t = some s ↔ ∃ l, ReadsAll t l ∧ s = mkCompound l := by
  unfold parseSelector
  simp only [Option.map_eq_some_iff, parseStart_iff _ t _ (show 2 * t.length + 1 ≤ 2 * t.length + 3 by omega)]
  exact ⟨fun ⟨l, h, e⟩ => ⟨l, h, e.symm⟩, fun ⟨l, h, e⟩ => ⟨l, h, e.symm⟩⟩

/-! ### Writing selectors -/

theorem escape_cons (c : Char) (v : List Char) :
    escape (c :: v) = (if c = '"' then ['\\', '"'] else [c]) ++ escape v := by
  unfold escape
  rw [List.flatMap_cons]

theorem quoted_escape {v : List Char} (h : Quotable v) : Quoted '"' (escape v) v := by
  induction h with
  | nil => exact .nil
  | @plain c v h1 h2 _ ih =>
    rw [escape_cons]
    by_cases hc : c = '"'
    · rw [if_pos hc, hc]
      exact .quote ih
    · rw [if_neg hc]
      exact .plain hc h1 h2 ih
  | @pair c v h1 h2 _ ih =>
    rw [escape_cons, if_neg (by decide), escape_cons, if_neg h1]
    exact .other h1 h2 ih

theorem quotable_of_quoted {b v : List Char} (h : Quoted '"' b v) : Quotable v := by
  induction h with
  | nil => exact .nil
  | plain _ h2 h3 _ ih => exact .plain h2 h3 ih
  | quote _ ih => exact .plain (by decide) (by decide) ih
  | other h1 h2 _ ih => exact .pair h1 h2 ih

theorem quotable_of_noBackslash {q : Char} (hqn : q ≠ '\n') (hq : q ≠ '\\') {b v : List Char} (h : Quoted q b v)
    (hb : '\\' ∉ b) : Quotable v := by
  induction h with
  | nil => exact .nil
  | plain _ h2 h3 _ ih => exact .plain h2 h3 (ih fun hm => hb (by simp [hm]))
  | quote _ ih => exact absurd (by simp) hb
  | other h1 h2 _ ih => exact absurd (by simp) hb

theorem opText_eq (op : Op) : Op.text op = OpText op := by cases op <;> rfl

theorem writableAll_iff {l : List Sel} : WritableAll l ↔ ∀ s ∈ l, Writable s := by
  induction l with
  | nil => simp [WritableAll]
  | cons s ss ih => simp [WritableAll, ih]

theorem blank_nil : Blank [] := by intro c hc; cases hc

theorem blank_space : Blank [' '] := by intro c hc; simp at hc; simp [hc]

theorem reads_prepend_space {t : List Char} {s : Sel} (h : Reads t s) : Reads (' ' :: t) s := by
  have hb : ∀ {w : List Char}, Blank w → Blank (' ' :: w) := by
    intro w hw c hc
    rcases List.mem_cons.1 hc with rfl | hc
    · simp
    · exact hw c hc
  cases h with
  | has hw hw1 ha hw2 => exact .has (hb hw) hw1 ha hw2
  | compare hw hw1 ha hw2 hw3 hq hx hne hw4 hf hw5 => exact .compare (hb hw) hw1 ha hw2 hw3 hq hx hne hw4 hf hw5
  | any hw hl => exact .any (hb hw) hl
  | neg hw hl => exact .neg (hb hw) hl
  | whr hw hl => exact .whr (hb hw) hl

theorem readsMany_prepend_space {t : List Char} {l : List Sel} (h : ReadsMany t l) : ReadsMany (' ' :: t) l := by
  cases h with
  | one hR hw => exact .one (reads_prepend_space hR) hw
  | more hR hw hl => exact .more (reads_prepend_space hR) hw hl

theorem mkAny_long {l : List Sel} (h : 2 ≤ l.length) : mkAny l = .any l := by
  rcases l with _ | ⟨a, _ | ⟨b, l⟩⟩
  · simp at h
  · simp at h
  · cases a <;> rfl

theorem mkCompound_long {l : List Sel} (h : 2 ≤ l.length) : mkCompound l = .compound l := by
  rcases l with _ | ⟨a, _ | ⟨b, l⟩⟩
  · simp at h
  · simp at h
  · cases a <;> rfl

theorem writable_simple {a : PyStr} {op : Option Op} {v : Option PyStr} {ic : Bool} :
    Writable (.simple a op v ic) ↔ Identifier a ∧
      (op = none ∧ v = none ∧ ic = false ∨ ∃ o x, op = some o ∧ v = some x ∧ x ≠ [] ∧ Quotable x) := by
  simp only [Writable]

theorem writable_any {l : List Sel} : Writable (.any l) ↔ 2 ≤ l.length ∧ WritableAll l := by simp only [Writable]

theorem writable_neg {l : List Sel} : Writable (.neg l) ↔ l ≠ [] ∧ WritableAll l := by simp only [Writable]

theorem writable_whr {l : List Sel} : Writable (.whr l) ↔ l ≠ [] ∧ WritableAll l := by simp only [Writable]

theorem not_writable_compound {l : List Sel} : ¬ Writable (.compound l) := by simp only [Writable, not_false_eq_true]

theorem not_writable_loop : ¬ Writable .loop := by simp only [Writable, not_false_eq_true]

theorem reads_simple {a : PyStr} {o : Option Op} {v : Option PyStr} {ic : Bool}
    (h : Writable (.simple a o v ic)) : Reads (Sel.text (.simple a o v ic)) (.simple a o v ic) := by
  obtain ⟨ha, ⟨rfl, rfl, rfl⟩ | ⟨op, v, rfl, rfl, hv, hq⟩⟩ := writable_simple.1 h
  · have := Reads.has (w := []) (w1 := []) (w2 := []) blank_nil blank_nil ha blank_nil
    simpa [Sel.text, truthy] using this
  · have ht : truthy (some v) = true := by
      rcases v with _ | ⟨c, cs⟩
      · exact absurd rfl hv
      · rfl
    rw [Sel.text, if_pos ht]
    cases ic with
    | false =>
      have := Reads.compare (w := []) (w1 := []) (w2 := []) (op := op) (w3 := []) (w4 := []) (w5 := []) (ic := false)
        (f := []) blank_nil blank_nil ha blank_nil blank_nil (.inl rfl) (quoted_escape hq) hv blank_nil
        (.inl ⟨rfl, rfl⟩) blank_nil
      simpa [opText_eq] using this
    | true =>
      have := Reads.compare (w := []) (w1 := []) (w2 := []) (op := op) (w3 := []) (w4 := [' ']) (w5 := [])
        (ic := true) (f := ['i']) blank_nil blank_nil ha blank_nil blank_nil (.inl rfl) (quoted_escape hq) hv
        blank_space (.inr ⟨rfl, .inl rfl⟩) blank_nil
      simpa [opText_eq] using this

theorem reads_texts_of {l : List Sel} (hl : l ≠ []) (h : ∀ s ∈ l, Reads s.text s) :
    ReadsMany (Sel.texts l ++ [')']) l := by
  induction l with
  | nil => exact absurd rfl hl
  | cons s ss ih =>
    rcases ss with _ | ⟨s', ss⟩
    · have := ReadsMany.one (w := []) (h s (by simp)) blank_nil
      simpa [Sel.texts] using this
    · have := ReadsMany.more (w := []) (h s (by simp)) blank_nil
        (readsMany_prepend_space (ih (by simp) fun x hx => h x (by simp [hx])))
      rw [Sel.texts]
      · simpa using this

theorem reads_text (s : Sel) (h : Writable s) : Reads s.text s := by
  match s, h with
  | .simple a o v ic, h => exact reads_simple h
  | .any l, h =>
    rw [writable_any] at h
    have hl : l ≠ [] := by rintro rfl; simp at h
    have := Reads.any (w := []) blank_nil (reads_texts_of hl fun x hx => reads_text x (writableAll_iff.1 h.2 x hx))
    rw [mkAny_long h.1] at this
    simpa [Sel.text] using this
  | .neg l, h =>
    rw [writable_neg] at h
    have := Reads.neg (w := []) blank_nil (reads_texts_of h.1 fun x hx => reads_text x (writableAll_iff.1 h.2 x hx))
    simpa [Sel.text] using this
  | .whr l, h =>
    rw [writable_whr] at h
    have := Reads.whr (w := []) blank_nil (reads_texts_of h.1 fun x hx => reads_text x (writableAll_iff.1 h.2 x hx))
    simpa [Sel.text] using this
  | .compound _, h => exact absurd h not_writable_compound
  | .loop, h => exact absurd h not_writable_loop
termination_by sizeOf s
decreasing_by
  all_goals
    have := List.sizeOf_lt_of_mem hx
    simp
    omega

theorem readsAll_concat : (l : List Sel) → l ≠ [] → WritableAll l → ReadsAll (Sel.concat l) l
  | [], h, _ => absurd rfl h
  | [s], _, h => by
    have := ReadsAll.one (w := []) (reads_text s h.1) blank_nil
    simpa [Sel.concat] using this
  | s :: s' :: ss, _, h => by
    have := ReadsAll.more (reads_text s h.1) (readsAll_concat (s' :: ss) (by simp) h.2)
    rw [Sel.concat]
    exact this

theorem readsAll_text {s : Sel} (h : WritableTop s) : ∃ l, ReadsAll s.text l ∧ s = mkCompound l := by
  have key : ∀ s, Writable s → ∃ l, ReadsAll (Sel.text s) l ∧ s = mkCompound l := by
    intro s h
    have := ReadsAll.one (w := []) (reads_text s h) blank_nil
    rw [List.append_nil] at this
    refine ⟨[s], this, ?_⟩
    cases s with
    | compound => exact absurd h not_writable_compound
    | simple => rfl
    | any => rfl
    | neg => rfl
    | whr => rfl
    | loop => rfl
  cases s with
  | compound l =>
    refine ⟨l, ?_, (mkCompound_long h.1).symm⟩
    rw [Sel.text]
    refine readsAll_concat l ?_ h.2
    rintro rfl
    simp [WritableTop] at h
  | simple => exact key _ h
  | any => exact key _ h
  | neg => exact key _ h
  | whr => exact key _ h
  | loop => exact key _ h

/-! ### Selectors that were read can be written -/

theorem wfl_iff {l : List Sel} : Sel.WFL l ↔ ∀ s ∈ l, s.WF := by
  induction l with
  | nil => simp [Sel.WFL]
  | cons s ss ih => simp [Sel.WFL, ih]

theorem writable_of_reads (n : Nat) :
    (∀ t s, t.length ≤ n → Reads t s → ('\'' ∉ t ∨ '\\' ∉ t) → s.WF → Writable s) ∧
    (∀ t l, t.length ≤ n → ReadsMany t l → ('\'' ∉ t ∨ '\\' ∉ t) → Sel.WFL l → l ≠ [] ∧ WritableAll l) := by
  induction n with
  | zero =>
    constructor
    · intro t s hn h
      have := reads_length h
      omega
    · intro t l hn h
      exfalso
      cases h <;> simp at hn
  | succ n ih =>
    obtain ⟨ih1, ih2⟩ := ih
    have sub : ∀ {t u : List Char}, (∀ c ∈ u, c ∈ t) → ('\'' ∉ t ∨ '\\' ∉ t) → ('\'' ∉ u ∨ '\\' ∉ u) := by
      intro t u hs h
      exact h.imp (fun h hm => h (hs _ hm)) (fun h hm => h (hs _ hm))
    constructor
    · intro t s hn h hc hwf
      cases h with
      | has hw hw1 ha hw2 => exact writable_simple.2 ⟨ha, .inl ⟨rfl, rfl, rfl⟩⟩
      | @compare w w1 a w2 op w3 q body v w4 ic f w5 hw hw1 ha hw2 hw3 hq hx hne hw4 hf hw5 =>
        refine writable_simple.2 ⟨ha, .inr ⟨_, _, rfl, rfl, hne, ?_⟩⟩
        rcases hc with hc | hc
        · rcases hq with rfl | rfl
          · exact quotable_of_quoted hx
          · exact absurd (by simp) hc
        · refine quotable_of_noBackslash (q := q) ?_ ?_ hx (fun hm => hc (by simp [hm]))
          · rcases hq with rfl | rfl <;> decide
          · rcases hq with rfl | rfl <;> decide
      | @any w t l hw hl =>
        have hlen : t.length ≤ n := by simp at hn; omega
        have hc' := sub (u := t) (fun c hm => by simp [hm]) hc
        rcases l with _ | ⟨a, _ | ⟨b, l⟩⟩
        · cases hl
        · have hnl : Sel.WFL [a] → Writable a := fun h => (ih2 _ _ hlen hl hc' h).2.1
          cases a with
          | any => simp [mkAny, Sel.WF] at hwf
          | loop => simp [mkAny, Sel.WF] at hwf
          | simple => exact hnl ⟨hwf, trivial⟩
          | neg => exact hnl ⟨hwf, trivial⟩
          | whr => exact hnl ⟨hwf, trivial⟩
          | compound => exact hnl ⟨hwf, trivial⟩
        · rw [mkAny_long (by simp)] at hwf ⊢
          exact writable_any.2 ⟨by simp, (ih2 _ _ hlen hl hc' hwf.2).2⟩
      | @neg w t l hw hl =>
        have hlen : t.length ≤ n := by simp at hn; omega
        have hc' := sub (u := t) (fun c hm => by simp [hm]) hc
        exact writable_neg.2 (ih2 _ _ hlen hl hc' hwf.2)
      | @whr w t l hw hl =>
        have hlen : t.length ≤ n := by simp at hn; omega
        have hc' := sub (u := t) (fun c hm => by simp [hm]) hc
        exact writable_whr.2 (ih2 _ _ hlen hl hc' hwf.2)
    · intro t l hn h hc hwf
      cases h with
      | @one t s w hR hw =>
        exact ⟨by simp, ih1 _ _ (by simp at hn; omega) hR (sub (fun c hm => by simp [hm]) hc) hwf.1, trivial⟩
      | @more t s w t' l hR hw hl =>
        exact ⟨by simp, ih1 _ _ (by simp at hn; omega) hR (sub (fun c hm => by simp [hm]) hc) hwf.1,
          (ih2 _ _ (by simp at hn; omega) hl (sub (fun c hm => by simp [hm]) hc) hwf.2).2⟩

theorem writable_of_readsAll {t : List Char} {l : List Sel} (h : ReadsAll t l) (hc : '\'' ∉ t ∨ '\\' ∉ t)
    (hwf : Sel.WFL l) : l ≠ [] ∧ WritableAll l := by
  induction h with
  | @one t s w hR hw =>
    exact ⟨by simp, (writable_of_reads _).1 _ _ (Nat.le_refl _) hR
      (hc.imp (fun h hm => h (by simp [hm])) (fun h hm => h (by simp [hm]))) hwf.1, trivial⟩
  | @more t s t' l hR hl ih =>
    exact ⟨by simp, (writable_of_reads _).1 _ _ (Nat.le_refl _) hR
      (hc.imp (fun h hm => h (by simp [hm])) (fun h hm => h (by simp [hm]))) hwf.1,
      (ih (hc.imp (fun h hm => h (by simp [hm])) (fun h hm => h (by simp [hm]))) hwf.2).2⟩

theorem writableTop_of_parsed {t : List Char} {s : Sel} (h : parseSelector t = some s)
    (hc : '\'' ∉ t ∨ '\\' ∉ t) (hwf : s.WF) : WritableTop s := by
  obtain ⟨l, hl, rfl⟩ := parseSelector_iff.1 h
  rcases l with _ | ⟨a, _ | ⟨b, l⟩⟩
  · cases hl
  · have hnl : a.WF → Writable a := fun h => (writable_of_readsAll hl hc ⟨h, trivial⟩).2.1
    cases a with
    | compound => simp [mkCompound, Sel.WF] at hwf
    | loop => simp [mkCompound, Sel.WF] at hwf
    | simple => exact hnl hwf
    | neg => exact hnl hwf
    | whr => exact hnl hwf
    | any => exact hnl hwf
  · rw [mkCompound_long (by simp)] at hwf ⊢
    exact ⟨by simp, (writable_of_readsAll hl hc hwf.2).2⟩

/-! ### Further consequences -/

theorem reads_not_compound (n : Nat) : ∀ t s, t.length ≤ n → Reads t s → ∀ l, s ≠ .compound l := by
  induction n with
  | zero =>
    intro t s hn h
    have := reads_length h
    omega
  | succ n ih =>
    intro t s hn h
    cases h with
    | has => intro l he; cases he
    | compare => intro l he; cases he
    | neg => intro l he; cases he
    | whr => intro l he; cases he
    | @any w t l hw hl =>
      rcases l with _ | ⟨a, _ | ⟨b, l⟩⟩
      · cases hl
      · have ha : ∀ l, a ≠ .compound l := by
          cases hl with
          | one hR _ => exact ih _ _ (by simp at hn; omega) hR
          | more _ _ hl => cases hl
        cases a with
        | compound l => exact absurd rfl (ha l)
        | any => intro l he; cases he
        | loop => intro l he; cases he
        | simple => intro l he; cases he
        | neg => intro l he; cases he
        | whr => intro l he; cases he
      · rw [mkAny_long (by simp)]
        intro l he
        cases he

theorem mkCompound_readsAll {t : List Char} {l : List Sel} (h : ReadsAll t l) {s : Sel} :
    s = mkCompound l ↔ (l = [s] ∨ 2 ≤ l.length ∧ s = .compound l) := by
  rcases l with _ | ⟨a, _ | ⟨b, l⟩⟩
  · cases h
  · have ha : ∀ l, a ≠ .compound l := by
      cases h with
      | one hR _ => exact reads_not_compound _ _ _ (Nat.le_refl _) hR
      | more _ hl => cases hl
    have : mkCompound [a] = a := by
      cases a with
      | compound l => exact absurd rfl (ha l)
      | _ => rfl
    rw [this]
    simp [eq_comm]
  · rw [mkCompound_long (by simp)]
    simp

theorem skipBlanks_blank {w t : List Char} (hw : Blank w) : skipBlanks (w ++ t) = skipBlanks t := by
  unfold skipBlanks
  induction w with
  | nil => rfl
  | cons c cs ih =>
    rw [List.cons_append, List.dropWhile_cons, if_pos (isBlank_iff.2 (hw c (by simp)))]
    exact ih fun x hx => hw x (by simp [hx])

theorem parseStart_blank {w t : List Char} (hw : Blank w) (n : Nat) :
    parseStart (n + 2) (w ++ t) = parseStart (n + 2) t := by
  have : parseOne (n + 1) (w ++ t) = parseOne (n + 1) t := by
    rw [parseOne, parseOne, skipBlanks_blank hw]
  rw [parseStart, parseStart, this]

theorem parseSelector_blank {w t : List Char} (hw : Blank w) : parseSelector (w ++ t) = parseSelector t := by
  unfold parseSelector
  congr 1
  apply Option.ext
  intro l
  rw [show 2 * (w ++ t).length + 3 = (2 * (w ++ t).length + 1) + 2 by omega, parseStart_blank hw,
    parseStart_iff _ t l (by simp only [List.length_append]; omega), parseStart_iff _ t l (by omega)]

/-- The one selector read from a text that begins with `[`, an attribute and an operator. -/
theorem parseSimple_op {a t r : List Char} {op : Op} {s : Sel} (ha : Identifier a)
    (h : parseSimple (a ++ (OpText op ++ t)) = some (s, r)) :
    ∃ v r3 x ic, lexValue (skipBlanks t) = some (v, r3) ∧ v = some x ∧ x ≠ [] ∧ s = .simple a (some op) (some x) ic := by
  have h1 : skipBlanks (a ++ (OpText op ++ t)) = a ++ (OpText op ++ t) := by
    obtain ⟨c, cs, hc, hcb⟩ := identifier_head ha
    exact skipBlanks_append (w := []) blank_nil (by rw [hc]; intro x xs he; cases he; exact hcb)
  have h2 : lexIdentifier (a ++ (OpText op ++ t)) = some (a, OpText op ++ t) :=
    lexIdentifier_complete ha (stops_op op t)
  obtain ⟨c, cs, he, hb, hcl⟩ := head_op op t
  have h3 : skipBlanks (OpText op ++ t) = OpText op ++ t :=
    skipBlanks_append (w := []) (t := OpText op ++ t) blank_nil (by rw [he]; intro x xs he; cases he; exact hb)
  unfold parseSimple at h
  rw [h1, h2] at h
  simp only [Option.bind_eq_bind, Option.bind_some, h3] at h
  rw [he] at h
  simp only [hcl, Bool.false_eq_true, if_false] at h
  rw [← he, lexOperator_complete] at h
  simp only [Option.bind_some, Option.bind_eq_some_iff] at h
  obtain ⟨⟨v, r3⟩, h4, h⟩ := h
  simp only at h
  rcases h5 : skipBlanks (lexIgnoreCase (skipBlanks r3)).2 with _ | ⟨d, r5⟩
  · rw [h5] at h; cases h
  rw [h5] at h
  simp only at h
  by_cases hd : (d == ']') = true
  · rw [if_pos hd] at h
    simp only [Option.map_eq_some_iff, Prod.mk.injEq] at h
    obtain ⟨s', hs', rfl, rfl⟩ := h
    have hs' : mkSimple a (some (OpText op)) v (lexIgnoreCase (skipBlanks r3)).1 = .ok s' := by
      rcases hm : mkSimple a (some (OpText op)) v (lexIgnoreCase (skipBlanks r3)).1 with e | y
      · rw [hm] at hs'; cases hs'
      · rw [hm] at hs'; cases hs'; rfl
    rcases v with _ | x
    · exact absurd hs' mkSimple_none
    · obtain ⟨hx, rfl⟩ := mkSimple_compare hs'
      exact ⟨_, _, x, _, h4, rfl, hx, rfl⟩
  · rw [if_neg hd] at h
    cases h

/-- The first selector read from a text that begins with `[`, an attribute and an operator. -/
theorem readsAll_op {a t : List Char} {op : Op} {l : List Sel} (ha : Identifier a)
    (h : ReadsAll ('[' :: (a ++ (OpText op ++ t))) l) : ∃ v r3 x ic l', lexValue (skipBlanks t) = some (v, r3) ∧
      v = some x ∧ x ≠ [] ∧ l = .simple a (some op) (some x) ic :: l' := by
  have hp := (parseStart_iff _ _ l (Nat.le_refl _)).2 h
  rw [parseStart] at hp
  generalize hn : 2 * ('[' :: (a ++ (OpText op ++ t))).length = n at hp
  rcases n with _ | n
  · simp at hn
  rcases h1 : parseOne (n + 1) ('[' :: (a ++ (OpText op ++ t))) with _ | ⟨s, r⟩
  · rw [h1] at hp; cases hp
  have h2 : parseSimple (a ++ (OpText op ++ t)) = some (s, r) := by
    rw [parseOne] at h1
    have hb : skipBlanks ('[' :: (a ++ (OpText op ++ t))) = '[' :: (a ++ (OpText op ++ t)) :=
      skipBlanks_append (w := []) blank_nil (by intro x xs he; cases he; decide)
    have hs : ∀ x, stripPrefix ['['] ('[' :: x) = some x := fun x => stripPrefix_some.2 rfl
    rw [hb, hs] at h1
    exact h1
  obtain ⟨v, r3, x, ic, hv, hx, hne, rfl⟩ := parseSimple_op ha h2
  rw [h1] at hp
  simp only at hp
  refine ⟨v, r3, x, ic, ?_⟩
  by_cases hb : skipBlanks r = []
  · rw [if_pos hb] at hp
    cases hp
    exact ⟨[], hv, hx, hne, rfl⟩
  · rw [if_neg hb] at hp
    simp only [Option.map_eq_some_iff] at hp
    obtain ⟨l', _, rfl⟩ := hp
    exact ⟨l', hv, hx, hne, rfl⟩

theorem lexValue_unquoted {x t : List Char} (hx : Identifier x) {v : Option PyStr} {r : List Char}
    (h : lexValue (skipBlanks (x ++ t)) = some (v, r)) : v = none := by
  obtain ⟨c, cs, hc, hcb⟩ := identifier_head hx
  have h1 : skipBlanks (x ++ t) = x ++ t :=
    skipBlanks_append (w := []) blank_nil (by rw [hc]; intro y ys he; cases he; exact hcb)
  have hf : ∀ c, First c → c ≠ '"' ∧ c ≠ '\'' := by
    intro c hc
    rw [← isFirstChar_iff] at hc
    constructor
    · rintro rfl; exact absurd hc (by decide)
    · rintro rfl; exact absurd hc (by decide)
  have hq : c ≠ '"' ∧ c ≠ '\'' := by
    rcases hx with rfl | ⟨d, ds, hd, _, rfl | rfl⟩
    · cases hc; decide
    · cases hc; exact hf _ hd
    · cases hc; decide
  rw [h1, hc, List.cons_append] at h
  unfold lexValue at h
  simp only at h
  rw [if_neg (by simpa using hq.1), if_neg (by simpa using hq.2)] at h
  simp only [Option.map_eq_some_iff, Prod.mk.injEq] at h
  obtain ⟨_, _, rfl, _⟩ := h
  rfl

theorem lexValue_double {t : List Char} {v : Option PyStr} {r : List Char}
    (h : lexValue ('"' :: t) = some (v, r)) : ∃ x, v = some x ∧ Quotable x := by
  unfold lexValue at h
  simp only at h
  rw [if_pos (by decide)] at h
  simp only [Option.map_eq_some_iff, Prod.mk.injEq, Prod.exists] at h
  obtain ⟨b, r', he, rfl, rfl⟩ := h
  obtain ⟨_, x, hx⟩ := lexString_sound (by decide) (by decide) _ (Nat.le_refl _) he
  exact ⟨_, rfl, by rw [(unescape_quoted (by decide) hx).1]; exact quotable_of_quoted hx⟩

end Toron.Selectors
