/-
C62. Reading and writing the text of selectors.
-/
import Verif.Lemmas.SelectorText

namespace Toron.Selectors

open Toron.Selectors.Spec

/-- **C62.** A text is accepted exactly if it is one or more selectors of the grammar one after the other, with
blanks anywhere between tokens; a single one is returned as it is, several as a compound of them in order. -/
theorem C62_read_iff (t : List Char) (s : Sel) :
    parseSelector t = some s ↔ ∃ l, ReadsAll t l ∧ (l = [s] ∨ 2 ≤ l.length ∧ s = .compound l) := by
  rw [parseSelector_iff]
  exact ⟨fun ⟨l, h, e⟩ => ⟨l, h, (mkCompound_readsAll h).1 e⟩, fun ⟨l, h, e⟩ => ⟨l, h, (mkCompound_readsAll h).2 e⟩⟩

example : parseSelector "[A=\"x\"]:not([B], :where([C ^= 'y' i]))".toList = some (.compound [
    .simple ['A'] (some .eq) (some ['x']) false,
    .neg [.simple ['B'] none none false, .whr [.simple ['C'] (some .prefix) (some ['y']) true]]]) := by
  simp only [String.reduceToList]
  rfl

/-- **C62.** A text has at most one reading: it never depends on how the parser goes about it. -/
theorem C62_unambiguous {t : List Char} {l l' : List Sel} (h : ReadsAll t l) (h' : ReadsAll t l') : l = l' :=
  Option.some.inj (((parseStart_iff _ t l (Nat.le_refl _)).2 h).symm.trans
    ((parseStart_iff _ t l' (Nat.le_refl _)).2 h'))

example : ReadsAll ['[', 'A', ']'] [.simple ['A'] none none false] :=
  .one (t := ['[', 'A', ']']) (w := []) (.has (w := []) (w1 := []) (w2 := []) blank_nil blank_nil
    (.inr ⟨'A', [], .inr (.inl ⟨by decide, by decide⟩), by simp, .inl rfl⟩) blank_nil) blank_nil

/-- **C62.** Blanks in front of a text do not matter. -/
theorem C62_leading_blanks {w t : List Char} (hw : Blank w) : parseSelector (w ++ t) = parseSelector t :=
  parseSelector_blank hw

example : Blank [' ', '\t', '\n'] := by unfold Blank; decide

/-- **C62.** The text of a selector is read back as the same selector, provided that its attributes are
identifiers, its values can stand between double quotes, and it is no compound inside another selector. -/
theorem C62_roundtrip {s : Sel} (h : WritableTop s) : parseSelector s.text = some s :=
  parseSelector_iff.2 (readsAll_text h)

example : WritableTop (.compound [.simple ['A'] (some .sub) (some ['"', ' ', '\'']) true,
    .any [.simple ['B'] none none false, .neg [.simple ['C'] none none false]]]) := by
  have hid : ∀ c, 'A' ≤ c → c ≤ 'Z' → Identifier [c] := fun c h1 h2 =>
    .inr ⟨c, [], .inr (.inl ⟨h1, h2⟩), by simp, .inl rfl⟩
  have hq : Quotable ['"', ' ', '\''] := .plain (by decide) (by decide)
    (.plain (by decide) (by decide) (.plain (by decide) (by decide) .nil))
  refine ⟨by simp, writable_simple.2 ⟨hid _ (by decide) (by decide), .inr ⟨_, _, rfl, rfl, by simp, hq⟩⟩,
    writable_any.2 ⟨by simp, writable_simple.2 ⟨hid _ (by decide) (by decide), .inl ⟨rfl, rfl, rfl⟩⟩,
      writable_neg.2 ⟨by simp, writable_simple.2 ⟨hid _ (by decide) (by decide), .inl ⟨rfl, rfl, rfl⟩⟩, trivial⟩,
      trivial⟩, trivial⟩

/-- **C62.** Different selectors of this kind have different texts. -/
theorem C62_text_injective {s s' : Sel} (h : WritableTop s) (h' : WritableTop s') (e : s.text = s'.text) : s = s' := by
  have := C62_roundtrip h
  rw [e, C62_roundtrip h'] at this
  exact (Option.some.inj this).symm

/-- **C62.** For a selector that compares an attribute with a value the condition on the value is exact: its text
is read back as the same selector if and only if the value can stand between double quotes. -/
theorem C62_value_roundtrip_iff {a v : List Char} (op : Op) (ic : Bool) (ha : Identifier a) (hv : v ≠ []) :
    parseSelector (Sel.text (.simple a (some op) (some v) ic)) = some (.simple a (some op) (some v) ic) ↔
      Quotable v := by
  constructor
  · intro h
    obtain ⟨l, hl, he⟩ := (C62_read_iff _ _).1 h
    have ht : truthy (some v) = true := by
      rcases v with _ | ⟨c, cs⟩
      · exact absurd rfl hv
      · rfl
    rw [Sel.text, if_pos ht] at hl
    simp only [List.cons_append, List.nil_append, List.append_assoc, Option.map_some, Option.getD_some,
      opText_eq] at hl
    obtain ⟨v', r, x, ic', l', h1, h2, _, rfl⟩ := readsAll_op ha hl
    have hb : ∀ y, skipBlanks ('"' :: y) = '"' :: y := fun y =>
      skipBlanks_append (w := []) blank_nil (by intro x xs he; cases he; decide)
    rw [hb] at h1
    obtain ⟨x', h3, hx'⟩ := lexValue_double h1
    rw [h2] at h3
    cases h3
    rcases he with he | ⟨_, he⟩
    · cases he
      exact hx'
    · cases he
  · intro h
    exact C62_roundtrip (s := .simple a (some op) (some v) ic)
      (writable_simple.2 ⟨ha, .inr ⟨_, _, rfl, rfl, hv, h⟩⟩)

/-- **C62 (partial).** A selector that was read from a text has a text that is read as the same selector, if the
text has no single quotes or no backslashes, and no `:is()` has another `:is()` as its only member. Both
conditions are missing in the full claim; see the violations below. -/
theorem C62_reprint_partial {t : List Char} {s : Sel} (h : parseSelector t = some s)
    (hc : '\'' ∉ t ∨ '\\' ∉ t) (hwf : s.WF) : parseSelector s.text = some s :=
  C62_roundtrip (writableTop_of_parsed h hc hwf)

example : ∃ s, parseSelector "[A='say \"x\"'][B]".toList = some s ∧ s.WF ∧
    '\\' ∉ "[A='say \"x\"'][B]".toList :=
  ⟨.compound [.simple ['A'] (some .eq) (some "say \"x\"".toList) false, .simple ['B'] none none false],
    by simp only [String.reduceToList]; rfl, by simp [Sel.WF, Sel.WFL, truthy], by simp⟩

/-- **C62 violated.** The value of `[A='\"']`, a backslash and a double quote, is written as `[A="\\""]`, which
cannot be read. -/
theorem C62_violated_reprint :
    parseSelector "[A='\\\"']".toList = some (.simple ['A'] (some .eq) (some ['\\', '"']) false) ∧
    Sel.text (.simple ['A'] (some .eq) (some ['\\', '"']) false) = "[A=\"\\\\\"\"]".toList ∧
    parseSelector "[A=\"\\\\\"\"]".toList = none :=
  ⟨by simp only [String.reduceToList]; rfl, by simp only [String.reduceToList]; rfl,
    by simp only [String.reduceToList]; rfl⟩

/-- **C62 violated.** The grammar allows values without quotes, as in `[A=x]`, but no text that has one is ever
accepted: the value is lost on the way to the selector, and building the selector fails. -/
theorem C62_violated_unquoted {a x : List Char} (op : Op) (rest : List Char) (ha : Identifier a) (hx : Identifier x) :
    parseSelector ('[' :: (a ++ (OpText op ++ (x ++ rest)))) = none := by
  rcases h : parseSelector ('[' :: (a ++ (OpText op ++ (x ++ rest)))) with _ | s
  · rfl
  · exfalso
    obtain ⟨l, hl, _⟩ := (C62_read_iff _ _).1 h
    obtain ⟨v, r, y, ic, l', h1, h2, _⟩ := readsAll_op ha hl
    rw [lexValue_unquoted hx h1] at h2
    cases h2

example : Identifier ['i', 'd', '2'] ∧ Identifier ['B'] :=
  ⟨.inr ⟨'i', ['d', '2'], .inl ⟨by decide, by decide⟩, by unfold Other First; decide, .inl rfl⟩,
    .inr ⟨'B', [], .inr (.inl ⟨by decide, by decide⟩), by simp, .inl rfl⟩⟩

/-- **C62 violated.** A compound is written inside `:is()` without parentheses, which cannot be read. -/
theorem C62_violated_nested_compound :
    Sel.text (.neg [.compound [.simple ['A'] none none false, .simple ['B'] none none false]]) =
      ":not([A][B])".toList ∧ parseSelector ":not([A][B])".toList = none :=
  ⟨by simp only [String.reduceToList]; rfl, by simp only [String.reduceToList]; rfl⟩

end Toron.Selectors
