/-
The shorthand for links.
-/
import Verif.Model.Edge

namespace Toron.Edge

open Toron.Selectors (PyStr isSpace)

/-- Nothing but blanks. -/
def Blank (t : PyStr) : Prop := ∀ c ∈ t, isSpace c = true

/-- A name that can be written in the shorthand: not empty, and without the characters that file names do not have. -/
def NameOk (t : PyStr) : Prop := t ≠ [] ∧ ∀ c ∈ t, c ∉ ['<', '>', ':', '"', '/', '\\', '|', '?', '*']

/-- There are no blanks at the ends. -/
def Trimmed (t : PyStr) : Prop := (∀ c, t.head? = some c → isSpace c = false) ∧ ∀ c, t.getLast? = some c → isSpace c = false

/-- A text in brackets, on one line. -/
def SelectorOk (t : PyStr) : Prop := ∃ body, t = '[' :: body ++ [']'] ∧ '\n' ∉ body

/-- The parts can be written in the shorthand. -/
structure EdgeOk (e : Edge) : Prop where
  name : NameOk e.name
  file1 : NameOk e.file1
  file2 : NameOk e.file2
  direction : String.ofList e.direction ∈ ["->", "-->", "<->", "<-->", "<-", "<--"]
  selector : ∀ t, e.selector = some t → SelectorOk t

/-- The end of the text: the selector after a colon. Without a selector the colon may be left out. -/
def Ending : Option PyStr → PyStr → Prop
  | none, t => Blank t ∨ ∃ x, t = ':' :: x ∧ Blank x
  | some sel, t => ∃ x y, t = ':' :: x ++ sel ++ y ∧ Blank x ∧ Blank y

/-- The text is the shorthand for the link, with any blanks in between; there must be some around the arrow. -/
def Written (e : Edge) (s : PyStr) : Prop :=
  ∃ a b c d d' f t, s = a ++ e.name ++ b ++ ':' :: c ++ e.file1 ++ d ++ e.direction ++ d' ++ e.file2 ++ f ++ t ∧
    Blank a ∧ Blank b ∧ Blank c ∧ Blank d ∧ d ≠ [] ∧ Blank d' ∧ d' ≠ [] ∧ Blank f ∧ Ending e.selector t

end Toron.Edge
