/-
The texts of selectors, as a grammar on texts.
-/
import Verif.Model.SelectorText

namespace Toron.Selectors.Spec

open Toron.Selectors

/-- Only spaces, tabs, form feeds and line ends. -/
def Blank (w : List Char) : Prop := ∀ c ∈ w, c ∈ [' ', '\t', '\x0c', '\r', '\n']

/-- A character an identifier may begin with. -/
def First (c : Char) : Prop :=
  ('a' ≤ c ∧ c ≤ 'z') ∨ ('A' ≤ c ∧ c ≤ 'Z') ∨ (0xA0 ≤ c.toNat ∧ c.toNat ≤ 0xFFFF) ∨ c = '_'

/-- A character an identifier may go on with. -/
def Other (c : Char) : Prop := First c ∨ ('0' ≤ c ∧ c ≤ '9') ∨ c = '-'

/-- An identifier: a hyphen, or letters, digits, hyphens and underscores beginning with a letter, an underscore,
or a hyphen and one of these. -/
def Identifier (a : List Char) : Prop :=
  a = ['-'] ∨ ∃ c cs, First c ∧ (∀ x ∈ cs, Other x) ∧ (a = c :: cs ∨ a = '-' :: c :: cs)

/-- `body` between two quotes `q` stands for the value `v`: a backslash before a quote is dropped, other
backslashes are kept together with the character after them. -/
inductive Quoted (q : Char) : List Char → List Char → Prop
  | nil : Quoted q [] []
  | plain {c b v} : c ≠ q → c ≠ '\\' → c ≠ '\n' → Quoted q b v → Quoted q (c :: b) (c :: v)
  | quote {b v} : Quoted q b v → Quoted q ('\\' :: q :: b) (q :: v)
  | other {c b v} : c ≠ q → c ≠ '\n' → Quoted q b v → Quoted q ('\\' :: c :: b) ('\\' :: c :: v)

/-- The operators. -/
def OpText : Op → List Char
  | .eq => ['=']
  | .word => ['~', '=']
  | .dash => ['|', '=']
  | .prefix => ['^', '=']
  | .suffix => ['$', '=']
  | .sub => ['*', '=']

mutual
/-- The text, which may have blanks in front, stands for the selector. -/
inductive Reads : List Char → Sel → Prop
  | has {w a w1 w2} : Blank w → Blank w1 → Identifier a → Blank w2 →
      Reads (w ++ '[' :: (w1 ++ (a ++ (w2 ++ [']'])))) (.simple a none none false)
  | compare {w w1 a w2 op w3 q body v w4 ic f w5} : Blank w → Blank w1 → Identifier a → Blank w2 → Blank w3 →
      (q = '"' ∨ q = '\'') → Quoted q body v → v ≠ [] → Blank w4 →
      (ic = false ∧ f = [] ∨ ic = true ∧ (f = ['i'] ∨ f = ['I'])) → Blank w5 →
      Reads (w ++ '[' :: (w1 ++ (a ++ (w2 ++ (OpText op ++ (w3 ++ q :: (body ++ q :: (w4 ++ (f ++ (w5 ++ [']']))))))))))
        (.simple a (some op) (some v) ic)
  | any {w t l} : Blank w → ReadsMany t l → Reads (w ++ ([':', 'i', 's', '('] ++ t)) (mkAny l)
  | neg {w t l} : Blank w → ReadsMany t l → Reads (w ++ ([':', 'n', 'o', 't', '('] ++ t)) (.neg l)
  | whr {w t l} : Blank w → ReadsMany t l → Reads (w ++ ([':', 'w', 'h', 'e', 'r', 'e', '('] ++ t)) (.whr l)

/-- Selectors separated by commas, and a closing parenthesis. -/
inductive ReadsMany : List Char → List Sel → Prop
  | one {t s w} : Reads t s → Blank w → ReadsMany (t ++ (w ++ [')'])) [s]
  | more {t s w t' l} : Reads t s → Blank w → ReadsMany t' l → ReadsMany (t ++ (w ++ ',' :: t')) (s :: l)
end

/-- Selectors one after the other. -/
inductive ReadsAll : List Char → List Sel → Prop
  | one {t s w} : Reads t s → Blank w → ReadsAll (t ++ w) [s]
  | more {t s t' l} : Reads t s → ReadsAll t' l → ReadsAll (t ++ t') (s :: l)

/-- Going from left to right and taking each backslash together with the character after it, the value has no
line end and no backslash that goes with a double quote or with nothing. -/
inductive Quotable : List Char → Prop
  | nil : Quotable []
  | plain {c v} : c ≠ '\\' → c ≠ '\n' → Quotable v → Quotable (c :: v)
  | pair {c v} : c ≠ '"' → c ≠ '\n' → Quotable v → Quotable ('\\' :: c :: v)

mutual
/-- A selector that can be written as a text and is no compound: attributes are identifiers, values are not empty
and can stand between double quotes, lists are not empty and `:is()` has at least two members. -/
def Writable : Sel → Prop
  | .simple a op v ic => Identifier a ∧
      (op = none ∧ v = none ∧ ic = false ∨ ∃ o x, op = some o ∧ v = some x ∧ x ≠ [] ∧ Quotable x)
  | .any l => 2 ≤ l.length ∧ WritableAll l
  | .neg l => l ≠ [] ∧ WritableAll l
  | .whr l => l ≠ [] ∧ WritableAll l
  | .compound _ => False
  | .loop => False

/-- All members can be written. -/
def WritableAll : List Sel → Prop
  | [] => True
  | s :: ss => Writable s ∧ WritableAll ss
end

/-- A selector that can be written as a text, or a compound of at least two. -/
def WritableTop : Sel → Prop
  | .compound l => 2 ≤ l.length ∧ WritableAll l
  | s => Writable s

end Toron.Selectors.Spec
