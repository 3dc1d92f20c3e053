/-
Reading a displayed number.
-/
import Verif.Model.Selectors
import Mathlib.Data.Rat.Floor

namespace Toron.Format

open Toron.Selectors (PyStr)

/-- The value of a text of decimal digits. -/
def digitsValue (t : PyStr) : Nat := t.foldl (fun a c => 10 * a + (c.toNat - '0'.toNat)) 0

/-- The digits in front of the decimal point. -/
def wholeDigits (t : PyStr) : PyStr := t.takeWhile (· != '.')

/-- The digits after the decimal point. -/
def decimals (t : PyStr) : PyStr := (t.dropWhile (· != '.')).drop 1

/-- The value of an unsigned number with a decimal point. -/
def unsignedValue (t : PyStr) : ℚ := digitsValue (wholeDigits t) + digitsValue (decimals t) / 10 ^ (decimals t).length

/-- The value of a number with a decimal point and perhaps a minus sign. -/
def signedValue (t : PyStr) : ℚ := if t.head? = some '-' then -unsignedValue t.tail else unsignedValue t

/-- The value of a number with a decimal point, after blanks and perhaps a minus sign. -/
def value (t : PyStr) : ℚ := signedValue (t.dropWhile (· == ' '))

example : value "  12.650".toList = 1265 / 100 := by decide +kernel
example : value "-0.05".toList = -5 / 100 := by decide +kernel

end Toron.Format
