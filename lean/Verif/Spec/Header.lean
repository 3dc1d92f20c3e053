/-
What the marks of a Toron file are.
-/
import Verif.Model.BitFlags

namespace Toron.Header

/-- The file begins with the name of SQLite's format, has the text `DAL1` at byte 60 and the four bytes 01 2D 84 C8 at
byte 68. -/
def Marked (file : List Byte) : Prop :=
  ∃ before between rest, before.length = 44 ∧ between.length = 4 ∧
    file = [0x53, 0x51, 0x4c, 0x69, 0x74, 0x65, 0x20, 0x66, 0x6f, 0x72, 0x6d, 0x61, 0x74, 0x20, 0x33, 0x00] ++ before ++
      [0x44, 0x41, 0x4c, 0x31] ++ between ++ [0x01, 0x2d, 0x84, 0xc8] ++ rest

end Toron.Header
