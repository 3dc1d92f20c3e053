/-
Specification for bit sequences: a sequence of bits denotes the set of positions that hold a 1.
-/
namespace Toron.Spec

/-- Bit `i` of a sequence; positions past the end hold 0. -/
def bitAt (bits : List Bool) (i : Nat) : Bool := bits.getD i false

/-- Two sequences agree up to trailing zeros. -/
def SameBits (a b : List Bool) : Prop := ∀ i, bitAt a i = bitAt b i

end Toron.Spec
