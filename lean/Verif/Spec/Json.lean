/-
What texts and values can be stored without change.
-/
import Verif.Model.Json
import Verif.Model.Store.Tables

namespace Toron.Json

/-- A text in which no high surrogate stands before a low one. This holds for every text that is free of surrogates, that
is, for every text that can be encoded. -/
def Plain (s : Text) : Prop := (∀ c ∈ s, c < 0x110000) ∧
  ∀ a h l b, s = a ++ h :: l :: b → ¬ ((0xD800 ≤ h ∧ h < 0xDC00) ∧ 0xDC00 ≤ l ∧ l < 0xE000)

mutual
/-- A value whose texts are plain and whose dictionaries have different keys, without floats. -/
def Val.Ok : Val → Prop
  | .float _ => False
  | .str s => Plain s
  | .arr l => OkList l
  | .obj l => (l.map (·.1)).Nodup ∧ OkPairs l
  | _ => True

def OkList : List Val → Prop
  | [] => True
  | v :: l => v.Ok ∧ OkList l

def OkPairs : List (Text × Val) → Prop
  | [] => True
  | (k, v) :: l => Plain k ∧ v.Ok ∧ OkPairs l
end

/-- What stands at the end of a path of keys and positions. -/
def Val.find : Val → List (Text ⊕ Nat) → Option Val
  | v, [] => some v
  | .obj l, .inl k :: p => (l.find? fun x => x.1 == k).bind fun x => x.2.find p
  | .arr l, .inr i :: p => l[i]?.bind fun v => v.find p
  | _, _ => none

/-- A value without the contents of a list or dictionary. -/
def Val.shape : Val → Val
  | .arr _ => .arr []
  | .obj _ => .obj []
  | v => v

/-- Equal for Python: the same paths lead to the same things. The order of the items of a dictionary does not matter. -/
def Same (v w : Val) : Prop := ∀ p, (v.find p).map Val.shape = (w.find p).map Val.shape

/-- The code points of a text. -/
def ofStr (s : Toron.Selectors.PyStr) : Text := s.map Char.toNat

/-- A dictionary of attributes. -/
def ofAttrs (a : Toron.Space.Attrs) : Val := .obj (a.map fun kv => (ofStr kv.1, .str (ofStr kv.2)))

end Toron.Json
