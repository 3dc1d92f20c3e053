/-
When label columns can be renamed.
-/
import Verif.Model.Store.OldSqlite

namespace Toron.Space

open Toron.Selectors (PyStr)

/-- The names SQLite compares without regard to case: of the columns `cols` and of the fixed columns. -/
def takenNames (cols : List PyStr) : List PyStr := (cols ++ fixedNames).map asciiLower

/-- The new names are not reserved, not names of columns, and not registered as attributes. -/
def Store.NewNames (s : Store) (mapping : List (PyStr × PyStr)) : Prop :=
  ∀ p ∈ mapping, p.2 ∉ reservedNames ∧ p.2 ∉ s.cols ∧ p.2 ∉ s.regAttrs.getD []

/-- The columns exist, the new names are free, and when its turn comes no other column has the new name (ignoring case). -/
def Store.Renamable (s : Store) (mapping : List (PyStr × PyStr)) : Prop :=
  (∀ p ∈ mapping, p.1 ∈ s.cols) ∧ s.NewNames mapping ∧
  ∀ pre p post, mapping = pre ++ p :: post →
    asciiLower p.2 ∉ takenNames ((s.cols.map (renamed pre)).filter fun c => c ≠ p.1)

/-- Everything that a foreign key refers to exists. -/
def Store.Referenced (s : Store) : Prop :=
  (∀ w ∈ s.weights, (∃ g ∈ s.wgroups, g.id = w.group) ∧ ∃ r ∈ s.index, r.id = w.index) ∧
  (∀ q ∈ s.quants, (∃ l ∈ s.locs, l.id = q.loc) ∧ ∃ g ∈ s.agroups, g.id = q.ag) ∧
  (∀ m ∈ s.maps, (∃ l ∈ s.links, l.id = m.link) ∧ ∃ r ∈ s.index, r.id = m.index)

/-- The largest id of a record. -/
def Store.lastId (s : Store) : Nat := (s.index.map (·.id)).foldr max 0

end Toron.Space
