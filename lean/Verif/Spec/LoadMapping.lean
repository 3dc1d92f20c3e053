/-
What loading a table of mapping data should do.
-/
import Verif.Model.LoadMapping
import Verif.Spec.Mapper

namespace Toron.LoadMapping

open Toron.Selectors (PyStr)
open Toron.Space
open Toron.Mapper
open Toron.MappingCsv (Table)
open Toron.QuantCsv (domainName)

/-- Every row is as long as the header. -/
def Rectangular (t : Table) : Prop := ∀ row ∈ t.rows, row.length = t.header.length

/-- What the cells of one side of a row say, column by column. For a dataspace with a domain the first column
called `domain` is left out. -/
def saysOf (domain : PyStr) (header row : List PyStr) : List (PyStr × PyStr) :=
  if domain = [] then header.zip row else (header.zip row).eraseP fun p => p.1 == domainName

/-- The columns of one side, without the first column called `domain` for a dataspace with a domain. -/
def columnsOf (domain : PyStr) (header : List PyStr) : List PyStr :=
  if domain = [] then header else header.eraseP fun c => c == domainName

/-- The domain, if there is one, is the one in the first column called `domain`, if there is such a column. -/
def DomainOk (domain : PyStr) (header row : List PyStr) : Prop :=
  domain ≠ [] → ∀ p, (header.zip row).find? (fun p => p.1 == domainName) = some p → p.2 = domain

/-- The columns of one side are label columns of the dataspace, none twice. -/
def Plain (s : Store) (cols : List PyStr) : Prop := cols.Nodup ∧ ∀ c ∈ cols, c ∈ s.cols

/-- The record has the labels given; an empty one stands for any. -/
def Fits (s : Store) (given : List (PyStr × PyStr)) (i : Nat) : Prop :=
  ∃ r ∈ s.index, r.id = i ∧ ∀ p ∈ given, p.2 ≠ [] → p ∈ s.cols.zip r.labels

/-- Exactly `n` records have the labels. -/
def FitCount (s : Store) (given : List (PyStr × PyStr)) (n : Nat) : Prop :=
  ∃ l : List Nat, l.Nodup ∧ (∀ i, i ∈ l ↔ Fits s given i) ∧ l.length = n

/-- The combination of label columns for which a label is given, as a mapping level. -/
def levelOf (s : Store) (given : List (PyStr × PyStr)) : List Byte :=
  (BitFlags.ofBits (s.cols.map fun c => given.any fun p => p.1 == c && !p.2.isEmpty)).bytes

/-- The dataspace has that combination of columns, and it is not the empty one. -/
def LevelKnown (s : Store) (level : List Byte) : Prop := level ≠ [] ∧ level ∈ levels s

/-- `w` is the weight of a record in the group, if there is one. -/
def HasWeight (s : Store) (g : WGroup) (i : Nat) (w : Option ℚ) : Prop :=
  (∀ x ∈ s.weights, x.group = g.id → x.index = i → w = some x.value) ∧
  ((∀ x ∈ s.weights, x.group = g.id → x.index ≠ i) → w = none)

/-- What does not change about a link when mappings are added to it. -/
def linkKeys (s : Store) : List (Nat × PyStr × PyStr × Option PyStr × List Selectors.Sel) :=
  s.links.map fun l => (l.id, l.other, l.name, l.hint, l.selectors)

/-- `s'` is `s` with one link more, whose mappings are the ones given. It is the default link to the other
dataspace if so asked, or, if nothing is said, if it is the first one. Nothing but the links and mappings is
changed, and the mappings of the other links are the same. -/
structure LinkAdded (a : LinkArgs) (other : PyStr) (hint : Option PyStr) (out : List (Int × Nat × List Byte × ℚ))
    (s s' : Store) : Prop where
  link : ∃ id, id ∉ s.links.map (·.id) ∧ linkKeys s' = linkKeys s ++ [(id, other, a.name, hint, a.selectors)] ∧
    (∀ l ∈ s'.links, l.id = id → l.isDefault = a.isDefault.getD (s.links.all fun l => l.other != other)) ∧
    entries s' id = out ∧
    ∀ k, k ≠ id → s'.maps.filter (fun m => m.link == k) = s.maps.filter fun m => m.link == k
  rest : s' = { s with links := s'.links, maps := s'.maps }

end Toron.LoadMapping
