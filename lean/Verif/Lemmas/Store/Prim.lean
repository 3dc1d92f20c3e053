/-
Every program over a store is a sequence of primitive changes. `Prim k s s'` is one change of kind `k`,
with the conditions under which the database accepts it; `Steps K` is a sequence of changes whose kinds are
in `K`; `Does K m` says that every successful run of `m` is such a sequence. An invariant therefore
only has to be checked against the primitive changes.
-/
import Verif.Model.Store.Ops
import Mathlib.Logic.Relation
import Mathlib.Tactic.Common

namespace Toron.Space

open Toron.Selectors (PyStr Sel)

/-- The granularity, if there is one, is that of at least one record. -/
def PosGran (g : Option Gran) : Prop := ∀ x, g = some x → 0 < x.n ∧ 0 < x.k

/-- Kinds of changes. -/
inductive Kind where
  | idxAdd | idxUpd | idxDel | locAdd | locDel | agAdd | agDel | qAdd | qSet | qDel
  | wgAdd | wgUpd | wgDel | wAdd | wSet | wDel | lAdd | lUpd | lDel | mAdd | mUpd | mDel
  | hash | structs | pdefs | attrs | display | domain | defwg | colAdd | colRen | colDrop | fkOff
  deriving DecidableEq, Repr

/-- The store after a link row has been added. -/
def Store.withLink (s : Store) (l : Link) : Store :=
  { s with links := s.links ++ [{ l with id := nextId (s.links.map (·.id)) }] }

/-- The store after label columns have been dropped. -/
def Store.dropCols (s : Store) (names : List PyStr) : Store :=
  { s with
    cols := s.cols.filter (fun c => c ∉ names),
    index := s.index.map (fun r => { r with labels := keepCols s.cols names r.labels }),
    locs := s.locs.map (fun r => { r with labels := keepCols s.cols names r.labels }),
    structs := s.structs.map (fun r => { r with bits := keepCols s.cols names r.bits }) }

/-- The store after a label column has been added. -/
def Store.addCol (s : Store) (c : PyStr) : Store :=
  { s with
    cols := s.cols ++ [c],
    index := s.index.map (fun r => { r with labels := r.labels ++ [['-']] }),
    locs := s.locs.map (fun r => { r with labels := r.labels ++ [[]] }),
    structs := s.structs.map (fun r => { r with bits := r.bits ++ [false] }) }

/-- One primitive change of the tables. -/
inductive Prim : Kind → Store → Store → Prop
  | idxAdd (s : Store) (labels : List PyStr) (hlen : labels.length = s.cols.length) (hne : labels ≠ [])
      (hemp : [] ∉ labels) (huniq : labels ∉ s.index.map (·.labels)) :
      Prim .idxAdd s { s with index := s.index ++ [⟨s.seq + 1, labels⟩], seq := s.seq + 1 }
  | idxUpd (s : Store) (r : IndexRec) (hbare : s.cols.all bareOk = true)
      (hlen : r.labels.length = s.cols.length) (hne : r.labels ≠ [])
      (hex : ∃ x ∈ s.index, x.id = r.id) (h0 : r.id ≠ 0) (hemp : [] ∉ r.labels)
      (huniq : ∀ x ∈ s.index, x.id ≠ r.id → x.labels ≠ r.labels) :
      Prim .idxUpd s { s with index := s.index.map fun x => if x.id = r.id then r else x }
  | idxDel (s : Store) (id : Nat) (h0 : id = 0 → ∀ x ∈ s.index, x.id ≠ 0) :
      Prim .idxDel s { s with index := s.index.filter fun x => x.id != id }
  | locAdd (s : Store) (labels : List PyStr) (hlen : labels.length = s.cols.length)
      (hne : labels ≠ []) (huniq : labels ∉ s.locs.map (·.labels)) :
      Prim .locAdd s { s with locs := s.locs ++ [⟨nextId (s.locs.map (·.id)), labels⟩] }
  | locDel (s : Store) (id : Nat) :
      Prim .locDel s { s with
        locs := s.locs.filter (fun x => x.id != id),
        quants := if s.fk then s.quants.filter (fun q => q.loc != id) else s.quants }
  | agAdd (s : Store) (attrs : Attrs) (hnil : attrs ≠ []) (hkeys : (attrs.map (·.1)).Nodup)
      (hne : ∀ kv ∈ attrs, kv.1 ≠ [] ∧ kv.2 ≠ [])
      (huniq : canonAttrs attrs ∉ s.agroups.map (·.attrs)) :
      Prim .agAdd s
        { s with agroups := s.agroups ++ [⟨nextId (s.agroups.map (·.id)), canonAttrs attrs⟩] }
  | agDel (s : Store) (id : Nat) :
      Prim .agDel s { s with
        agroups := s.agroups.filter (fun x => x.id != id),
        quants := if s.fk then s.quants.filter (fun q => q.ag != id) else s.quants }
  | qAdd (s : Store) (loc ag : Nat) (value : ℚ)
      (hfk : s.fk = true → (∃ x ∈ s.locs, x.id = loc) ∧ (∃ x ∈ s.agroups, x.id = ag))
      (huniq : ∀ q ∈ s.quants, ¬ (q.loc = loc ∧ q.ag = ag)) :
      Prim .qAdd s { s with quants := s.quants ++ [⟨nextId (s.quants.map (·.id)), loc, ag, value⟩] }
  | qSet (s : Store) (id : Nat) (value : ℚ) :
      Prim .qSet s
        { s with quants := s.quants.map fun q => if q.id = id then { q with value := value } else q }
  | qDel (s : Store) (id : Nat) :
      Prim .qDel s { s with quants := s.quants.filter fun q => q.id != id }
  | wgAdd (s : Store) (name : PyStr) (selectors : List Sel) (complete : Bool)
      (huniq : ∀ g ∈ s.wgroups, g.name ≠ name) :
      Prim .wgAdd s { s with
        wgroups := s.wgroups ++ [⟨nextId (s.wgroups.map (·.id)), name, selectors, complete⟩] }
  | wgUpd (s : Store) (g : WGroup) (hex : ∃ x ∈ s.wgroups, x.id = g.id)
      (huniq : ∀ x ∈ s.wgroups, x.id ≠ g.id → x.name ≠ g.name) :
      Prim .wgUpd s { s with wgroups := s.wgroups.map fun x => if x.id = g.id then g else x }
  | wgDel (s : Store) (id : Nat) :
      Prim .wgDel s { s with
        wgroups := s.wgroups.filter (fun x => x.id != id),
        weights := if s.fk then s.weights.filter (fun w => w.group != id) else s.weights }
  | wAdd (s : Store) (group index : Nat) (value : ℚ) (h0 : index ≠ 0) (hv : 0 ≤ value)
      (huniq : ∀ w ∈ s.weights, ¬ (w.group = group ∧ w.index = index))
      (hfk : s.fk = true → ∃ g ∈ s.wgroups, g.id = group) :
      Prim .wAdd s { s with
        weights := s.weights ++ [⟨nextId (s.weights.map (·.id)), group, index, value⟩] }
  | wSet (s : Store) (id : Nat) (value : ℚ) (hv : 0 ≤ value) :
      Prim .wSet s { s with
        weights := s.weights.map fun w => if w.id = id then { w with value := value } else w }
  | wDel (s : Store) (id : Nat) :
      Prim .wDel s { s with weights := s.weights.filter fun w => w.id != id }
  | lAdd (s : Store) (l : Link)
      (huniq : ∀ x ∈ s.links, x.other = l.other →
        x.name ≠ l.name ∧ ¬ (x.isDefault = true ∧ l.isDefault = true)) :
      Prim .lAdd s (s.withLink l)
  | lUpd (s : Store) (l : Link) (hex : ∃ x ∈ s.links, x.id = l.id)
      (huniq : ∀ x ∈ s.links, x.id ≠ l.id → x.other = l.other →
        x.name ≠ l.name ∧ ¬ (x.isDefault = true ∧ l.isDefault = true)) :
      Prim .lUpd s { s with links := s.links.map fun x => if x.id = l.id then l else x }
  | lDel (s : Store) (id : Nat) :
      Prim .lDel s { s with
        links := s.links.filter (fun x => x.id != id),
        maps := if s.fk then s.maps.filter (fun m => m.link != id) else s.maps }
  | mAdd (s : Store) (m : Mapping) (hid : m.id = nextId (s.maps.map (·.id)))
      (hcheck : mappingCheck m = true)
      (huniq : ∀ x ∈ s.maps, ¬ (x.link = m.link ∧ x.other = m.other ∧ x.index = m.index ∧ x.level = m.level))
      (hfk : s.fk = true → ∃ l ∈ s.links, l.id = m.link) :
      Prim .mAdd s { s with maps := s.maps ++ [m] }
  | mUpd (s : Store) (m : Mapping) (hex : ∃ x ∈ s.maps, x.id = m.id)
      (hcheck : mappingCheck m = true)
      (huniq : ∀ x ∈ s.maps, x.id ≠ m.id →
        ¬ (x.link = m.link ∧ x.other = m.other ∧ x.index = m.index ∧ x.level = m.level))
      (hfk : s.fk = true → ∃ l ∈ s.links, l.id = m.link) :
      Prim .mUpd s { s with maps := s.maps.map fun x => if x.id = m.id then m else x }
  | mDel (s : Store) (id : Nat) :
      Prim .mDel s { s with maps := s.maps.filter fun m => m.id != id }
  | hash (s : Store) : Prim .hash s { s with indexHash := s.indexIds }
  | structClear (s : Store) : Prim .structs s { s with structs := [] }
  | structAdd (s : Store) (g : Option Gran) (bits : List Bool) (hne : bits ≠ [])
      (hlen : bits.length = s.cols.length) (huniq : bits ∉ s.structs.map (·.bits))
      (hg : PosGran g) :
      Prim .structs s { s with structs := s.structs ++ [⟨nextId (s.structs.map (·.id)), g, bits⟩] }
  | structGran (s : Store) (f : StructRec → Option Gran) (hg : ∀ r, PosGran (f r)) :
      Prim .structs s { s with structs := s.structs.map fun r => { r with gran := f r } }
  | pdefs (s : Store) (d : Option (List (Finset PyStr))) : Prim .pdefs s { s with partDefs := d }
  | attrs (s : Store) (a : List PyStr) (hres : ∀ x ∈ a, x ∉ reservedNames) (hcol : ∀ x ∈ a, x ∉ s.cols)
      (hnd : a.Nodup) : Prim .attrs s { s with regAttrs := some a }
  | display (s : Store) (d : List PyStr) (h : ∀ c ∈ d, c ∈ s.cols) :
      Prim .display s { s with display := some d }
  | domain (s : Store) (d : PyStr) : Prim .domain s { s with domain := some d }
  | defwg (s : Store) (d : Option (Option Nat)) : Prim .defwg s { s with defaultWG := d }
  | colAdd (s : Store) (c : PyStr) (hres : c ∉ reservedNames) (hattr : c ∉ s.regAttrs.getD [])
      (hnew : asciiLower c ∉ s.sqlNames) : Prim .colAdd s (s.addCol c)
  | colRen (s : Store) (old new : PyStr) (hres : new ∉ reservedNames)
      (hattr : new ∉ s.regAttrs.getD []) (hold : old ∈ s.cols)
      (hnew : asciiLower new ∉ ({ s with cols := s.cols.filter (fun c => c ≠ old) } : Store).sqlNames) :
      Prim .colRen s { s with cols := s.cols.map fun c => if c = old then new else c }
  | colDrop (s : Store) (names : List PyStr) (hne : ∃ c ∈ s.cols, c ∉ names)
      (hi : ((s.dropCols names).index.map (·.labels)).Nodup)
      (hl : ((s.dropCols names).locs.map (·.labels)).Nodup)
      (hst : ((s.dropCols names).structs.map (·.bits)).Nodup) :
      Prim .colDrop s (s.dropCols names)
  | fkOff (s : Store) : Prim .fkOff s { s with fk := false }

/-- A sequence of changes whose kinds are in `K`. -/
def Steps (K : List Kind) : Store → Store → Prop :=
  Relation.ReflTransGen fun a b => ∃ k ∈ K, Prim k a b

theorem Steps.refl {K : List Kind} (s : Store) : Steps K s s := Relation.ReflTransGen.refl

theorem Steps.trans {K : List Kind} {a b c : Store} (h1 : Steps K a b) (h2 : Steps K b c) :
    Steps K a c := Relation.ReflTransGen.trans h1 h2

theorem Steps.single {K : List Kind} {k : Kind} {a b : Store} (h : Prim k a b) (hk : k ∈ K) :
    Steps K a b := Relation.ReflTransGen.single ⟨k, hk, h⟩

theorem Steps.mono {K L : List Kind} {a b : Store} (hKL : K ⊆ L) (h : Steps K a b) : Steps L a b :=
  Relation.ReflTransGen.mono (fun _ _ (⟨k, hk, h⟩ : ∃ k ∈ K, Prim k _ _) =>
    (⟨k, hKL hk, h⟩ : ∃ k ∈ L, Prim k _ _)) _ _ h

/-- An invariant of the primitive changes is an invariant of sequences of them. -/
theorem Steps.invariant {K : List Kind} {P : Store → Prop} (hP : ∀ k ∈ K, ∀ s s', Prim k s s' → P s → P s')
    {a b : Store} (h : Steps K a b) (ha : P a) : P b := by
  induction h with
  | refl => exact ha
  | tail _ hbc ih =>
    obtain ⟨k, hk, h⟩ := hbc
    exact hP k hk _ _ h ih

/-- A reflexive and transitive relation that holds for the primitive changes holds for sequences. -/
theorem Steps.relation {K : List Kind} {R : Store → Store → Prop} (hr : ∀ s, R s s)
    (ht : ∀ a b c, R a b → R b c → R a c) (hP : ∀ k ∈ K, ∀ s s', Prim k s s' → R s s')
    {a b : Store} (h : Steps K a b) : R a b := by
  induction h with
  | refl => exact hr _
  | tail _ hbc ih =>
    obtain ⟨k, hk, h⟩ := hbc
    exact ht _ _ _ ih (hP k hk _ _ h)

/-- Every successful run of `m` is a sequence of changes of kinds in `K`. -/
structure Does {α : Type} (K : List Kind) (m : M α) : Prop where
  steps : ∀ s a s', m s = .ok (a, s') → Steps K s s'

namespace Does

variable {α β : Type} {K : List Kind}

theorem mono {L : List Kind} {m : M α} (hKL : K ⊆ L) (h : Does K m) : Does L m :=
  ⟨fun s a s' hm => (h.steps s a s' hm).mono hKL⟩

theorem pure (a : α) : Does K (Pure.pure a : M α) := by
  refine ⟨fun s b s' h => ?_⟩
  cases h
  exact Steps.refl _

theorem throw (e : Err) : Does K (MonadExcept.throw e : M α) := by
  refine ⟨fun s b s' h => ?_⟩
  cases h

theorem get : Does K (MonadState.get : M Store) := by
  refine ⟨fun s b s' h => ?_⟩
  cases h
  exact Steps.refl _

theorem bind {m : M α} {f : α → M β} (hm : Does K m) (hf : ∀ a, Does K (f a)) :
    Does K (m >>= f) := by
  refine ⟨fun s b s' h => ?_⟩
  simp only [Bind.bind, StateT.bind, Except.bind] at h
  split at h
  · cases h
  · rename_i v heq
    exact (hm.steps _ _ _ heq).trans ((hf _).steps _ _ _ h)

theorem forM {l : List α} {f : α → M Unit} (hf : ∀ a ∈ l, Does K (f a)) : Does K (l.forM f) := by
  induction l with
  | nil => exact pure ()
  | cons x xs ih =>
    exact bind (hf x (by simp)) fun _ => ih fun a ha => hf a (by simp [ha])

theorem foldlM {l : List α} {f : β → α → M β} {b : β} (hf : ∀ b, ∀ a ∈ l, Does K (f b a)) :
    Does K (l.foldlM f b) := by
  induction l generalizing b with
  | nil => exact pure b
  | cons x xs ih =>
    rw [List.foldlM_cons]
    exact bind (hf b x (by simp)) fun b => ih fun b a ha => hf b a (by simp [ha])

theorem mapM {l : List α} {f : α → M β} (hf : ∀ a ∈ l, Does K (f a)) : Does K (l.mapM f) := by
  induction l with
  | nil => exact pure []
  | cons x xs ih =>
    rw [List.mapM_cons]
    exact bind (hf x (by simp)) fun b => bind (ih fun a ha => hf a (by simp [ha])) fun _ => pure _

theorem liftE (e : Except Err α) : Does K (liftE e) := by
  refine ⟨fun s b s' h => ?_⟩
  cases e with
  | error _ => cases h
  | ok _ => cases h; exact Steps.refl _

theorem modify {g : Store → Store} (h : ∀ s, Steps K s (g s)) :
    Does K (_root_.modify g : M Unit) := by
  refine ⟨fun s b s' hm => ?_⟩
  cases hm
  exact h s

end Does

end Toron.Space
