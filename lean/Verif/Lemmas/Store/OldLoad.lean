/-
The older method for loading quantities does what the newer one does with other registered attributes.
-/
import Verif.Spec.OldLoad
import Verif.Lemmas.Store.Policies2
import Verif.Lemmas.Store.DoesOps
import Verif.Lemmas.Store.Frames

namespace Toron.Space

open Toron.Selectors (PyStr)

/-- The dataspace with other registered attributes. -/
def Store.withAttrs (s : Store) (a : List PyStr) : Store := { s with regAttrs := some a }

/-- An operation that does not look at the registered attributes. -/
def Blind {α : Type} (m : M α) : Prop :=
  ∀ a s, m (Store.withAttrs s a) = (m s).map fun x => (x.1, x.2.withAttrs a)

theorem Blind.pure {α : Type} (x : α) : Blind (pure x : M α) := fun _ _ => rfl

theorem Blind.throw {α : Type} (e : Err) : Blind (throw e : M α) := fun _ _ => rfl

theorem Blind.bind {α β : Type} {m : M α} {f : α → M β} (hm : Blind m) (hf : ∀ x, Blind (f x)) : Blind (m >>= f) := by
  intro a s
  have h := hm a s
  simp only [Bind.bind, StateT.bind]
  rw [h]
  cases hms : m s with
  | error e => rfl
  | ok x => exact hf x.1 a x.2

theorem Blind.getBind {β : Type} {f : Store → M β} (hs : ∀ a s, f (Store.withAttrs s a) = f s) (hf : ∀ s, Blind (f s)) :
    Blind (get >>= f) := by
  intro a s
  have h : f (s.withAttrs a) (s.withAttrs a) = (f s s).map fun x => (x.1, x.2.withAttrs a) := by
    rw [hs]; exact hf s a s
  exact h

theorem Blind.ite {α : Type} {c : Prop} [Decidable c] {m m' : M α} (h : Blind m) (h' : Blind m') :
    Blind (if c then m else m') := by
  split
  · exact h
  · exact h'

theorem locAdd_blind (labels : List PyStr) : Blind (locAdd labels) := by
  intro a s
  unfold locAdd
  simp only [bind, StateT.bind, get, getThe, MonadStateOf.get, StateT.get, pure, Except.pure, Except.bind]
  change (if labels.length ≠ s.cols.length ∨ labels = [] then _ else if labels ∈ s.locs.map (·.labels) then _ else _ : M Unit) _ = _
  by_cases c1 : labels.length ≠ s.cols.length ∨ labels = []
  · rw [if_pos c1, if_pos c1]; rfl
  rw [if_neg c1, if_neg c1]
  by_cases c2 : labels ∈ s.locs.map (·.labels)
  · rw [if_pos c2, if_pos c2]; rfl
  rw [if_neg c2, if_neg c2]
  rfl

theorem agAdd_blind (attrs : Attrs) : Blind (agAdd attrs) := by
  intro a s
  unfold agAdd
  simp only [bind, StateT.bind, get, getThe, MonadStateOf.get, StateT.get, pure, Except.pure, Except.bind]
  change (if attrs.any (fun kv => kv.1.isEmpty || kv.2.isEmpty) = true then _ else
    if canonAttrs attrs ∈ s.agroups.map (·.attrs) then _ else _ : M Unit) _ = _
  by_cases c1 : attrs.any (fun kv => kv.1.isEmpty || kv.2.isEmpty) = true
  · rw [if_pos c1, if_pos c1]; rfl
  rw [if_neg c1, if_neg c1]
  by_cases c2 : canonAttrs attrs ∈ s.agroups.map (·.attrs)
  · rw [if_pos c2, if_pos c2]; rfl
  rw [if_neg c2, if_neg c2]
  rfl

theorem quantAdd_blind (loc ag : Nat) (v : ℚ) : Blind (quantAdd loc ag v) := by
  intro a s
  unfold quantAdd
  simp only [bind, StateT.bind, get, getThe, MonadStateOf.get, StateT.get, pure, Except.pure, Except.bind]
  change (if s.fk = true ∧ ¬ ((s.locs.any fun x => x.id == loc) = true ∧ (s.agroups.any fun x => x.id == ag) = true) then _ else
    if s.quants.any (fun q => q.loc == loc && q.ag == ag) = true then _ else _ : M Unit) _ = _
  by_cases c1 : s.fk = true ∧ ¬ ((s.locs.any fun x => x.id == loc) = true ∧ (s.agroups.any fun x => x.id == ag) = true)
  · rw [if_pos c1, if_pos c1]; rfl
  rw [if_neg c1, if_neg c1]
  by_cases c2 : s.quants.any (fun q => q.loc == loc && q.ag == ag) = true
  · rw [if_pos c2, if_pos c2]; rfl
  rw [if_neg c2, if_neg c2]
  rfl

theorem locGetOrAdd_blind (labels : List PyStr) : Blind (locGetOrAdd labels) := by
  unfold locGetOrAdd
  refine Blind.getBind (fun _ _ => rfl) fun s => Blind.ite (Blind.throw _) (Blind.ite (Blind.throw _) ?_)
  split
  · exact Blind.pure _
  · refine (locAdd_blind labels).bind fun _ => Blind.getBind (fun _ _ => rfl) fun s => ?_
    split
    · exact Blind.pure _
    · exact Blind.throw _

theorem agGetOrAdd_blind (attrs : Attrs) : Blind (agGetOrAdd attrs) := by
  unfold agGetOrAdd
  refine Blind.getBind (fun _ _ => rfl) fun s => ?_
  split
  · exact Blind.pure _
  · refine (agAdd_blind attrs).bind fun _ => Blind.getBind (fun _ _ => rfl) fun s => ?_
    split
    · exact Blind.pure _
    · exact Blind.throw _

/-- The new row for an old one. -/
def QuantRow.noDomain (row : QuantRow) : QuantRow := { row with domain := none }

/-- The outcome of the newer method, with other registered attributes, next to that of the older one. -/
inductive Twin (a : List PyStr) : Except Err (Unit × Store) → Except Err (Unit × Store) → Prop
  | ok (s : Store) : Twin a (.ok ((), s)) (.ok ((), s.withAttrs a))
  | error (e e' : Err) : Twin a (.error e) (.error e')

theorem Twin.eq {a : List PyStr} {s t : Store} (h : Twin a (.ok ((), s)) (.ok ((), t))) : t = s.withAttrs a := by
  cases h
  rfl

theorem insertQuantityRow_twin (a : List PyStr) (row : QuantRow) (s : Store) (hd : s.InDomain row) :
    Twin a (insertQuantityRow a row s) (insertQuantity2Row true true .abort row.noDomain (s.withAttrs a)) := by
  unfold insertQuantityRow insertQuantity2Row
  simp only [bind, StateT.bind, get, getThe, MonadStateOf.get, StateT.get, pure, Except.pure, Except.bind]
  have h1 : ¬ (s.getDomain ≠ [] ∧ row.domain ≠ some s.getDomain) := by
    rcases hd with h | h
    · exact fun h' => h'.1 h
    · exact fun h' => h'.2 h
  have h2 : ¬ (row.noDomain.domain ≠ none ∧ row.noDomain.domain ≠ some (s.withAttrs a).getDomain) := fun h => h.1 rfl
  rw [if_neg h1, if_neg h2]
  have h3 : row.noDomain.pick ((s.withAttrs a).regAttrs.getD []) = row.pick a := rfl
  rw [h3]
  by_cases h4 : row.pick a = []
  · rw [if_pos h4, if_pos h4]; exact Twin.ok s
  rw [if_neg h4, if_neg h4, if_neg (by simp), if_neg (by simp)]
  have h5 := locGetOrAdd_blind row.labels a s
  change Twin a (Except.bind (locGetOrAdd row.labels s) _) (Except.bind (locGetOrAdd row.labels (s.withAttrs a)) _)
  rw [h5]
  cases locGetOrAdd row.labels s with
  | error e => exact Twin.error _ _
  | ok x =>
    obtain ⟨l, s1⟩ := x
    have h6 := agGetOrAdd_blind (row.pick a) a s1
    change Twin a (Except.bind (agGetOrAdd (row.pick a) s1) _) (Except.bind (agGetOrAdd (row.pick a) (s1.withAttrs a)) _)
    rw [h6]
    cases agGetOrAdd (row.pick a) s1 with
    | error e => exact Twin.error _ _
    | ok x =>
      obtain ⟨g, s2⟩ := x
      have h7 := quantAdd_blind l.id g.id row.value a s2
      change Twin a (quantAdd l.id g.id row.value s2) (match quantAdd l.id g.id row.value (s2.withAttrs a) with
        | .ok (_, s') => .ok ((), s')
        | .error e => _)
      rw [h7]
      cases quantAdd l.id g.id row.value s2 with
      | ok x => exact Twin.ok _
      | error e =>
        change Twin a _ (match (s2.withAttrs a).findQuant l.id g.id with | none => _ | some q => _)
        cases (s2.withAttrs a).findQuant l.id g.id with
        | none => exact Twin.error _ _
        | some q => exact Twin.error _ _

theorem insertQuantityRow_skip (a : List PyStr) (row : QuantRow) (s : Store) (hd : ¬ s.InDomain row) :
    insertQuantityRow a row s = .ok ((), s) := by
  unfold insertQuantityRow
  simp only [bind, StateT.bind, get, getThe, MonadStateOf.get, StateT.get, pure, Except.pure, Except.bind]
  rw [if_pos (by unfold Store.InDomain at hd; push Not at hd; exact hd)]
  rfl

/-- The rows that the newer method gets. -/
def Store.newRows (s : Store) (rows : List QuantRow) : List QuantRow :=
  (rows.filter fun row => decide (s.InDomain row)).map QuantRow.noDomain

theorem forM_row {f : QuantRow → M Unit} {row : QuantRow} {rows : List QuantRow} {s : Store} :
    (row :: rows).forM f s = Except.bind (f row s) fun x => rows.forM f x.2 := rfl

theorem insertQuantityRows_twin (a : List PyStr) (rows : List QuantRow) : ∀ s : Store,
    Twin a (rows.forM (insertQuantityRow a) s)
      ((s.newRows rows).forM (insertQuantity2Row true true .abort) (s.withAttrs a)) := by
  induction rows with
  | nil => exact fun s => Twin.ok s
  | cons row rows ih =>
    intro s
    rw [forM_row]
    by_cases hd : s.InDomain row
    · have h1 : s.newRows (row :: rows) = row.noDomain :: s.newRows rows := by
        unfold Store.newRows
        rw [List.filter_cons, if_pos (by simpa using hd)]
        rfl
      rw [h1, forM_row]
      have h2 := insertQuantityRow_twin a row s hd
      cases hr : insertQuantityRow a row s with
      | error e =>
        rw [hr] at h2
        cases hr2 : insertQuantity2Row true true .abort row.noDomain (s.withAttrs a) with
        | error e' => exact Twin.error _ _
        | ok x => rw [hr2] at h2; cases h2
      | ok x =>
        obtain ⟨⟨⟩, s1⟩ := x
        have hdom : s1.domain = s.domain := ((insertQuantityRow_does a row).steps _ _ _ hr).domain_eq (by decide)
        have h3 : s1.newRows rows = s.newRows rows := by
          unfold Store.newRows
          congr 1
          refine List.filter_congr fun row _ => decide_eq_decide.2 ?_
          unfold Store.InDomain Store.getDomain
          rw [hdom]
        rw [hr] at h2
        cases hr2 : insertQuantity2Row true true .abort row.noDomain (s.withAttrs a) with
        | error e' => rw [hr2] at h2; cases h2
        | ok y =>
          rw [hr2] at h2
          cases h2
          rw [← h3]
          exact ih s1
    · have h1 : s.newRows (row :: rows) = s.newRows rows := by
        unfold Store.newRows
        rw [List.filter_cons, if_neg (by simpa using hd)]
      rw [h1, insertQuantityRow_skip a row s hd]
      exact ih s

theorem quantitiesFor_newRows (s : Store) (attributes : List PyStr) (rows : List QuantRow) (l : List PyStr) (a : Attrs) :
    (s.withAttrs (s.attrColumns attributes)).quantitiesFor (s.newRows rows) l a = s.plainFor attributes rows l a := by
  unfold Store.quantitiesFor Store.newRows Store.plainFor
  rw [List.filter_map, List.map_map, List.filter_filter]
  have h : ∀ row : QuantRow, (s.withAttrs (s.attrColumns attributes)).rowAttrs row.noDomain = s.namedAttrs attributes row :=
    fun _ => rfl
  congr 1
  refine List.filter_congr fun row _ => ?_
  simp only [Function.comp, h]
  rw [← Bool.decide_and]
  refine decide_eq_decide.2 ?_
  constructor
  · rintro ⟨⟨h1, h2, h3⟩, h4⟩; exact ⟨h4, h1, h2, h3⟩
  · rintro ⟨h4, h1, h2, h3⟩; exact ⟨⟨h1, h2, h3⟩, h4⟩

end Toron.Space
