/-
C47: reshaping wide data loses nothing. C52: column checks.
-/
import Verif.Spec.Tabular
import Mathlib.Data.List.Forall2
import Mathlib.Algebra.BigOperators.Group.List.Lemmas

namespace Toron.Tabular

open Toron.Selectors (PyStr)

/-! ### C52 -/

/-- A table is accepted exactly if all required columns are there and, unless extra columns are allowed,
nothing else. -/
theorem C52_accepts_iff (columns required : List PyStr) (allowExtras : Bool) :
    verifyColumnsSet columns required allowExtras = .ok () ↔
      (∀ c ∈ required, c ∈ columns) ∧ (allowExtras = false → ∀ c ∈ columns, c ∈ required) := by
  have h : ∀ a b : List PyStr, (a.filter fun x => x ∉ b) = [] ↔ ∀ c ∈ a, c ∈ b := by
    intro a b
    rw [List.filter_eq_nil_iff]
    simp
  unfold verifyColumnsSet
  cases allowExtras
  · simp only [Bool.false_eq_true, if_false, true_implies]
    split
    · next hn =>
      simp only [ne_eq, h] at hn
      constructor
      · intro e; cases e
      · rintro ⟨h1, h2⟩
        rcases hn with hn | hn
        · exact absurd h1 hn
        · exact absurd h2 hn
    · next hn =>
      simp only [ne_eq, h, not_or, not_not] at hn
      exact ⟨fun _ => hn, fun _ => rfl⟩
  · simp only [if_true, Bool.true_eq_false, false_implies, and_true]
    split
    · next hn =>
      simp only [ne_eq, h] at hn
      constructor
      · intro e; cases e
      · exact fun h1 => absurd h1 hn
    · next hn =>
      simp only [ne_eq, h, not_not] at hn
      exact ⟨fun _ => hn, fun _ => rfl⟩

/-- Everything else is refused with a `ValueError`; the order of the columns and repeated names do not matter. -/
theorem C52_refuses (columns required : List PyStr) (allowExtras : Bool)
    (h : verifyColumnsSet columns required allowExtras ≠ .ok ()) :
    ∃ t, verifyColumnsSet columns required allowExtras = .error (.valueError t) := by
  unfold verifyColumnsSet at h ⊢
  split at h <;> split <;> first | exact ⟨_, rfl⟩ | (split at h <;> first | exact absurd rfl h | skip) <;>
    first | exact ⟨_, rfl⟩ | (split <;> first | exact ⟨_, rfl⟩ | contradiction)

example : verifyColumnsSet [['a'], ['b']] [['b']] true = .ok () ∧
    verifyColumnsSet [['a'], ['b']] [['b']] false = .error (.valueError "invalid column names") := by
  decide

/-! ### Dictionaries -/

theorem lookup_map_set (d : DictRow) (k : PyStr) (v : Cell) (k' : PyStr) :
    (d.map fun kv => if kv.1 = k then (k, v) else kv).lookup k' =
      if k' = k ∧ k ∈ d.map (·.1) then some v else d.lookup k' := by
  induction d with
  | nil => simp
  | cons kv d ih =>
    obtain ⟨a, x⟩ := kv
    rw [List.map_cons]
    by_cases ha : a = k
    · subst ha
      simp only [if_true]
      by_cases hk : k' = a
      · subst hk
        simp
      · rw [List.lookup_cons, List.lookup_cons, beq_false_of_ne hk]
        simp only [ih, hk, false_and, if_false]
    · simp only [if_neg ha]
      by_cases hk : k' = a
      · subst hk
        rw [List.lookup_cons, List.lookup_cons]
        simp [ha]
      · rw [List.lookup_cons, List.lookup_cons, beq_false_of_ne hk]
        simp only [ih, List.map_cons, List.mem_cons, Ne.symm ha, false_or]

theorem lookup_none_of_notMem {d : DictRow} {k : PyStr} (h : k ∉ d.map (·.1)) : d.lookup k = none := by
  induction d with
  | nil => rfl
  | cons kv d ih =>
    rw [List.map_cons, List.mem_cons, not_or] at h
    rw [List.lookup_cons, beq_false_of_ne h.1]
    exact ih h.2

theorem lookup_isSome {d : DictRow} {k : PyStr} : (d.lookup k).isSome ↔ k ∈ d.map (·.1) := by
  induction d with
  | nil => simp
  | cons kv d ih =>
    rw [List.map_cons, List.mem_cons, List.lookup_cons]
    by_cases h : k = kv.1
    · simp [h]
    · rw [beq_false_of_ne h]
      simpa [h] using ih

theorem lookup_set (d : DictRow) (k : PyStr) (v : Cell) (k' : PyStr) :
    (DictRow.set d k v).lookup k' = if k' = k then some v else d.lookup k' := by
  unfold DictRow.set
  by_cases hk : k ∈ d.map (·.1)
  · rw [if_pos hk, lookup_map_set]
    simp only [hk, and_true]
  · rw [if_neg hk, List.lookup_append]
    by_cases hk' : k' = k
    · subst hk'
      rw [lookup_none_of_notMem hk]
      simp
    · rw [if_neg hk', List.lookup_cons, beq_false_of_ne hk']
      simp

theorem lookup_filter (d : DictRow) (cols : List PyStr) (k : PyStr) :
    (d.filter fun kv => kv.1 ∉ cols).lookup k = if k ∈ cols then none else d.lookup k := by
  induction d with
  | nil => simp
  | cons kv d ih =>
    by_cases hc : kv.1 ∈ cols
    · rw [List.filter_cons_of_neg (by simpa using hc), ih]
      by_cases hk : k ∈ cols
      · rw [if_pos hk, if_pos hk]
      · rw [if_neg hk, if_neg hk, List.lookup_cons, beq_false_of_ne (fun e : k = kv.1 => hk (by rw [e]; exact hc))]
    · rw [List.filter_cons_of_pos (by simpa using hc), List.lookup_cons, List.lookup_cons, ih]
      by_cases hk : k = kv.1
      · subst hk
        simp [hc]
      · rw [beq_false_of_ne hk]

theorem lookup_map_key (keys : List PyStr) (f : PyStr → Cell) (k : PyStr) :
    (keys.map fun x => (x, f x)).lookup k = if k ∈ keys then some (f k) else none := by
  induction keys with
  | nil => rfl
  | cons x xs ih =>
    rw [List.map_cons, List.lookup_cons]
    by_cases h : k = x
    · subst h
      simp
    · rw [beq_false_of_ne h, ih]
      simp [h]

theorem mapM_ok {α β : Type} {f : α → Except Err β} {l : List α} {out : List β} (h : l.mapM f = .ok out) :
    List.Forall₂ (fun x y => f x = .ok y) l out := by
  induction l generalizing out with
  | nil =>
    cases h
    exact .nil
  | cons x xs ih =>
    rw [List.mapM_cons] at h
    rcases hx : f x with e | y
    · rw [hx] at h; cases h
    rw [hx] at h
    rcases hxs : xs.mapM f with e | ys
    · rw [hxs] at h; cases h
    rw [hxs] at h
    cases h
    exact .cons hx (ih hxs)

theorem mapM_exists {α β : Type} {f : α → Except Err β} {l : List α} (h : ∀ x ∈ l, ∃ y, f x = .ok y) :
    ∃ out, l.mapM f = .ok out := by
  induction l with
  | nil => exact ⟨[], rfl⟩
  | cons x xs ih =>
    obtain ⟨y, hy⟩ := h x (by simp)
    obtain ⟨ys, hys⟩ := ih fun z hz => h z (by simp [hz])
    exact ⟨y :: ys, by rw [List.mapM_cons, hy, hys]; rfl⟩

/-! ### C47 -/

theorem narrowRow_stacked {cols : List PyStr} {var val : PyStr} (hvv : var ≠ val) {r : DictRow}
    (h1 : var ∉ r.map (·.1)) (h2 : val ∉ r.map (·.1)) {c : PyStr} {o : DictRow}
    (h : narrowRow cols var val r c = .ok o) : IsStacked cols var val r c o := by
  unfold narrowRow at h
  rcases hc : r.lookup c with _ | v <;> simp only [hc] at h
  · cases h
  cases h
  refine ⟨?_, ?_, ?_, ⟨lookup_none_of_notMem h1, lookup_none_of_notMem h2⟩, ?_⟩
  · rw [lookup_set, if_neg hvv, lookup_set, if_pos rfl]
  · rw [lookup_set, if_pos rfl, hc]
  · rw [hc]; rfl
  · intro k hk1 hk2
    rw [lookup_set, if_neg hk2, lookup_set, if_neg hk1, lookup_filter]

/-- One row per input row and stacked column, in order, each the long form of its cell. -/
theorem C47_narrow (data : Table) (cols : List PyStr) (var val : PyStr) (hvv : var ≠ val) (out : List DictRow)
    (h : wideToNarrow data cols var val = .ok out) :
    ∃ parts : List (List DictRow), out = parts.flatten ∧
      List.Forall₂ (fun r os => List.Forall₂ (fun c o => IsStacked cols var val r c o) cols os)
        (makeDictRows data) parts := by
  unfold wideToNarrow at h
  rcases hp : (makeDictRows data).mapM (narrowRows cols var val) with e | parts
  · rw [hp] at h; cases h
  rw [hp] at h
  cases h
  refine ⟨parts, rfl, (mapM_ok hp).imp ?_⟩
  intro r os hr
  unfold narrowRows at hr
  by_cases h1 : var ∈ r.map (·.1)
  · rw [if_pos h1] at hr; cases hr
  rw [if_neg h1] at hr
  by_cases h2 : val ∈ r.map (·.1)
  · rw [if_pos h2] at hr; cases hr
  rw [if_neg h2] at hr
  exact (mapM_ok hr).imp fun c o ho => narrowRow_stacked hvv h1 h2 ho

/-- It succeeds if every row has all columns to stack, and neither of the new names is already used. -/
theorem C47_narrow_succeeds (data : Table) (cols : List PyStr) (var val : PyStr)
    (h : ∀ r ∈ makeDictRows data, var ∉ r.map (·.1) ∧ val ∉ r.map (·.1) ∧ ∀ c ∈ cols, c ∈ r.map (·.1)) :
    ∃ out, wideToNarrow data cols var val = .ok out := by
  obtain ⟨parts, hp⟩ := mapM_exists (f := narrowRows cols var val) (l := makeDictRows data) (by
    intro r hr
    obtain ⟨h1, h2, h3⟩ := h r hr
    unfold narrowRows
    rw [if_neg h1, if_neg h2]
    refine mapM_exists fun c hc => ?_
    obtain ⟨v, hv⟩ := Option.isSome_iff_exists.1 (lookup_isSome.2 (h3 c hc))
    unfold narrowRow
    simp only [hv]
    exact ⟨_, rfl⟩)
  exact ⟨parts.flatten, by unfold wideToNarrow; rw [hp]; rfl⟩

theorem stacked_sum {cols0 cols : List PyStr} {var val : PyStr} {r : DictRow} {os : List DictRow}
    (h : List.Forall₂ (fun c o => IsStacked cols0 var val r c o) cols os) :
    columnSum os val = (cols.map fun c => Cell.number (r.lookup c)).sum := by
  unfold columnSum
  induction h with
  | nil => rfl
  | cons ho _ ih => rw [List.map_cons, List.map_cons, List.sum_cons, List.sum_cons, ih, ho.value]

theorem parts_sum {cols : List PyStr} {var val : PyStr} {rows : List DictRow} {parts : List (List DictRow)}
    (h : List.Forall₂ (fun r os => List.Forall₂ (fun c o => IsStacked cols var val r c o) cols os) rows parts) :
    columnSum parts.flatten val = (cols.map fun c => columnSum rows c).sum := by
  induction h with
  | nil => simp [columnSum]
  | @cons r os rows parts hr _ ih =>
    have hadd : columnSum (os ++ parts.flatten) val = columnSum os val + columnSum parts.flatten val := by
      unfold columnSum
      rw [List.map_append, List.sum_append]
    have hcons : ∀ c, columnSum (r :: rows) c = Cell.number (r.lookup c) + columnSum rows c := by
      intro c
      unfold columnSum
      rw [List.map_cons, List.sum_cons]
    rw [List.flatten_cons, hadd, ih, stacked_sum hr, ← List.sum_map_add]
    simp only [hcons]

/-- The sum of the value column is the sum of the stacked columns. -/
theorem C47_narrow_total (data : Table) (cols : List PyStr) (var val : PyStr) (hvv : var ≠ val)
    (out : List DictRow) (h : wideToNarrow data cols var val = .ok out) :
    columnSum out val = (cols.map fun c => columnSum (makeDictRows data) c).sum := by
  obtain ⟨parts, rfl, hp⟩ := C47_narrow data cols var val hvv out h
  exact parts_sum hp

theorem stacked_recover {cols : List PyStr} {var val : PyStr} {r r' : DictRow} {os : List DictRow}
    (hne : cols ≠ []) (hv : r.lookup var = none ∧ r.lookup val = none)
    (hv' : r'.lookup var = none ∧ r'.lookup val = none)
    (h : List.Forall₂ (fun c o => IsStacked cols var val r c o) cols os)
    (h' : List.Forall₂ (fun c o => IsStacked cols var val r' c o) cols os) : SameDict r r' := by
  have hcols : ∀ (l : List PyStr) (os : List DictRow),
      List.Forall₂ (fun c o => IsStacked cols var val r c o) l os →
      List.Forall₂ (fun c o => IsStacked cols var val r' c o) l os → ∀ c ∈ l, r.lookup c = r'.lookup c := by
    intro l os h h'
    induction h with
    | nil => simp
    | cons ho _ ih =>
      cases h' with
      | cons ho' ht' =>
        intro c hc
        rcases List.mem_cons.1 hc with rfl | hc
        · rw [← ho.value, ← ho'.value]
        · exact ih ht' c hc
  intro k
  by_cases hk : k ∈ cols
  · exact hcols cols os h h' k hk
  by_cases hk1 : k = var
  · rw [hk1, hv.1, hv'.1]
  by_cases hk2 : k = val
  · rw [hk2, hv.2, hv'.2]
  cases h with
  | nil => exact absurd rfl hne
  | cons ho _ =>
    cases h' with
    | cons ho' _ =>
      have e1 := ho.others k hk1 hk2
      have e2 := ho'.others k hk1 hk2
      rw [if_neg hk] at e1 e2
      rw [← e1, ← e2]

theorem parts_recover {cols : List PyStr} {var val : PyStr} (hne : cols ≠ []) {rows rows' : List DictRow}
    {parts parts' : List (List DictRow)}
    (hv : ∀ r ∈ rows, r.lookup var = none ∧ r.lookup val = none)
    (hv' : ∀ r ∈ rows', r.lookup var = none ∧ r.lookup val = none)
    (h : List.Forall₂ (fun r os => List.Forall₂ (fun c o => IsStacked cols var val r c o) cols os) rows parts)
    (h' : List.Forall₂ (fun r os => List.Forall₂ (fun c o => IsStacked cols var val r c o) cols os) rows' parts')
    (he : parts.flatten = parts'.flatten) : List.Forall₂ SameDict rows rows' := by
  induction h generalizing rows' parts' with
  | nil =>
    cases h' with
    | nil => exact .nil
    | cons ho _ =>
      have := ho.length_eq
      rw [List.flatten_nil, List.flatten_cons] at he
      have h0 := (List.append_eq_nil_iff.1 he.symm).1
      rw [h0] at this
      exact absurd (List.eq_nil_of_length_eq_zero this) hne
  | @cons r os rows parts ho ht ih =>
    cases h' with
    | nil =>
      have := ho.length_eq
      rw [List.flatten_nil, List.flatten_cons] at he
      have h0 := (List.append_eq_nil_iff.1 he).1
      rw [h0] at this
      exact absurd (List.eq_nil_of_length_eq_zero this) hne
    | @cons r' os' rows' parts' ho' ht' =>
      rw [List.flatten_cons, List.flatten_cons] at he
      obtain ⟨e1, e2⟩ := List.append_inj he (ho.length_eq.symm.trans ho'.length_eq)
      subst e1
      exact .cons (stacked_recover hne (hv r (by simp)) (hv' r' (by simp)) ho ho')
        (ih (fun x hx => hv x (by simp [hx])) (fun x hx => hv' x (by simp [hx])) ht' e2)

theorem narrow_names {data : Table} {cols : List PyStr} {var val : PyStr} {out : List DictRow}
    (h : wideToNarrow data cols var val = .ok out) :
    ∀ r ∈ makeDictRows data, r.lookup var = none ∧ r.lookup val = none := by
  unfold wideToNarrow at h
  rcases hp : (makeDictRows data).mapM (narrowRows cols var val) with e | parts
  · rw [hp] at h; cases h
  intro r hr
  have hf := mapM_ok hp
  have : ∃ os, narrowRows cols var val r = .ok os := by
    clear hp h
    generalize makeDictRows data = rs at hr hf
    induction hf with
    | nil => cases hr
    | cons ho _ ih =>
      rcases List.mem_cons.1 hr with rfl | hr
      · exact ⟨_, ho⟩
      · exact ih hr
  obtain ⟨os, ho⟩ := this
  unfold narrowRows at ho
  by_cases h1 : var ∈ r.map (·.1)
  · rw [if_pos h1] at ho; cases ho
  rw [if_neg h1] at ho
  by_cases h2 : val ∈ r.map (·.1)
  · rw [if_pos h2] at ho; cases ho
  exact ⟨lookup_none_of_notMem h1, lookup_none_of_notMem h2⟩

/-- Nothing is lost: two tables with the same long form have the same rows. -/
theorem C47_narrow_lossless (data data' : Table) (cols : List PyStr) (var val : PyStr) (hvv : var ≠ val)
    (hne : cols ≠ []) (out : List DictRow) (h : wideToNarrow data cols var val = .ok out)
    (h' : wideToNarrow data' cols var val = .ok out) :
    List.Forall₂ SameDict (makeDictRows data) (makeDictRows data') := by
  obtain ⟨parts, hp, hf⟩ := C47_narrow data cols var val hvv out h
  obtain ⟨parts', hp', hf'⟩ := C47_narrow data' cols var val hvv out h'
  exact parts_recover hne (narrow_names h) (narrow_names h') hf hf' (hp.symm.trans hp')

/-- `wide_to_long` on dictionaries: the same, provided that all rows have the keys of the first one and neither of
the new names is already used. -/
theorem C47_long_partial (first : DictRow) (rows : List DictRow) (cols : List PyStr) (var val : PyStr) (hvv : var ≠ val)
    (hkeys : ∀ r ∈ first :: rows, ∀ k, k ∈ r.map (·.1) ↔ k ∈ first.map (·.1))
    (hvar : var ∉ first.map (·.1)) (hval : val ∉ first.map (·.1)) (out : Table)
    (h : wideToLong (.dicts (first :: rows)) cols var val = .ok out) :
    ∃ parts : List (List DictRow), out = .dicts parts.flatten ∧
      List.Forall₂ (fun r os => List.Forall₂ (fun c o => IsStacked cols var val r c o) cols os)
        (first :: rows) parts := by
  unfold wideToLong at h
  simp only at h
  by_cases hc : ∀ c ∈ cols, c ∈ first.map (·.1)
  · rw [if_neg (not_not.2 hc)] at h
    cases h
    refine ⟨(first :: rows).map (longDictRow ((first.map (·.1)).filter fun x => x ∉ cols) cols var val), ?_, ?_⟩
    · rw [List.flatMap_def]
    · rw [List.forall₂_map_right_iff, List.forall₂_same]
      intro r hr
      unfold longDictRow
      rw [List.forall₂_map_right_iff, List.forall₂_same]
      intro c hcm
      have hrk := hkeys r hr
      obtain ⟨v, hv⟩ := Option.isSome_iff_exists.1 (lookup_isSome.2 ((hrk c).2 (hc c hcm)))
      refine ⟨?_, ?_, ?_, ⟨lookup_none_of_notMem fun e => hvar ((hrk var).1 e),
        lookup_none_of_notMem fun e => hval ((hrk val).1 e)⟩, ?_⟩
      · rw [lookup_set, if_neg hvv, lookup_set, if_pos rfl]
      · rw [lookup_set, if_pos rfl, DictRow.getNone, hv]
        rfl
      · rw [hv]; rfl
      · intro k hk1 hk2
        rw [lookup_set, if_neg hk2, lookup_set, if_neg hk1, lookup_map_key]
        by_cases hk : k ∈ cols
        · simp [hk]
        · rw [if_neg hk]
          by_cases hkf : k ∈ first.map (·.1)
          · rw [if_pos (by rw [List.mem_filter]; exact ⟨hkf, by simpa using hk⟩), DictRow.getNone]
            obtain ⟨w, hw⟩ := Option.isSome_iff_exists.1 (lookup_isSome.2 ((hrk k).2 hkf))
            rw [hw]
            rfl
          · rw [if_neg fun e => hkf (List.mem_filter.1 e).1, lookup_none_of_notMem fun e => hkf ((hrk k).1 e)]
  · rw [if_pos hc] at h
    cases h

/-- The sum of the value column is the sum of the stacked columns, for `wide_to_long` on dictionaries. -/
theorem C47_long_total_partial (first : DictRow) (rows : List DictRow) (cols : List PyStr) (var val : PyStr)
    (hvv : var ≠ val) (hkeys : ∀ r ∈ first :: rows, ∀ k, k ∈ r.map (·.1) ↔ k ∈ first.map (·.1))
    (hvar : var ∉ first.map (·.1)) (hval : val ∉ first.map (·.1)) (out : List DictRow)
    (h : wideToLong (.dicts (first :: rows)) cols var val = .ok (.dicts out)) :
    columnSum out val = (cols.map fun c => columnSum (first :: rows) c).sum := by
  obtain ⟨parts, he, hp⟩ := C47_long_partial first rows cols var val hvv hkeys hvar hval _ h
  cases he
  exact parts_sum hp

/-! ### `wide_to_long` on sequences -/

theorem lookup_foldl_set (items : List (PyStr × Cell)) (d : DictRow) (k : PyStr) (hnd : (items.map (·.1)).Nodup) :
    (items.foldl (fun d kv => DictRow.set d kv.1 kv.2) d).lookup k = (items.lookup k).or (d.lookup k) := by
  induction items generalizing d with
  | nil => simp
  | cons kv items ih =>
    rw [List.map_cons, List.nodup_cons] at hnd
    rw [List.foldl_cons, ih _ hnd.2, lookup_set, List.lookup_cons]
    by_cases hk : k = kv.1
    · subst hk
      rw [lookup_none_of_notMem hnd.1]
      simp
    · rw [beq_false_of_ne hk, if_neg hk]

theorem zip_map_self {α β : Type} (l : List α) (f : α → β) : l.zip (l.map f) = l.map fun k => (k, f k) := by
  induction l with
  | nil => rfl
  | cons x xs ih => rw [List.map_cons, List.zip_cons_cons, ih, List.map_cons]

theorem lookup_dictOf (items : List (PyStr × Cell)) (k : PyStr) (hnd : (items.map (·.1)).Nodup) :
    (dictOf items).lookup k = items.lookup k := by
  unfold dictOf
  rw [lookup_foldl_set _ _ _ hnd]
  simp

/-- `wide_to_long` on sequences: with a header without repeated names and rows as long as the header, the rows
(read with the new header) are the long forms of the rows of the input. -/
theorem C47_long_seq_partial (h : List Cell) (rows : List (List Cell)) (cols : List PyStr) (var val : PyStr)
    (hvv : var ≠ val) (hnd : (h.map Cell.name).Nodup) (hlen : ∀ row ∈ rows, row.length = h.length)
    (hvar : var ∉ h.map Cell.name) (hval : val ∉ h.map Cell.name) (out : List (List Cell))
    (hok : wideToLong (.seqs (h :: rows)) cols var val = .ok (.seqs out)) :
    ∃ parts : List (List DictRow), makeDictRows (.seqs out) = parts.flatten ∧
      List.Forall₂ (fun r os => List.Forall₂ (fun c o => IsStacked cols var val r c o) cols os)
        (makeDictRows (.seqs (h :: rows))) parts := by
  unfold wideToLong at hok
  simp only at hok
  by_cases hc : ∀ c ∈ cols, c ∈ h.map Cell.name
  · rw [if_neg (not_not.2 hc)] at hok
    cases hok
    have hnames : ∀ l : List PyStr, (l.map Cell.text).map Cell.name = l := fun l => by
      rw [List.map_map]
      exact (List.map_congr_left fun x _ => rfl).trans l.map_id
    have hnd' : ((h.map Cell.name).filter (fun x => x ∉ cols) ++ [var, val]).Nodup := by
      rw [List.nodup_append]
      refine ⟨hnd.filter _, by simp [hvv], ?_⟩
      intro a ha b hb hab
      have := (List.mem_filter.1 ha).1
      simp only [List.mem_cons, List.not_mem_nil, or_false] at hb
      rcases hb with rfl | rfl
      · exact hvar (hab ▸ this)
      · exact hval (hab ▸ this)
    refine ⟨rows.map fun row => (longSeqRow (h.map Cell.name) cols row).map fun o =>
      dictOf ((((h.map Cell.name).filter (fun x => x ∉ cols)) ++ [var, val]).zip o), ?_, ?_⟩
    · unfold makeDictRows
      simp only
      rw [hnames, List.flatMap_def, List.map_flatten, List.map_map]
      rfl
    · unfold makeDictRows
      simp only
      rw [List.forall₂_map_left_iff, List.forall₂_map_right_iff, List.forall₂_same]
      intro row hrow
      unfold longSeqRow
      rw [List.map_map, List.forall₂_map_right_iff, List.forall₂_same]
      intro c hcm
      have hl := hlen row hrow
      have hpad : row ++ List.replicate ((h.map Cell.name).length - row.length) Cell.none = row := by
        rw [List.length_map, hl]
        simp
      rw [hpad]
      have hzn : (((h.map Cell.name).zip row).map (·.1)).Nodup := by
        rw [List.map_fst_zip (by simp [hl])]
        exact hnd
      set d := dictOf ((h.map Cell.name).zip row) with hd
      have hget : ∀ k ∈ h.map Cell.name, d.lookup k = some (DictRow.getNone d k) := by
        intro k hk
        have : (d.lookup k).isSome := by
          rw [hd, lookup_dictOf _ _ hzn, lookup_isSome, List.map_fst_zip (by simp [hl])]
          exact hk
        obtain ⟨v, hv⟩ := Option.isSome_iff_exists.1 this
        rw [DictRow.getNone, hv]
        rfl
      have hno : ∀ k, k ∉ h.map Cell.name → d.lookup k = none := by
        intro k hk
        rw [hd, lookup_dictOf _ _ hzn]
        apply lookup_none_of_notMem
        rwa [List.map_fst_zip (by simp [hl])]
      set keep := (h.map Cell.name).filter (fun x => x ∉ cols) with hkeep
      have hz : (keep ++ [var, val]).zip (keep.map (DictRow.getNone d) ++ [.text c, DictRow.getNone d c]) =
          (keep.map fun k => (k, DictRow.getNone d k)) ++ [(var, .text c), (val, DictRow.getNone d c)] := by
        rw [List.zip_append (by simp)]
        congr 1
        exact zip_map_self _ _
      have hout : ∀ k, (dictOf ((keep ++ [var, val]).zip (keep.map (DictRow.getNone d) ++
          [.text c, DictRow.getNone d c]))).lookup k =
          ((keep.map fun k => (k, DictRow.getNone d k)) ++ [(var, .text c), (val, DictRow.getNone d c)]).lookup k := by
        intro k
        rw [lookup_dictOf, hz]
        rw [List.map_fst_zip (by simp)]
        exact hnd'
      have hvk : var ∉ keep := fun e => hvar (List.mem_filter.1 e).1
      have hlk : val ∉ keep := fun e => hval (List.mem_filter.1 e).1
      show IsStacked cols var val d c _
      refine ⟨?_, ?_, ?_, ⟨hno var hvar, hno val hval⟩, ?_⟩
      · simp only [Function.comp]
        rw [hout, List.lookup_append, lookup_map_key, if_neg hvk]
        simp
      · simp only [Function.comp]
        rw [hout, List.lookup_append, lookup_map_key, if_neg hlk, hget c (hc c hcm)]
        simp [List.lookup_cons, beq_false_of_ne (Ne.symm hvv)]
      · rw [hget c (hc c hcm)]; rfl
      · intro k hk1 hk2
        simp only [Function.comp]
        rw [hout, List.lookup_append, lookup_map_key]
        have htail : List.lookup k [(var, Cell.text c), (val, DictRow.getNone d c)] = none := by
          simp [List.lookup_cons, beq_false_of_ne hk1, beq_false_of_ne hk2]
        rw [htail, Option.or_none]
        by_cases hk : k ∈ cols
        · rw [if_pos hk, if_neg fun e => by simpa [hk] using (List.mem_filter.1 e).2]
        · rw [if_neg hk]
          by_cases hkf : k ∈ h.map Cell.name
          · rw [if_pos (List.mem_filter.2 ⟨hkf, by simpa using hk⟩), hget k hkf]
          · rw [if_neg fun e => hkf (List.mem_filter.1 e).1, hno k hkf]
  · rw [if_pos hc] at hok
    cases hok

/-! ### Where the full statement fails for `wide_to_long` -/

/-- The name of the new column is not checked: a label column of that name is overwritten, so that two different
tables have the same long form. -/
theorem C47_violated_collision : ∃ (a b : DictRow) (cols : List PyStr) (var val : PyStr) (out : List DictRow),
    IsDict a ∧ IsDict b ∧ ¬ SameDict a b ∧ var ≠ val ∧ cols ≠ [] ∧
    (∀ c ∈ cols, c ∈ a.map (·.1)) ∧
    (∃ t, wideToLong (.dicts [a]) cols var val = .ok t ∧ t = .dicts out) ∧
    (∃ t, wideToLong (.dicts [b]) cols var val = .ok t ∧ t = .dicts out) := by
  refine ⟨[(['v'], .text ['x']), (['B'], .num 1)], [(['v'], .text ['y']), (['B'], .num 1)], [['B']], ['v'], ['w'],
    [[(['v'], .text ['B']), (['w'], .num 1)]], by decide, by decide, ?_, by decide, by decide, by decide,
    ⟨_, rfl, rfl⟩, ⟨_, rfl, rfl⟩⟩
  intro h
  have := h ['v']
  revert this
  decide

/-- A table without rows raises an error instead of giving a table without rows. -/
theorem C47_violated_empty (cols : List PyStr) (var val : PyStr) :
    wideToLong (.dicts []) cols var val = .error (.runtimeError "generator raised StopIteration") := rfl

/-- Rows that lack a key of the first row get an empty cell, and rows with further keys lose them. -/
theorem C47_violated_keys : ∃ (a b : DictRow) (out : List DictRow), IsDict a ∧ IsDict b ∧ ¬ SameDict a b ∧
    (∃ t, wideToLong (.dicts [a, a]) [['B']] ['v'] ['w'] = .ok t ∧ t = .dicts out) ∧
    (∃ t, wideToLong (.dicts [a, b]) [['B']] ['v'] ['w'] = .ok t ∧ t = .dicts out) := by
  refine ⟨[(['B'], .num 1)], [(['B'], .num 1), (['C'], .num 2)],
    [[(['v'], .text ['B']), (['w'], .num 1)], [(['v'], .text ['B']), (['w'], .num 1)]], by decide, by decide, ?_,
    ⟨_, rfl, rfl⟩, ⟨_, rfl, rfl⟩⟩
  intro h
  have := h ['C']
  revert this
  decide

/-! ### The hypotheses can be met -/

/-- Two rows, two stacked columns. -/
def sample : Table := .dicts [[(['A'], .text ['x']), (['B'], .num 10), (['C'], .num 20)],
  [(['A'], .text ['y']), (['B'], .num 30), (['C'], .num 40)]]

example : wideToNarrow sample [['B'], ['C']] ['v'] ['w'] = .ok
    [[(['A'], .text ['x']), (['v'], .text ['B']), (['w'], .num 10)],
     [(['A'], .text ['x']), (['v'], .text ['C']), (['w'], .num 20)],
     [(['A'], .text ['y']), (['v'], .text ['B']), (['w'], .num 30)],
     [(['A'], .text ['y']), (['v'], .text ['C']), (['w'], .num 40)]] := by decide +kernel

example : ∃ out, wideToLong (.seqs [[.text ['A'], .text ['B'], .text ['C']], [.text ['x'], .num 10, .num 20]])
    [['B'], ['C']] ['v'] ['w'] = .ok (.seqs out) ∧ out = [[.text ['A'], .text ['v'], .text ['w']],
      [.text ['x'], .text ['B'], .num 10], [.text ['x'], .text ['C'], .num 20]] := ⟨_, rfl, rfl⟩

end Toron.Tabular
