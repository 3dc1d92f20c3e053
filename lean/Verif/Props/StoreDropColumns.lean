/-
C85: dropping label columns (`drop_index_columns` in `src/toron/space.py`).
-/
import Verif.Spec.DropColumns
import Verif.Lemmas.Store.Columns
import Verif.Lemmas.Store.Unmatched
import Verif.Lemmas.Store.WeightEdit
import Verif.Lemmas.Store.Gran
import Verif.Props.StorePartitions
import Verif.Demo

namespace Toron.Space

open Toron.Selectors (PyStr)

/-- No two valid combinations of columns are the same. -/
theorem Reachable.structNodup {s : Store} (h : Reachable s) : (s.structs.map (·.bits)).Nodup := by
  refine h.of_prim (P := fun s => (s.structs.map (·.bits)).Nodup) (fun _ => List.nodup_nil) ?_
  intro k s s' hp hs
  cases hp with
  | structAdd _ g bits _ hlen huniq =>
    dsimp only
    rw [List.map_append, List.map_cons, List.map_nil]
    exact List.nodup_append.2 ⟨hs, List.nodup_singleton _, by
      intro a ha b hb he
      rw [List.mem_singleton] at hb
      subst he hb
      exact huniq ha⟩
  | structClear => exact List.nodup_nil
  | structGran _ f =>
    dsimp only
    rw [List.map_map]
    exact hs
  | colAdd _ c =>
    dsimp only [Store.addCol]
    rw [List.map_map]
    have : ((fun r : StructRec => r.bits) ∘ fun r : StructRec => { r with bits := r.bits ++ [false] }) =
        (fun b => b ++ [false]) ∘ (fun r : StructRec => r.bits) := rfl
    rw [this, ← List.map_map]
    exact List.Nodup.map (fun a b h => List.append_cancel_right h) hs
  | colDrop _ names hne hi hl hst => exact hst
  | _ => exact hs

private theorem keepCols_nil {β : Type} (cols names : List PyStr) : keepCols cols names ([] : List β) = [] := by
  unfold keepCols
  rw [List.zip_nil_right]
  rfl

private theorem keepCols_cons {β : Type} (c : PyStr) (cols names : List PyStr) (x : β) (xs : List β) :
    keepCols (c :: cols) names (x :: xs) = (if c ∈ names then [] else [x]) ++ keepCols cols names xs := by
  unfold keepCols
  rw [List.zip_cons_cons, List.filter_cons]
  by_cases h : c ∈ names
  · simp [h]
  · simp [h]

private theorem labelIn_cons_self (c : PyStr) (cols : List PyStr) (x : PyStr) (xs : List PyStr) :
    labelIn (c :: cols) (x :: xs) c = some x := by
  unfold labelIn
  rw [List.zip_cons_cons, List.lookup_cons_self]

private theorem labelIn_cons_ne {c c' : PyStr} (h : c' ≠ c) (cols : List PyStr) (x : PyStr) (xs : List PyStr) :
    labelIn (c :: cols) (x :: xs) c' = labelIn cols xs c' := by
  unfold labelIn
  have hb : (c' == c) = false := by simpa using h
  rw [List.zip_cons_cons, List.lookup_cons, hb]

private theorem keepCols_eq_iff {cols names a b : List PyStr} (hc : cols.Nodup) (ha : a.length = cols.length)
    (hb : b.length = cols.length) : keepCols cols names a = keepCols cols names b ↔
      ∀ c ∈ cols, c ∉ names → labelIn cols a c = labelIn cols b c := by
  induction cols generalizing a b with
  | nil =>
    obtain rfl := List.length_eq_zero_iff.1 ha
    obtain rfl := List.length_eq_zero_iff.1 hb
    simp
  | cons c cols ih =>
    obtain _ | ⟨x, a⟩ := a
    · simp at ha
    obtain _ | ⟨y, b⟩ := b
    · simp at hb
    obtain ⟨hc1, hc2⟩ := List.nodup_cons.1 hc
    have key := ih hc2 (by simpa using ha) (by simpa using hb)
    have hrest : (∀ c' ∈ cols, c' ∉ names → labelIn (c :: cols) (x :: a) c' = labelIn (c :: cols) (y :: b) c') ↔
        ∀ c' ∈ cols, c' ∉ names → labelIn cols a c' = labelIn cols b c' := by
      constructor <;> intro h c' hc' hn <;> have hne : c' ≠ c := fun h => hc1 (h ▸ hc')
      · have := h c' hc' hn
        rwa [labelIn_cons_ne hne, labelIn_cons_ne hne] at this
      · rw [labelIn_cons_ne hne, labelIn_cons_ne hne]
        exact h c' hc' hn
    rw [keepCols_cons, keepCols_cons, List.forall_mem_cons, hrest, ← key, labelIn_cons_self, labelIn_cons_self]
    by_cases h : c ∈ names
    · simp [h]
    · simp [h]

private theorem labelIn_keepCols {cols names a : List PyStr} (hc : cols.Nodup) (ha : a.length = cols.length)
    {c : PyStr} (hn : c ∉ names) :
    labelIn (cols.filter fun c => c ∉ names) (keepCols cols names a) c = labelIn cols a c := by
  induction cols generalizing a with
  | nil =>
    obtain rfl := List.length_eq_zero_iff.1 ha
    rfl
  | cons c0 cols ih =>
    obtain _ | ⟨x, a⟩ := a
    · simp at ha
    have key := ih (List.nodup_cons.1 hc).2 (a := a) (by simpa using ha)
    rw [keepCols_cons, List.filter_cons]
    by_cases h : c0 ∈ names
    · have hne : c ≠ c0 := fun he => hn (he ▸ h)
      rw [labelIn_cons_ne hne]
      simpa [h] using key
    · by_cases he : c = c0
      · subst he
        simp only [h, not_false_eq_true, decide_true, if_true, if_false, List.singleton_append, labelIn_cons_self]
      · rw [labelIn_cons_ne he]
        simp only [h, not_false_eq_true, decide_true, if_true, if_false, List.singleton_append]
        rw [labelIn_cons_ne he]
        exact key

private theorem nodup_keep {α : Type} {l : List α} {f : α → List PyStr} {s : Store} {names : List PyStr}
    (hcols : s.cols.Nodup) (hl : l.Nodup) (hlen : ∀ x ∈ l, (f x).length = s.cols.length) :
    (l.map fun x => keepCols s.cols names (f x)).Nodup ↔
      ∀ x ∈ l, ∀ y ∈ l, x ≠ y → s.Apart names (f x) (f y) := by
  rw [List.nodup_map_iff_inj_on hl]
  constructor
  · intro h x hx y hy hne
    by_contra hno
    refine hne (h x hx y hy ((keepCols_eq_iff hcols (hlen x hx) (hlen y hy)).2 ?_))
    intro c hc hcn
    by_contra hd
    exact hno ⟨c, hc, hcn, hd⟩
  · intro h x hx y hy he
    by_contra hne
    obtain ⟨c, hc, hcn, hd⟩ := h x hx y hy hne
    exact hd ((keepCols_eq_iff hcols (hlen x hx) (hlen y hy)).1 he c hc hcn)

private theorem bits_exist {cols : List PyStr} (hc : cols.Nodup) {b : List Bool} (hb : b.length = cols.length) :
    ∃ d : Finset PyStr, d ⊆ cols.toFinset ∧ b = bitsOf cols d := by
  induction cols generalizing b with
  | nil =>
    obtain rfl := List.length_eq_zero_iff.1 hb
    exact ⟨∅, by simp, rfl⟩
  | cons c cols ih =>
    obtain _ | ⟨x, b⟩ := b
    · simp at hb
    obtain ⟨hc1, hc2⟩ := List.nodup_cons.1 hc
    obtain ⟨d, hd, rfl⟩ := ih hc2 (b := b) (by simpa using hb)
    have hcd : c ∉ d := fun h => hc1 (List.mem_toFinset.1 (hd h))
    refine ⟨if x then insert c d else d, ?_, ?_⟩
    · cases x
      · intro y hy
        have := hd hy
        simp only [List.mem_toFinset] at this ⊢
        exact List.mem_cons_of_mem _ this
      · intro y hy
        simp only [if_true, Finset.mem_insert] at hy
        rcases hy with rfl | hy
        · simp
        · have := hd hy
          simp only [List.mem_toFinset] at this ⊢
          exact List.mem_cons_of_mem _ this
    · unfold bitsOf
      cases x
      · simp [hcd]
      · simp only [if_true, List.map_cons, Finset.mem_insert, true_or, decide_true]
        congr 1
        refine List.map_congr_left fun y hy => ?_
        have : y ≠ c := fun h => hc1 (h ▸ hy)
        simp [this]

private theorem bits_inj {cols names : List PyStr} {d d' : Finset PyStr} :
    keepCols cols names (bitsOf cols d) = keepCols cols names (bitsOf cols d') ↔
      ∀ c ∈ cols, c ∉ names → (c ∈ d ↔ c ∈ d') := by
  rw [keepCols_bitsOf, keepCols_bitsOf]
  unfold bitsOf
  rw [List.map_inj_left]
  simp only [List.mem_filter, decide_eq_true_eq, decide_eq_decide, and_imp]

private theorem nodup_bits {s : Store} (hr : Reachable s) (names : List PyStr) :
    (s.structs.map fun r => keepCols s.cols names r.bits).Nodup ↔
      ∀ d d', s.Valid d → s.Valid d' → d ≠ d' → ∃ c ∈ s.cols, c ∉ names ∧ ¬ (c ∈ d ↔ c ∈ d') := by
  have hcols : s.cols.Nodup := hr.colInv.cols.of_map _
  have hnd := hr.structNodup
  rw [List.nodup_map_iff_inj_on (hnd.of_map _)]
  constructor
  · rintro h d d' ⟨hd, r, hr1, hb⟩ ⟨hd', r', hr', hb'⟩ hne
    by_contra hno
    have hk : keepCols s.cols names r.bits = keepCols s.cols names r'.bits := by
      have := (bits_inj (cols := s.cols) (names := names) (d := d) (d' := d')).2 (by
        intro c hc hcn
        by_contra hd
        exact hno ⟨c, hc, hcn, hd⟩)
      rw [hb, hb']
      exact this
    have heq := h r hr1 r' hr' hk
    subst heq
    refine hne ?_
    have e : bitsOf s.cols d = bitsOf s.cols d' := hb.symm.trans hb'
    rw [← defOf_bitsOf hd, ← defOf_bitsOf hd', e]
  · intro h r hr1 r' hr' hk
    obtain ⟨d, hd, hb⟩ := bits_exist hcols (hr.structLens r hr1)
    obtain ⟨d', hd', hb'⟩ := bits_exist hcols (hr.structLens r' hr')
    have hdd : d = d' := by
      by_contra hne
      obtain ⟨c, hc, hcn, hno⟩ := h d d' ⟨hd, r, hr1, hb⟩ ⟨hd', r', hr', hb'⟩ hne
      rw [hb, hb'] at hk
      exact hno (bits_inj.1 hk c hc hcn)
    refine List.inj_on_of_nodup_map hnd hr1 hr' ?_
    rw [hb, hb', hdd]

theorem droppable_iff {s : Store} (hr : Reachable s) (names : List PyStr) :
    s.Droppable names ↔ (∀ c ∈ names, c ∉ reservedNames) ∧ (∃ c ∈ s.cols, c ∉ names) ∧
      ((s.dropCols names).index.map (·.labels)).Nodup ∧ ((s.dropCols names).locs.map (·.labels)).Nodup ∧
      ((s.dropCols names).structs.map (·.bits)).Nodup := by
  have hcols : s.cols.Nodup := hr.colInv.cols.of_map _
  unfold Store.Droppable Store.dropCols
  dsimp only
  rw [List.map_map, List.map_map, List.map_map]
  have h1 := nodup_keep (names := names) (f := fun r : IndexRec => r.labels) hcols
    (hr.indexInv.labels.of_map _) hr.indexInv.lens
  have h2 := nodup_keep (names := names) (f := fun r : LocRec => r.labels) hcols
    (hr.quantInv.locLabels.of_map _) hr.quantInv.locLens
  have h3 := nodup_bits hr names
  rw [← h1, ← h2, ← h3]
  rfl

private theorem drop_fk {s : Store} (hr : Reachable s) (names : List PyStr) : fkOk (s.dropCols names) = true := by
  have := hr.fkOk
  unfold fkOk Store.dropCols at *
  simpa only [List.any_map, Function.comp_def] using this

theorem drop_run {s : Store} (hr : Reachable s) (names : List PyStr) :
    (s.Droppable names → step (.dropIndexColumns names) s = (s.dropCols names, .ok ())) ∧
    (¬ s.Droppable names → ∃ e, step (.dropIndexColumns names) s = (s, .error e)) := by
  have hstep : step (.dropIndexColumns names) s = runTx (dropIndexColumns names) s := rfl
  rw [hstep, droppable_iff hr]
  have hbody : dropIndexColumns names s =
      if ∃ c ∈ names, c ∈ reservedNames then .error (.valueError "reserved identifier")
      else if ∀ c ∈ s.cols, c ∈ names then .error (.runtimeError "cannot remove all index columns")
      else checkUnique (s.dropCols names) := by
    unfold dropIndexColumns
    rw [get_bind]
    split
    · rfl
    split
    · rfl
    · rfl
  constructor
  · rintro ⟨h1, ⟨c, hc, hcn⟩, hu⟩
    have h2 : ¬ ∃ c ∈ names, c ∈ reservedNames := fun ⟨c, hc, hc'⟩ => h1 c hc hc'
    have h3 : ¬ ∀ c ∈ s.cols, c ∈ names := fun h => hcn (h c hc)
    rw [if_neg h2, if_neg h3] at hbody
    have hchk : checkUnique (s.dropCols names) = .ok ((), s.dropCols names) := by
      unfold checkUnique
      rw [get_bind, if_neg fun h => h.2 hu]
      rfl
    rw [hchk] at hbody
    unfold runTx
    rw [hbody]
    simp only [drop_fk hr, if_true]
  · intro hno
    have herr : ∃ e, dropIndexColumns names s = .error e := by
      rw [hbody]
      split
      · exact ⟨_, rfl⟩
      rename_i h1
      split
      · exact ⟨_, rfl⟩
      rename_i h2
      push Not at h1 h2
      refine ⟨.integrityError "UNIQUE", ?_⟩
      unfold checkUnique
      rw [get_bind, if_pos]
      · rfl
      · refine ⟨?_, fun hu => hno ⟨h1, h2, hu⟩⟩
        obtain ⟨c, hc, hcn⟩ := h2
        exact List.ne_nil_of_mem (List.mem_filter.2 ⟨hc, by simpa using hcn⟩)
    obtain ⟨e, he⟩ := herr
    refine ⟨e, ?_⟩
    unfold runTx
    rw [he]

/-- C85, when it succeeds. Dropping columns succeeds exactly if no reserved name is given, a column remains, and the
records, the locations with quantities and the valid combinations of columns can all be told apart by the columns that
remain. A failed call changes nothing. -/
theorem C85_success {s : Store} (hr : Reachable s) (names : List PyStr) :
    ((step (.dropIndexColumns names) s).2 = .ok () ↔ s.Droppable names) ∧
    (¬ s.Droppable names → (step (.dropIndexColumns names) s).1 = s) := by
  obtain ⟨h1, h2⟩ := drop_run hr names
  refine ⟨⟨fun h => ?_, fun h => by rw [h1 h]⟩, fun h => ?_⟩
  · by_contra hno
    obtain ⟨e, he⟩ := h2 hno
    rw [he] at h
    cases h
  · obtain ⟨e, he⟩ := h2 h
    rw [he]

/-- C85, what it does. Afterwards the columns are those that were not named, in the same order. Each record and each
location with quantities keeps its id and its label in every remaining column. A combination of columns is valid
afterwards exactly if it is what remains of one that was valid before. Quantities, attributes, weights, mappings and
everything else are unchanged. -/
theorem C85_effect {s s' : Store} (hr : Reachable s) {names : List PyStr}
    (h : step (.dropIndexColumns names) s = (s', .ok ())) :
    s'.cols = s.cols.filter (fun c => c ∉ names) ∧
    List.Forall₂ (fun r r' => r'.id = r.id ∧ r'.labels.length = s'.cols.length ∧
      ∀ c ∈ s'.cols, labelIn s'.cols r'.labels c = labelIn s.cols r.labels c) s.index s'.index ∧
    List.Forall₂ (fun l l' => l'.id = l.id ∧ l'.labels.length = s'.cols.length ∧
      ∀ c ∈ s'.cols, labelIn s'.cols l'.labels c = labelIn s.cols l.labels c) s.locs s'.locs ∧
    (∀ d', s'.Valid d' ↔ ∃ d, s.Valid d ∧ d' = d.filter (fun c => c ∉ names)) ∧
    s' = { s with cols := s'.cols, index := s'.index, locs := s'.locs, structs := s'.structs } := by
  have hcols : s.cols.Nodup := hr.colInv.cols.of_map _
  obtain ⟨h1, h2⟩ := drop_run hr names
  have hd : s.Droppable names := by
    by_contra hno
    obtain ⟨e, he⟩ := h2 hno
    rw [he] at h
    cases h
  rw [h1 hd] at h
  obtain ⟨rfl, -⟩ := Prod.mk.inj h
  have hmem : ∀ c ∈ (s.dropCols names).cols, c ∉ names := fun c hc => by
    simpa using (List.mem_filter.1 hc).2
  refine ⟨rfl, ?_, ?_, ?_, rfl⟩
  · dsimp only [Store.dropCols]
    rw [List.forall₂_map_right_iff, List.forall₂_same]
    intro r hrm
    exact ⟨rfl, keepCols_length _ _ _ (hr.indexInv.lens r hrm),
      fun c hc => labelIn_keepCols hcols (hr.indexInv.lens r hrm) (hmem c hc)⟩
  · dsimp only [Store.dropCols]
    rw [List.forall₂_map_right_iff, List.forall₂_same]
    intro r hrm
    exact ⟨rfl, keepCols_length _ _ _ (hr.quantInv.locLens r hrm),
      fun c hc => labelIn_keepCols hcols (hr.quantInv.locLens r hrm) (hmem c hc)⟩
  · have hfilt : ∀ d : Finset PyStr, bitsOf (s.cols.filter fun c => c ∉ names) d =
        bitsOf (s.cols.filter fun c => c ∉ names) (d.filter fun c => c ∉ names) := by
      intro d
      unfold bitsOf
      refine List.map_congr_left fun c hc => ?_
      have : c ∉ names := hmem c hc
      simp [this]
    intro d'
    constructor
    · rintro ⟨hd', r', hr', hb'⟩
      obtain ⟨r, hrm, rfl⟩ := List.mem_map.1 hr'
      obtain ⟨d, hsub, hb⟩ := bits_exist hcols (hr.structLens r hrm)
      refine ⟨d, ⟨hsub, r, hrm, hb⟩, ?_⟩
      have hsub' : (d.filter fun c => c ∉ names) ⊆ (s.cols.filter fun c => c ∉ names).toFinset := by
        intro c hc
        obtain ⟨hc1, hc2⟩ := Finset.mem_filter.1 hc
        have := hsub hc1
        simp only [List.mem_toFinset, List.mem_filter, decide_eq_true_eq] at this ⊢
        exact ⟨this, hc2⟩
      dsimp only at hb'
      rw [hb, keepCols_bitsOf, hfilt] at hb'
      have e := congrArg (defOf (s.cols.filter fun c => c ∉ names)) hb'
      rw [defOf_bitsOf hsub'] at e
      have e2 : defOf (s.cols.filter fun c => c ∉ names)
          (bitsOf (s.cols.filter fun c => c ∉ names) d') = d' := defOf_bitsOf hd'
      exact e2.symm.trans e.symm
    · rintro ⟨d, ⟨hsub, r, hrm, hb⟩, rfl⟩
      refine ⟨?_, _, List.mem_map_of_mem hrm, ?_⟩
      · intro c hc
        obtain ⟨hc1, hc2⟩ := Finset.mem_filter.1 hc
        have := hsub hc1
        dsimp only [Store.dropCols]
        simp only [List.mem_toFinset, List.mem_filter, decide_eq_true_eq] at this ⊢
        exact ⟨this, hc2⟩
      · have hb2 : r.bits = bitsOf s.cols d := hb
        dsimp only [Store.dropCols]
        rw [hb2, keepCols_bitsOf, hfilt]
        rfl

namespace Demo

/-- Three columns with the partition {B}, one record, and two mappings: one at the level {B}, one exact. -/
def levelOps : List Op :=
  [.addIndexColumns [colA, colB, ['C']],
   .addPartitionDef {colB},
   .insertIndex none [] .abort .abort [⟨none, some [lx, ly, l1], []⟩, ⟨none, some [ly, lx, l1], []⟩],
   .addLink other ['l'] none [] none none false,
   .insertMappings2 other none [⟨1, 10, 1, [], some [0x40#8]⟩, ⟨2, 20, 2, [], some [0xE0#8]⟩]]

/-- The dataspace after this history. -/
def levelStore : Store := run levelOps (Store.new ['u'])

/-- The dataspace after the first column has been dropped. -/
def levelStore' : Store := (step (.dropIndexColumns [colA]) levelStore).1

end Demo

example : Demo.levelStore.Droppable [Demo.colA] :=
  (C85_success (s := Demo.levelStore) ⟨['u'], Demo.levelOps, rfl⟩ [Demo.colA]).1.1 (by decide +kernel)

/-- C85 fails for mappings: levels are not adjusted. Dropping the first column turns a mapping for the combination {B}
into one for the combination {C}, and an exact mapping (for all columns) into one that is not exact. -/
theorem C85_violated_levels : ∃ s s' a b c names, Reachable s ∧ step (.dropIndexColumns names) s = (s', .ok ()) ∧
    s.cols = [a, b, c] ∧ s'.cols = [b, c] ∧ b ≠ c ∧ s.Valid {b} ∧ ¬ s'.Valid {c} ∧
    (∃ m ∈ s.maps, m ∈ s'.maps ∧ m.level = bitstreamToBytes (s.cols.map fun x => decide (x ∈ ({b} : Finset PyStr))) ∧
      m.level = bitstreamToBytes (s'.cols.map fun x => decide (x ∈ ({c} : Finset PyStr)))) ∧
    (∃ m ∈ s.maps, m ∈ s'.maps ∧ m.level = fullLevel s.cols.length ∧ m.level ≠ fullLevel s'.cols.length) := by
  have h1 : (step (.dropIndexColumns [Demo.colA]) Demo.levelStore).2.toOption = some () := by decide +kernel
  refine ⟨Demo.levelStore, Demo.levelStore', Demo.colA, Demo.colB, ['C'], [Demo.colA], ⟨['u'], Demo.levelOps, rfl⟩,
    ?_, by decide +kernel, by decide +kernel, by decide +kernel, ?_, ?_, ?_, ?_⟩
  · unfold Demo.levelStore'
    rcases hs : step (.dropIndexColumns [Demo.colA]) Demo.levelStore with ⟨t, _ | _⟩
    · rw [hs] at h1
      cases h1
    · rfl
  · unfold Store.Valid
    decide +kernel
  · unfold Store.Valid
    decide +kernel
  · decide +kernel
  · decide +kernel

/-- C85 fails for partitions: a column cannot be dropped, even if there is no data at all, if two valid combinations
differ only in that column. -/
theorem C85_violated_partition : ∃ s a b, Reachable s ∧ s.cols = [a, b] ∧ s.index.length = 1 ∧ s.locs = [] ∧
    a ∉ reservedNames ∧ b ∉ reservedNames ∧ (step (.dropIndexColumns [b]) s).2 ≠ .ok () := by
  refine ⟨run [.addIndexColumns [Demo.colA, Demo.colB], .addPartitionDef {Demo.colA}] (Store.new ['u']), Demo.colA,
    Demo.colB, ⟨['u'], _, rfl⟩, by decide +kernel, by decide +kernel, by decide +kernel, by decide +kernel,
    by decide +kernel, ?_⟩
  intro h
  have h1 := congrArg Except.toBool h
  revert h1
  decide +kernel

end Toron.Space
