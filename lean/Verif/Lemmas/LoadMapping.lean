/-
Lemmas on loading a table of mapping data.
-/
import Verif.Spec.LoadMapping
import Verif.Lemmas.MapperJoin
import Verif.Props.BitFlags
import Verif.Lemmas.Store.Links

namespace Toron.LoadMapping

open Toron.Selectors (PyStr)
open Toron.Space
open Toron.Mapper
open Toron.Spec (bitAt)

/-! ### The result without the pair of undefined records -/

theorem keyLe_trans (a b c : Nat × Nat × List Byte) (h1 : keyLe a b = true) (h2 : keyLe b c = true) :
    keyLe a c = true := by
  unfold keyLe at *
  rw [decide_eq_true_eq] at *
  exact List.le_trans h1 h2

theorem keyLe_total (a b : Nat × Nat × List Byte) : keyLe a b = true ∨ keyLe b a = true := by
  unfold keyLe
  rw [decide_eq_true_eq, decide_eq_true_eq]
  exact List.le_total ..

theorem keyLe_anti {a b : Nat × Nat × List Byte} (h1 : keyLe a b = true) (h2 : keyLe b a = true) : a = b := by
  unfold keyLe at *
  rw [decide_eq_true_eq] at *
  have := List.le_antisymm h1 h2
  obtain ⟨a1, a2, a3⟩ := a
  obtain ⟨b1, b2, b3⟩ := b
  simp only [List.cons.injEq] at this
  obtain ⟨rfl, rfl, h⟩ := this
  have := List.map_injective_iff.2 (fun x y => BitVec.eq_of_toNat_eq) h
  rw [this]

theorem sortedBy_filter {α : Type} {le : α → α → Bool} (htrans : ∀ a b c, le a b = true → le b c = true → le a c = true)
    (htotal : ∀ a b, le a b = true ∨ le b a = true) (hanti : ∀ a b, le a b = true → le b a = true → a = b)
    {l m : List α} {P : α → Bool} (hp : (l.filter P).Perm m) : (sortedBy le l).filter P = sortedBy le m := by
  have h1 : ((sortedBy le l).filter P).Perm m := ((sortedBy_perm le l).filter P).trans hp
  rw [← sortedBy_congr le htrans htotal _ _ h1 fun a _ b _ => hanti a b]
  exact (sortedBy_of_pairwise ((sortedBy_pairwise le htrans htotal l).filter P)).symm

theorem aggregate_filter (js : List ((Nat × Nat × List Byte) × Option ℚ)) (P : Nat × Nat × List Byte → Bool) :
    (aggregate js).filter (fun x => P (x.other, x.index, x.level)) = aggregate (js.filter fun j => P j.1) := by
  unfold aggregate
  rw [List.filter_map]
  have hk : (sortedBy keyLe (distinct (js.map (·.1)))).filter P =
      sortedBy keyLe (distinct ((js.filter fun j => P j.1).map (·.1))) := by
    refine sortedBy_filter keyLe_trans keyLe_total (fun a b => keyLe_anti) ?_
    rw [List.perm_ext_iff_of_nodup ((nodup_distinct _).filter _) (nodup_distinct _)]
    intro k
    rw [List.mem_filter, mem_distinct, mem_distinct, List.mem_map, List.mem_map]
    constructor
    · rintro ⟨⟨j, hj, rfl⟩, hP⟩
      exact ⟨j, List.mem_filter.2 ⟨hj, hP⟩, rfl⟩
    · rintro ⟨j, hj, rfl⟩
      rw [List.mem_filter] at hj
      exact ⟨⟨j, hj.1, rfl⟩, hj.2⟩
  have hf : ((fun x : OutRow => P (x.other, x.index, x.level)) ∘ fun k : Nat × Nat × List Byte =>
      (⟨k.1, k.2.1, k.2.2, sqlSum ((js.filter fun j => decide (j.1 = k)).map (·.2))⟩ : OutRow)) = P := rfl
  rw [hf, hk]
  apply List.map_congr_left
  intro k hk'
  have hPk : P k = true := by
    obtain ⟨j, hj, rfl⟩ := mem_keys.1 hk'
    exact (List.mem_filter.1 hj).2
  rw [List.filter_filter]
  have : (js.filter fun j => decide (j.1 = k)) = js.filter fun a => decide (a.1 = k) && P a.1 := by
    apply List.filter_congr
    intro j _
    by_cases h : j.1 = k
    · simp [h, hPk]
    · simp [h]
  rw [this]

theorem joined_filter (values : List (Nat × ℚ)) (src trg : List Match) :
    (joined true values src trg).filter (fun j => !(j.1.1 == 0 && j.1.2.1 == 0)) = joined false values src trg := by
  unfold joined
  rw [List.filter_flatMap]
  congr 1
  funext r
  rw [List.filter_flatMap]
  congr 1
  funext a
  rw [List.filter_map, List.filter_filter]
  congr 1
  apply List.filter_congr
  intro b _
  simp [Bool.and_comm]

/-- The result but for the pair of the undefined records is that of `iter_mappings`. -/
theorem getMappings_filter (rows : List SourceRow) (src trg : List Match) :
    (getMappings rows src trg).filter (fun x => !(x.other == 0 && x.index == 0)) = iterMappings rows src trg := by
  unfold getMappings iterMappings
  rw [← joined_filter]
  exact aggregate_filter _ fun k => !(k.1 == 0 && k.2.1 == 0)

/-! ### Levels -/

theorem levelGran_isSome {s : Store} {L : List Byte} : (levelGran s L).isSome = true ↔ LevelKnown s L := by
  unfold levelGran LevelKnown levels
  by_cases h : L = []
  · simp [h]
  · rw [if_neg h, Option.isSome_map, List.find?_isSome, List.mem_map]
    simp only [beq_iff_eq]
    constructor
    · rintro ⟨st, hst, he⟩
      exact ⟨h, st, (sortedBy_perm _ _).mem_iff.2 hst, he⟩
    · rintro ⟨_, st, hst, he⟩
      exact ⟨st, (sortedBy_perm _ _).mem_iff.1 hst, he⟩

theorem mem_compress {α : Type} {l : List α} {bits : List Bool} {x : α} :
    x ∈ Text.compress l bits ↔ ∃ i, l[i]? = some x ∧ bitAt bits i = true := by
  unfold Text.compress bitAt
  simp only [List.mem_map, List.mem_filter]
  constructor
  · rintro ⟨⟨a, b⟩, ⟨hm, hb⟩, rfl⟩
    obtain ⟨i, hi, he⟩ := List.mem_iff_getElem.1 hm
    rw [List.getElem_zip] at he
    cases he
    rw [List.length_zip] at hi
    refine ⟨i, List.getElem?_eq_getElem (by omega), ?_⟩
    rw [List.getD_eq_getElem _ _ (by omega)]
    exact hb
  · rintro ⟨i, hi, hb⟩
    obtain ⟨hi', rfl⟩ := List.getElem?_eq_some_iff.1 hi
    have hlt : i < bits.length := by
      by_contra hc
      rw [List.getD_eq_default _ _ (by omega)] at hb
      cases hb
    rw [List.getD_eq_getElem _ _ hlt] at hb
    refine ⟨(l[i], bits[i]), ⟨?_, hb⟩, rfl⟩
    have : (l.zip bits)[i]'(by rw [List.length_zip]; omega) = (l[i], bits[i]) := List.getElem_zip
    rw [← this]
    exact List.getElem_mem _

theorem nodeLevel_sideOf (s : Store) (cols labels : List PyStr) :
    nodeLevel s cols (sideOf labels).level = levelOf s (cols.zip labels) := by
  unfold nodeLevel levelOf sideOf
  dsimp only
  congr 2
  apply List.map_congr_left
  intro c _
  rw [Bool.eq_iff_iff, List.contains_iff_mem, mem_compress, List.any_eq_true]
  have hbits : BitFlags.ofBytes (BitFlags.ofBits (labels.map fun x => !x.isEmpty)).bytes =
      BitFlags.ofBits (labels.map fun x => !x.isEmpty) := BitFlags.C07_bytes_roundtrip _ (.bits _)
  rw [hbits]
  simp only [bitAt_toBits_ofBits]
  unfold bitAt
  constructor
  · rintro ⟨i, hi, hb⟩
    obtain ⟨hi', rfl⟩ := List.getElem?_eq_some_iff.1 hi
    have hlt : i < labels.length := by
      by_contra hc
      rw [List.getD_eq_default _ _ (by rw [List.length_map]; omega)] at hb
      cases hb
    rw [List.getD_eq_getElem _ _ (by rw [List.length_map]; omega), List.getElem_map] at hb
    refine ⟨(cols[i], labels[i]), ?_, by simpa using hb⟩
    have : (cols.zip labels)[i]'(by rw [List.length_zip]; omega) = (cols[i], labels[i]) := List.getElem_zip
    rw [← this]
    exact List.getElem_mem _
  · rintro ⟨⟨a, b⟩, hm, hb⟩
    rw [Bool.and_eq_true, beq_iff_eq] at hb
    obtain ⟨rfl, hb⟩ := hb
    obtain ⟨i, hi, he⟩ := List.mem_iff_getElem.1 hm
    rw [List.getElem_zip] at he
    cases he
    rw [List.length_zip] at hi
    refine ⟨i, List.getElem?_eq_getElem (by omega), ?_⟩
    rw [List.getD_eq_getElem _ _ (by rw [List.length_map]; omega), List.getElem_map]
    exact hb

/-! ### Criteria -/

theorem mem_criteria {cols labels : List PyStr} (hnd : cols.Nodup) {p : PyStr × PyStr} :
    p ∈ criteria cols labels ↔ p ∈ cols.zip labels ∧ p.2 ≠ [] := by
  unfold criteria
  have hitems : ∀ q, q ∈ (cols.zip labels).filter (fun p => !p.2.isEmpty) ↔ q ∈ cols.zip labels ∧ q.2 ≠ [] := by
    intro q
    rw [List.mem_filter]
    simp
  have huniq : ∀ q ∈ cols.zip labels, ∀ q' ∈ cols.zip labels, q.1 = q'.1 → q = q' := by
    intro q hq q' hq' he
    obtain ⟨i, hi, rfl⟩ := List.mem_iff_getElem.1 hq
    obtain ⟨j, hj, rfl⟩ := List.mem_iff_getElem.1 hq'
    rw [List.length_zip] at hi hj
    simp only [List.getElem_zip] at he ⊢
    have := (List.Nodup.getElem_inj_iff hnd).1 he
    subst this
    rfl
  dsimp only
  generalize (cols.zip labels).filter (fun p => !p.2.isEmpty) = items at hitems ⊢
  rw [← hitems, List.mem_map]
  have hfind : ∀ q ∈ items, items.reverse.find? (fun p => p.1 == q.1) = some q := by
    intro q hq
    rcases hf : items.reverse.find? (fun p => p.1 == q.1) with _ | q'
    · have := List.find?_eq_none.1 hf q (List.mem_reverse.2 hq)
      simp at this
    · have h1 := List.mem_reverse.1 (List.mem_of_find?_eq_some hf)
      have h2 := List.find?_some hf
      rw [beq_iff_eq] at h2
      exact hf.trans (congrArg some (huniq q' ((hitems q').1 h1).1 q ((hitems q).1 hq).1 h2))
  constructor
  · rintro ⟨k, hk, rfl⟩
    rw [mem_distinct, List.mem_map] at hk
    obtain ⟨q, hq, rfl⟩ := hk
    rw [hfind q hq]
    exact hq
  · intro hp
    refine ⟨p.1, mem_distinct.2 (List.mem_map_of_mem hp), ?_⟩
    rw [hfind p hp]
    rfl

theorem criterionHolds_iff {cols labels : List PyStr} (hc : (cols.map asciiLower).Nodup)
    (hl : labels.length = cols.length) {p : PyStr × PyStr} (hp : p.1 ∈ cols) :
    criterionHolds cols labels p = true ↔ p ∈ cols.zip labels := by
  obtain ⟨i, hi, he⟩ := List.mem_iff_getElem.1 hp
  have hm : (cols[i], labels[i]) ∈ cols.zip labels := by
    have : (cols.zip labels)[i]'(by rw [List.length_zip]; omega) = (cols[i], labels[i]) := List.getElem_zip
    rw [← this]
    exact List.getElem_mem _
  obtain ⟨k, v⟩ := p
  dsimp only at he
  subst he
  unfold criterionHolds
  rw [find_zip hc hm]
  dsimp only
  rw [beq_iff_eq]
  constructor
  · rintro rfl
    exact hm
  · intro h
    have hnd : cols.Nodup := List.Nodup.of_map _ hc
    obtain ⟨j, hj, he⟩ := List.mem_iff_getElem.1 h
    rw [List.length_zip] at hj
    rw [List.getElem_zip, Prod.mk.injEq] at he
    have := (List.Nodup.getElem_inj_iff hnd).1 he.1
    subst this
    exact he.2

theorem taskOf_found {s : Store} (hr : Reachable s) {cols : List PyStr} (hp : Plain s cols) {level : List Byte}
    {r : Nat × Side} : (taskOf s cols level r).found.Nodup ∧
      ∀ i, i ∈ (taskOf s cols level r).found ↔ Fits s (cols.zip r.2.labels) i := by
  have hi := hr.indexInv
  have hc := hr.colInv
  refine ⟨nodup_filter_map _ hi.idsNodup, fun i => ?_⟩
  unfold taskOf Store.filterByLabel Fits
  simp only [List.mem_map, List.mem_filter, Bool.true_or, Bool.and_true]
  have key : ∀ x ∈ s.index, matchesCriteria s.cols (criteria cols r.2.labels) x.labels = true ↔
      ∀ p ∈ cols.zip r.2.labels, p.2 ≠ [] → p ∈ s.cols.zip x.labels := by
    intro x hx
    unfold matchesCriteria
    rw [List.all_eq_true]
    constructor
    · intro h p hp' hne
      exact (criterionHolds_iff hc.cols (hi.lens x hx) (hp.2 _ (List.of_mem_zip hp').1)).1
        (h p ((mem_criteria hp.1).2 ⟨hp', hne⟩))
    · intro h p hp'
      obtain ⟨h1, h2⟩ := (mem_criteria hp.1).1 hp'
      exact (criterionHolds_iff hc.cols (hi.lens x hx) (hp.2 _ (List.of_mem_zip h1).1)).2 (h p h1 h2)
  constructor
  · rintro ⟨x, ⟨hx, hm⟩, rfl⟩
    exact ⟨x, hx, rfl, (key x hx).1 hm⟩
  · rintro ⟨x, hx, rfl, hm⟩
    exact ⟨x, ⟨hx, (key x hx).2 hm⟩, rfl⟩

theorem FitCount.eq {s : Store} (hr : Reachable s) {cols : List PyStr} (hp : Plain s cols) {level : List Byte}
    {r : Nat × Side} {n : Nat} (h : FitCount s (cols.zip r.2.labels) n) : (taskOf s cols level r).found.length = n := by
  obtain ⟨l, hnd, hm, rfl⟩ := h
  obtain ⟨h1, h2⟩ := taskOf_found hr hp (level := level) (r := r)
  exact List.Perm.length_eq ((List.perm_ext_iff_of_nodup h1 hnd).2 fun i => by rw [h2, hm])

/-! ### The rows in order -/

/-- The rows to be matched for one row of the data: none if its level is not known. -/
def rowTask (s : Store) (cols : List PyStr) (r : Nat × Side) : List Task :=
  if (levelGran s (nodeLevel s cols r.2.level)).isSome then [taskOf s cols (nodeLevel s cols r.2.level) r] else []

theorem orderedPairs_ok {s : Store} {cols : List PyStr} {inputs : List (List Byte)}
    {ps : List (List Byte × Option (List Byte))} (h : orderedPairs s cols inputs = .ok ps) :
    ps = sortedBy (fun a b => granGe (pairKey s a) (pairKey s b)) (levelPairs s cols inputs) := by
  unfold orderedPairs at h
  dsimp only at h
  split at h
  · cases h
  · cases h; rfl

theorem tasksOf_perm {s : Store} {cols : List PyStr} {rows : List (Nat × Side)}
    {ps : List (List Byte × Option (List Byte))}
    (h : orderedPairs s cols (distinct (rows.map fun r => r.2.level)) = .ok ps) :
    (tasksOf s cols ps rows).Perm (rows.flatMap (rowTask s cols)) := by
  have hps := orderedPairs_ok h
  have h1 : ps.Perm (levelPairs s cols (distinct (rows.map fun r => r.2.level))) := by
    rw [hps]; exact sortedBy_perm _ _
  have h2 := flatMap_filter_perm (l := rows) (key := fun r : Nat × Side => r.2.level)
    (nodup_distinct (rows.map fun r => r.2.level))
  have h3 : (rows.filter fun x => decide (x.2.level ∈ distinct (rows.map fun r => r.2.level))) = rows := by
    apply List.filter_eq_self.2
    intro x hx
    rw [decide_eq_true_eq]
    exact mem_distinct.2 (List.mem_map.2 ⟨x, hx, rfl⟩)
  have h2 := h2.trans (List.Perm.of_eq (Eq.trans (List.filter_congr fun x _ => decide_eq_decide.2 Iff.rfl) h3))
  have h4 := h2.flatMap_right (rowTask s cols)
  refine (h1.flatMap_right _).trans ((List.Perm.of_eq ?_).trans h4)
  unfold levelPairs
  rw [List.flatMap_map, List.flatMap_assoc]
  congr 1
  funext a
  have h5 : (rows.filter fun r => r.2.level == a) = rows.filter fun x => decide (x.2.level = a) := by
    apply List.filter_congr
    intro x _
    by_cases hx : x.2.level = a <;> simp [hx]
  have h6 : ∀ r ∈ rows.filter (fun x => decide (x.2.level = a)), r.2.level = a := fun r hr => by
    simpa using (List.mem_filter.1 hr).2
  dsimp only
  rw [h5]
  by_cases hk : (levelGran s (nodeLevel s cols a)).isSome = true
  · rw [if_pos hk]
    dsimp only
    rw [List.map_eq_flatMap]
    apply List.flatMap_congr
    intro r hr
    unfold rowTask
    rw [h6 r hr, if_pos hk]
  · rw [if_neg hk]
    dsimp only
    symm
    rw [List.flatMap_eq_nil_iff]
    intro r hr
    unfold rowTask
    rw [h6 r hr, if_neg hk]

theorem rowTask_run {s : Store} {cols : List PyStr} {r : Nat × Side} {t : Task} (h : t ∈ rowTask s cols r) :
    LevelKnown s (nodeLevel s cols r.2.level) ∧ t = taskOf s cols (nodeLevel s cols r.2.level) r := by
  unfold rowTask at h
  split at h
  · rename_i hk
    exact ⟨levelGran_isSome.1 hk, List.mem_singleton.1 h⟩
  · cases h

theorem rowTasks_nodup {s : Store} {cols : List PyStr} {rows : List (Nat × Side)} (h : (rows.map (·.1)).Nodup) :
    ((rows.flatMap (rowTask s cols)).map (·.run)).Nodup := by
  refine h.sublist ?_
  induction rows with
  | nil => simp
  | cons r rows ih =>
    rw [List.map_cons, List.nodup_cons] at h
    rw [List.flatMap_cons, List.map_append, List.map_cons]
    unfold rowTask
    split
    · exact (ih h.2).cons_cons _
    · exact (ih h.2).cons _

section

variable {limit : Nat} {allow : Bool} {s : Store} {cols : List PyStr} {rows : List (Nat × Side)} {ms : List Match}

/-- What a call of `match_records` has done. -/
theorem matchOld_ok (h : matchOld s limit allow cols rows = .ok ms) : ∃ g ps, s.getDefaultWG = .ok g ∧
    orderedPairs s cols (distinct (rows.map fun r => r.2.level)) = .ok ps ∧
    ms = refreshProportions (doTasks limit allow (s.weightOf g.id) [] (tasksOf s cols ps rows)) := by
  unfold matchOld at h
  rcases hg : s.getDefaultWG with e | g
  · rw [hg] at h; cases h
  rcases hps : orderedPairs s cols (distinct (rows.map fun r => r.2.level)) with e | ps
  · rw [hg, hps] at h; cases h
  · rw [hg, hps] at h; cases h; exact ⟨g, ps, rfl, hps, rfl⟩

theorem mem_tasksOf {ps : List (List Byte × Option (List Byte))}
    (h : orderedPairs s cols (distinct (rows.map fun r => r.2.level)) = .ok ps) {t : Task} :
    t ∈ tasksOf s cols ps rows ↔ ∃ r ∈ rows, LevelKnown s (nodeLevel s cols r.2.level) ∧
      t = taskOf s cols (nodeLevel s cols r.2.level) r := by
  rw [(tasksOf_perm h).mem_iff, List.mem_flatMap]
  constructor
  · rintro ⟨r, hr, ht⟩
    exact ⟨r, hr, rowTask_run ht⟩
  · rintro ⟨r, hr, hk, rfl⟩
    refine ⟨r, hr, ?_⟩
    unfold rowTask
    rw [if_pos (levelGran_isSome.2 hk)]
    exact List.mem_singleton_self _

theorem matchesOld_run {ps : List (List Byte × Option (List Byte))} (hruns : (rows.map (·.1)).Nodup)
    (h : orderedPairs s cols (distinct (rows.map fun r => r.2.level)) = .ok ps) {r : Nat × Side} (hm : r ∈ rows)
    (hk : LevelKnown s (nodeLevel s cols r.2.level)) (weight : Nat → Option ℚ) :
    ∃ pre post, tasksOf s cols ps rows = pre ++ taskOf s cols (nodeLevel s cols r.2.level) r :: post ∧
      ofRun (doTasks limit allow weight [] (tasksOf s cols ps rows)) r.1 =
        newMatches weight (taskOf s cols (nodeLevel s cols r.2.level) r)
          (takeFound limit allow (doTasks limit allow weight [] pre)
            (taskOf s cols (nodeLevel s cols r.2.level) r)) := by
  obtain ⟨pre, post, he⟩ := List.append_of_mem ((mem_tasksOf h).2 ⟨r, hm, hk, rfl⟩)
  refine ⟨pre, post, he, ?_⟩
  have := doTasks_run (limit := limit) (allow := allow) (weight := weight)
    (pre := pre) (post := post) (t := taskOf s cols (nodeLevel s cols r.2.level) r)
    (by rw [← he, ((tasksOf_perm h).map _).nodup_iff]; exact rowTasks_nodup hruns)
  rw [← he] at this
  exact this

theorem ofRunOld_empty {ps : List (List Byte × Option (List Byte))}
    (h : orderedPairs s cols (distinct (rows.map fun r => r.2.level)) = .ok ps) {run : Nat}
    {weight : Nat → Option ℚ} (hno : ∀ r ∈ rows, LevelKnown s (nodeLevel s cols r.2.level) → r.1 ≠ run) :
    ofRun (doTasks limit allow weight [] (tasksOf s cols ps rows)) run = [] := by
  unfold ofRun
  rw [List.filter_eq_nil_iff]
  intro m hm
  obtain ⟨t, ht, _, he⟩ := doTasks_mem hm
  obtain ⟨r, hr', hl, rfl⟩ := (mem_tasksOf h).1 ht
  rw [he]
  simp only [decide_eq_true_eq]
  exact hno r hr' hl

end

theorem pairKey_pos {s : Store} (hr : Reachable s) (p : List Byte × Option (List Byte)) : PosGran (pairKey s p) := by
  intro g hg
  unfold pairKey levelGran at hg
  rcases hp : p.2 with _ | L
  · rw [hp] at hg; cases hg
  · rw [hp, Option.bind_some] at hg
    split at hg
    · cases hg
    · rcases hf : s.structs.find? fun st => (BitFlags.ofBits st.bits).bytes == L with _ | st
      · rw [hf] at hg; cases hg
      · rw [hf] at hg
        exact structs_pos hr st (List.mem_of_find?_eq_some hf) g hg

theorem orderedPairs_pairwise {s : Store} (hr : Reachable s) {cols : List PyStr} {inputs : List (List Byte)}
    {ps : List (List Byte × Option (List Byte))} (h : orderedPairs s cols inputs = .ok ps) :
    ps.Pairwise fun a b => granGe (pairKey s a) (pairKey s b) = true := by
  rw [orderedPairs_ok h]
  have he : sortedBy (fun a b => granGe (pairKey s a) (pairKey s b)) (levelPairs s cols inputs) =
      sortedBy (fun a b => decide (granKey (pairKey s b) ≤ granKey (pairKey s a))) (levelPairs s cols inputs) := by
    apply sortedBy_congr_on
    intro x _ y _
    rw [Bool.eq_iff_iff, decide_eq_true_iff]
    exact granGe_iff (pairKey_pos hr x) (pairKey_pos hr y)
  rw [he]
  have hp := sortedBy_pairwise (fun a b => decide (granKey (pairKey s b) ≤ granKey (pairKey s a)))
    (by simp only [decide_eq_true_iff]; intro a b c h1 h2; exact le_trans h2 h1)
    (by simp only [decide_eq_true_iff]; intro a b; exact le_total _ _) (levelPairs s cols inputs)
  refine hp.imp ?_
  intro a b h
  rw [decide_eq_true_iff] at h
  exact (granGe_iff (pairKey_pos hr a) (pairKey_pos hr b)).2 h

/-! ### Reading the table -/

open Toron.QuantCsv (domainName)
open Toron.MappingCsv (Table Numbers valuePosition)

theorem eraseAt_append (ps : List Nat) (n : Nat) (a b : List PyStr) :
    eraseAt ps n (a ++ b) = eraseAt ps n a ++ eraseAt ps (n + a.length) b := by
  induction a generalizing n with
  | nil => rfl
  | cons x a ih =>
    rw [List.cons_append, eraseAt, eraseAt, ih, List.length_cons, show n + 1 + a.length = n + (a.length + 1) by omega]
    split <;> rfl

theorem eraseAt_none {ps : List Nat} {n : Nat} {a : List PyStr} (h : ∀ k < a.length, n + k ∉ ps) :
    eraseAt ps n a = a := by
  induction a generalizing n with
  | nil => rfl
  | cons x a ih =>
    rw [eraseAt, if_neg (by simpa using h 0 (by simp)), ih]
    intro k hk
    have := h (k + 1) (by simp only [List.length_cons]; omega)
    rwa [show n + (k + 1) = n + 1 + k by omega] at this

/-- The cells of a part without that of the domain. -/
def partErase (domain : PyStr) (part x : List PyStr) : List PyStr :=
  if domain = [] then x
  else match part.findIdx? (fun c => c == domainName) with
    | some p => x.eraseIdx p
    | none => x

theorem eraseAt_one {ps : List Nat} {n p : Nat} {a : List PyStr} (hp : p < a.length)
    (h : ∀ k < a.length, n + k ∈ ps ↔ k = p) : eraseAt ps n a = a.eraseIdx p := by
  induction a generalizing n p with
  | nil => simp at hp
  | cons x a ih =>
    rw [eraseAt]
    cases p with
    | zero =>
      rw [if_pos (by simpa using (h 0 (by simp))), List.eraseIdx_cons_zero, eraseAt_none]
      intro k hk hc
      have := (h (k + 1) (by simp only [List.length_cons]; omega)).1 (by rwa [show n + (k + 1) = n + 1 + k by omega])
      omega
    | succ p =>
      rw [if_neg (by simpa using (h 0 (by simp))), List.eraseIdx_cons_succ, ih (by simpa using hp)]
      intro k hk
      rw [show n + 1 + k = n + (k + 1) by omega, h (k + 1) (by simp only [List.length_cons]; omega)]
      omega

theorem eraseAt_part {ps : List Nat} {n : Nat} {domain : PyStr} {part x : List PyStr} (hlen : x.length = part.length)
    (h : ∀ k < x.length, n + k ∈ ps ↔ n + k ∈ (domainPosition part n domain).map (·.1)) :
    eraseAt ps n x = partErase domain part x := by
  unfold domainPosition at h
  unfold partErase
  by_cases hd : domain = []
  · rw [if_pos hd] at h ⊢
    exact eraseAt_none fun k hk hc => by simpa using (h k hk).1 hc
  · rw [if_neg hd] at h ⊢
    rcases hf : part.findIdx? (fun c => c == domainName) with _ | p
    · rw [hf] at h
      exact eraseAt_none fun k hk hc => by simpa using (h k hk).1 hc
    · rw [hf] at h
      have hp := (List.findIdx?_eq_some_iff_getElem.1 hf).1
      dsimp only at h ⊢
      refine eraseAt_one (by omega) fun k hk => ?_
      rw [h k hk]
      simp

theorem eraseIdx_zip {part x : List PyStr} (hlen : x.length = part.length) {p : Nat}
    (hf : part.findIdx? (fun c => c == domainName) = some p) :
    part.eraseIdx p = part.eraseP (fun c => c == domainName) ∧
    x.eraseIdx p = ((part.zip x).eraseP fun q => q.1 == domainName).map (·.2) ∧
    (part.eraseIdx p).zip (x.eraseIdx p) = (part.zip x).eraseP fun q => q.1 == domainName := by
  induction part generalizing x p with
  | nil => simp at hf
  | cons c part ih =>
    match x, hlen with
    | y :: x, hlen =>
      have hlen : x.length = part.length := by simpa using hlen
      rw [List.findIdx?_cons] at hf
      rw [List.zip_cons_cons]
      by_cases hc : (c == domainName) = true
      · rw [if_pos hc] at hf
        cases hf
        rw [List.eraseP_cons_of_pos (p := fun c => c == domainName) hc,
          List.eraseP_cons_of_pos (p := fun q : PyStr × PyStr => q.1 == domainName) hc]
        refine ⟨rfl, ?_, rfl⟩
        rw [List.map_snd_zip (by omega)]
        rfl
      · rw [if_neg hc, Option.map_eq_some_iff] at hf
        obtain ⟨p, hf, rfl⟩ := hf
        obtain ⟨h1, h2, h3⟩ := ih hlen hf
        rw [List.eraseP_cons_of_neg (p := fun c => c == domainName) hc,
          List.eraseP_cons_of_neg (p := fun q : PyStr × PyStr => q.1 == domainName) hc]
        rw [List.eraseIdx_cons_succ, List.eraseIdx_cons_succ, List.zip_cons_cons, List.map_cons, ← h1, ← h2, h3]
        exact ⟨rfl, rfl, rfl⟩

theorem partErase_eq {domain : PyStr} {part x : List PyStr} (hlen : x.length = part.length) :
    partErase domain part part = columnsOf domain part ∧
    partErase domain part x = (saysOf domain part x).map (·.2) ∧
    (columnsOf domain part).zip (partErase domain part x) = saysOf domain part x := by
  unfold partErase columnsOf saysOf
  by_cases hd : domain = []
  · simp only [if_pos hd]
    exact ⟨trivial, (List.map_snd_zip (by omega)).symm, trivial⟩
  · simp only [if_neg hd]
    rcases hf : part.findIdx? (fun c => c == domainName) with _ | p
    · dsimp only
      have hno : ∀ c ∈ part, ¬ (c == domainName) = true := fun c hc => by
        simpa using List.findIdx?_eq_none_iff.1 hf c hc
      rw [List.eraseP_of_forall_not hno, List.eraseP_of_forall_not]
      · exact ⟨rfl, (List.map_snd_zip (by omega)).symm, rfl⟩
      · intro q hq
        exact hno _ (List.of_mem_zip hq).1
    · obtain ⟨h1, h2, h3⟩ := eraseIdx_zip hlen hf
      dsimp only
      rw [← h1]
      exact ⟨rfl, h2, h3⟩

theorem domainPosition_range {part : List PyStr} {start : Nat} {domain : PyStr} {q : Nat × PyStr}
    (h : q ∈ domainPosition part start domain) : start ≤ q.1 ∧ q.1 < start + part.length := by
  unfold domainPosition at h
  split at h
  · cases h
  · split at h
    · rename_i p hp
      rw [List.mem_singleton] at h
      have := (List.findIdx?_eq_some_iff_getElem.1 hp).1
      subst h
      exact ⟨by dsimp only; omega, by dsimp only; omega⟩
    · cases h

theorem split_at {α : Type} {l : List α} {v : Nat} (h : v < l.length) : l = l.take v ++ l[v] :: l.drop (v + 1) := by
  rw [← List.drop_eq_getElem_cons h, List.take_append_drop]

/-- A row, or the header, without the domains. -/
theorem eraseAt_row {header row : List PyStr} {v : Nat} (d1 d2 : PyStr) (hv : v < header.length)
    (hlen : row.length = header.length) :
    eraseAt ((domainPositions header v d1 d2).map (·.1)) 0 row =
      partErase d1 (header.take v) (row.take v) ++ row[v] ::
        partErase d2 (header.drop (v + 1)) (row.drop (v + 1)) := by
  have hmem : ∀ k, k ∈ (domainPositions header v d1 d2).map (·.1) ↔
      k ∈ (domainPosition (header.take v) 0 d1).map (·.1) ∨
      k ∈ (domainPosition (header.drop (v + 1)) (v + 1) d2).map (·.1) := by
    intro k
    unfold domainPositions
    rw [List.map_append, List.mem_append]
  have hr1 : ∀ k, k ∈ (domainPosition (header.take v) 0 d1).map (·.1) → k < v := by
    intro k hk
    obtain ⟨q, hq, rfl⟩ := List.mem_map.1 hk
    have := (domainPosition_range hq).2
    rw [List.length_take] at this
    omega
  have hr2 : ∀ k, k ∈ (domainPosition (header.drop (v + 1)) (v + 1) d2).map (·.1) → v < k := by
    intro k hk
    obtain ⟨q, hq, rfl⟩ := List.mem_map.1 hk
    have := (domainPosition_range hq).1
    omega
  conv_lhs => rw [split_at (l := row) (v := v) (by omega)]
  rw [eraseAt_append, List.length_take, Nat.min_eq_left (by omega), Nat.zero_add, eraseAt, if_neg]
  · congr 1
    · apply eraseAt_part (by rw [List.length_take, List.length_take]; omega)
      intro k hk
      rw [List.length_take] at hk
      rw [hmem]
      constructor
      · rintro (h | h)
        · exact h
        · have := hr2 _ h; omega
      · exact Or.inl
    · congr 1
      apply eraseAt_part (by rw [List.length_drop, List.length_drop]; omega)
      intro k hk
      rw [hmem]
      constructor
      · rintro (h | h)
        · have := hr1 _ h; omega
        · exact h
      · exact Or.inr
  · rw [hmem]
    rintro (h | h)
    · have := hr1 _ h; omega
    · have := hr2 _ h; omega

theorem partErase_length {domain : PyStr} {part x y : List PyStr} (h : x.length = y.length) :
    (partErase domain part x).length = (partErase domain part y).length := by
  unfold partErase
  split
  · exact h
  · split
    · rw [List.length_eraseIdx, List.length_eraseIdx, h]
    · exact h

theorem checkDomains_ok {doms : List (Nat × PyStr)} {row : List PyStr} :
    checkDomains doms row = .ok () ↔ ∀ q ∈ doms, row[q.1]? = some q.2 := by
  induction doms with
  | nil => simp [checkDomains]
  | cons q doms ih =>
    obtain ⟨i, d⟩ := q
    rw [checkDomains, List.forall_mem_cons]
    rcases hr : row[i]? with _ | c
    · simp
    · dsimp only
      by_cases hc : c = d
      · rw [if_pos hc, ih, hc]
        simp
      · rw [if_neg hc]
        simp [hc]

theorem domainPosition_ok {header row : List PyStr} {start : Nat} {part : List PyStr} {domain : PyStr}
    (hpart : ∀ k, part[k]? = header[start + k]?) (hlen : row.length = header.length) {x : List PyStr}
    (hx : ∀ k, k < part.length → x[k]? = row[start + k]?) (hxl : x.length = part.length) :
    (∀ q ∈ domainPosition part start domain, row[q.1]? = some q.2) ↔ DomainOk domain part x := by
  unfold domainPosition DomainOk
  by_cases hd : domain = []
  · simp [hd]
  · rw [if_neg hd]
    have hfind : ∀ {part x : List PyStr}, x.length = part.length →
        (part.zip x).find? (fun p => p.1 == domainName) =
          (part.findIdx? (fun c => c == domainName)).bind fun p => (x[p]?).map fun c => (domainName, c) := by
      intro part
      induction part with
      | nil => intro x _; simp
      | cons c part ih =>
        intro x hl
        match x, hl with
        | y :: x, hl =>
          rw [List.zip_cons_cons, List.find?_cons, List.findIdx?_cons]
          by_cases hc : (c == domainName) = true
          · simp only [hc, if_true]
            rw [beq_iff_eq] at hc
            simp [hc]
          · simp only [Bool.not_eq_true] at hc
            simp only [hc, Bool.false_eq_true, if_false]
            rw [ih (by simpa using hl)]
            rcases part.findIdx? (fun c => c == domainName) with _ | p <;> simp
    rw [hfind hxl]
    rcases hf : part.findIdx? (fun c => c == domainName) with _ | p
    · simp [hd]
    · have hp := (List.findIdx?_eq_some_iff_getElem.1 hf).1
      simp only [List.mem_singleton, forall_eq, ne_eq, hd, not_false_eq_true, forall_true_left, Option.bind_some,
        Option.map_eq_some_iff]
      rw [← hx p hp]
      constructor
      · rintro h q ⟨c, hc, rfl⟩
        rw [h] at hc
        exact (Option.some.inj hc).symm
      · intro h
        rw [List.getElem?_eq_getElem (by omega)]
        exact congrArg some (h (domainName, x[p]'(by omega)) ⟨_, List.getElem?_eq_getElem (by omega), rfl⟩)

theorem checkDomains_row {header row : List PyStr} {v : Nat} {d1 d2 : PyStr} (hv : v < header.length)
    (hlen : row.length = header.length) :
    checkDomains (domainPositions header v d1 d2) row = .ok () ↔
      DomainOk d1 (header.take v) (row.take v) ∧ DomainOk d2 (header.drop (v + 1)) (row.drop (v + 1)) := by
  rw [checkDomains_ok]
  unfold domainPositions
  rw [List.forall_mem_append]
  refine and_congr ?_ ?_
  · have key : ∀ {l : List PyStr} {k : Nat}, k < v → (l.take v)[k]? = l[0 + k]? := by
      intro l k hk
      rw [List.getElem?_take, if_pos hk, Nat.zero_add]
    unfold domainPosition
    refine Iff.trans ?_ (domainPosition_ok (header := header.take v) (row := row.take v) (start := 0)
      (fun k => by rw [Nat.zero_add]) (by rw [List.length_take, List.length_take]; omega)
      (fun k _ => by rw [Nat.zero_add]) (by rw [List.length_take, List.length_take]; omega))
    refine forall₂_congr fun q hq => ?_
    have := (domainPosition_range hq).2
    rw [List.length_take] at this
    rw [List.getElem?_take, if_pos (by omega)]
  · exact domainPosition_ok (header := header) (row := row) (start := v + 1)
      (fun k => by rw [List.getElem?_drop]) hlen
      (fun k _ => by rw [List.getElem?_drop]) (by rw [List.length_drop, List.length_drop]; omega)

end Toron.LoadMapping
