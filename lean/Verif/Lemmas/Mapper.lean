/-
Lemmas on matching rows of mapping data with index records.
-/
import Verif.Spec.Mapper
import Verif.Lemmas.Reader
import Verif.Lemmas.Store.Unmatched
import Verif.Lemmas.Store.Policies2
import Verif.Props.StorePartitions
import Verif.Props.Granularity

namespace Toron.Mapper

open Toron.Selectors (PyStr)
open Toron.Space

/-! ### The loop over rows -/

variable {limit : Nat} {allow : Bool} {weight : Nat → Option ℚ}

theorem doTasks_append (done : List Match) (a b : List Task) :
    doTasks limit allow weight done (a ++ b) = doTasks limit allow weight (doTasks limit allow weight done a) b := by
  induction a generalizing done with
  | nil => rfl
  | cons t ts ih => rw [List.cons_append, doTasks, doTasks, ih]

theorem takeFound_sublist (done : List Match) (t : Task) : (takeFound limit allow done t).Sublist t.found := by
  unfold takeFound
  split
  · exact List.Sublist.refl _
  split
  · exact List.nil_sublist _
  split
  · exact List.filter_sublist
  · exact List.Sublist.refl _

theorem mem_newMatches {t : Task} {ids : List Nat} {m : Match} (h : m ∈ newMatches weight t ids) :
    m.index ∈ ids ∧ m = ⟨t.run, m.index, t.level, weight m.index, none⟩ := by
  unfold newMatches at h
  split at h
  · cases h
  obtain ⟨i, hi, rfl⟩ := List.mem_map.1 h
  exact ⟨hi, rfl⟩

theorem doTasks_ext (done : List Match) (ts : List Task) : ∃ ext, doTasks limit allow weight done ts = done ++ ext ∧
    ∀ m ∈ ext, ∃ t ∈ ts, m.index ∈ t.found ∧ m = ⟨t.run, m.index, t.level, weight m.index, none⟩ := by
  induction ts generalizing done with
  | nil => exact ⟨[], by simp [doTasks], by simp⟩
  | cons t ts ih =>
    obtain ⟨ext, he, hm⟩ := ih (done ++ newMatches weight t (takeFound limit allow done t))
    refine ⟨newMatches weight t (takeFound limit allow done t) ++ ext, by rw [doTasks, he, List.append_assoc], ?_⟩
    intro m hmm
    rcases List.mem_append.1 hmm with h | h
    · obtain ⟨h1, h2⟩ := mem_newMatches h
      exact ⟨t, by simp, (takeFound_sublist done t).subset h1, h2⟩
    · obtain ⟨t', ht', h'⟩ := hm m h
      exact ⟨t', by simp [ht'], h'⟩

theorem doTasks_mem {ts : List Task} {m : Match} (h : m ∈ doTasks limit allow weight [] ts) :
    ∃ t ∈ ts, m.index ∈ t.found ∧ m = ⟨t.run, m.index, t.level, weight m.index, none⟩ := by
  obtain ⟨ext, he, hm⟩ := doTasks_ext (limit := limit) (allow := allow) (weight := weight) [] ts
  rw [he, List.nil_append] at h
  exact hm m h

/-- The matches of one row are those found when its turn came. -/
theorem doTasks_run {pre post : List Task} {t : Task} (hnd : ((pre ++ t :: post).map (·.run)).Nodup) :
    ofRun (doTasks limit allow weight [] (pre ++ t :: post)) t.run =
      newMatches weight t (takeFound limit allow (doTasks limit allow weight [] pre) t) := by
  rw [List.map_append, List.map_cons, List.nodup_append] at hnd
  obtain ⟨_, h2, h3⟩ := hnd
  rw [List.nodup_cons] at h2
  rw [doTasks_append, doTasks]
  obtain ⟨ext, he, hm⟩ := doTasks_ext (limit := limit) (allow := allow) (weight := weight)
    (doTasks limit allow weight [] pre ++
      newMatches weight t (takeFound limit allow (doTasks limit allow weight [] pre) t)) post
  unfold ofRun
  rw [he, List.filter_append, List.filter_append]
  have e1 : (doTasks limit allow weight [] pre).filter (fun m => decide (m.run = t.run)) = [] := by
    rw [List.filter_eq_nil_iff]
    intro m hmm
    obtain ⟨t', ht', _, hm'⟩ := doTasks_mem hmm
    have : m.run = t'.run := by rw [hm']
    simp only [decide_eq_true_eq]
    intro hc
    exact h3 t'.run (List.mem_map_of_mem ht') t.run (by simp) (by rw [← this, hc])
  have e2 : ext.filter (fun m => decide (m.run = t.run)) = [] := by
    rw [List.filter_eq_nil_iff]
    intro m hmm
    obtain ⟨t', ht', _, hm'⟩ := hm m hmm
    have : m.run = t'.run := by rw [hm']
    simp only [decide_eq_true_eq]
    intro hc
    exact h2.1 (hc ▸ this ▸ List.mem_map_of_mem ht')
  have e3 : (newMatches weight t (takeFound limit allow (doTasks limit allow weight [] pre) t)).filter
      (fun m => decide (m.run = t.run)) =
      newMatches weight t (takeFound limit allow (doTasks limit allow weight [] pre) t) := by
    rw [List.filter_eq_self]
    intro m hmm
    rw [(mem_newMatches hmm).2]
    simp
  rw [e1, e2, e3, List.append_nil, List.nil_append]

theorem doTasks_nodup {done : List Match} {ts : List Task} (hd : (done.map fun m => (m.run, m.index)).Nodup)
    (hdis : ∀ m ∈ done, ∀ t ∈ ts, m.run ≠ t.run) (hruns : (ts.map (·.run)).Nodup) (hf : ∀ t ∈ ts, t.found.Nodup) :
    ((doTasks limit allow weight done ts).map fun m => (m.run, m.index)).Nodup := by
  induction ts generalizing done with
  | nil => exact hd
  | cons t ts ih =>
    rw [List.map_cons, List.nodup_cons] at hruns
    rw [doTasks]
    have hnew : ∀ m ∈ newMatches weight t (takeFound limit allow done t), m.run = t.run := fun m hm => by
      rw [(mem_newMatches hm).2]
    refine ih ?_ ?_ hruns.2 fun t' ht' => hf t' (by simp [ht'])
    · rw [List.map_append, List.nodup_append]
      refine ⟨hd, ?_, ?_⟩
      · unfold newMatches
        split
        · exact List.nodup_nil
        · rw [List.map_map]
          refine List.Nodup.map ?_ ((hf t (by simp)).sublist (takeFound_sublist done t))
          intro i j hij
          exact (Prod.mk.inj hij).2
      · intro x hx y hy hxy
        obtain ⟨m, hm, rfl⟩ := List.mem_map.1 hx
        obtain ⟨m', hm', rfl⟩ := List.mem_map.1 hy
        exact hdis m hm t (by simp) ((Prod.mk.inj hxy).1.trans (hnew m' hm'))
    · intro m hm t' ht'
      rcases List.mem_append.1 hm with hm | hm
      · exact hdis m hm t' (by simp [ht'])
      · rw [hnew m hm]
        exact fun h => hruns.1 (h ▸ List.mem_map_of_mem ht')

/-! ### Proportions -/

/-- The proportion of a match among the matches of its row. -/
def setProp (run : List Match) (m : Match) : Match :=
  { m with prop := some ((sqlDiv m.weight (sqlSum (run.map (·.weight)))).getD (1 / run.length)) }

theorem refresh_run (ms : List Match) (run : Nat) : ofRun (refreshProportions ms) run =
    (ofRun ms run).map (setProp (ofRun ms run)) := by
  unfold refreshProportions ofRun
  rw [List.filter_map]
  show List.map _ (List.filter (fun m : Match => decide (m.run = run)) ms) = _
  apply List.map_congr_left
  intro m hm
  have hr : m.run = run := by simpa using (List.mem_filter.1 hm).2
  have : (ms.filter fun x => x.run == m.run) = ms.filter fun m => decide (m.run = run) := by
    apply List.filter_congr
    intro x _
    rw [hr]
    by_cases h : x.run = run <;> simp [h]
  simp only [this]
  rfl

theorem fairShares {ms : List Match} (hne : ms ≠ [])
    (hw : (∀ m ∈ ms, ∃ w, m.weight = some w ∧ 0 ≤ w) ∨ ∀ m ∈ ms, m.weight = none) :
    FairShares (ms.map (setProp ms)) := by
  have hlen : (ms.length : ℚ) ≠ 0 := by
    rw [Nat.cast_ne_zero]
    exact fun h => hne (List.length_eq_zero_iff.1 h)
  have hlen1 : (1 : ℚ) ≤ ms.length := by
    rw [Nat.one_le_cast]
    exact Nat.one_le_iff_ne_zero.2 fun h => hne (List.length_eq_zero_iff.1 h)
  set t : ℚ := (ms.map fun m => m.weight.getD 0).sum with ht
  have hsum : (sqlSum (ms.map (·.weight))).getD 0 = t := by rw [sqlSum_getD, List.map_map]; rfl
  have eqsum : ∀ n : ℚ, n ≠ 0 → n = ms.length → (ms.map fun _ => 1 / n).sum = 1 := by
    intro n hn hn'
    rw [List.map_const', List.sum_replicate, nsmul_eq_mul, hn']
    exact mul_one_div_cancel hlen
  have zeroCase : (∀ m ∈ ms, sqlDiv m.weight (sqlSum (ms.map (·.weight))) = none) →
      (∀ m ∈ ms, ∀ w, m.weight = some w → w = 0) →
      FairShares (ms.map (setProp ms)) := by
    intro hz hz0
    have hp : ∀ m ∈ ms, (setProp ms m).prop = some (1 / (ms.length : ℚ)) := fun m hm => by
      unfold setProp; rw [hz m hm]; rfl
    constructor
    · rw [List.map_map]
      rw [← eqsum ms.length hlen rfl]
      apply congrArg
      apply List.map_congr_left
      intro m hm
      show (setProp ms m).prop.getD 0 = _
      rw [hp m hm]
      rfl
    · intro m hm
      obtain ⟨m', hm', rfl⟩ := List.mem_map.1 hm
      refine ⟨_, hp m' hm', by positivity, ?_⟩
      rw [div_le_one (by linarith)]
      exact hlen1
    · rintro ⟨m, hm, w, hw', hw0⟩
      obtain ⟨m', hm', rfl⟩ := List.mem_map.1 hm
      exact absurd (hz0 m' hm' w hw') hw0
    · intro _ m hm
      obtain ⟨m', hm', rfl⟩ := List.mem_map.1 hm
      rw [List.length_map]
      exact hp m' hm'
  rcases hw with hw | hw
  · have hnn : ∀ x ∈ ms.map fun m => m.weight.getD 0, 0 ≤ x := by
      intro x hx
      obtain ⟨m, hm, rfl⟩ := List.mem_map.1 hx
      obtain ⟨w, hw1, hw2⟩ := hw m hm
      rw [hw1]; exact hw2
    have hs : sqlSum (ms.map (·.weight)) = some t := by
      rcases hq : sqlSum (ms.map (·.weight)) with _ | q
      · exfalso
        obtain ⟨m, hm⟩ := List.exists_mem_of_ne_nil _ hne
        obtain ⟨w, hw1, _⟩ := hw m hm
        have := sqlSum_none.1 hq m.weight (List.mem_map_of_mem hm)
        rw [hw1] at this; cases this
      · rw [hq] at hsum; rw [hq]; exact congrArg some hsum
    by_cases h0 : t = 0
    · apply zeroCase
      · intro m hm
        obtain ⟨w, hw1, _⟩ := hw m hm
        rw [hs, hw1, h0]
        rfl
      · intro m hm w hw1
        have h1 := hnn (m.weight.getD 0) (List.mem_map_of_mem hm)
        have h2 := List.single_le_sum hnn _ (List.mem_map_of_mem (f := fun m : Match => m.weight.getD 0) hm)
        rw [← ht, h0] at h2
        rw [hw1] at h1 h2; exact le_antisymm h2 h1
    · have htpos : 0 < t := lt_of_le_of_ne (List.sum_nonneg hnn) (Ne.symm h0)
      have hp : ∀ m ∈ ms, (setProp ms m).prop = some (m.weight.getD 0 / t) := by
        intro m hm
        obtain ⟨w, hw1, _⟩ := hw m hm
        unfold setProp
        rw [hs, hw1]
        simp only [sqlDiv, if_neg h0]
        rfl
      constructor
      · rw [List.map_map]
        have : (ms.map ((fun m : Match => m.prop.getD 0) ∘ setProp ms)) =
            ms.map fun m => m.weight.getD 0 / t := by
          apply List.map_congr_left
          intro m hm
          show (setProp ms m).prop.getD 0 = _
          rw [hp m hm]
          rfl
        rw [this]
        simp only [div_eq_mul_inv]
        rw [List.sum_map_mul_right, ← ht]
        exact mul_inv_cancel₀ h0
      · intro m hm
        obtain ⟨m', hm', rfl⟩ := List.mem_map.1 hm
        have h1 : 0 ≤ m'.weight.getD 0 := hnn _ (List.mem_map_of_mem hm')
        refine ⟨_, hp m' hm', div_nonneg h1 htpos.le, ?_⟩
        rw [div_le_one htpos]
        exact List.single_le_sum hnn _ (List.mem_map_of_mem hm')
      · intro _ m hm
        obtain ⟨m', hm', rfl⟩ := List.mem_map.1 hm
        obtain ⟨w, hw1, _⟩ := hw m' hm'
        refine ⟨w, hw1, ?_⟩
        rw [List.map_map]
        show (setProp ms m').prop = some (w / t)
        rw [hp m' hm', hw1]
        rfl
      · intro hz
        exfalso
        apply h0
        rw [ht]
        apply List.sum_eq_zero
        intro x hx
        obtain ⟨m, hm, rfl⟩ := List.mem_map.1 hx
        obtain ⟨w, hw1, _⟩ := hw m hm
        rw [hw1]
        exact hz _ (List.mem_map_of_mem hm) w hw1
  · apply zeroCase
    · intro m hm
      rw [hw m hm]
      rfl
    · intro m hm w hw'
      rw [hw m hm] at hw'; cases hw'

/-! ### The rows in order -/

theorem levels_nodup {s : Store} (hr : Reachable s) : (levels s).Nodup := by
  unfold levels Store.structsSorted
  have hp : (sortedBy (fun a b : StructRec => granGe a.gran b.gran) s.structs).Perm s.structs := sortedBy_perm _ _
  rw [(hp.map _).nodup_iff]
  have hlen := hr.structLens
  have hb := C53_once hr
  rw [List.nodup_map_iff_inj_on (List.Nodup.of_map _ hb)]
  intro x hx y hy he
  refine List.inj_on_of_nodup_map hb hx hy ?_
  exact (ofBits_bytes_eq_iff (by rw [hlen x hx, hlen y hy])).1 he

theorem findRecords_run (s : Store) (run : Nat) (x : Side) : (findRecords s run x).run = run := by
  unfold findRecords; split <;> rfl

theorem findRecords_level (s : Store) (run : Nat) (x : Side) : (findRecords s run x).level = x.level := by
  unfold findRecords; split <;> rfl

theorem tasks_perm {s : Store} (hr : Reachable s) (rows : List (Nat × Side)) :
    (tasks s rows).Perm ((rows.filter fun r => decide (r.2.level ∈ levels s)).map fun r => findRecords s r.1 r.2) := by
  have h := flatMap_filter_perm (l := rows) (key := fun r : Nat × Side => r.2.level) (levels_nodup hr)
  have h := h.map fun r : Nat × Side => findRecords s r.1 r.2
  rw [List.map_flatMap] at h
  refine (List.Perm.of_eq ?_).trans (h.trans (List.Perm.of_eq ?_))
  swap
  · congr 1
    apply List.filter_congr
    intro x _
    exact decide_eq_decide.2 Iff.rfl
  unfold tasks
  congr 1
  funext level
  congr 1
  apply List.filter_congr
  intro x _
  by_cases hx : x.2.level = level <;> simp [hx]

theorem tasks_nodup {s : Store} (hr : Reachable s) {rows : List (Nat × Side)} (h : (rows.map (·.1)).Nodup) :
    ((tasks s rows).map (·.run)).Nodup := by
  rw [((tasks_perm hr rows).map _).nodup_iff, List.map_map]
  have : ((·.run) ∘ fun r : Nat × Side => findRecords s r.1 r.2) = fun r : Nat × Side => r.1 :=
    funext fun r => findRecords_run s r.1 r.2
  rw [this]
  exact h.sublist (List.filter_sublist.map _)

theorem mem_tasks {s : Store} (hr : Reachable s) {rows : List (Nat × Side)} {t : Task} :
    t ∈ tasks s rows ↔ ∃ r ∈ rows, r.2.level ∈ levels s ∧ t = findRecords s r.1 r.2 := by
  rw [(tasks_perm hr rows).mem_iff, List.mem_map]
  constructor
  · rintro ⟨r, h, rfl⟩
    rw [List.mem_filter, decide_eq_true_eq] at h
    exact ⟨r, h.1, h.2, rfl⟩
  · rintro ⟨r, h, hl, rfl⟩
    exact ⟨r, List.mem_filter.2 ⟨h, decide_eq_true hl⟩, rfl⟩

theorem findRecords_found {s : Store} (hr : Reachable s) {run : Nat} {x : Side}
    (hlen : x.id = none → x.labels.length = s.cols.length) :
    (findRecords s run x).found.Nodup ∧ ∀ i, i ∈ (findRecords s run x).found ↔ x.Means s i := by
  unfold findRecords Side.Means
  rcases hx : x.id with _ | j
  · exact ⟨matchingIds_nodup hr.indexInv _, fun i => mem_matchingIds hr.indexInv hr.colInv (hlen hx)⟩
  · dsimp only
    have : s.index.any (fun r => r.id == j) = true ↔ j ∈ s.ids := by
      unfold Store.ids
      rw [List.any_eq_true, List.mem_map]
      simp only [beq_iff_eq]
    by_cases hj : j ∈ s.ids
    · rw [if_pos (this.2 hj)]
      exact ⟨by simp, fun i => by rw [List.mem_singleton]; exact ⟨fun h => ⟨h, h ▸ hj⟩, fun h => h.1⟩⟩
    · rw [if_neg (fun h => hj (this.1 h))]
      exact ⟨by simp, fun i => by simp only [List.not_mem_nil, false_iff]; rintro ⟨rfl, h⟩; exact hj h⟩

theorem Side.Count.eq {s : Store} (hr : Reachable s) {run : Nat} {x : Side} {n : Nat}
    (hlen : x.id = none → x.labels.length = s.cols.length) (h : x.Count s n) :
    (findRecords s run x).found.length = n := by
  obtain ⟨l, hnd, hm, rfl⟩ := h
  obtain ⟨h1, h2⟩ := findRecords_found hr (run := run) hlen
  exact List.Perm.length_eq ((List.perm_ext_iff_of_nodup h1 hnd).2 fun i => by rw [h2, hm])

theorem loadRows_runs {s1 s2 : Store} {data : List (Side × Side × ℚ)} {n : Nat} {rows : List SourceRow}
    (h : loadRows s1 s2 data n = .ok rows) :
    rows.map (·.run) = List.range' (n + 1) data.length ∧
    rows.map (fun r => (r.node1, r.node2, r.value)) = data ∧
    ∀ r ∈ rows, r.node1.level ∈ levels s1 ∧ r.node2.level ∈ levels s2 ∧ 0 ≤ r.value := by
  induction data generalizing n rows with
  | nil => cases h; simp
  | cons d data ih =>
    obtain ⟨a, b, v⟩ := d
    unfold loadRows at h
    split at h
    · cases h
    rename_i h1
    split at h
    · cases h
    rename_i h2
    split at h
    · cases h
    rename_i h3
    rcases hx : loadRows s1 s2 data (n + 1) with e | rs
    · rw [hx] at h; cases h
    · rw [hx] at h
      cases h
      obtain ⟨i1, i2, i3⟩ := ih hx
      refine ⟨by rw [List.map_cons, i1, List.length_cons, List.range'_succ], by rw [List.map_cons, i2], ?_⟩
      intro r hr
      rcases List.mem_cons.1 hr with rfl | hr
      · exact ⟨by simpa using h1, by simpa using h2, le_of_not_gt h3⟩
      · exact i3 r hr

theorem weightOrZero_is {s : Store} (hr : Reachable s) (g : WGroup) (i : Nat) :
    IsWeight s g i (weightOrZero s g.id i) := by
  unfold weightOrZero Store.weightOf Store.findWeight
  constructor
  · intro w hw h1 h2
    rcases hf : s.weights.find? fun w => w.group == g.id && w.index == i with _ | w'
    · have := List.find?_eq_none.1 hf w hw
      simp [h1, h2] at this
    · have hm := List.mem_of_find?_eq_some hf
      have hp := List.find?_some hf
      rw [Bool.and_eq_true, beq_iff_eq, beq_iff_eq] at hp
      have he := List.inj_on_of_nodup_map hr.weightInv.pairs hm hw (by rw [hp.1, hp.2, h1, h2])
      rw [hf, he]
      rfl
  · intro hno
    rw [List.find?_eq_none.2 (by
      intro w hw
      rw [Bool.and_eq_true, beq_iff_eq, beq_iff_eq]
      rintro ⟨h1, h2⟩
      exact hno w hw h1 h2)]
    rfl

theorem isWeight_unique {s : Store} {g : WGroup} {i : Nat} {w w' : Option ℚ} (h : IsWeight s g i w) :
    w = w' ↔ IsWeight s g i w' := by
  refine ⟨fun he => he ▸ h, fun h' => ?_⟩
  by_cases hx : ∃ x ∈ s.weights, x.group = g.id ∧ x.index = i
  · obtain ⟨x, hx, h1, h2⟩ := hx
    rw [h.1 x hx h1 h2, h'.1 x hx h1 h2]
  · have : ∀ x ∈ s.weights, x.group = g.id → x.index ≠ i := fun x hm h1 h2 => hx ⟨x, hm, h1, h2⟩
    rw [h.2 this, h'.2 this]

theorem weightOrZero_nonneg {s : Store} (hr : Reachable s) {g i : Nat} {w : ℚ} (h : weightOrZero s g i = some w) :
    0 ≤ w := by
  unfold weightOrZero Store.weightOf Store.findWeight at h
  rcases hf : s.weights.find? fun w => w.group == g && w.index == i with _ | w'
  · rw [hf] at h
    simp only [Option.map_none] at h
    split at h
    · cases h; exact le_refl _
    · cases h
  · rw [hf] at h
    cases h
    exact hr.weightInv.nonneg _ (List.mem_of_find?_eq_some hf)

/-- What a call of `match_records` has done. -/
theorem matchRecords_ok {s : Store} {rows : List (Nat × Side)} {ms : List Match}
    (h : matchRecords s limit allow rows = .ok ms) : ∃ g, s.getDefaultWG = .ok g ∧
      ms = refreshProportions (doTasks limit allow (weightOrZero s g.id) [] (tasks s rows)) := by
  unfold matchRecords at h
  rcases hg : s.getDefaultWG with e | g
  · rw [hg] at h; cases h
  · rw [hg] at h; cases h; exact ⟨g, rfl, rfl⟩

theorem getDefaultWG_mem {s : Store} {g : WGroup} (h : s.getDefaultWG = .ok g) : g ∈ s.wgroups ∧
    s.defaultWG = some (some g.id) := by
  unfold Store.getDefaultWG at h
  split at h
  · cases h
  · cases h
  · rename_i i hi
    split at h
    · rename_i x hx
      cases h
      have : g.id = i := by simpa using List.find?_some hx
      exact ⟨List.mem_of_find?_eq_some hx, by rw [hi, this]⟩
    · cases h

/-- The matches of a row whose level is known. -/
theorem matches_run {s : Store} (hr : Reachable s) {rows : List (Nat × Side)} (hruns : (rows.map (·.1)).Nodup)
    {r : Nat × Side} (hm : r ∈ rows) (hl : r.2.level ∈ levels s) (g : WGroup) :
    ∃ pre post, tasks s rows = pre ++ findRecords s r.1 r.2 :: post ∧
      ofRun (doTasks limit allow (weightOrZero s g.id) [] (tasks s rows)) r.1 =
        newMatches (weightOrZero s g.id) (findRecords s r.1 r.2)
          (takeFound limit allow (doTasks limit allow (weightOrZero s g.id) [] pre) (findRecords s r.1 r.2)) := by
  obtain ⟨pre, post, he⟩ := List.append_of_mem ((mem_tasks hr (rows := rows)).2 ⟨r, hm, hl, rfl⟩)
  refine ⟨pre, post, he, ?_⟩
  have := doTasks_run (limit := limit) (allow := allow) (weight := weightOrZero s g.id)
    (pre := pre) (post := post) (t := findRecords s r.1 r.2) (by rw [← he]; exact tasks_nodup hr hruns)
  rw [findRecords_run, ← he] at this
  exact this

theorem ofRun_empty {s : Store} (hr : Reachable s) {rows : List (Nat × Side)} {run : Nat} {weight : Nat → Option ℚ}
    (h : ∀ r ∈ rows, r.2.level ∈ levels s → r.1 ≠ run) :
    ofRun (doTasks limit allow weight [] (tasks s rows)) run = [] := by
  unfold ofRun
  rw [List.filter_eq_nil_iff]
  intro m hm
  obtain ⟨t, ht, _, he⟩ := doTasks_mem hm
  obtain ⟨r, hr', hl, rfl⟩ := (mem_tasks hr).1 ht
  rw [he]
  simp only [findRecords_run, decide_eq_true_eq]
  exact h r hr' hl

/-! ### Finest first -/

theorem insertBy_congr_on {α : Type} {le le' : α → α → Bool} {x : α} {l : List α} (h : ∀ y ∈ l, le x y = le' x y) :
    insertBy le x l = insertBy le' x l := by
  induction l with
  | nil => rfl
  | cons y ys ih => rw [insertBy, insertBy, h y (by simp), ih fun z hz => h z (by simp [hz])]

theorem sortedBy_congr_on {α : Type} {le le' : α → α → Bool} {l : List α}
    (h : ∀ x ∈ l, ∀ y ∈ l, le x y = le' x y) : sortedBy le l = sortedBy le' l := by
  induction l with
  | nil => rfl
  | cons x xs ih =>
    rw [sortedBy, sortedBy, ih fun a ha b hb => h a (by simp [ha]) b (by simp [hb])]
    apply insertBy_congr_on
    intro y hy
    exact h x (by simp) y (by simp [(sortedBy_perm le' xs).mem_iff.1 hy])

/-- The granularity as a number, with nothing below all numbers. -/
noncomputable def granKey (g : Option Gran) : WithBot ℝ := match g with
  | none => ⊥
  | some x => (x.value : ℝ)

theorem granGe_iff {a b : Option Gran} (ha : PosGran a) (hb : PosGran b) :
    granGe a b = true ↔ granKey b ≤ granKey a := by
  rcases b with _ | b
  · simp [granGe, granKey]
  rcases a with _ | a
  · simp [granGe, granKey]
  · unfold granGe granKey
    obtain ⟨h1, h2⟩ := ha a rfl
    obtain ⟨h3, h4⟩ := hb b rfl
    rw [C48_compare b a h3 h1 h4 h2]
    exact WithBot.coe_le_coe.symm

theorem structs_pos {s : Store} (hr : Reachable s) : ∀ st ∈ s.structs, PosGran st.gran := by
  refine hr.of_prim (P := fun s => ∀ st ∈ s.structs, PosGran st.gran) (by intro _ st hst; cases hst) ?_
  intro k s s' hp hs
  cases hp with
  | structClear => intro st h; cases h
  | structAdd _ g bits hne hlen huniq hg =>
    intro st h
    rcases List.mem_append.1 h with h | h
    · exact hs st h
    · rw [List.mem_singleton] at h
      subst h
      exact hg
  | structGran _ f hg =>
    intro st h
    obtain ⟨r, _, rfl⟩ := List.mem_map.1 h
    exact hg r
  | colAdd _ c =>
    intro st h
    obtain ⟨r, hr, rfl⟩ := List.mem_map.1 h
    exact hs r hr
  | colDrop _ names =>
    intro st h
    obtain ⟨r, hr, rfl⟩ := List.mem_map.1 h
    exact hs r hr
  | _ => exact hs

theorem structsSorted_pairwise {s : Store} (hr : Reachable s) :
    s.structsSorted.Pairwise fun a b => granGe a.gran b.gran = true := by
  have hpos := structs_pos hr
  have he : s.structsSorted = sortedBy (fun a b : StructRec => decide (granKey b.gran ≤ granKey a.gran)) s.structs := by
    unfold Store.structsSorted
    apply sortedBy_congr_on
    intro x hx y hy
    rw [Bool.eq_iff_iff, decide_eq_true_iff]
    exact granGe_iff (hpos x hx) (hpos y hy)
  have hmem : ∀ x ∈ s.structsSorted, PosGran x.gran := fun x hx =>
    hpos x ((sortedBy_perm (fun a b : StructRec => granGe a.gran b.gran) s.structs).mem_iff.1 hx)
  have hp := sortedBy_pairwise (fun a b : StructRec => decide (granKey b.gran ≤ granKey a.gran))
    (by simp only [decide_eq_true_iff]; intro a b c h1 h2; exact le_trans h2 h1)
    (by simp only [decide_eq_true_iff]; intro a b; exact le_total _ _) s.structs
  rw [← he] at hp
  refine List.Pairwise.imp_of_mem ?_ hp
  intro a b ha hb h
  rw [decide_eq_true_iff] at h
  exact (granGe_iff (hmem a ha) (hmem b hb)).2 h

theorem before_irrefl {s : Store} (hr : Reachable s) {a : List Byte} : ¬ Before s a a := by
  rintro ⟨i, j, hij, hi, hj⟩
  obtain ⟨hi', hi⟩ := List.getElem?_eq_some_iff.1 hi
  obtain ⟨hj', hj⟩ := List.getElem?_eq_some_iff.1 hj
  have := (List.Nodup.getElem_inj_iff (levels_nodup hr)).1 (hi.trans hj.symm)
  omega

theorem before_asymm {s : Store} (hr : Reachable s) {a b : List Byte} (h : Before s a b) : ¬ Before s b a := by
  rintro ⟨i, j, hij, hi, hj⟩
  obtain ⟨i', j', hij', hi', hj'⟩ := h
  obtain ⟨h1, e1⟩ := List.getElem?_eq_some_iff.1 hi
  obtain ⟨h2, e2⟩ := List.getElem?_eq_some_iff.1 hj
  obtain ⟨h3, e3⟩ := List.getElem?_eq_some_iff.1 hi'
  obtain ⟨h4, e4⟩ := List.getElem?_eq_some_iff.1 hj'
  have := (List.Nodup.getElem_inj_iff (levels_nodup hr)).1 (e1.trans e4.symm)
  have := (List.Nodup.getElem_inj_iff (levels_nodup hr)).1 (e2.trans e3.symm)
  omega

theorem before_total {s : Store} {a b : List Byte} (ha : a ∈ levels s) (hb : b ∈ levels s) (hne : a ≠ b) :
    Before s a b ∨ Before s b a := by
  obtain ⟨i, hi⟩ := List.getElem?_of_mem ha
  obtain ⟨j, hj⟩ := List.getElem?_of_mem hb
  rcases Nat.lt_trichotomy i j with h | h | h
  · exact .inl ⟨i, j, h, hi, hj⟩
  · subst h
    rw [hi] at hj
    exact absurd (Option.some.inj hj) hne
  · exact .inr ⟨j, i, h, hj, hi⟩

theorem before_fine {s : Store} (hr : Reachable s) {a b : List Byte} (h : Before s a b) : AtLeastAsFine s a b := by
  obtain ⟨i, j, hij, hi, hj⟩ := h
  unfold levels at hi hj
  rw [List.getElem?_map, Option.map_eq_some_iff] at hi hj
  obtain ⟨x, hx, rfl⟩ := hi
  obtain ⟨y, hy, rfl⟩ := hj
  obtain ⟨h1, e1⟩ := List.getElem?_eq_some_iff.1 hx
  obtain ⟨h2, e2⟩ := List.getElem?_eq_some_iff.1 hy
  have hmem : ∀ z ∈ s.structsSorted, z ∈ s.structs := fun z hz =>
    (sortedBy_perm (fun a b : StructRec => granGe a.gran b.gran) s.structs).mem_iff.1 hz
  refine ⟨x, hmem x (e1 ▸ List.getElem_mem h1), y, hmem y (e2 ▸ List.getElem_mem h2), rfl, rfl, ?_⟩
  have := List.pairwise_iff_getElem.1 (structsSorted_pairwise hr) i j h1 h2 hij
  rw [e1, e2] at this
  exact this

theorem levels_pairwise (s : Store) : (levels s).Pairwise (Before s) := by
  rw [List.pairwise_iff_getElem]
  intro i j hi hj hij
  exact ⟨i, j, hij, List.getElem?_eq_getElem hi, List.getElem?_eq_getElem hj⟩

theorem tasks_pairwise (s : Store) (rows : List (Nat × Side)) :
    (tasks s rows).Pairwise fun a b => a.level = b.level ∨ Before s a.level b.level := by
  unfold tasks
  rw [List.pairwise_flatMap]
  have hl : ∀ level t, t ∈ ((rows.filter fun r => r.2.level == level).map fun r => findRecords s r.1 r.2) →
      t.level = level := by
    intro level t ht
    obtain ⟨r, hr, rfl⟩ := List.mem_map.1 ht
    rw [findRecords_level]
    simpa using (List.mem_filter.1 hr).2
  constructor
  · intro level _
    rw [List.pairwise_iff_getElem]
    intro i j hi hj _
    exact .inl (by rw [hl level _ (List.getElem_mem hi), hl level _ (List.getElem_mem hj)])
  · refine (levels_pairwise s).imp ?_
    intro a b hab x hx y hy
    rw [hl a x hx, hl b y hy]
    exact .inr hab

/-- When the turn of a row comes, the records matched at other levels are those matched at levels before. -/
theorem done_iff {s : Store} (hr : Reachable s) {rows : List (Nat × Side)} {weight : Nat → Option ℚ}
    {pre post : List Task} {t : Task} (h : tasks s rows = pre ++ t :: post) (i : Nat) :
    ((doTasks limit allow weight [] pre).any fun m => m.index == i && m.level != t.level) = true ↔
      ∃ m ∈ refreshProportions (doTasks limit allow weight [] (tasks s rows)), m.index = i ∧
        Before s m.level t.level := by
  have hpw := tasks_pairwise s rows
  rw [h, List.pairwise_append, List.pairwise_cons] at hpw
  obtain ⟨_, ⟨hpost, _⟩, hpre⟩ := hpw
  have href : ∀ P : Nat → List Byte → Prop, (∃ m ∈ refreshProportions (doTasks limit allow weight [] (tasks s rows)),
      P m.index m.level) ↔ ∃ m ∈ doTasks limit allow weight [] (tasks s rows), P m.index m.level := by
    intro P
    unfold refreshProportions
    constructor
    · rintro ⟨m, hm, hp⟩
      obtain ⟨m', hm', rfl⟩ := List.mem_map.1 hm
      exact ⟨m', hm', hp⟩
    · rintro ⟨m, hm, hp⟩
      exact ⟨_, List.mem_map_of_mem hm, hp⟩
  rw [href fun a b => a = i ∧ Before s b t.level, h, doTasks_append, doTasks, List.any_eq_true]
  obtain ⟨ext, he, hext⟩ := doTasks_ext (limit := limit) (allow := allow) (weight := weight)
    (doTasks limit allow weight [] pre ++
      newMatches weight t (takeFound limit allow (doTasks limit allow weight [] pre) t)) post
  rw [he]
  constructor
  · rintro ⟨m, hm, hp⟩
    rw [Bool.and_eq_true, beq_iff_eq, bne_iff_ne] at hp
    refine ⟨m, List.mem_append_left _ (List.mem_append_left _ hm), hp.1, ?_⟩
    obtain ⟨t', ht', _, hm'⟩ := doTasks_mem hm
    have hl : m.level = t'.level := by rw [hm']
    rcases hpre t' ht' t (by simp) with h | h
    · exact absurd (hl.trans h) hp.2
    · rw [hl]; exact h
  · rintro ⟨m, hm, hi, hb⟩
    rcases List.mem_append.1 hm with hm | hm
    · rcases List.mem_append.1 hm with hm | hm
      · refine ⟨m, hm, ?_⟩
        rw [Bool.and_eq_true, beq_iff_eq, bne_iff_ne]
        refine ⟨hi, fun he => before_irrefl hr (he ▸ hb)⟩
      · have := (mem_newMatches hm).2
        have hl : m.level = t.level := by rw [this]
        exact absurd (hl ▸ hb) (before_irrefl hr)
    · obtain ⟨t', ht', _, hm'⟩ := hext m hm
      have hl : m.level = t'.level := by rw [hm']
      rw [hl] at hb
      rcases hpost t' ht' with h | h
      · exact absurd (h ▸ hb) (before_irrefl hr)
      · exact absurd h (before_asymm hr hb)

end Toron.Mapper
