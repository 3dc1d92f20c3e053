/-
C39, C40 and C58: matching rows of mapping data with index records, and combining the matches
(`src/toron/mapper.py`).
-/
import Verif.Lemmas.MapperJoin
import Verif.Demo

namespace Toron.Mapper

open Toron.Selectors (PyStr)
open Toron.Space

variable {limit : Nat} {allow : Bool}

/-! ### C39: proportions -/

theorem ofRun_ne {s : Store} (hr : Reachable s) {rows : List (Nat × Side)} {run : Nat} {weight : Nat → Option ℚ}
    (h : ofRun (doTasks limit allow weight [] (tasks s rows)) run ≠ []) :
    ∃ r ∈ rows, r.2.level ∈ levels s ∧ r.1 = run := by
  by_contra hc
  push Not at hc
  exact h (ofRun_empty hr hc)

/-- For each row of mapping data that is matched at all, the proportions of its matches are fair: they add up to
one, and are proportional to the weights of the records in the default group, or equal if these are all zero or
missing. -/
theorem C39_shares {s : Store} (hr : Reachable s) {rows : List (Nat × Side)} (hruns : (rows.map (·.1)).Nodup)
    {ms : List Match} (h : matchRecords s limit allow rows = .ok ms) {run : Nat} (hne : ofRun ms run ≠ []) :
    FairShares (ofRun ms run) ∧
    ∃ g ∈ s.wgroups, s.defaultWG = some (some g.id) ∧ ∀ m ∈ ofRun ms run, IsWeight s g m.index m.weight := by
  obtain ⟨g, hg, rfl⟩ := matchRecords_ok h
  obtain ⟨hgm, hgd⟩ := getDefaultWG_mem hg
  rw [refresh_run] at hne ⊢
  have hne : ofRun (doTasks limit allow (weightOrZero s g.id) [] (tasks s rows)) run ≠ [] := by
    intro h0; rw [h0] at hne; exact hne rfl
  obtain ⟨r, hm, hl, rfl⟩ := ofRun_ne hr hne
  obtain ⟨pre, post, hsplit, he⟩ := matches_run (limit := limit) (allow := allow) hr hruns hm hl g
  have hw : ∀ m ∈ ofRun (doTasks limit allow (weightOrZero s g.id) [] (tasks s rows)) r.1,
      m.weight = weightOrZero s g.id m.index := by
    intro m hm'
    rw [he] at hm'
    rw [(mem_newMatches hm').2]
  constructor
  · apply fairShares hne
    rw [he] at hne ⊢
    unfold newMatches at hne ⊢
    split at hne
    · exact absurd rfl hne
    rename_i hcond
    rw [if_neg hcond]
    generalize takeFound limit allow _ (findRecords s r.1 r.2) = ids at hcond ⊢
    rw [Bool.and_eq_true, decide_eq_true_eq, not_and_or] at hcond
    by_cases hall : ∀ i ∈ ids, (weightOrZero s g.id i).isSome
    · left
      intro m hm'
      obtain ⟨i, hi, rfl⟩ := List.mem_map.1 hm'
      obtain ⟨w, hw⟩ := Option.isSome_iff_exists.1 (hall i hi)
      exact ⟨w, hw, weightOrZero_nonneg hr hw⟩
    · right
      push Not at hall
      obtain ⟨i, hi, hn⟩ := hall
      rcases hcond with hlen | hany
      · have : ids = [i] := by
          match ids, hi, hlen with
          | [x], hi, _ => rw [List.mem_singleton] at hi; rw [hi]
          | _ :: _ :: _, _, hlen => simp at hlen
        subst this
        intro m hm'
        obtain ⟨j, hj, rfl⟩ := List.mem_map.1 hm'
        rw [List.mem_singleton] at hj
        subst hj
        exact Option.not_isSome_iff_eq_none.1 hn
      · exact absurd (List.any_eq_true.2 ⟨i, hi, by simpa using hn⟩) hany
  · refine ⟨g, hgm, hgd, ?_⟩
    intro m hm'
    obtain ⟨m', hm'', rfl⟩ := List.mem_map.1 hm'
    show IsWeight s g m'.index m'.weight
    rw [hw m' hm'']
    exact weightOrZero_is hr g _

/-! ### C58: which records a row is matched with -/

theorem matched_iff {s : Store} {g : WGroup} {rows : List (Nat × Side)} {run i : Nat} :
    Matched (refreshProportions (doTasks limit allow (weightOrZero s g.id) [] (tasks s rows))) run i ↔
      i ∈ (ofRun (doTasks limit allow (weightOrZero s g.id) [] (tasks s rows)) run).map (·.index) := by
  unfold Matched refreshProportions ofRun
  rw [List.mem_map]
  constructor
  · rintro ⟨m, hm, h1, h2⟩
    obtain ⟨m', hm', rfl⟩ := List.mem_map.1 hm
    exact ⟨m', List.mem_filter.2 ⟨hm', by simpa using h1⟩, h2⟩
  · rintro ⟨m, hm, h2⟩
    obtain ⟨h3, h4⟩ := List.mem_filter.1 hm
    exact ⟨_, List.mem_map_of_mem h3, by simpa using h4, h2⟩

theorem newMatches_index {weight : Nat → Option ℚ} {t : Task} {ids : List Nat} :
    (newMatches weight t ids).map (·.index) =
      if 1 < ids.length ∧ ∃ i ∈ ids, weight i = none then [] else ids := by
  unfold newMatches
  have : (1 < ids.length && ids.any fun i => (weight i).isNone) = true ↔
      1 < ids.length ∧ ∃ i ∈ ids, weight i = none := by
    rw [Bool.and_eq_true, decide_eq_true_eq, List.any_eq_true]
    simp only [Option.isNone_iff_eq_none]
  by_cases h : 1 < ids.length ∧ ∃ i ∈ ids, weight i = none
  · rw [if_pos (this.2 h), if_pos h]
    rfl
  · rw [if_neg (fun hc => h (this.1 hc)), if_neg h, List.map_map]
    exact List.map_id _

/-- A row is only matched with records it means, at its own level, and with none twice. -/
theorem C58_sound {s : Store} (hr : Reachable s) {rows : List (Nat × Side)} (hruns : (rows.map (·.1)).Nodup)
    (hlen : ∀ r ∈ rows, r.2.id = none → r.2.labels.length = s.cols.length)
    {ms : List Match} (h : matchRecords s limit allow rows = .ok ms) :
    (∀ m ∈ ms, ∃ r ∈ rows, m.run = r.1 ∧ m.level = r.2.level ∧ r.2.Means s m.index) ∧
    (ms.map fun m => (m.run, m.index)).Nodup := by
  obtain ⟨g, hg, rfl⟩ := matchRecords_ok h
  constructor
  · intro m hm
    obtain ⟨m', hm', rfl⟩ := List.mem_map.1 hm
    obtain ⟨t, ht, hf, he⟩ := doTasks_mem hm'
    obtain ⟨r, hrm, hl, rfl⟩ := (mem_tasks hr).1 ht
    refine ⟨r, hrm, ?_, ?_, ((findRecords_found hr (hlen r hrm)).2 _).1 hf⟩
    · show m'.run = r.1
      rw [he, findRecords_run]
    · show m'.level = r.2.level
      rw [he, findRecords_level]
  · have hmap : (refreshProportions (doTasks limit allow (weightOrZero s g.id) [] (tasks s rows))).map
        (fun m => (m.run, m.index)) =
        (doTasks limit allow (weightOrZero s g.id) [] (tasks s rows)).map fun m => (m.run, m.index) := by
      unfold refreshProportions
      rw [List.map_map]
      rfl
    rw [hmap]
    refine doTasks_nodup List.nodup_nil (by simp) (tasks_nodup hr hruns) ?_
    intro t ht
    obtain ⟨r, hrm, hl, rfl⟩ := (mem_tasks hr).1 ht
    exact (findRecords_found hr (hlen r hrm)).1

section

variable {s : Store} {rows : List (Nat × Side)} {ms : List Match}

/-- A row that means more records than the limit is not matched. -/
theorem C58_limit (hr : Reachable s) (hruns : (rows.map (·.1)).Nodup)
    (hlen : ∀ r ∈ rows, r.2.id = none → r.2.labels.length = s.cols.length)
    (h : matchRecords s limit allow rows = .ok ms) {r : Nat × Side} (hm : r ∈ rows) (hid : r.2.id = none)
    {n : Nat} (hn : r.2.Count s n) (hlim : limit < n) (i : Nat) : ¬ Matched ms r.1 i := by
  obtain ⟨g, hg, rfl⟩ := matchRecords_ok h
  rw [matched_iff]
  by_cases hl : r.2.level ∈ levels s
  · obtain ⟨pre, post, hsplit, he⟩ := matches_run (limit := limit) (allow := allow) hr hruns hm hl g
    have hb : (findRecords s r.1 r.2).byId = false := by unfold findRecords; rw [hid]
    have ht : ∀ done, takeFound limit allow done (findRecords s r.1 r.2) = [] := fun done => by
      unfold takeFound
      rw [hb, if_neg (by simp), if_pos (by rw [hn.eq hr (hlen r hm)]; exact hlim)]
    rw [he, newMatches_index, ht]
    simp
  · rw [ofRun_empty hr]
    · simp
    · intro r' hr' hl' he
      exact hl (List.inj_on_of_nodup_map hruns hr' hm he ▸ hl')

/-- A row that means one record is matched with it. -/
theorem C58_single (hr : Reachable s) (hruns : (rows.map (·.1)).Nodup)
    (hlen : ∀ r ∈ rows, r.2.id = none → r.2.labels.length = s.cols.length)
    (h : matchRecords s limit allow rows = .ok ms) {r : Nat × Side} (hm : r ∈ rows) (hl : r.2.level ∈ levels s)
    (hn : r.2.Count s 1) (hlim : r.2.id = none → 1 ≤ limit) (i : Nat) : Matched ms r.1 i ↔ r.2.Means s i := by
  obtain ⟨g, hg, rfl⟩ := matchRecords_ok h
  rw [matched_iff]
  obtain ⟨pre, post, hsplit, he⟩ := matches_run (limit := limit) (allow := allow) hr hruns hm hl g
  have h1 := hn.eq hr (run := r.1) (hlen r hm)
  rw [he, newMatches_index]
  have ht : ∀ done, takeFound limit allow done (findRecords s r.1 r.2) = (findRecords s r.1 r.2).found := by
    intro done
    unfold takeFound
    by_cases hb : (findRecords s r.1 r.2).byId = true
    · rw [if_pos hb]
    · have hid : r.2.id = none := by
        rcases hi : r.2.id with _ | j
        · rfl
        · unfold findRecords at hb; rw [hi] at hb; exact absurd rfl hb
      rw [if_neg hb, if_neg (by have := hlim hid; omega), if_neg (by simp [h1])]
  rw [ht, if_neg (by omega)]
  exact (findRecords_found hr (hlen r hm)).2 i

/-- If overlaps are allowed, a row that means several records, but no more than the limit, is matched with all of
them, or with none if one of them has no weight. -/
theorem C58_overlapping (hr : Reachable s) (hruns : (rows.map (·.1)).Nodup)
    (hlen : ∀ r ∈ rows, r.2.id = none → r.2.labels.length = s.cols.length)
    (h : matchRecords s limit true rows = .ok ms) {r : Nat × Side} (hm : r ∈ rows) (hl : r.2.level ∈ levels s)
    {n : Nat} (hn : r.2.Count s n) (h1 : 1 < n) (hlim : n ≤ limit) :
    ∃ g ∈ s.wgroups, s.defaultWG = some (some g.id) ∧ ∀ i, Matched ms r.1 i ↔
      r.2.Means s i ∧ ∀ j, r.2.Means s j → ¬ IsWeight s g j none := by
  obtain ⟨g, hg, rfl⟩ := matchRecords_ok h
  obtain ⟨hgm, hgd⟩ := getDefaultWG_mem hg
  refine ⟨g, hgm, hgd, fun i => ?_⟩
  rw [matched_iff]
  obtain ⟨pre, post, hsplit, he⟩ := matches_run (limit := limit) (allow := true) hr hruns hm hl g
  have hc := hn.eq hr (run := r.1) (hlen r hm)
  obtain ⟨hnd, hmean⟩ := findRecords_found hr (run := r.1) (hlen r hm)
  have ht : ∀ done, takeFound limit true done (findRecords s r.1 r.2) = (findRecords s r.1 r.2).found := by
    intro done
    unfold takeFound
    split
    · rfl
    · rw [if_neg (by omega), if_neg (by simp)]
  rw [he, newMatches_index, ht]
  have hw : ∀ j, weightOrZero s g.id j = none ↔ IsWeight s g j none := by
    intro j
    exact isWeight_unique (weightOrZero_is hr g j)
  by_cases hx : ∃ j ∈ (findRecords s r.1 r.2).found, weightOrZero s g.id j = none
  · rw [if_pos ⟨by omega, hx⟩]
    simp only [List.not_mem_nil, false_iff]
    rintro ⟨_, hall⟩
    obtain ⟨j, hj, hjn⟩ := hx
    exact hall j ((hmean j).1 hj) ((hw j).1 hjn)
  · rw [if_neg (fun hc => hx hc.2), hmean]
    constructor
    · intro hi
      exact ⟨hi, fun j hj hn => hx ⟨j, (hmean j).2 hj, (hw j).2 hn⟩⟩
    · exact fun h => h.1

/-- If overlaps are not allowed, a row that means several records, but no more than the limit, is matched with
those of them that are not matched at a level that comes before, or with none if there is more than one of these
and one of them has no weight. -/
theorem C58_exclusive (hr : Reachable s) (hruns : (rows.map (·.1)).Nodup)
    (hlen : ∀ r ∈ rows, r.2.id = none → r.2.labels.length = s.cols.length)
    (h : matchRecords s limit false rows = .ok ms) {r : Nat × Side} (hm : r ∈ rows) (hl : r.2.level ∈ levels s)
    {n : Nat} (hn : r.2.Count s n) (h1 : 1 < n) (hlim : n ≤ limit) :
    ∃ g ∈ s.wgroups, s.defaultWG = some (some g.id) ∧
    ∃ free : Nat → Prop, (∀ i, free i ↔ r.2.Means s i ∧ ¬ ∃ m ∈ ms, m.index = i ∧ Before s m.level r.2.level) ∧
      ∀ i, Matched ms r.1 i ↔ free i ∧ ((∀ j, free j → j = i) ∨ ∀ j, free j → ¬ IsWeight s g j none) := by
  obtain ⟨g, hg, rfl⟩ := matchRecords_ok h
  obtain ⟨hgm, hgd⟩ := getDefaultWG_mem hg
  refine ⟨g, hgm, hgd, _, fun i => Iff.rfl, fun i => ?_⟩
  rw [matched_iff]
  obtain ⟨pre, post, hsplit, he⟩ := matches_run (limit := limit) (allow := false) hr hruns hm hl g
  have hc := hn.eq hr (run := r.1) (hlen r hm)
  obtain ⟨hnd, hmean⟩ := findRecords_found hr (run := r.1) (hlen r hm)
  have hb : (findRecords s r.1 r.2).byId = false := by
    unfold findRecords at hc ⊢
    rcases hi : r.2.id with _ | j
    · rfl
    · rw [hi] at hc
      dsimp only at hc
      split at hc <;> simp at hc <;> omega
  have ht : takeFound limit false (doTasks limit false (weightOrZero s g.id) [] pre) (findRecords s r.1 r.2) =
      (findRecords s r.1 r.2).found.filter fun i =>
        !((doTasks limit false (weightOrZero s g.id) [] pre).any fun m =>
          m.index == i && m.level != (findRecords s r.1 r.2).level) := by
    unfold takeFound
    rw [hb, if_neg (by simp), if_neg (by omega), if_pos (by simp; omega)]
  have hmem : ∀ i, i ∈ takeFound limit false (doTasks limit false (weightOrZero s g.id) [] pre)
      (findRecords s r.1 r.2) ↔ r.2.Means s i ∧ ¬ ∃ m ∈ refreshProportions
        (doTasks limit false (weightOrZero s g.id) [] (tasks s rows)), m.index = i ∧ Before s m.level r.2.level := by
    intro i
    rw [ht, List.mem_filter, hmean, ← findRecords_level s r.1 r.2, ← done_iff hr hsplit i, Bool.not_eq_true',
      Bool.not_eq_true]
  have hnd' : (takeFound limit false (doTasks limit false (weightOrZero s g.id) [] pre)
      (findRecords s r.1 r.2)).Nodup := hnd.sublist (takeFound_sublist _ _)
  rw [he, newMatches_index]
  generalize takeFound limit false (doTasks limit false (weightOrZero s g.id) [] pre) (findRecords s r.1 r.2) = ids
    at hmem hnd'
  simp only [← hmem]
  have hw : ∀ j, weightOrZero s g.id j = none ↔ IsWeight s g j none :=
    fun j => isWeight_unique (weightOrZero_is hr g j)
  by_cases hx : 1 < ids.length ∧ ∃ j ∈ ids, weightOrZero s g.id j = none
  · rw [if_pos hx]
    simp only [List.not_mem_nil, false_iff]
    rintro ⟨hi, hone | hall⟩
    · match ids, hx.1, hnd', hone with
      | a :: b :: _, _, hnd', hone =>
        have := (hone a (by simp)).trans (hone b (by simp)).symm
        simp [this] at hnd'
    · obtain ⟨j, hj, hjn⟩ := hx.2
      exact hall j hj ((hw j).1 hjn)
  · rw [if_neg hx]
    constructor
    · intro hi
      refine ⟨hi, ?_⟩
      by_cases hlen1 : 1 < ids.length
      · right
        exact fun j hj hn => hx ⟨hlen1, j, hj, (hw j).2 hn⟩
      · left
        intro j hj
        match ids, hi, hj, hlen1 with
        | [a], hi, hj, _ => rw [List.mem_singleton] at hi hj; rw [hi, hj]
        | _ :: _ :: _, _, _, hlen1 => simp at hlen1
    · exact fun h => h.1

/-- Levels come in the order of their granularity: finest first. -/
theorem C58_order (hr : Reachable s) {a b : List Byte} (ha : a ∈ levels s) (hb : b ∈ levels s) :
    (Before s a b → AtLeastAsFine s a b) ∧ (a ≠ b → ¬ AtLeastAsFine s b a → Before s a b) := by
  refine ⟨before_fine hr, fun hne hf => ?_⟩
  rcases before_total ha hb hne with h | h
  · exact h
  · exact absurd (before_fine hr h) hf

end

/-! ### C40: combining the matches -/

theorem hasProps {s : Store} {rows : List (Nat × Side)} {ms : List Match} (h : matchRecords s limit allow rows = .ok ms) :
    HasProps ms := by
  obtain ⟨g, hg, rfl⟩ := matchRecords_ok h
  intro m hm
  obtain ⟨m', hm', rfl⟩ := List.mem_map.1 hm
  rfl

section

variable {s1 s2 : Store} {limit1 limit2 : Nat} {allow1 allow2 : Bool} {data : List (Side × Side × ℚ)}
  {rows : List SourceRow} {m1 m2 : List Match}

/-- Every pair of records appears at most once for each level, and exactly if some row is matched with both, at
this level on the target's side. Its value is what the rows give to it: each row its value, times its share on
both sides. The pair of the undefined records is left out. -/
theorem C40_pairs (h1 : matchRecords s1 limit1 allow1 (rows.map fun r => (r.run, r.node1)) = .ok m1)
    (h2 : matchRecords s2 limit2 allow2 (rows.map fun r => (r.run, r.node2)) = .ok m2) :
    ((iterMappings rows m1 m2).map fun x => (x.other, x.index, x.level)).Nodup ∧
    (∀ o i level, (∃ x ∈ iterMappings rows m1 m2, x.other = o ∧ x.index = i ∧ x.level = level) ↔
      ¬ (o = 0 ∧ i = 0) ∧ ∃ r ∈ rows, Matched m1 r.run o ∧ ∃ m ∈ m2, m.run = r.run ∧ m.index = i ∧ m.level = level) ∧
    ∀ x ∈ iterMappings rows m1 m2, x.value =
      some ((rows.map fun r => r.value * share m1 r.run x.other * shareAt m2 r.run x.index x.level).sum) := by
  refine ⟨out_keys_nodup _, fun o i level => ?_, fun x hx => out_value (hasProps h1) (hasProps h2) hx⟩
  constructor
  · rintro ⟨x, hx, rfl, rfl, rfl⟩
    obtain ⟨h0, r, hr, a, ha, b, hb, e1, e2, e3, e4, e5⟩ := out_mem hx
    exact ⟨h0, r, hr, ⟨a, ha, e1, e3⟩, b, hb, e2, e4, e5⟩
  · rintro ⟨h0, r, hr, ⟨a, ha, e1, rfl⟩, b, hb, e2, rfl, rfl⟩
    exact out_mem' hr ha hb e1 e2 h0

theorem matched_ne {ms : List Match} {run : Nat} : (∃ i, Matched ms run i) ↔ ofRun ms run ≠ [] := by
  unfold Matched ofRun
  rw [Ne, List.filter_eq_nil_iff]
  push Not
  constructor
  · rintro ⟨i, m, hm, h1, h2⟩
    exact ⟨m, hm, by simpa using h1⟩
  · rintro ⟨m, hm, h1⟩
    exact ⟨m.index, m, hm, by simpa using h1, rfl⟩

open Classical in
/-- The values of the result add up to those of the rows that are matched on both sides, but for what the rows
give from the undefined record to the undefined record. -/
theorem C40_conserves (hr1 : Reachable s1) (hr2 : Reachable s2) (hl : loadRows s1 s2 data = .ok rows)
    (h1 : matchRecords s1 limit1 allow1 (rows.map fun r => (r.run, r.node1)) = .ok m1)
    (h2 : matchRecords s2 limit2 allow2 (rows.map fun r => (r.run, r.node2)) = .ok m2) :
    ((iterMappings rows m1 m2).map OutRow.amount).sum +
        (rows.map fun r => r.value * share m1 r.run 0 * share m2 r.run 0).sum =
      ((rows.filter fun r => (∃ i, Matched m1 r.run i) ∧ ∃ i, Matched m2 r.run i).map (·.value)).sum := by
  have hruns : (rows.map (·.run)).Nodup := by rw [(loadRows_runs hl).1]; exact List.nodup_range'
  rw [out_total, sum_filter_ite, ← sum_map_add]
  apply sum_congr'
  intro r hr
  have key : ∀ {s : Store} {limit : Nat} {allow : Bool} {f : SourceRow → Side} {ms : List Match}, Reachable s →
      matchRecords s limit allow (rows.map fun r => (r.run, f r)) = .ok ms →
      ((ofRun ms r.run).map fun m => m.prop.getD 0).sum = if ∃ i, Matched ms r.run i then 1 else 0 := by
    intro s limit allow f ms hs h
    by_cases hm : ∃ i, Matched ms r.run i
    · rw [if_pos hm]
      refine (C39_shares hs ?_ h (matched_ne.1 hm)).1.sum
      rw [List.map_map]
      exact hruns
    · rw [if_neg hm]
      rw [matched_ne, not_not] at hm
      rw [hm]
      rfl
  rw [key hr1 h1, key hr2 h2]
  by_cases e1 : ∃ i, Matched m1 r.run i <;> by_cases e2 : ∃ i, Matched m2 r.run i <;> simp [e1, e2] <;> ring

/-- Both directions have the same pairs of records and the same total. -/
theorem C40_symmetric (o i : Nat) :
    ((∃ x ∈ iterMappings rows m1 m2, x.other = o ∧ x.index = i) ↔
      ∃ x ∈ iterMappings rows m2 m1, x.other = i ∧ x.index = o) ∧
    ((iterMappings rows m1 m2).map OutRow.amount).sum = ((iterMappings rows m2 m1).map OutRow.amount).sum := by
  have key : ∀ {m1 m2 : List Match} {o i : Nat}, (∃ x ∈ iterMappings rows m1 m2, x.other = o ∧ x.index = i) →
      ∃ x ∈ iterMappings rows m2 m1, x.other = i ∧ x.index = o := by
    rintro m1 m2 o i ⟨x, hx, rfl, rfl⟩
    obtain ⟨h0, r, hr, a, ha, b, hb, e1, e2, e3, e4, e5⟩ := out_mem hx
    obtain ⟨y, hy, f1, f2, _⟩ := out_mem' hr hb ha e2 e1 (by rw [e3, e4]; exact fun h => h0 h.symm)
    exact ⟨y, hy, by rw [f1, e4], by rw [f2, e3]⟩
  refine ⟨⟨key, key⟩, ?_⟩
  rw [out_total, out_total]
  apply sum_congr'
  intro r _
  ring

end

/-! ### C59: loading the result -/

theorem insertRows_entries {s : Store} {lv : List (Option (List Byte))} {lk : Nat} {rows : List MapRow} {b c : Bool}
    {t : Store} (h : rows.foldlM (insertMapping2Row lv lk) b s = .ok (c, t)) :
    entries t lk = entries s lk ++ (rows.filter fun r => decide (r.level ∈ lv ∧ ¬ (r.other = 0 ∧ r.index = 0))).map
      (fun r => (r.other, r.index, r.level.getD [], r.value)) := by
  induction rows generalizing b s with
  | nil => cases h; simp
  | cons r rows ih =>
    obtain ⟨d, u, h1, h2⟩ := foldlM_cons_ok.1 h
    rw [ih h2]
    unfold insertMapping2Row at h1
    rw [ite_ok] at h1
    obtain ⟨hlv, h1⟩ | ⟨hlv, h1⟩ := h1
    · rw [pure_ok] at h1
      cases h1
      rw [List.filter_cons_of_neg (by simp [hlv])]
    rw [ite_ok] at h1
    obtain ⟨h0, h1⟩ | ⟨h0, h1⟩ := h1
    · rw [pure_ok] at h1
      cases h1
      rw [List.filter_cons_of_neg (by simp [h0])]
    rw [bind_ok] at h1
    obtain ⟨_, v, h3, h1⟩ := h1
    rw [pure_ok] at h1
    cases h1
    obtain ⟨l, hl, _, rfl⟩ := mappingAdd_ok h3
    rw [List.filter_cons_of_pos (by simpa [h0] using hlv), List.map_cons, hl]
    unfold entries
    simp

/-- The mappings in the file after loading are those before and, after them, the rows of the result, in order,
except those with a level that the file does not have. -/
theorem C59_inserted {s s' : Store} (hr : Reachable s) {ref : PyStr} {name : Option PyStr} {rows : List MapRow}
    (h : insertMappings2 ref name rows s = .ok ((), s')) : ∃ l, getLink s.links ref name = .ok l ∧
    entries s' l.id = entries s l.id ++
      (rows.filter fun r => decide (r.level ∈ s.levels2 ∧ ¬ (r.other = 0 ∧ r.index = 0))).map
        (fun r => (r.other, r.index, r.level.getD [], r.value)) ∧
    ∀ k, k ≠ l.id → s'.maps.filter (fun m => m.link == k) = s.maps.filter fun m => m.link == k := by
  have hi := hr.mapInv
  unfold insertMappings2 at h
  simp only [bind_ok, get_ok, liftE_ok] at h
  obtain ⟨_, _, he, l, _, ⟨l, hl, he2⟩, b, t, h1, h2⟩ := h
  cases he
  cases he2
  refine ⟨l, hl, ?_⟩
  have hK := Does.steps (Does.foldlM (fun b row _ => insertMapping2Row_does s.levels2 l.id b row)) _ _ _ h1
  rw [← insertRows_entries h1]
  have hother : ∀ k, k ≠ l.id → t.maps.filter (fun m => m.link == k) = s.maps.filter fun m => m.link == k := by
    intro k hk
    obtain ⟨rfl, rfl⟩ | ⟨rfl, ho⟩ := rows_onLink (fun b row => insertMapping2Row_does s.levels2 l.id b row)
      (fun b row s b' s' _ h => insertMapping2Row_ok h) hi h1
    · rfl
    · have h2 := congrArg (List.filter fun m : Mapping => m.link == k) ho.2
      rw [List.filter_filter, List.filter_filter] at h2
      have e : ∀ m : Mapping, (m.link == k && m.link != l.id) = (m.link == k) := by
        intro m
        by_cases hm : m.link = k
        · simp [hm, hk]
        · simp [hm]
      simpa only [e] using h2
  rw [whenM_ok] at h2
  obtain ⟨_, h2⟩ | ⟨_, rfl⟩ := h2
  · have he := refreshLink_ok (hi.steps hK).ids h2
    have hm : s'.maps = refreshedLink t l.id := by rw [he]; rfl
    constructor
    · unfold entries
      rw [hm, refreshedLink, refreshMaps_filter _ _ _ (fun _ _ => rfl), List.map_map]
      apply List.map_congr_left
      intro m _
      dsimp only [Function.comp]
      split <;> rfl
    · intro k hk
      rw [← hother k hk, hm, refreshedLink, refreshMaps_filter _ _ _ (fun _ _ => rfl)]
      conv_rhs => rw [← List.map_id (t.maps.filter _)]
      apply List.map_congr_left
      intro m hm
      have : m.link = k := by simpa using (List.mem_filter.1 hm).2
      rw [if_neg]
      · rfl
      · simp [this, hk]
  · exact ⟨rfl, hother⟩

open Toron.Spec in
theorem bytes_nil_iff {bits : List Bool} : (BitFlags.ofBits bits).bytes = [] ↔ bits.any id = false := by
  have hsame : ∀ i, bitAt (BitFlags.ofBits bits).toBits i = bitAt bits i := bitAt_toBits_ofBits bits
  constructor
  · intro h
    rw [List.any_eq_false]
    intro b hb hbt
    obtain ⟨i, hi, rfl⟩ := List.mem_iff_getElem.1 hb
    have := hsame i
    unfold BitFlags.toBits at this
    rw [h] at this
    have h2 : bitAt bits i = true := by
      unfold bitAt
      rw [List.getD_eq_getElem _ _ hi]
      exact hbt
    rw [h2] at this
    simp [bitAt, bytesToBitstream] at this
  · intro h
    have : BitFlags.ofBits bits = BitFlags.ofBits [] := by
      apply constructed_ext _ _ (.bits _) (.bits _)
      intro i
      rw [hsame, bitAt_toBits_ofBits]
      rw [List.any_eq_false] at h
      unfold bitAt
      rw [List.getD_nil]
      by_cases hi : i < bits.length
      · rw [List.getD_eq_getElem _ _ hi]
        exact Bool.eq_false_iff.2 (h _ (List.getElem_mem hi))
      · rw [List.getD_eq_default _ _ (by omega)]
    rw [this]
    rfl

theorem level2_iff {s : Store} {L : List Byte} : some L ∈ s.levels2 ↔ L ≠ [] ∧ L ∈ levels s := by
  unfold Store.levels2 levels
  simp only [List.mem_map]
  constructor
  · rintro ⟨st, hst, he⟩
    by_cases hb : st.bits.any id = true
    · rw [if_pos hb] at he
      cases he
      refine ⟨fun h => ?_, st, ?_, rfl⟩
      · rw [bytes_nil_iff] at h
        rw [h] at hb
        cases hb
      · exact (sortedBy_perm _ _).mem_iff.2 hst
    · rw [if_neg hb] at he
      cases he
  · rintro ⟨hne, st, hst, rfl⟩
    refine ⟨st, (sortedBy_perm _ _).mem_iff.1 hst, ?_⟩
    rw [if_pos]
    by_contra hc
    exact hne (bytes_nil_iff.2 (Bool.not_eq_true _ ▸ hc))

theorem match_level {s : Store} (hr : Reachable s) {rows : List (Nat × Side)} {ms : List Match}
    (h : matchRecords s limit allow rows = .ok ms) {m : Match} (hm : m ∈ ms) : m.level ∈ levels s := by
  obtain ⟨g, hg, rfl⟩ := matchRecords_ok h
  obtain ⟨m', hm', rfl⟩ := List.mem_map.1 hm
  obtain ⟨t, ht, hf, he⟩ := doTasks_mem hm'
  obtain ⟨r, hrm, hl, rfl⟩ := (mem_tasks hr).1 ht
  show m'.level ∈ levels s
  rw [he, findRecords_level]
  exact hl

/-- Missing: rows with no label on the target's side (see `C59_blank_violated`). Loading the result into a file
stores each of its rows with its value, in addition to the mappings before, and changes no other link's. -/
theorem C59_loaded_partial {s1 s2 s2' : Store} (hr2 : Reachable s2) {limit1 limit2 : Nat} {allow1 allow2 : Bool}
    {rows : List SourceRow} {m1 m2 : List Match}
    (h2 : matchRecords s2 limit2 allow2 (rows.map fun r => (r.run, r.node2)) = .ok m2)
    {ref : PyStr} {name : Option PyStr}
    (h : insertMappings2 ref name ((iterMappings rows m1 m2).map OutRow.toMapRow) s2 = .ok ((), s2')) :
    ∃ l, getLink s2.links ref name = .ok l ∧
      entries s2' l.id = entries s2 l.id ++
        ((iterMappings rows m1 m2).filter fun x => decide (x.level ≠ [])).map OutRow.entry ∧
      ∀ k, k ≠ l.id → s2'.maps.filter (fun m => m.link == k) = s2.maps.filter fun m => m.link == k := by
  obtain ⟨l, hl, he, hk⟩ := C59_inserted hr2 h
  refine ⟨l, hl, ?_, hk⟩
  rw [he, List.filter_map, List.map_map]
  congr 1
  have : ∀ x ∈ iterMappings rows m1 m2,
      ((fun r : MapRow => decide (r.level ∈ s2.levels2 ∧ ¬ (r.other = 0 ∧ r.index = 0))) ∘ OutRow.toMapRow) x =
        decide (x.level ≠ []) := by
    intro x hx
    obtain ⟨h0, r, hr, a, ha, b, hb, e1, e2, e3, e4, e5⟩ := out_mem hx
    have hlv := match_level hr2 h2 hb
    rw [e5] at hlv
    simp only [Function.comp, OutRow.toMapRow, decide_eq_decide, level2_iff, Nat.cast_eq_zero]
    exact ⟨fun h => h.1.1, fun h => ⟨⟨h, hlv⟩, by exact_mod_cast h0⟩⟩
  rw [List.filter_congr this]
  rfl

/-- `is_fully_matched` says whether every record other than the undefined one is matched, on both sides. -/
theorem C59_fullyMatched {s1 s2 : Store} (hr1 : Reachable s1) (hr2 : Reachable s2) {limit1 limit2 : Nat}
    {allow1 allow2 : Bool} {rows : List SourceRow} {m1 m2 : List Match}
    (hl1 : ∀ r ∈ rows, r.node1.id = none → r.node1.labels.length = s1.cols.length)
    (hl2 : ∀ r ∈ rows, r.node2.id = none → r.node2.labels.length = s2.cols.length)
    (h1 : matchRecords s1 limit1 allow1 (rows.map fun r => (r.run, r.node1)) = .ok m1)
    (h2 : matchRecords s2 limit2 allow2 (rows.map fun r => (r.run, r.node2)) = .ok m2)
    (hruns : (rows.map (·.run)).Nodup) :
    isFullyMatched s1 s2 m1 m2 = true ↔
      (∀ i ∈ s1.ids, i ≠ 0 → ∃ m ∈ m1, m.index = i) ∧ ∀ i ∈ s2.ids, i ≠ 0 → ∃ m ∈ m2, m.index = i := by
  have key : ∀ {s : Store} {limit : Nat} {allow : Bool} {f : SourceRow → Side} {ms : List Match}, Reachable s →
      (∀ r ∈ rows, (f r).id = none → (f r).labels.length = s.cols.length) →
      matchRecords s limit allow (rows.map fun r => (r.run, f r)) = .ok ms →
      (cardinality s = matchCount ms ↔ ∀ i ∈ s.ids, i ≠ 0 → ∃ m ∈ ms, m.index = i) := by
    intro s limit allow f ms hs hl h
    have hsound := (C58_sound hs (by rw [List.map_map]; exact hruns) (by
      intro r hr
      obtain ⟨x, hx, rfl⟩ := List.mem_map.1 hr
      exact hl x hx) h).1
    have hids : ∀ m ∈ ms, m.index ∈ s.ids := by
      intro m hm
      obtain ⟨r, _, _, _, hmean⟩ := hsound m hm
      unfold Side.Means at hmean
      split at hmean
      · exact hmean.2
      · obtain ⟨x, hx, he, _⟩ := hmean
        exact he ▸ List.mem_map_of_mem hx
    have hcard : cardinality s = (s.ids.filter fun i => i != 0).length := by
      unfold cardinality Store.ids
      rw [List.filter_map, List.length_map]
      rfl
    have hnd : (s.ids.filter fun i => i != 0).Nodup := hs.indexInv.idsNodup.filter _
    have hnd2 := nodup_distinct ((ms.map (·.index)).filter fun i => i != 0)
    have hsub : distinct ((ms.map (·.index)).filter fun i => i != 0) ⊆ s.ids.filter fun i => i != 0 := by
      intro i hi
      rw [mem_distinct, List.mem_filter] at hi
      obtain ⟨m, hm, rfl⟩ := List.mem_map.1 hi.1
      exact List.mem_filter.2 ⟨hids m hm, hi.2⟩
    rw [hcard]
    unfold matchCount
    have hsp := hnd2.subperm hsub
    constructor
    · intro he i hi h0
      have hp := hsp.perm_of_length_le (le_of_eq he)
      have := hp.mem_iff.2 (List.mem_filter.2 ⟨hi, by simpa using h0⟩)
      rw [mem_distinct, List.mem_filter] at this
      exact List.mem_map.1 this.1
    · intro hall
      apply le_antisymm
      · apply (hnd.subperm ?_).length_le
        intro i hi
        rw [List.mem_filter] at hi
        rw [mem_distinct, List.mem_filter]
        obtain ⟨m, hm, he⟩ := hall i hi.1 (by simpa using hi.2)
        exact ⟨List.mem_map.2 ⟨m, hm, he⟩, hi.2⟩
      · exact hsp.length_le
  unfold isFullyMatched
  rw [Bool.and_eq_true, beq_iff_eq, beq_iff_eq, key hr1 hl1 h1, key hr2 hl2 h2]

/-! ### Examples -/

/-- A side given by labels, with the level that the command line gives it. -/
def demoSide (l : List PyStr) : Side := ⟨none, l, rowLevel Demo.store none l⟩

/-- Mapping data: exact on both sides, by id, and ambiguous on the second side. -/
def demoData : List (Side × Side × ℚ) :=
  [(demoSide [Demo.lx, Demo.l1], demoSide [Demo.lx, []], 10),
   (demoSide [Demo.ly, Demo.l1], demoSide [Demo.ly, Demo.l1], 4),
   (⟨some 2, [], rowLevel Demo.store (some 2) []⟩, demoSide [Demo.lx, Demo.l2], 8)]

/-- The data loaded and matched, with overlaps or without. -/
def demoMatches (data : List (Side × Side × ℚ)) (limit : Nat) (allow : Bool) :
    Except Err (List SourceRow × List Match × List Match) := do
  let rows ← loadRows Demo.store Demo.store data
  let m1 ← matchRecords Demo.store limit allow (rows.map fun r => (r.run, r.node1))
  let m2 ← matchRecords Demo.store limit allow (rows.map fun r => (r.run, r.node2))
  .ok (rows, m1, m2)

theorem demoMatches_ok {data : List (Side × Side × ℚ)} {x : List SourceRow × List Match × List Match}
    (h : demoMatches data limit allow = .ok x) : loadRows Demo.store Demo.store data = .ok x.1 ∧
    matchRecords Demo.store limit allow (x.1.map fun r => (r.run, r.node1)) = .ok x.2.1 ∧
    matchRecords Demo.store limit allow (x.1.map fun r => (r.run, r.node2)) = .ok x.2.2 := by
  unfold demoMatches at h
  generalize Demo.store = s at h ⊢
  rcases hr : loadRows s s data with e | rows
  · rw [hr] at h; cases h
  rw [hr] at h
  rcases h1 : matchRecords s limit allow (rows.map fun r => (r.run, r.node1)) with e | m1
  · simp only [bind, Except.bind, h1] at h; cases h
  rcases h2 : matchRecords s limit allow (rows.map fun r => (r.run, r.node2)) with e | m2
  · simp only [bind, Except.bind, h1, h2] at h; cases h
  simp only [bind, Except.bind, h1, h2] at h
  cases h
  exact ⟨rfl, h1, h2⟩

/-- The hypotheses of C39, C40 and C58 can be met: with overlaps the first row is shared 3 : 1, by weight. -/
example : Reachable Demo.store ∧
    (demoMatches demoData 10 true).toOption.map (fun x => x.1.map fun r => (r.run, r.value)) =
      some [(1, 10), (2, 4), (3, 8)] ∧
    (demoMatches demoData 10 true).toOption.map (fun x => x.2.1.map fun m => (m.run, m.index, m.prop)) =
      some [(1, 1, some 1), (2, 3, some 1), (3, 2, some 1)] ∧
    (demoMatches demoData 10 true).toOption.map (fun x => x.2.2.map fun m => (m.run, m.index, m.prop)) =
      some [(2, 3, some 1), (3, 2, some 1), (1, 1, some (3/4)), (1, 2, some (1/4))] ∧
    (demoMatches demoData 10 true).toOption.map (fun x => iterMappings x.1 x.2.1 x.2.2) =
      some [⟨1, 1, [0x80#8], some (15/2)⟩, ⟨1, 2, [0x80#8], some (5/2)⟩, ⟨2, 2, [0xC0#8], some 8⟩,
        ⟨3, 3, [0xC0#8], some 4⟩] :=
  ⟨Demo.reachable, by decide +kernel, by decide +kernel, by decide +kernel, by decide +kernel⟩

/-- Without overlaps it is matched only with the record that is not matched at the finer level. Beyond the limit
it is not matched. -/
example : (demoMatches demoData 10 false).toOption.map (fun x => x.2.2.map fun m => (m.run, m.index)) =
      some [(2, 3), (3, 2), (1, 1)] ∧
    (demoMatches demoData 1 false).toOption.map (fun x => x.2.2.map fun m => (m.run, m.index)) =
      some [(2, 3), (3, 2)] :=
  ⟨by decide +kernel, by decide +kernel⟩

/-- The hypotheses of C58 on counts can be met: two records have the label `x`. -/
example : (demoSide [Demo.lx, []]).Count Demo.store 2 ∧ (demoSide [Demo.ly, []]).Count Demo.store 1 := by
  have h : ∀ l : List PyStr, l.length = Demo.store.cols.length → (demoSide l).Count Demo.store
      (findRecords Demo.store 1 (demoSide l)).found.length := fun l hl =>
    have h := findRecords_found (run := 1) Demo.reachable (x := demoSide l) fun _ => hl
    ⟨_, h.1, h.2, rfl⟩
  have h2 := h [Demo.lx, []] (by decide +kernel)
  have h1 := h [Demo.ly, []] (by decide +kernel)
  rw [show (findRecords Demo.store 1 (demoSide [Demo.lx, []])).found.length = 2 by decide +kernel] at h2
  rw [show (findRecords Demo.store 1 (demoSide [Demo.ly, []])).found.length = 1 by decide +kernel] at h1
  exact ⟨h2, h1⟩

/-- The data loaded into the file: whether it is fully matched, and the mappings afterwards. -/
def demoLoad (data : List (Side × Side × ℚ)) : Option (Bool × List OutRow × Store) := do
  let x ← (demoMatches data 10 true).toOption
  let out := iterMappings x.1 x.2.1 x.2.2
  let y ← (insertMappings2 Demo.other none (out.map OutRow.toMapRow) Demo.store).toOption
  some (isFullyMatched Demo.store Demo.store x.2.1 x.2.2, out, y.2)

/-- The hypotheses of C59 can be met. -/
example : (demoLoad demoData).map (fun x => x.1) = some true ∧ (demoLoad demoData).map (fun x => entries x.2.2 1) =
    some [(1, 1, [0xC0#8], 10), (1, 2, [0xC0#8], 30), (2, 3, [0xC0#8], 30), (1, 1, [0x80#8], 15/2),
      (1, 2, [0x80#8], 5/2), (2, 2, [0xC0#8], 8), (3, 3, [0xC0#8], 4)] :=
  ⟨by decide +kernel, by decide +kernel⟩

/-- C59 is violated for a row without labels on the target's side: it is matched with every record, and the data
counts as fully matched, but loading it stores nothing. -/
theorem C59_blank_violated : ∃ data rows m1 m2 s', Reachable Demo.store ∧
    loadRows Demo.store Demo.store data = .ok rows ∧
    matchRecords Demo.store 10 true (rows.map fun r => (r.run, r.node1)) = .ok m1 ∧
    matchRecords Demo.store 10 true (rows.map fun r => (r.run, r.node2)) = .ok m2 ∧
    isFullyMatched Demo.store Demo.store m1 m2 = true ∧
    insertMappings2 Demo.other none ((iterMappings rows m1 m2).map OutRow.toMapRow) Demo.store = .ok ((), s') ∧
    0 < ((iterMappings rows m1 m2).map OutRow.amount).sum ∧ s'.maps = Demo.store.maps := by
  have h : (match demoMatches [(demoSide [[], []], demoSide [[], []], 27)] 10 true with
      | .error _ => false
      | .ok (rows, m1, m2) =>
        match insertMappings2 Demo.other none ((iterMappings rows m1 m2).map OutRow.toMapRow) Demo.store with
        | .error _ => false
        | .ok (_, s') => isFullyMatched Demo.store Demo.store m1 m2 &&
          decide (0 < ((iterMappings rows m1 m2).map OutRow.amount).sum) && decide (s'.maps = Demo.store.maps)) =
      true := by decide +kernel
  split at h
  · cases h
  rename_i rows m1 m2 hm
  split at h
  · cases h
  rename_i u s' hi
  simp only [Bool.and_eq_true, decide_eq_true_eq] at h
  obtain ⟨hr, h1, h2⟩ := demoMatches_ok hm
  exact ⟨_, _, _, _, _, Demo.reachable, hr, h1, h2, h.1.1, hi, h.1.2, h.2⟩

end Toron.Mapper
