/-
Lemmas about the legacy mapper.
-/
import Verif.Spec.LegacyMapper
import Verif.Lemmas.Legacy.Hist
import Verif.Lemmas.Legacy.Removal
import Verif.Lemmas.Py
import Mathlib.Algebra.BigOperators.Group.List.Basic
import Mathlib.Tactic.Ring
import Mathlib.Tactic.FieldSimp

namespace Toron.Legacy

open Toron.Selectors (PyStr)
open Toron.Space (IndexRec asciiLower)

/-! ### Records that fit -/

theorem lookup_zip_iff {cols labels : List PyStr} (hc : cols.Nodup) (c x : PyStr) :
    (cols.zip labels).lookup c = some x ↔ (c, x) ∈ cols.zip labels := by
  induction cols generalizing labels with
  | nil => simp
  | cons d ds ih =>
    cases labels with
    | nil => simp
    | cons y ys =>
      rw [List.nodup_cons] at hc
      rw [List.zip_cons_cons, List.lookup_cons, List.mem_cons, Prod.mk.injEq]
      by_cases hd : c = d
      · subst hd
        simp only [beq_self_eq_true, Option.some.injEq, true_and]
        constructor
        · exact fun h => .inl h.symm
        · rintro (h | h)
          · exact h.symm
          · exact absurd (List.of_mem_zip h).1 hc.1
      · have : (c == d) = false := by simpa using hd
        rw [this]
        simp only [hd, false_and, false_or]
        exact ih hc.2

theorem Reachable.colsNodup {n : Node} (h : Reachable n) : n.cols.Nodup := h.inv2.names.of_map _

theorem recordsWhere_eq {n : Node} (h : Reachable n) (header labels : List PyStr) :
    n.recordsWhere (whereOf header labels) = n.fitting header labels := by
  unfold Node.recordsWhere Node.fitting
  apply List.filter_congr
  intro r _
  rw [Bool.eq_iff_iff, List.all_eq_true, decide_eq_true_iff]
  unfold whereOf
  simp only [List.mem_filter, decide_eq_true_eq, beq_iff_eq, and_imp]
  refine forall_congr' fun cl => forall_congr' fun _ => forall_congr' fun _ => ?_
  exact lookup_zip_iff h.colsNodup cl.1 cl.2

theorem levelOf_eq (n : Node) (header labels : List PyStr) :
    n.levelOf (whereOf header labels) = n.columnsUsed header labels := by
  unfold Node.levelOf Node.columnsUsed whereOf
  apply List.map_congr_left
  intro c _
  rw [decide_eq_decide, List.mem_map]
  simp only [List.mem_filter, decide_eq_true_eq, and_assoc]

/-! ### The loop over ambiguous labels -/

/-- What one step adds. -/
theorem addAmbiguous_ok {n : Node} {a : MatchArgs} {header : List PyStr} {rows : List (Nat × List PyStr)} {found out : List Found}
    {labels : List PyStr} (h : n.addAmbiguous a header rows found labels = .ok out) :
    out = found ∨ ∃ all, n.weightRows a.weighting (whereOf header labels) = .ok all ∧ ∃ records,
      (∀ r ∈ records, ∃ w, r.2 = some w ∧ 0 ≤ w) ∧
      records = all.filter (fun r => a.overlap || !found.any fun m => m.index == r.1) ∧
      out = found ++ (runsOf rows labels).flatMap fun run =>
        records.map fun r => ⟨run, r.1, r.2, some (n.levelOf (whereOf header labels))⟩ := by
  unfold Node.addAmbiguous at h
  simp only [bind, Except.bind] at h
  rcases hw : n.weightRows a.weighting (whereOf header labels) with e | all
  · rw [hw] at h; cases h
  rw [hw] at h
  simp only at h
  have hrec : (if a.overlap then all else all.filter fun r => !found.any fun m => m.index == r.1) =
      all.filter (fun r => a.overlap || !found.any fun m => m.index == r.1) := by
    cases a.overlap
    · simp
    · simp
  rw [hrec] at h
  generalize hrs : all.filter (fun r => a.overlap || !found.any fun m => m.index == r.1) = records at h
  by_cases h1 : (records.any fun r => r.2.isNone) = true
  · rw [if_pos h1] at h
    cases h
    exact .inl rfl
  · rw [if_neg h1] at h
    by_cases h2 : (records.any fun r => decide (r.2.getD 0 < 0)) = true
    · rw [if_pos h2] at h; cases h
    · rw [if_neg h2] at h
      cases h
      refine .inr ⟨all, rfl, records, ?_, hrs.symm, rfl⟩
      intro r hr
      rw [Bool.not_eq_true, List.any_eq_false] at h1 h2
      have h1' := h1 r hr
      have h2' := h2 r hr
      rcases hv : r.2 with _ | w
      · rw [hv] at h1'; exact absurd rfl h1'
      · rw [hv] at h2'
        exact ⟨w, rfl, by simpa using h2'⟩

theorem foldlM_induct {α β : Type} {f : β → α → Except Err β} {P : β → Prop} {l : List α} {b out : β}
    (h : l.foldlM f b = .ok out) (h0 : P b) (hs : ∀ b x b', x ∈ l → P b → f b x = .ok b' → P b') : P out := by
  induction l generalizing b with
  | nil => cases h; exact h0
  | cons x xs ih =>
    rw [List.foldlM_cons] at h
    rcases hx : f b x with e | b'
    · rw [hx] at h; cases h
    · rw [hx] at h
      exact ih h (hs b x b' (by simp) h0 hx) fun b y b' hy => hs b y b' (by simp [hy])

theorem findMatches_cases {n : Node} {a : MatchArgs} {header : List PyStr} {rows : List (Nat × List PyStr)} {found : List Found}
    (h : n.findMatches a header rows = .ok found) :
    1 ≤ a.limit ∧ ∃ groups amb : List (List PyStr), groups.Perm (rows.map (·.2)).dedup ∧ amb.Nodup ∧
      (∀ g, g ∈ amb ↔ g ∈ groups ∧ ∃ k, n.fit a.limit (whereOf header g) = .ambiguous k) ∧
      amb.foldlM (n.addAmbiguous a header rows) (groups.flatMap (n.exactMatches a header rows)) = .ok found := by
  unfold Node.findMatches at h
  by_cases h1 : a.limit < 1
  · simp only [h1, if_true] at h; cases h
  simp only [if_neg h1] at h
  split at h
  · cases h
  refine ⟨not_lt.1 h1, sortedBy a.before (rows.map (·.2)).dedup, _, sortedBy_perm _ _, ?_, ?_, h⟩
  · have hp : (sortedBy (fun x y : List PyStr × Nat => decide (x.2 ≤ y.2))
        ((sortedBy a.before (rows.map (·.2)).dedup).filterMap (n.ambiguity a header))).Perm _ := sortedBy_perm _ _
    rw [(hp.map (·.1)).nodup_iff]
    have hnd : (sortedBy a.before (rows.map (·.2)).dedup).Nodup := by
      rw [(sortedBy_perm _ _).nodup_iff]; exact List.nodup_dedup _
    refine List.Nodup.sublist (l₂ := sortedBy a.before (rows.map (·.2)).dedup) ?_ hnd
    clear hnd hp h
    generalize sortedBy a.before (rows.map (·.2)).dedup = gs
    induction gs with
    | nil => exact List.Sublist.refl _
    | cons g gs ih =>
      rw [List.filterMap_cons]
      unfold Node.ambiguity at ih ⊢
      cases n.fit a.limit (whereOf header g) with
      | exact i => exact ih.cons _
      | skipped => exact ih.cons _
      | ambiguous k => exact ih.cons_cons _
  · intro g
    simp only [List.mem_map, mem_sortedBy, List.mem_filterMap]
    constructor
    · rintro ⟨p, ⟨l, hl, hp⟩, rfl⟩
      unfold Node.ambiguity at hp
      cases hf : n.fit a.limit (whereOf header l) with
      | exact i => rw [hf] at hp; cases hp
      | skipped => rw [hf] at hp; cases hp
      | ambiguous k => rw [hf] at hp; cases hp; exact ⟨hl, k, hf⟩
    · rintro ⟨hg, k, hf⟩
      exact ⟨(g, k), ⟨g, hg, by unfold Node.ambiguity; rw [hf]⟩, rfl⟩

theorem mem_runsOf {rows : List (Nat × List PyStr)} {labels : List PyStr} {run : Nat} :
    run ∈ runsOf rows labels ↔ (run, labels) ∈ rows := by
  unfold runsOf
  simp only [List.mem_map, List.mem_filter, decide_eq_true_eq]
  constructor
  · rintro ⟨r, ⟨hr, rfl⟩, rfl⟩; exact hr
  · intro h; exact ⟨_, ⟨h, rfl⟩, rfl⟩

theorem run_unique {rows : List (Nat × List PyStr)} (hn : (rows.map (·.1)).Nodup) {run : Nat} {l l' : List PyStr}
    (h : (run, l) ∈ rows) (h' : (run, l') ∈ rows) : l = l' :=
  congrArg Prod.snd (List.inj_on_of_nodup_map hn h h' rfl)

/-- All matches: where they come from. -/
structure FoundOk (n : Node) (a : MatchArgs) (header : List PyStr) (rows : List (Nat × List PyStr)) (m : Found) : Prop where
  source : ∃ labels, (m.run, labels) ∈ rows ∧
    ((m.weight = none ∧ m.level = none ∧ n.fit a.limit (whereOf header labels) = .exact m.index) ∨
      ∃ w k all, m.weight = some w ∧ 0 ≤ w ∧ n.fit a.limit (whereOf header labels) = .ambiguous k ∧
        m.level = some (n.levelOf (whereOf header labels)) ∧
        n.weightRows a.weighting (whereOf header labels) = .ok all ∧ (m.index, some w) ∈ all)

theorem mem_exactMatches {n : Node} {a : MatchArgs} {header : List PyStr} {rows : List (Nat × List PyStr)}
    {labels : List PyStr} {m : Found} : m ∈ n.exactMatches a header rows labels ↔
      (m.run, labels) ∈ rows ∧ m.weight = none ∧ m.level = none ∧ n.fit a.limit (whereOf header labels) = .exact m.index := by
  unfold Node.exactMatches
  rcases hf : n.fit a.limit (whereOf header labels) with i | k | _
  · simp only [List.mem_map, mem_runsOf, Fit.exact.injEq]
    constructor
    · rintro ⟨run, hr, rfl⟩; exact ⟨hr, rfl, rfl, rfl⟩
    · obtain ⟨run, index, weight, level⟩ := m
      rintro ⟨hr, h1, h2, h3⟩
      exact ⟨run, hr, by simp only at h1 h2 h3; rw [h1, h2, h3]⟩
  · simp
  · simp

theorem found_ok {n : Node} {a : MatchArgs} {header : List PyStr} {rows : List (Nat × List PyStr)} {found : List Found}
    (h : n.findMatches a header rows = .ok found) : ∀ m ∈ found, FoundOk n a header rows m := by
  obtain ⟨_, groups, amb, hg, _, hamb, hf⟩ := findMatches_cases h
  refine foldlM_induct (P := fun out => ∀ m ∈ out, FoundOk n a header rows m) hf ?_ ?_
  · intro m hm
    obtain ⟨l, _, hm⟩ := List.mem_flatMap.1 hm
    obtain ⟨h1, h2, h3, h4⟩ := mem_exactMatches.1 hm
    exact ⟨l, h1, .inl ⟨h2, h3, h4⟩⟩
  · intro b labels b' hl hb hs m hm
    rcases addAmbiguous_ok hs with rfl | ⟨all, hall, records, hrec, hsub, rfl⟩
    · exact hb m hm
    · rcases List.mem_append.1 hm with hm | hm
      · exact hb m hm
      · obtain ⟨run, hrun, hm⟩ := List.mem_flatMap.1 hm
        obtain ⟨r, hr, rfl⟩ := List.mem_map.1 hm
        obtain ⟨w, hw, h0⟩ := hrec r hr
        obtain ⟨k, hk⟩ := ((hamb labels).1 hl).2
        refine ⟨labels, mem_runsOf.1 hrun, .inr ⟨w, k, all, hw, h0, hk, rfl, hall, ?_⟩⟩
        rw [hsub] at hr
        rw [← hw]
        exact List.mem_of_mem_filter hr

/-- The matches of one row of the table. -/
theorem found_run {n : Node} {a : MatchArgs} {header : List PyStr} {rows : List (Nat × List PyStr)} {found : List Found}
    (hn : (rows.map (·.1)).Nodup) (h : n.findMatches a header rows = .ok found) {run : Nat} {labels : List PyStr}
    (hr : (run, labels) ∈ rows) :
    found.filter (fun m => m.run == run) =
      match n.fit a.limit (whereOf header labels) with
      | .exact i => [⟨run, i, none, none⟩]
      | _ => found.filter (fun m => m.run == run && m.weight.isSome) := by
  obtain ⟨_, groups, amb, hg, _, hamb, hf⟩ := findMatches_cases h
  rcases hfit : n.fit a.limit (whereOf header labels) with i | k | _
  · refine foldlM_induct (P := fun out => out.filter (fun m => m.run == run) = [⟨run, i, none, none⟩]) hf ?_ ?_
    · have hmem : labels ∈ groups := by
        rw [hg.mem_iff, List.mem_dedup]; exact List.mem_map_of_mem hr
      have hnd : groups.Nodup := by rw [hg.nodup_iff]; exact List.nodup_dedup _
      have hruns : ∀ l, (runsOf rows l).Nodup := fun l => by
        unfold runsOf
        exact (hn.sublist ((List.filter_sublist).map _))
      have hone : (n.exactMatches a header rows labels).filter (fun m => m.run == run) = [⟨run, i, none, none⟩] := by
        unfold Node.exactMatches
        rw [hfit]
        simp only
        rw [List.filter_map]
        have : (runsOf rows labels).filter ((fun m : Found => m.run == run) ∘ fun run => (⟨run, i, none, none⟩ : Found)) = [run] := by
          have hm : run ∈ runsOf rows labels := mem_runsOf.2 hr
          have hd := hruns labels
          generalize runsOf rows labels = rs at hm hd
          induction rs with
          | nil => cases hm
          | cons x xs ih =>
            rw [List.nodup_cons] at hd
            by_cases hx : x = run
            · subst hx
              rw [List.filter_cons_of_pos (by simp)]
              congr 1
              rw [List.filter_eq_nil_iff]
              intro y hy hyx
              have : y = x := by simpa using hyx
              exact hd.1 (this ▸ hy)
            · rw [List.filter_cons_of_neg (by simpa using hx)]
              exact ih ((List.mem_cons.1 hm).resolve_left fun h => hx h.symm) hd.2
        rw [this]
        rfl
      have hother : ∀ l, l ≠ labels → (n.exactMatches a header rows l).filter (fun m => m.run == run) = [] := by
        intro l hl
        rw [List.filter_eq_nil_iff]
        intro m hm hmr
        have h1 := (mem_exactMatches.1 hm).1
        have : m.run = run := by simpa using hmr
        rw [this] at h1
        exact hl (run_unique hn h1 hr)
      clear hf hamb hg
      induction groups with
      | nil => cases hmem
      | cons g gs ih =>
        rw [List.nodup_cons] at hnd
        rw [List.flatMap_cons, List.filter_append]
        by_cases hgl : g = labels
        · subst hgl
          rw [hone]
          have : (gs.flatMap (n.exactMatches a header rows)).filter (fun m => m.run == run) = [] := by
            rw [List.filter_flatMap, List.flatMap_eq_nil_iff]
            intro l hl
            exact hother l fun h => hnd.1 (h ▸ hl)
          rw [this, List.append_nil]
        · rw [hother g hgl, List.nil_append]
          exact ih ((List.mem_cons.1 hmem).resolve_left fun h => hgl h.symm) hnd.2
    · intro b l b' hl hb hs
      rcases addAmbiguous_ok hs with rfl | ⟨all, hall, records, hrec, hsub, rfl⟩
      · exact hb
      · rw [List.filter_append, hb]
        have : ((runsOf rows l).flatMap fun run => records.map fun r =>
            (⟨run, r.1, r.2, some (n.levelOf (whereOf header l))⟩ : Found)).filter (fun m => m.run == run) = [] := by
          rw [List.filter_eq_nil_iff]
          intro m hm hmr
          obtain ⟨run', hrun', hm⟩ := List.mem_flatMap.1 hm
          obtain ⟨r, _, rfl⟩ := List.mem_map.1 hm
          have : run' = run := by simpa using hmr
          subst this
          have := run_unique hn (mem_runsOf.1 hrun') hr
          subst this
          obtain ⟨k, hk⟩ := ((hamb l).1 hl).2
          rw [hfit] at hk
          cases hk
        rw [this, List.append_nil]
  all_goals
    apply List.filter_congr
    intro m hm
    rcases hmr : m.run == run
    · simp
    · have hmr' : m.run = run := by simpa using hmr
      obtain ⟨l, hl, hc⟩ := (found_ok h m hm).source
      rw [hmr'] at hl
      have := run_unique hn hl hr
      subst this
      rcases hc with ⟨_, _, hx⟩ | ⟨w, _, _, hw, _⟩
      · rw [hfit] at hx; cases hx
      · rw [hw]; rfl

/-! ### What fits -/

theorem fit_exact {n : Node} (hr : Reachable n) {limit : ℚ} {header labels : List PyStr} {i : Nat} :
    n.fit limit (whereOf header labels) = .exact i ↔ ∃ r, n.fitting header labels = [r] ∧ r.id = i := by
  unfold Node.fit
  rw [recordsWhere_eq hr]
  rcases n.fitting header labels with _ | ⟨r, _ | ⟨r', rs⟩⟩
  · simp
  · simp
  · simp only
    split_ifs <;> simp

theorem fit_ambiguous {n : Node} (hr : Reachable n) {limit : ℚ} {header labels : List PyStr} {k : Nat} :
    n.fit limit (whereOf header labels) = .ambiguous k ↔ (n.fitting header labels).length = k ∧ 2 ≤ k ∧ (k : ℚ) ≤ limit ∧
      n.columnsUsed header labels ∈ n.structs.map (·.bits) := by
  unfold Node.fit
  rw [recordsWhere_eq hr, levelOf_eq]
  rcases n.fitting header labels with _ | ⟨r, _ | ⟨r', rs⟩⟩
  · simp only [List.length_nil, reduceCtorEq, false_iff]
    rintro ⟨h1, h2, _⟩
    omega
  · simp only [List.length_singleton, reduceCtorEq, false_iff]
    rintro ⟨h1, h2, _⟩
    omega
  · simp only
    by_cases h1 : n.columnsUsed header labels ∈ n.structs.map (·.bits)
    · rw [if_pos h1]
      by_cases h2 : ((r :: r' :: rs).length : ℚ) ≤ limit
      · rw [if_pos h2]
        constructor
        · intro h
          cases h
          exact ⟨rfl, by simp, h2, h1⟩
        · rintro ⟨h, _⟩
          rw [h]
      · rw [if_neg h2]
        constructor
        · intro h; cases h
        · rintro ⟨h, _, h', _⟩
          rw [h] at h2
          exact absurd h' h2
    · rw [if_neg h1]
      constructor
      · intro h; cases h
      · rintro ⟨_, _, _, h⟩
        exact absurd h h1

theorem mem_weightRows {n : Node} (hr : Reachable n) {name : Option PyStr} {header labels : List PyStr}
    {all : List (Nat × Option ℚ)} (h : n.weightRows name (whereOf header labels) = .ok all) {i : Nat} {w : ℚ}
    (hm : (i, some w) ∈ all) : (∃ r ∈ n.fitting header labels, r.id = i) ∧ ∃ x ∈ n.weights, x.index = i ∧ x.value = w := by
  unfold Node.weightRows at h
  cases hname : name.or n.default with
  | none => rw [hname] at h; cases h
  | some nm =>
    rw [hname] at h
    simp only at h
    split at h
    · cases h
      obtain ⟨r, hr', hm⟩ := List.mem_flatMap.1 hm
      rw [recordsWhere_eq hr] at hr'
      cases hws : n.weights.filter fun w => w.index == r.id with
      | nil =>
        rw [hws] at hm
        simp at hm
      | cons x xs =>
        rw [hws] at hm
        simp only [List.mem_map] at hm
        obtain ⟨y, hy, he⟩ := hm
        cases he
        rw [← hws, List.mem_filter] at hy
        exact ⟨⟨r, hr', rfl⟩, y, hy.1, by simpa using hy.2, rfl⟩
    · cases h

/-! ### Matches of ambiguous labels -/

theorem foldlM_keeps {n : Node} {a : MatchArgs} {header : List PyStr} {rows : List (Nat × List PyStr)}
    (hn : (rows.map (·.1)).Nodup) {run : Nat} {labels : List PyStr} (hr : (run, labels) ∈ rows) {ls : List (List PyStr)}
    (hl : labels ∉ ls) {b out : List Found} (h : ls.foldlM (n.addAmbiguous a header rows) b = .ok out) :
    out.filter (fun m => m.run == run) = b.filter (fun m => m.run == run) := by
  refine foldlM_induct (P := fun out => out.filter (fun m => m.run == run) = b.filter (fun m => m.run == run)) h rfl ?_
  intro b l b' hl' hb hs
  rcases addAmbiguous_ok hs with rfl | ⟨all, hall, records, hrec, hsub, rfl⟩
  · exact hb
  · rw [List.filter_append, hb]
    have : ((runsOf rows l).flatMap fun run => records.map fun r =>
        (⟨run, r.1, r.2, some (n.levelOf (whereOf header l))⟩ : Found)).filter (fun m => m.run == run) = [] := by
      rw [List.filter_eq_nil_iff]
      intro m hm hmr
      obtain ⟨run', hrun', hm⟩ := List.mem_flatMap.1 hm
      obtain ⟨r, _, rfl⟩ := List.mem_map.1 hm
      have : run' = run := by simpa using hmr
      subst this
      exact hl (run_unique hn (mem_runsOf.1 hrun') hr ▸ hl')
    rw [this, List.append_nil]

theorem filter_flatMap_run {runs : List Nat} (hn : runs.Nodup) {run : Nat} (hm : run ∈ runs) (f : Nat → List Found)
    (hf : ∀ x, ∀ m ∈ f x, m.run = x) : (runs.flatMap f).filter (fun m => m.run == run) = f run := by
  induction runs with
  | nil => cases hm
  | cons x xs ih =>
    rw [List.nodup_cons] at hn
    rw [List.flatMap_cons, List.filter_append]
    have hx : ∀ y, (f y).filter (fun m => m.run == run) = if y = run then f y else [] := by
      intro y
      by_cases hy : y = run
      · rw [if_pos hy, List.filter_eq_self]
        intro m hm
        simp [hf y m hm, hy]
      · rw [if_neg hy, List.filter_eq_nil_iff]
        intro m hm
        simp [hf y m hm, hy]
    by_cases hxr : x = run
    · subst hxr
      rw [hx, if_pos rfl]
      have : (xs.flatMap f).filter (fun m => m.run == x) = [] := by
        rw [List.filter_flatMap, List.flatMap_eq_nil_iff]
        intro y hy
        rw [hx, if_neg]
        rintro rfl
        exact hn.1 hy
      rw [this, List.append_nil]
    · rw [hx, if_neg hxr, List.nil_append]
      exact ih hn.2 ((List.mem_cons.1 hm).resolve_left fun h => hxr h.symm)

theorem found_ambiguous {n : Node} {a : MatchArgs} {header : List PyStr} {rows : List (Nat × List PyStr)} {found : List Found}
    (hn : (rows.map (·.1)).Nodup) (h : n.findMatches a header rows = .ok found) {run : Nat} {labels : List PyStr}
    (hr : (run, labels) ∈ rows) {k : Nat} (hk : n.fit a.limit (whereOf header labels) = .ambiguous k) :
    found.filter (fun m => m.run == run) = [] ∨
      ∃ all, n.weightRows a.weighting (whereOf header labels) = .ok all ∧ ∃ p : Nat → Bool, (a.overlap = true → ∀ i, p i = true) ∧
        (∀ r ∈ all.filter (fun r => p r.1), ∃ w, r.2 = some w ∧ 0 ≤ w) ∧
        found.filter (fun m => m.run == run) =
          (all.filter fun r => p r.1).map fun r => ⟨run, r.1, r.2, some (n.levelOf (whereOf header labels))⟩ := by
  obtain ⟨_, groups, amb, hg, hnd, hamb, hf⟩ := findMatches_cases h
  have hmem : labels ∈ amb := (hamb labels).2 ⟨by rw [hg.mem_iff, List.mem_dedup]; exact List.mem_map_of_mem hr, k, hk⟩
  have h0 : (groups.flatMap (n.exactMatches a header rows)).filter (fun m => m.run == run) = [] := by
    rw [List.filter_eq_nil_iff]
    intro m hm hmr
    obtain ⟨l, _, hm⟩ := List.mem_flatMap.1 hm
    obtain ⟨h1, _, _, h4⟩ := mem_exactMatches.1 hm
    have : m.run = run := by simpa using hmr
    rw [this] at h1
    rw [run_unique hn h1 hr, hk] at h4
    cases h4
  obtain ⟨l1, l2, rfl⟩ := List.append_of_mem hmem
  have hl1 : labels ∉ l1 := fun hm => by
    rw [List.nodup_append] at hnd
    exact hnd.2.2 _ hm _ (by simp) rfl
  have hl2 : labels ∉ l2 := by
    rw [List.nodup_append, List.nodup_cons] at hnd
    exact hnd.2.1.1
  rw [List.foldlM_append] at hf
  rcases h1 : l1.foldlM (n.addAmbiguous a header rows) (groups.flatMap (n.exactMatches a header rows)) with e | b1
  · rw [h1] at hf; cases hf
  rw [h1] at hf
  simp only [bind, Except.bind] at hf
  rw [List.foldlM_cons] at hf
  rcases h2 : n.addAmbiguous a header rows b1 labels with e | b2
  · rw [h2] at hf; cases hf
  rw [h2] at hf
  simp only [bind, Except.bind] at hf
  rw [foldlM_keeps hn hr hl2 hf]
  have hb1 := (foldlM_keeps hn hr hl1 h1).trans h0
  rcases addAmbiguous_ok h2 with rfl | ⟨all, hall, records, hrec, hsub, rfl⟩
  · exact .inl hb1
  · right
    refine ⟨all, hall, fun i => a.overlap || !b1.any fun m => m.index == i, fun h _ => by simp [h], ?_, ?_⟩
    · rw [← hsub]; exact hrec
    · rw [List.filter_append, hb1, List.nil_append, ← hsub]
      refine filter_flatMap_run ?_ (mem_runsOf.2 hr) _ ?_
      · unfold runsOf
        exact hn.sublist ((List.filter_sublist).map _)
      · intro x m hm
        obtain ⟨r, _, rfl⟩ := List.mem_map.1 hm
        rfl

/-! ### Parts -/

theorem partsOf_eq (found : List Found) (run : Nat) :
    partsOf found run = (found.filter fun m => m.run == run).map fun m => (m.index, proportionIn found m) := by
  unfold partsOf
  congr 1

theorem partsOf_weights {found : List Found} {run : Nat} (h : ∀ m ∈ found, m.run = run → ∃ w, m.weight = some w) :
    partsOf found run = (found.filter fun m => m.run == run).map fun m => (m.index,
      if ((found.filter fun m => m.run == run).map fun m => m.weight.getD 0).sum = 0 then 1
      else m.weight.getD 0 / ((found.filter fun m => m.run == run).map fun m => m.weight.getD 0).sum) := by
  rw [partsOf_eq]
  apply List.map_congr_left
  intro m hm
  rw [List.mem_filter] at hm
  have hr : m.run = run := by simpa using hm.2
  obtain ⟨w, hw⟩ := h m hm.1 hr
  unfold proportionIn
  rw [hw, hr]
  rfl

theorem partsOf_exact {found : List Found} {run i : Nat} {l : Option (List Bool)}
    (h : found.filter (fun m => m.run == run) = [⟨run, i, none, l⟩]) : partsOf found run = [(i, 1)] := by
  rw [partsOf_eq, h]
  rfl

theorem sum_div_eq_one {l : List Found} {f : Found → ℚ} (h : (l.map f).sum ≠ 0) :
    (l.map fun m => if (l.map f).sum = 0 then 1 else f m / (l.map f).sum).sum = 1 := by
  have : (l.map fun m => if (l.map f).sum = 0 then 1 else f m / (l.map f).sum) = l.map fun m => f m * ((l.map f).sum)⁻¹ := by
    apply List.map_congr_left
    intro m _
    rw [if_neg h, div_eq_mul_inv]
  rw [this, List.sum_map_mul_right]
  exact mul_inv_cancel₀ h

end Toron.Legacy
