/-
C123: a link that was made from a table is read as the table.
-/
import Verif.Model.Legacy.KeepLink
import Verif.Spec.LinkRoundtrip
import Verif.Props.LegacyMapper
import Verif.Props.LegacyReadLink

namespace Toron.Legacy

open Toron.Selectors (PyStr)
open Toron.Space (IndexRec)

/-! ### How a match is shown -/

theorem covers_levelBytes (flags : List Bool) (i : Nat) :
    Covers (some (levelBytes flags)) i ↔ Spec.bitAt flags i = true := by
  have h : Spec.bitAt (bytesToBitstream (levelBytes flags)) i = Spec.bitAt flags i := bitAt_toBits_ofBits flags i
  unfold Covers
  constructor
  · intro hc
    rw [← h]
    exact hc _ rfl
  · intro hb b e
    cases e
    rw [h]
    exact hb

theorem shownLabels_none (labels : List PyStr) : shownLabels labels none = labels.map some := by
  rw [shown_iff]
  refine ⟨by simp, fun i l hl => ⟨fun _ => by simp [hl], fun hc => absurd (fun b hb => by cases hb) hc⟩⟩

theorem shown_ambiguous {n : Node} (hr : Reachable n) {header labels : List PyStr} {r : IndexRec}
    (h : r ∈ n.fitting header labels) :
    shownLabels r.labels (some (levelBytes (n.columnsUsed header labels))) = n.cols.map (givenFor header labels) := by
  unfold Node.fitting at h
  rw [List.mem_filter, decide_eq_true_iff] at h
  obtain ⟨hri, hfit⟩ := h
  have hlen := hr.inv.len r hri
  rw [shown_iff]
  refine ⟨by rw [List.length_map, hlen], fun i l hl => ?_⟩
  have hi : i < n.cols.length := by
    rw [← hlen]
    exact (List.getElem?_eq_some_iff.1 hl).1
  obtain ⟨c, hc⟩ : ∃ c, n.cols[i]? = some c := ⟨_, List.getElem?_eq_getElem hi⟩
  have hzip : (c, l) ∈ n.cols.zip r.labels := by
    apply List.mem_of_getElem? (i := i)
    rw [List.getElem?_zip_eq_some]
    exact ⟨hc, hl⟩
  have hbit : Spec.bitAt (n.columnsUsed header labels) i = decide (∃ cl ∈ header.zip labels, cl.2 ≠ [] ∧ cl.1 = c) := by
    unfold Spec.bitAt Node.columnsUsed
    rw [List.getD_eq_getElem?_getD, List.getElem?_map, hc]
    rfl
  rw [covers_levelBytes, hbit, decide_eq_true_iff, List.getElem?_map, hc, Option.map_some, Option.some_inj]
  unfold givenFor
  constructor
  · rintro ⟨cl, hcl, hne, he⟩
    cases hf : (header.zip labels).find? fun cl => decide (cl.1 = c ∧ cl.2 ≠ []) with
    | none =>
      have := List.find?_eq_none.1 hf cl hcl
      rw [decide_eq_true_iff] at this
      exact absurd ⟨he, hne⟩ this
    | some x =>
      obtain ⟨x1, x2⟩ := x
      have h1 := List.find?_some hf
      rw [decide_eq_true_iff] at h1
      have h2 := hfit _ (List.mem_of_find?_eq_some hf) h1.2
      have h0 : x1 = c := h1.1
      rw [h0] at h2
      have h3 := (lookup_zip_iff hr.colsNodup c l).2 hzip
      have h4 := (lookup_zip_iff hr.colsNodup c x2).2 h2
      rw [h3, Option.some_inj] at h4
      rw [Option.map_some, h4]
  · intro hno
    have : (header.zip labels).find? (fun cl => decide (cl.1 = c ∧ cl.2 ≠ [])) = none := by
      rw [List.find?_eq_none]
      intro cl hcl
      rw [decide_eq_true_iff]
      exact fun hh => hno ⟨cl, hcl, hh.2, hh.1⟩
    rw [this]
    rfl

/-- A match is shown as the labels come back. -/
theorem found_shown {n : Node} (hr : Reachable n) {a : MatchArgs} {header : List PyStr} {rows : List (Nat × List PyStr)}
    {found : List Found} (hn : (rows.map (·.1)).Nodup) (h : n.findMatches a header rows = .ok found) {m : Found}
    (hm : m ∈ found) {labels : List PyStr} (hl : (m.run, labels) ∈ rows) :
    ∃ r ∈ n.index, r.id = m.index ∧ shownLabels r.labels (m.level.map levelBytes) = n.comesBack header labels := by
  obtain ⟨l, hl', h1 | ⟨w, k, all, _, _, h1, h2, h5, h6⟩⟩ := found_ok h m hm
  · rw [run_unique hn hl' hl] at h1
    obtain ⟨r, hf, he⟩ := (fit_exact hr).1 h1.2.2
    refine ⟨r, ?_, he, ?_⟩
    · have : r ∈ n.fitting header labels := by rw [hf]; exact List.mem_singleton_self _
      exact (List.mem_filter.1 this).1
    · rw [h1.2.1]
      unfold Node.comesBack
      rw [hf]
      exact shownLabels_none _
  · rw [run_unique hn hl' hl] at h1 h2 h5
    obtain ⟨⟨r, hrf, he⟩, -⟩ := mem_weightRows hr h5 h6
    obtain ⟨hk, h2k, -⟩ := (fit_ambiguous hr).1 h1
    refine ⟨r, (List.mem_filter.1 hrf).1, he, ?_⟩
    rw [h2, levelOf_eq]
    have := shown_ambiguous hr hrf
    refine this.trans ?_
    unfold Node.comesBack
    generalize n.fitting header labels = l at hk
    rcases l with _ | ⟨x, _ | ⟨y, ys⟩⟩
    · rfl
    · simp at hk; omega
    · rfl

/-! ### What is stored -/

theorem mem_keptRelations {link : Nat} {rows : List TableRow} {src dst : List Found} {m : Kept} :
    m ∈ keptRelations link rows src dst → ∃ x ∈ rows, ∃ p ∈ src, ∃ b ∈ dst, p.run = x.run ∧ b.run = x.run ∧ m.source = p.index ∧
      m.index = b.index ∧ m.level = b.level.map levelBytes := by
  unfold keptRelations
  rw [List.mem_map]
  rintro ⟨k, hk, rfl⟩
  rw [mem_sortedBy, List.mem_dedup, List.mem_map] at hk
  obtain ⟨p, hp, rfl⟩ := hk
  unfold relationPieces at hp
  obtain ⟨x, hx, hp⟩ := List.mem_flatMap.1 hp
  obtain ⟨a, ha, hp⟩ := List.mem_flatMap.1 hp
  obtain ⟨b, hb, rfl⟩ := List.mem_map.1 hp
  rw [List.mem_filter, beq_iff_eq] at ha hb
  exact ⟨x, hx, a, ha.1, b, hb.1, ha.2, hb.2, rfl, rfl, rfl⟩

theorem keptRelations_of {link : Nat} {rows : List TableRow} {src dst : List Found} {x : TableRow} (hx : x ∈ rows) {p b : Found}
    (hp : p ∈ src) (hb : b ∈ dst) (h1 : p.run = x.run) (h2 : b.run = x.run) :
    ∃ m ∈ keptRelations link rows src dst, m.source = p.index ∧ m.index = b.index ∧ m.level = b.level.map levelBytes := by
  refine ⟨_, List.mem_map.2 ⟨(p.index, b.index, b.level), ?_, rfl⟩, rfl, rfl, rfl⟩
  rw [mem_sortedBy, List.mem_dedup, List.mem_map]
  refine ⟨((p.index, b.index, b.level), x.value * (proportionIn src p * proportionIn dst b)), ?_, rfl⟩
  unfold relationPieces
  exact List.mem_flatMap.2 ⟨x, hx, List.mem_flatMap.2 ⟨p, List.mem_filter.2 ⟨hp, beq_iff_eq.2 h1⟩,
    List.mem_map.2 ⟨b, List.mem_filter.2 ⟨hb, beq_iff_eq.2 h2⟩, rfl⟩⟩⟩

theorem stored_wellFormed {n : Node} (hr : Reachable n) {a : MatchArgs} (ho : a.overlap = false) {header : List PyStr}
    {rows : List TableRow} {src dst : List Found} (hn : (rows.map (·.run)).Nodup)
    (h : n.findMatches a header (rows.map fun r => (r.run, r.right)) = .ok dst) (link : Nat) :
    WellFormed n.index (storedRelations link rows src dst) := by
  refine ⟨hr.inv.ids, hr.inv.labels, ?_, ?_⟩
  · unfold storedRelations
    rw [List.map_append, List.nodup_append]
    refine ⟨?_, by simp, ?_⟩
    · have h1 := relations_keys (rows := rows) (src := src) (found_level ho h)
      have h2 : (keptRelations link rows src dst).map (fun m => (m.source, m.index)) =
          (relations rows src dst).map fun g => (g.1, g.2.1) := by
        unfold keptRelations relations
        rw [List.map_map, List.map_map]
        rfl
      rw [← h2] at h1
      exact h1.sublist (List.filter_sublist.map _)
    · intro x hx y hy e
      obtain ⟨m, hm, rfl⟩ := List.mem_map.1 hx
      have hy : y = (0, 0) := by simpa using hy
      subst hy
      have := (List.mem_filter.1 hm).2
      rw [Prod.mk.injEq] at e
      simp [e.1, e.2] at this
  · intro m hm
    unfold storedRelations at hm
    rcases List.mem_append.1 hm with hm | hm
    · obtain ⟨x, hx, p, _, b, hb, _, h2, _, h4, _⟩ := mem_keptRelations (List.mem_filter.1 hm).1
      obtain ⟨r, hri, he, _⟩ := found_shown hr (by rw [List.map_map]; exact hn) h hb
        (labels := x.right) (List.mem_map.2 ⟨x, hx, by rw [h2]⟩)
      exact ⟨r, hri, by rw [he, h4]⟩
    · obtain ⟨rest, hi, _⟩ := hr.inv2.first
      rw [List.mem_singleton] at hm
      subst hm
      exact ⟨⟨0, List.replicate n.cols.length ['-']⟩, by rw [hi]; exact List.mem_cons_self, rfl⟩

/-! ### Reading -/

/-- **C123.** Which rows are read: for a record of the other node, exactly the labels of the rows of the table that this record
has a part of and that fit a record of the node. -/
theorem C123_rows {n : Node} (hr : Reachable n) {a : MatchArgs} {header : List PyStr}
    {rows : List TableRow} {src dst : List Found} (hn : (rows.map (·.run)).Nodup)
    (h : n.findMatches a header (rows.map fun r => (r.run, r.right)) = .ok dst) (link : Nat) {j : Nat} (hj : j ≠ 0)
    (given : List (Option PyStr)) :
    (∃ v, ⟨some j, v, given⟩ ∈ reconstructed n.index (storedRelations link rows src dst)) ↔
      ∃ x ∈ rows, n.comesBack header x.right = given ∧ j ∈ (partsOf src x.run).map (·.1) ∧ partsOf dst x.run ≠ [] := by
  have hn' : ((rows.map fun r => (r.run, r.right)).map (·.1)).Nodup := by rw [List.map_map]; exact hn
  rw [C121_rows]
  constructor
  · rintro ⟨m, hm, rfl, r, hri, he, hg⟩
    unfold storedRelations at hm
    rcases List.mem_append.1 hm with hm | hm
    · obtain ⟨x, hx, p, hp, b, hb, h1, h2, h3, h4, h5⟩ := mem_keptRelations (List.mem_filter.1 hm).1
      obtain ⟨r', hri', he', hs⟩ := found_shown hr hn' h hb (labels := x.right) (List.mem_map.2 ⟨x, hx, by rw [h2]⟩)
      have : r = r' := List.inj_on_of_nodup_map hr.inv.ids hri hri' (by rw [he, he', h4])
      refine ⟨x, hx, ?_, ?_, ?_⟩
      · rw [← hs, ← this, ← h5]
        exact (shown_iff _ _ _).2 hg
      · rw [partsOf_eq, List.map_map]
        exact List.mem_map.2 ⟨p, List.mem_filter.2 ⟨hp, beq_iff_eq.2 h1⟩, h3.symm⟩
      · rw [partsOf_eq]
        exact List.ne_nil_of_mem (List.mem_map.2 ⟨b, List.mem_filter.2 ⟨hb, beq_iff_eq.2 h2⟩, rfl⟩)
    · rw [List.mem_singleton] at hm
      subst hm
      exact absurd rfl hj
  · rintro ⟨x, hx, rfl, hp, hd⟩
    rw [partsOf_eq, List.map_map] at hp
    obtain ⟨p, hpm, hpj⟩ := List.mem_map.1 hp
    have hpj : p.index = j := hpj
    subst hpj
    rw [partsOf_eq] at hd
    obtain ⟨y, hy⟩ := List.exists_mem_of_ne_nil _ hd
    obtain ⟨b, hb, -⟩ := List.mem_map.1 hy
    rw [List.mem_filter, beq_iff_eq] at hpm hb
    obtain ⟨m, hm, h3, h4, h5⟩ := keptRelations_of (link := link) hx hpm.1 hb.1 hpm.2 hb.2
    obtain ⟨r, hri, he, hs⟩ := found_shown hr hn' h hb.1 (labels := x.right) (List.mem_map.2 ⟨x, hx, by rw [hb.2]⟩)
    refine ⟨m, ?_, h3, r, hri, by rw [he, h4], (shown_iff _ _ _).1 (by rw [h5]; exact hs)⟩
    unfold storedRelations
    refine List.mem_append_left _ (List.mem_filter.2 ⟨hm, ?_⟩)
    have : p.index ≠ 0 := hj
    simp [h3, this]

theorem kept_sum (link : Nat) (rows : List TableRow) (src dst : List Found)
    (q : Nat × Nat × Option (List Bool) → Bool) (g : Kept → Bool)
    (hg : ∀ s i l v, g ⟨link, s, i, v, l.map levelBytes⟩ = q (s, i, l)) :
    (((keptRelations link rows src dst).filter g).map (·.value)).sum =
      (rows.map fun r => ((src.filter fun a => a.run == r.run).map fun a => ((dst.filter fun b => b.run == r.run).map fun b =>
        if q (a.index, b.index, b.level) = true then r.value * (proportionIn src a * proportionIn dst b) else 0).sum).sum).sum := by
  have hp := sortedBy_perm keyLe ((relationPieces rows src dst).map (·.1)).dedup
  have hn : (sortedBy keyLe ((relationPieces rows src dst).map (·.1)).dedup).Nodup := hp.nodup_iff.2 (List.nodup_dedup _)
  rw [filter_map_sum]
  unfold keptRelations
  rw [List.map_map]
  have := grouped_sum hn (relationPieces rows src dst)
    (fun p hm => by rw [hp.mem_iff, List.mem_dedup]; exact List.mem_map_of_mem hm) q
  refine Eq.trans ?_ (this.trans ?_)
  · congr 1
    apply List.map_congr_left
    intro k _
    simp only [Function.comp_apply, hg]
  · unfold relationPieces
    rw [map_flatMap_sum]
    congr 1
    apply List.map_congr_left
    intro r _
    rw [map_flatMap_sum]
    congr 1
    apply List.map_congr_left
    intro a _
    rw [List.map_map]
    rfl

/-- **C123, partial.** The value of a row that is read is the sum of the values of the rows of the table that have these labels,
each times the part of it that belongs to the record of the other node. This holds if matches may not overlap and no weight is
zero; otherwise values can be lost or doubled (`C113_violated_levels`, `C113_violated_zero`). -/
theorem C123_value_partial {n : Node} (hr : Reachable n) {a : MatchArgs} (ho : a.overlap = false) {header : List PyStr}
    {rows : List TableRow} {src dst : List Found} (hn : (rows.map (·.run)).Nodup)
    (h : n.findMatches a header (rows.map fun r => (r.run, r.right)) = .ok dst) (hz : ∀ w ∈ n.weights, w.value ≠ 0) {link : Nat}
    {j : Nat} (hj : j ≠ 0) {v : Option ℚ} {given : List (Option PyStr)}
    (hv : ⟨some j, v, given⟩ ∈ reconstructed n.index (storedRelations link rows src dst)) :
    v = some ((rows.filter fun x => decide (n.comesBack header x.right = given ∧ partsOf dst x.run ≠ [])).map fun x =>
      x.value * partOf src x.run j).sum := by
  classical
  have hn' : ((rows.map fun r => (r.run, r.right)).map (·.1)).Nodup := by rw [List.map_map]; exact hn
  rw [C121_value (stored_wellFormed hr ho hn h link) hv, Option.some_inj]
  unfold storedRelations
  rw [List.filter_append, List.map_append, List.sum_append, List.filter_filter]
  have h0 : ([⟨link, 0, 0, 0, none⟩] : List Kept).filter (fun m => decide (m.source = j ∧ ∃ r ∈ n.index, r.id = m.index ∧
      GivenAs r.labels m.level given)) = [] := by
    rw [List.filter_eq_nil_iff]
    intro m hm
    rw [List.mem_singleton] at hm
    subst hm
    rw [decide_eq_true_iff]
    exact fun hh => hj hh.1.symm
  rw [h0, List.map_nil, List.sum_nil, add_zero]
  rw [kept_sum link rows src dst (fun k => decide (k.1 = j ∧ ∃ r ∈ n.index, r.id = k.2.1 ∧
    GivenAs r.labels (k.2.2.map levelBytes) given))]
  · rw [filter_map_sum]
    congr 1
    apply List.map_congr_left
    intro x hx
    have hxr : (x.run, x.right) ∈ rows.map fun r => (r.run, r.right) := List.mem_map.2 ⟨x, hx, rfl⟩
    have hin : ∀ p : Found, ∀ b ∈ dst.filter (fun b => b.run == x.run),
        (decide (p.index = j ∧ ∃ r ∈ n.index, r.id = b.index ∧ GivenAs r.labels (b.level.map levelBytes) given) = true) =
          (p.index = j ∧ n.comesBack header x.right = given) := by
      intro p b hb
      rw [List.mem_filter, beq_iff_eq] at hb
      obtain ⟨r, hri, he, hs⟩ := found_shown hr hn' h hb.1 (labels := x.right) (by rw [hb.2]; exact hxr)
      rw [decide_eq_true_iff]
      apply propext
      refine and_congr_right fun _ => ⟨?_, ?_⟩
      · rintro ⟨r', hri', he', hg⟩
        have : r = r' := List.inj_on_of_nodup_map hr.inv.ids hri hri' (by rw [he, he'])
        rw [← hs, this]
        exact (shown_iff _ _ _).2 hg
      · intro e
        exact ⟨r, hri, he, (shown_iff _ _ _).1 (hs.trans e)⟩
    have key := sum_products (l := src.filter fun a => a.run == x.run) (l' := dst.filter fun b => b.run == x.run)
      (f := proportionIn src) (g := proportionIn dst) (p := fun p => p.index = j)
      (q := fun _ => n.comesBack header x.right = given) x.value
    rw [← partOf_eq] at key
    refine Eq.trans ?_ (key.trans ?_)
    · congr 1
      apply List.map_congr_left
      intro p _
      congr 1
      apply List.map_congr_left
      intro b hb
      simp only [hin p b hb]
    · by_cases hc : n.comesBack header x.right = given
      · simp only [hc, if_true, true_and]
        have hs : ((dst.filter fun b => b.run == x.run).map fun b => proportionIn dst b).sum =
            ((partsOf dst x.run).map (·.2)).sum := by
          rw [partsOf_eq, List.map_map]
          rfl
        rw [hs]
        by_cases hd : partsOf dst x.run = []
        · simp [hd]
        · rw [C113_whole_partial hr hn' h hxr hz hd]
          simp [hd]
      · simp [hc]
  · intro s i l v'
    have hex : (decide (s = j ∧ ∃ r ∈ n.index, r.id = i ∧ GivenAs r.labels (l.map levelBytes) given) &&
        !(s == 0 && i == 0)) = decide (s = j ∧ ∃ r ∈ n.index, r.id = i ∧ GivenAs r.labels (l.map levelBytes) given) := by
      by_cases hs : s = j
      · have : s ≠ 0 := hs ▸ hj
        simp [this]
      · simp [hs]
    exact hex

/-- **C123, partial.** A row of the table comes back with its value if it belongs to one record of the other node, fits a record
of the node, and no other row of the table has the same labels and belongs to that record. -/
theorem C123_single_partial {n : Node} (hr : Reachable n) {a : MatchArgs} (ho : a.overlap = false) {header : List PyStr}
    {rows : List TableRow} {src dst : List Found} (hn : (rows.map (·.run)).Nodup)
    (h : n.findMatches a header (rows.map fun r => (r.run, r.right)) = .ok dst) (hz : ∀ w ∈ n.weights, w.value ≠ 0) (link : Nat)
    {j : Nat} (hj : j ≠ 0) {x : TableRow} (hx : x ∈ rows) (hs : partsOf src x.run = [(j, 1)]) (hd : partsOf dst x.run ≠ [])
    (hone : ∀ y ∈ rows, y.run ≠ x.run → n.comesBack header y.right = n.comesBack header x.right →
      j ∉ (partsOf src y.run).map (·.1)) :
    ⟨some j, some x.value, n.comesBack header x.right⟩ ∈ reconstructed n.index (storedRelations link rows src dst) := by
  obtain ⟨v, hv⟩ := (C123_rows hr hn h link hj (src := src) (n.comesBack header x.right)).2 ⟨x, hx, rfl, by rw [hs]; simp, hd⟩
  have hval := C123_value_partial hr ho hn h hz hj hv
  have hsum : ((rows.filter fun y => decide (n.comesBack header y.right = n.comesBack header x.right ∧
      partsOf dst y.run ≠ [])).map fun y => y.value * partOf src y.run j).sum = x.value := by
    rw [filter_map_sum]
    have hpx : partOf src x.run j = 1 := by
      unfold partOf
      rw [hs]
      simp
    have hterm : ∀ y ∈ rows, (if decide (n.comesBack header y.right = n.comesBack header x.right ∧ partsOf dst y.run ≠ []) = true
        then y.value * partOf src y.run j else 0) = if x.run = y.run then x.value else 0 := by
      intro y hy
      by_cases he : x.run = y.run
      · have : x = y := List.inj_on_of_nodup_map hn hx hy he
        subst this
        rw [if_pos rfl, if_pos (decide_eq_true ⟨rfl, hd⟩), hpx, mul_one]
      · rw [if_neg he]
        split
        · rename_i hc
          rw [decide_eq_true_iff] at hc
          have hno := hone y hy (Ne.symm he) hc.1
          have : partOf src y.run j = 0 := by
            unfold partOf
            have hnil : (partsOf src y.run).filter (fun p => decide (p.1 = j)) = [] := by
              rw [List.filter_eq_nil_iff]
              intro p hp hpj
              rw [decide_eq_true_iff] at hpj
              exact hno (List.mem_map.2 ⟨p, hp, hpj⟩)
            rw [hnil]
            rfl
          rw [this, mul_zero]
        · rfl
    rw [List.map_congr_left hterm]
    have := sum_at hn (List.mem_map.2 ⟨x, hx, rfl⟩) (fun _ => true) x.value
    rw [List.map_map] at this
    simpa [Function.comp_def] using this
  rw [hsum] at hval
  rw [← hval]
  exact hv

theorem givenFor_cons (c l : PyStr) (cs ls : List PyStr) (d : PyStr) :
    givenFor (c :: cs) (l :: ls) d = if c = d ∧ l ≠ [] then some l else givenFor cs ls d := by
  unfold givenFor
  rw [List.zip_cons_cons, List.find?_cons]
  by_cases h : c = d ∧ l ≠ []
  · rw [if_pos h, decide_eq_true h]
    rfl
  · rw [if_neg h, decide_eq_false h]

theorem givenFor_not_mem {cs ls : List PyStr} {d : PyStr} (h : d ∉ cs) : givenFor cs ls d = none := by
  unfold givenFor
  rw [Option.map_eq_none_iff, List.find?_eq_none]
  intro cl hcl
  rw [decide_eq_true_iff]
  exact fun hh => h (hh.1 ▸ (List.of_mem_zip hcl).1)

theorem givenFor_all {cs ls : List PyStr} (hn : cs.Nodup) (hl : ls.length = cs.length) :
    cs.map (givenFor cs ls) = ls.map fun l => if l = [] then none else some l := by
  induction cs generalizing ls with
  | nil => rw [List.length_nil, List.length_eq_zero_iff] at hl; rw [hl]; rfl
  | cons c cs ih =>
    cases ls with
    | nil => cases hl
    | cons l ls =>
      rw [List.nodup_cons] at hn
      rw [List.map_cons, List.map_cons, givenFor_cons, givenFor_not_mem hn.1]
      congr 1
      · by_cases h : l = [] <;> simp [h]
      · rw [← ih hn.2 (by simpa using hl)]
        apply List.map_congr_left
        intro d hd
        rw [givenFor_cons, if_neg]
        exact fun hh => hn.1 (hh.1 ▸ hd)

/-- **C123, partial.** In a table with all columns of the node, labels come back as they were given if none is empty, or if they
fit several records. Labels that fit just one record come back complete (`C123_violated_filled`). -/
theorem C123_labels_partial {n : Node} (hr : Reachable n) {labels : List PyStr} (hl : labels.length = n.cols.length)
    (hf : n.fitting n.cols labels ≠ []) (h : [] ∉ labels ∨ 2 ≤ (n.fitting n.cols labels).length) :
    n.comesBack n.cols labels = labels.map fun l => if l = [] then none else some l := by
  have hmem : ∀ r ∈ n.fitting n.cols labels, [] ∉ labels → r.labels = labels := by
    intro r hrf hb
    unfold Node.fitting at hrf
    rw [List.mem_filter, decide_eq_true_iff] at hrf
    apply List.ext_getElem?
    intro i
    have hlen := hr.inv.len r hrf.1
    by_cases hi : i < n.cols.length
    · have hx : labels[i]? = some (labels[i]'(by omega)) := List.getElem?_eq_getElem _
      have hc : n.cols[i]? = some n.cols[i] := List.getElem?_eq_getElem hi
      have hm : (n.cols[i], labels[i]'(by omega)) ∈ n.cols.zip labels := by
        apply List.mem_of_getElem? (i := i)
        rw [List.getElem?_zip_eq_some]
        exact ⟨hc, hx⟩
      have h1 := hrf.2 _ hm (fun e => hb (by rw [← e]; exact List.getElem_mem _))
      have h2 : (n.cols[i], r.labels[i]'(by omega)) ∈ n.cols.zip r.labels := by
        apply List.mem_of_getElem? (i := i)
        rw [List.getElem?_zip_eq_some]
        exact ⟨hc, List.getElem?_eq_getElem _⟩
      have h3 := (lookup_zip_iff hr.colsNodup _ _).2 h1
      have h4 := (lookup_zip_iff hr.colsNodup _ _).2 h2
      rw [h3, Option.some_inj] at h4
      rw [hx, h4]
      exact List.getElem?_eq_getElem _
    · rw [List.getElem?_eq_none (by omega), List.getElem?_eq_none (by omega)]
  have hgen := givenFor_all hr.colsNodup hl
  unfold Node.comesBack
  rcases hfit : n.fitting n.cols labels with _ | ⟨r, _ | ⟨y, ys⟩⟩
  · exact absurd hfit hf
  · rcases h with hb | h2
    · have : r.labels = labels := hmem r (by rw [hfit]; exact List.mem_cons_self) hb
      show r.labels.map some = _
      rw [this]
      apply List.map_congr_left
      intro l hl'
      have hne : l ≠ [] := by rintro rfl; exact hb hl'
      rw [if_neg hne]
    · rw [hfit] at h2
      simp at h2
  · exact hgen

namespace RoundDemo

/-- A place that belongs to the first record of the other node, a county with two places that belongs to the second, and one
that does not exist. -/
def rows : List TableRow := [⟨1, [['x'], ['1']], [['y'], ['1']], 10⟩, ⟨2, [['x'], ['2']], [['x'], []], 7⟩,
  ⟨3, [['x'], ['2']], [['z'], []], 100⟩]

def src : List Found := [⟨1, 1, none, none⟩, ⟨2, 2, none, none⟩, ⟨3, 2, none, none⟩]

def dst : List Found := [⟨1, 3, none, none⟩, ⟨2, 1, some 3, some [true, false]⟩, ⟨2, 2, some 4, some [true, false]⟩]

end RoundDemo

open RoundDemo in
/-- The county comes back as it was given, with its value. -/
example : ⟨some 2, some 7, [some ['x'], none]⟩ ∈ reconstructed MapDemo.node.index (storedRelations 1 rows src dst) := by
  have := C123_single_partial MapDemo.node_reachable (a := MapDemo.args false) rfl (header := MapDemo.header)
    (rows := rows) (src := src) (dst := dst) (by decide) (by rfl) (by decide +kernel) 1 (j := 2) (by decide)
    (x := ⟨2, [['x'], ['2']], [['x'], []], 7⟩) (by decide +kernel) (by decide +kernel) (by decide +kernel) (by decide +kernel)
  have e : MapDemo.node.comesBack MapDemo.header [['x'], []] = [some ['x'], none] := by decide +kernel
  rw [← e]
  exact this

/-- The labels of the county fit two records, those of the place one. -/
example : (MapDemo.node.fitting MapDemo.node.cols [['x'], []]).length = 2 ∧
    (MapDemo.node.fitting MapDemo.node.cols [['y'], ['1']]).length = 1 := by decide +kernel

/-- **C123, violated.** A county with one place comes back as that place: the column that was left empty is filled. -/
theorem C123_violated_filled : ¬ ∀ (n : Node), Reachable n → ∀ (a : MatchArgs), a.overlap = false → ∀ (rows : List TableRow)
    (src dst : List Found), (rows.map (·.run)).Nodup → (∀ w ∈ n.weights, w.value ≠ 0) →
    n.findMatches a n.cols (rows.map fun r => (r.run, r.right)) = .ok dst →
    ∀ x ∈ rows, partsOf src x.run = [(1, 1)] → partsOf dst x.run ≠ [] →
      ∃ v, ⟨some 1, v, x.right.map fun l => if l = [] then none else some l⟩ ∈
        reconstructed n.index (storedRelations 1 rows src dst) := by
  intro hall
  have hf : MapDemo.node.findMatches (MapDemo.args false) MapDemo.node.cols [(1, [['y'], []])] = .ok [⟨1, 3, none, none⟩] := by
    rfl
  obtain ⟨v, hv⟩ := hall MapDemo.node MapDemo.node_reachable (MapDemo.args false) rfl
    [⟨1, [['y'], []], [['y'], []], 5⟩] [⟨1, 1, none, none⟩] [⟨1, 3, none, none⟩] (by simp) (by decide +kernel) hf
    _ (List.mem_singleton_self _) (by decide +kernel) (by decide +kernel)
  have hno : ∀ y ∈ reconstructed MapDemo.node.index (storedRelations 1 [⟨1, [['y'], []], [['y'], []], 5⟩]
      [⟨1, 1, none, none⟩] [⟨1, 3, none, none⟩]), y.labels ≠ [some ['y'], none] := by decide +kernel
  exact hno _ hv rfl

end Toron.Legacy
