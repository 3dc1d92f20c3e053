/-
C86: disaggregation on the legacy class (`static_disaggregate`, `adaptive_disaggregate` in `src/toron/_dal.py`).
-/
import Verif.Lemmas.Legacy.Split
import Verif.Lemmas.MappingCsv
import Verif.Lemmas.Store.Links
import Verif.Lemmas.Mapper
import Verif.Props.LegacyRemove

namespace Toron.Legacy

open Toron.Selectors (PyStr Sel CaseMap Row)
open Toron.Space (IndexRec Attrs)

theorem prepare_ok {cm : CaseMap} {aw : List (PyStr × PyStr)} {n : Node} {srcs : List Source}
    (h : n.prepare cm aw = .ok srcs) :
    n.cols ≠ [] ∧ n.structs ≠ [] ∧ List.Forall₂ (fun (q : List PyStr × Attrs × ℚ) (s : Source) => s.labels = q.1 ∧
      s.attrs = q.2.1 ∧ s.value = q.2.2 ∧ n.weightingFor cm q.2.1 = .ok s.weighting) (n.wanted aw) srcs := by
  unfold Node.prepare at h
  obtain ⟨sels, h1, h⟩ := bind_ok h
  obtain ⟨_, h⟩ := ite_ok h
  obtain ⟨hc, h⟩ := ite_ok h
  push Not at hc
  refine ⟨hc.1, hc.2, ?_⟩
  unfold Node.sources at h
  have hw : n.wanted aw = n.rawQuantities.filter fun q => keepsAttrs aw q.2.1 := by
    unfold Node.wanted
    refine List.filter_congr fun q _ => ?_
    unfold keepsAttrs
    rw [Bool.eq_iff_iff]
    simp only [decide_eq_true_eq, List.all_eq_true, beq_iff_eq]
  rw [hw]
  have := MappingCsv.mapM_forall₂.1 h
  refine this.imp fun q s hq => ?_
  unfold Node.weightingFor
  rw [h1]
  show s.labels = q.1 ∧ s.attrs = q.2.1 ∧ s.value = q.2.2 ∧ Selectors.getMatchingKey cm sels 1 q.2.1 = .ok s.weighting
  rcases hk : Selectors.getMatchingKey cm sels 1 q.2.1 with e | g
  · rw [hk] at hq
    cases hq
  · rw [hk] at hq
    injection hq with hq
    subst hq
    exact ⟨rfl, rfl, rfl, rfl⟩

private theorem wanted_len {n : Node} (hi : Inv n) {aw : List (PyStr × PyStr)} {q : List PyStr × Attrs × ℚ}
    (hq : q ∈ n.wanted aw) : q.1.length = n.cols.length := by
  unfold Node.wanted at hq
  have hq := (List.mem_filter.1 hq).1
  unfold Node.rawQuantities at hq
  obtain ⟨x, _, hx⟩ := List.mem_filterMap.1 hq
  split at hx
  · rename_i a l ha hl
    injection hx with hx
    subst hx
    exact hi.locLen l (List.mem_of_find?_eq_some hl)
  · cases hx

/-- How quantities, with the weighting chosen for each, appear in the joins. -/
private abbrev Taken (cm : CaseMap) (n : Node) (q : List PyStr × Attrs × ℚ) (s : Source) : Prop :=
  s.labels = q.1 ∧ s.attrs = q.2.1 ∧ s.value = q.2.2 ∧ n.weightingFor cm q.2.1 = .ok s.weighting

private theorem zip_sum {cm : CaseMap} {n : Node} {qs : List (List PyStr × Attrs × ℚ)} {srcs : List Source}
    (hs : List.Forall₂ (Taken cm n) qs srcs) (Q : List PyStr → Attrs → Bool) (sh : Source → Nat → ℚ) (i : Nat) :
    (((qs.zip (srcs.map sh)).filter fun y => Q y.1.1 y.1.2.1).map fun y => y.2 i).sum =
      (srcs.map fun s => if Q s.labels s.attrs then sh s i else 0).sum := by
  induction hs with
  | nil => simp
  | cons hq _ ih =>
    rw [List.map_cons, List.map_cons, List.sum_cons, List.zip_cons_cons, List.filter_cons, ← ih, hq.1, hq.2.1]
    split
    · rw [List.map_cons, List.sum_cons]
    · rw [zero_add]

/-- What is left to show for both methods. -/
private theorem finish {n : Node} (hr : Reachable n) {cm : CaseMap} {aw : List (PyStr × PyStr)} {srcs : List Source}
    {ps : List Piece} (sh : Source → Nat → ℚ) (hs : List.Forall₂ (Taken cm n) (n.wanted aw) srcs)
    (hyes : ∀ s, pattern s.labels ∈ n.structure_ → ∃ F, Whole F ∧ ∀ i, sh s i = shareOf F n s i)
    (hno : ∀ s, pattern s.labels ∉ n.structure_ → ∀ i, sh s i = 0)
    (h : ∀ i a, sumOf (fun b => decide (b = a)) ps i = (srcs.map fun s => if decide (s.attrs = a) then sh s i else 0).sum) :
    List.Forall₂ (n.Divides cm) (n.wanted aw) (srcs.map sh) ∧
      Explains (n.grouped [] ps) n ((n.wanted aw).zip (srcs.map sh)) := by
  have hi := hr.inv
  refine ⟨?_, grouped_keys _ _ _, ?_, ?_⟩
  · rw [List.forall₂_map_right_iff]
    refine hs.imp fun q s hq => ?_
    obtain ⟨e1, e2, e3, e4⟩ := hq
    have hpl : n.Placed cm q ↔ pattern s.labels ∈ n.structure_ ∧ n.takers s.weighting s.labels ≠ [] := by
      unfold Node.Placed Node.levelOk
      rw [e1]
      constructor
      · rintro ⟨a, g, hg, hne⟩
        rw [e4] at hg
        injection hg with hg
        subst hg
        exact ⟨a, hne⟩
      · rintro ⟨a, hne⟩
        exact ⟨a, _, e4, hne⟩
    by_cases hm : pattern s.labels ∈ n.structure_
    · obtain ⟨F, hF, hsh⟩ := hyes s hm
      obtain ⟨a, b⟩ := sum_shareOf hi hF s
      simp only [Node.Divides, hsh]
      refine ⟨fun hp => ?_, fun hp i => ?_, fun r hrm hne => ?_⟩
      · rw [← e3]
        exact a (hpl.1 hp).2
      · refine b ?_ i
        by_contra hne
        exact hp (hpl.2 ⟨hm, hne⟩)
      · rw [← e1]
        exact shareOf_inPlace hi hrm hne
    · exact ⟨fun hp => absurd (hpl.1 hp).1 hm, fun _ i => hno s hm i, fun _ _ h => absurd (hno s hm _) h⟩
  · intro p hp
    obtain ⟨_, ⟨r, hr', he⟩, _⟩ := mem_grouped.1 hp
    exact ⟨r, (List.mem_filter.1 hr').1, he⟩
  · intro r hrm a
    rw [amountOf_grouped ⟨r, List.mem_filter.2 ⟨hrm, rfl⟩, rfl⟩, amountOf_eq, h,
      zip_sum hs (fun _ b => decide (b = a)) sh r.id]

theorem rows_ok {n : Node} (hr : Reachable n) {cm : CaseMap} {aw : List (PyStr × PyStr)} {srcs : List Source}
    (hs : List.Forall₂ (fun (q : List PyStr × Attrs × ℚ) (s : Source) => s.labels = q.1 ∧
      s.attrs = q.2.1 ∧ s.value = q.2.2 ∧ n.weightingFor cm q.2.1 = .ok s.weighting) (n.wanted aw) srcs)
    {bits : List Bool} (hb : bits ∈ n.structure_) :
    ∀ s ∈ srcs, n.rowsFor bits s = if bits = pattern s.labels then n.takers s.weighting s.labels else [] := by
  intro s hsm
  obtain ⟨st, hst, rfl⟩ := List.mem_map.1 hb
  refine rowsFor_eq hr.inv hr.inv2 (hr.fresh.2 st hst) ?_
  obtain ⟨q, hq, e⟩ : ∃ q ∈ n.wanted aw, s.labels = q.1 := by
    clear hst hb
    generalize n.wanted aw = qs at hs
    induction hs with
    | nil => cases hsm
    | cons h _ ih =>
      rcases List.mem_cons.1 hsm with rfl | hsm
      · exact ⟨_, List.mem_cons_self, h.1⟩
      · obtain ⟨q, hq, e⟩ := ih hsm
        exact ⟨q, List.mem_cons_of_mem _ hq, e⟩
  rw [e]
  exact wanted_len hr.inv hq

theorem takers_nodup {n : Node} (hi : Inv n) (g : Nat) (labels : List PyStr) :
    ((n.takers g labels).map (·.1)).Nodup := by
  unfold Node.takers Node.indexRecords
  rw [List.map_flatMap, List.nodup_flatMap]
  constructor
  · intro r _
    split
    · have hp := hi.pairs
      rw [List.map_map]
      generalize n.weights = ws at hp
      induction ws with
      | nil => simp
      | cons w ws ih =>
        obtain ⟨hp1, hp2⟩ := List.nodup_cons.1 hp
        rw [List.filter_cons]
        split
        · rename_i hw
          simp only [decide_eq_true_eq] at hw
          rw [List.filter_eq_nil_iff.2]
          · simp
          · intro y hy he
            simp only [decide_eq_true_eq] at he
            refine hp1 (List.mem_map.2 ⟨y, hy, ?_⟩)
            show (y.group, y.index) = (w.group, w.index)
            rw [hw.1, hw.2, he.1, he.2]
        · exact ih hp2
    · simp
  · have hids : n.index.Pairwise fun a b => a.id ≠ b.id := List.pairwise_map.1 hi.ids
    refine hids.imp fun {a b} hab => ?_
    unfold Function.onFun
    intro y hy hy'
    dsimp only at hy hy'
    have ha : y = a.id := by
      split at hy
      · rw [List.map_map] at hy
        obtain ⟨_, _, rfl⟩ := List.mem_map.1 hy
        rfl
      · cases hy
    have hb : y = b.id := by
      split at hy'
      · rw [List.map_map] at hy'
        obtain ⟨_, _, rfl⟩ := List.mem_map.1 hy'
        rfl
      · cases hy'
    exact hab (ha.symm.trans hb)

private theorem share_at {n : Node} (hi : Inv n) {F : Fraction} {s : Source} {x : Nat × ℚ}
    (hx : x ∈ n.takers s.weighting s.labels) :
    shareOf F n s x.1 = s.value * F s (n.takers s.weighting s.labels) x := by
  have hone : ((n.takers s.weighting s.labels).filter fun y => decide (y.1 = x.1)) = [x] := by
    have hnd := takers_nodup hi s.weighting s.labels
    generalize n.takers s.weighting s.labels = l at hx hnd
    induction l with
    | nil => cases hx
    | cons y l ih =>
      obtain ⟨hn1, hn2⟩ := List.nodup_cons.1 hnd
      rcases List.mem_cons.1 hx with rfl | hx
      · rw [List.filter_cons_of_pos (by simp), List.filter_eq_nil_iff.2]
        intro z hz he
        simp only [decide_eq_true_eq] at he
        exact hn1 (List.mem_map.2 ⟨z, hz, he⟩)
      · rw [List.filter_cons_of_neg, ih hx hn2]
        simp only [decide_eq_true_eq]
        intro he
        exact hn1 (List.mem_map.2 ⟨x, hx, he.symm⟩)
  unfold shareOf
  rw [hone, List.map_singleton, List.sum_singleton]

private theorem static_part (s : Source) (rows : List (Nat × ℚ)) (x : Nat × ℚ) :
    staticFraction s rows x = partBy (rows.map (·.2)) x.2 := by
  unfold staticFraction partBy weightSum
  rw [List.length_map]

private theorem mem_zip_taken {cm : CaseMap} {n : Node} {qs : List (List PyStr × Attrs × ℚ)} {srcs : List Source}
    (hs : List.Forall₂ (Taken cm n) qs srcs) (sh : Source → Nat → ℚ) {y : (List PyStr × Attrs × ℚ) × (Nat → ℚ)}
    (hy : y ∈ qs.zip (srcs.map sh)) : ∃ s ∈ srcs, Taken cm n y.1 s ∧ y.2 = sh s := by
  induction hs with
  | nil => cases hy
  | cons hq _ ih =>
    rw [List.map_cons, List.zip_cons_cons] at hy
    rcases List.mem_cons.1 hy with rfl | hy
    · exact ⟨_, List.mem_cons_self, hq, rfl⟩
    · obtain ⟨s, h1, h2⟩ := ih hy
      exact ⟨s, List.mem_cons_of_mem _ h1, h2⟩

/-- **C86 (static).** Each quantity whose labels form a level and in whose place there are records with a weight is divided
completely among these records, in proportion to their weights (equally if the weights add up to zero). The result lists,
for every record and attributes, the sum of what the record gets. -/
theorem C86_static {n : Node} (hr : Reachable n) {cm : CaseMap} {aw : List (PyStr × PyStr)} {out : List Piece}
    (h : n.staticDisaggregate cm [] aw = .ok out) :
    ∃ shares, List.Forall₂ (n.Divides cm) (n.wanted aw) shares ∧ Explains out n ((n.wanted aw).zip shares) ∧
      ∀ y ∈ (n.wanted aw).zip shares, ∀ g, n.weightingFor cm y.1.2.1 = .ok g → n.levelOk y.1.1 →
        ∀ x ∈ n.takers g y.1.1, y.2 x.1 = y.1.2.2 * partBy ((n.takers g y.1.1).map (·.2)) x.2 := by
  unfold Node.staticDisaggregate at h
  obtain ⟨srcs, h1, h⟩ := bind_ok h
  injection h with h
  subst h
  obtain ⟨hc, hst, hs⟩ := prepare_ok h1
  have hsum := fun i a => sumOf_static (fun b => decide (b = a)) n srcs i n.structs (hr.structNodup hc)
    fun st hst => rows_ok hr hs (List.mem_map_of_mem hst)
  obtain ⟨a, b⟩ := finish hr (staticShare n n.structure_) hs
    (fun s hm => ⟨_, static_whole, fun i => if_pos hm⟩) (fun s hm i => if_neg hm) hsum
  refine ⟨_, a, b, ?_⟩
  intro y hy g hg hlev x hx
  obtain ⟨s, _, ⟨e1, e2, e3, e4⟩, ey⟩ := mem_zip_taken hs _ hy
  rw [hg] at e4
  injection e4 with e4
  rw [ey, ← e3, ← static_part s, e4, ← e1]
  rw [e4, ← e1] at hx
  unfold staticShare
  rw [if_pos (by rw [e1]; exact hlev)]
  exact share_at hr.inv hx

/-- **C86 (adaptive).** Each quantity whose labels form a level and in whose place there are records with a weight is divided
completely among records in its place: in proportion to what these get of the quantities for finer levels whose attributes
agree, if this is not zero in total, else in proportion to their weights. The result lists, for every record and
attributes, the sum of what the record gets. -/
theorem C86_adaptive {n : Node} (hr : Reachable n) {cm : CaseMap} {keys : List PyStr} {aw : List (PyStr × PyStr)}
    {out : List Piece} (h : n.adaptiveDisaggregate cm keys [] aw = .ok out) :
    ∃ shares, List.Forall₂ (n.Divides cm) (n.wanted aw) shares ∧ Explains out n ((n.wanted aw).zip shares) ∧
      ∀ y ∈ (n.wanted aw).zip shares, ∀ g, n.weightingFor cm y.1.2.1 = .ok g → n.levelOk y.1.1 →
        ∀ x ∈ n.takers g y.1.1, y.2 x.1 = y.1.2.2 *
          (if ((n.takers g y.1.1).map fun z => n.finerShare keys ((n.wanted aw).zip shares) y.1 z.1).sum = 0
            then partBy ((n.takers g y.1.1).map (·.2)) x.2
            else n.finerShare keys ((n.wanted aw).zip shares) y.1 x.1 /
              ((n.takers g y.1.1).map fun z => n.finerShare keys ((n.wanted aw).zip shares) y.1 z.1).sum) := by
  unfold Node.adaptiveDisaggregate at h
  obtain ⟨srcs, h1, h⟩ := bind_ok h
  injection h with h
  subst h
  obtain ⟨hc, hst, hs⟩ := prepare_ok h1
  have hperm : n.levels.Perm n.structure_ := by
    unfold Node.levels Node.structure_
    exact (sortedBy_perm _ _).map _
  have hnd : n.levels.Nodup := hperm.nodup_iff.2 (hr.structNodup hc)
  have hsum := fun P i => sumOf_adaptive keys P n srcs i n.levels hnd
    (fun b hb => rows_ok hr hs (hperm.mem_iff.1 hb))
  have hin : ∀ s i, (if pattern s.labels ∈ n.levels then adaptiveShare keys n srcs n.levels s i else 0) =
      adaptiveShare keys n srcs n.levels s i := by
    intro s i
    unfold adaptiveShare
    split <;> rfl
  obtain ⟨a, b⟩ := finish hr (adaptiveShare keys n srcs n.levels) hs
    (fun s hm => ⟨_, adaptive_whole _ _, fun i => if_pos (hperm.mem_iff.2 hm)⟩)
    (fun s hm i => if_neg fun h => hm (hperm.mem_iff.1 h)) (ps := adaptivePieces keys n srcs n.levels) (by
      intro i at'
      rw [hsum _ i n.levels [] (List.append_nil _).symm]
      simp only [hin])
  refine ⟨_, a, b, ?_⟩
  intro y hy g hg hlev x hx
  obtain ⟨s, _, ⟨e1, e2, e3, e4⟩, ey⟩ := mem_zip_taken hs _ hy
  rw [hg] at e4
  injection e4 with e4
  have hmem : pattern s.labels ∈ n.levels := by
    rw [e1]
    exact hperm.mem_iff.2 hlev
  -- what was there before is what the records get of finer quantities
  have hfin : ∀ i, (earlier keys (adaptivePieces keys n srcs
      (n.levels.takeWhile fun b => decide (b ≠ pattern s.labels))) s.attrs i).getD 0 =
      n.finerShare keys ((n.wanted aw).zip (srcs.map (adaptiveShare keys n srcs n.levels))) y.1 i := by
    intro i
    rw [earlier_eq]
    obtain ⟨rest, hrest⟩ : ∃ rest, n.levels = (n.levels.takeWhile fun b => decide (b ≠ pattern s.labels)) ++ rest :=
      ⟨_, List.takeWhile_append_dropWhile.symm⟩
    rw [hsum _ i _ rest hrest]
    unfold Node.finerShare
    rw [zip_sum hs (fun l b => decide (n.finer l y.1.1 ∧ agree keys b y.1.2.1))]
    congr 1
    refine List.map_congr_left fun s' _ => ?_
    have hiff : (pattern s'.labels ∈ n.levels.takeWhile fun b => decide (b ≠ pattern s.labels)) ↔
        n.finer s'.labels y.1.1 := by
      rw [mem_takeWhile_idxOf _ _ _ hmem, e1]
      rfl
    rw [e2]
    by_cases h1 : agree keys s'.attrs y.1.2.1
    · by_cases h2 : n.finer s'.labels y.1.1
      · simp only [h1, h2, hiff, decide_true, if_true, and_self]
      · simp only [h1, h2, hiff, decide_true, if_true, if_false, false_and, decide_false, Bool.false_eq_true]
    · simp only [h1, and_false, decide_false, Bool.false_eq_true, if_false]
  rw [ey, ← e3, ← static_part s, e4, ← e1]
  rw [e4, ← e1] at hx
  have hsh : adaptiveShare keys n srcs n.levels s x.1 = _ := (if_pos hmem).trans (share_at hr.inv hx)
  rw [hsh]
  unfold adaptiveFraction
  dsimp only
  have htot : ((n.takers s.weighting s.labels).filterMap fun z => earlier keys (adaptivePieces keys n srcs
      (n.levels.takeWhile fun b => decide (b ≠ pattern s.labels))) s.attrs z.1).sum =
      ((n.takers s.weighting s.labels).map fun z =>
        n.finerShare keys ((n.wanted aw).zip (srcs.map (adaptiveShare keys n srcs n.levels))) y.1 z.1).sum := by
    simp only [← hfin]
    generalize n.takers s.weighting s.labels = rows
    induction rows with
    | nil => rfl
    | cons z rows ih =>
      rw [List.map_cons, List.sum_cons, List.filterMap_cons, ← ih]
      cases earlier keys (adaptivePieces keys n srcs
        (n.levels.takeWhile fun b => decide (b ≠ pattern s.labels))) s.attrs z.1 <;> simp
  rw [htot, hfin]

/-- **C86 (levels).** The levels are ordered by their granularity, which is that of the records as they are now, the greatest
first and those without one last. -/
theorem C86_levels {n : Node} (hr : Reachable n) :
    ∃ l : List Space.StructRec, l.Perm n.structs ∧ n.levels = l.map (·.bits) ∧
      (∀ st ∈ l, st.gran = calculateGranularitySql false (n.projected (Space.defOf n.indexColumns st.bits))) ∧
      l.Pairwise fun a b => ∀ y, b.gran = some y → ∃ x, a.gran = some x ∧ y.value ≤ x.value := by
  have hpos : ∀ st ∈ n.structs, Space.PosGran st.gran := by
    intro st hst x hx
    rw [hr.fresh.1 st hst] at hx
    unfold calculateGranularitySql at hx
    split at hx
    · cases hx
    split at hx
    · cases hx
    cases hx
    exact ⟨Nat.pos_of_ne_zero (by assumption), Space.prod_pow_pos _ _ Nat.one_pos⟩
  have he : sortedBy (fun a b : Space.StructRec => granGe a.gran b.gran) n.structs =
      sortedBy (fun a b : Space.StructRec => decide (Mapper.granKey b.gran ≤ Mapper.granKey a.gran)) n.structs := by
    apply Mapper.sortedBy_congr_on
    intro x hx y hy
    rw [Bool.eq_iff_iff, decide_eq_true_iff]
    exact Mapper.granGe_iff (hpos x hx) (hpos y hy)
  have hperm := sortedBy_perm (fun a b : Space.StructRec => granGe a.gran b.gran) n.structs
  refine ⟨_, hperm, rfl, fun st hst => hr.fresh.1 st (hperm.mem_iff.1 hst), ?_⟩
  have hp := sortedBy_pairwise (fun a b : Space.StructRec => decide (Mapper.granKey b.gran ≤ Mapper.granKey a.gran))
    (by simp only [decide_eq_true_iff]; intro a b c h1 h2; exact le_trans h2 h1)
    (by simp only [decide_eq_true_iff]; intro a b; exact le_total _ _) n.structs
  rw [← he] at hp
  refine hp.imp fun {a b} h y hy => ?_
  rw [decide_eq_true_iff] at h
  unfold Mapper.granKey at h
  rw [hy] at h
  rcases ha : a.gran with _ | x
  · rw [ha] at h
    exact absurd h (by simp)
  · rw [ha] at h
    exact ⟨x, rfl, WithBot.coe_le_coe.1 h⟩

/-- **C86 (totals).** Both methods return, for all attributes, the total of the quantities that are assigned to records. -/
theorem C86_total {n : Node} (hr : Reachable n) {cm : CaseMap} {aw : List (PyStr × PyStr)} {out : List Piece}
    (h : n.staticDisaggregate cm [] aw = .ok out ∨ ∃ keys, n.adaptiveDisaggregate cm keys [] aw = .ok out) (a : Attrs) :
    totalOf out a = (((n.wanted aw).filter fun q => decide (n.Placed cm q ∧ q.2.1 = a)).map fun q => q.2.2).sum := by
  have hi := hr.inv
  have hex : ∃ shares, List.Forall₂ (n.Divides cm) (n.wanted aw) shares ∧ Explains out n ((n.wanted aw).zip shares) := by
    rcases h with h | ⟨keys, h⟩
    · obtain ⟨shares, x, y, _⟩ := C86_static hr h
      exact ⟨shares, x, y⟩
    · obtain ⟨shares, x, y, _⟩ := C86_adaptive hr h
      exact ⟨shares, x, y⟩
  obtain ⟨shares, hd, he1, he2, he3⟩ := hex
  have hsum : totalOf out a = (n.index.map fun r => amountOf out r.id a).sum := by
    have := sum_over_ids (n.index.map (·.id)) hi.ids (out.filter fun p => decide (p.attrs = a)) (·.index) (·.value) (by
      intro p hp
      obtain ⟨r, hr', he⟩ := he2 p (List.mem_filter.1 hp).1
      rw [← he]
      exact List.mem_map_of_mem hr')
    unfold totalOf
    rw [← this, List.map_map]
    congr 1
    refine List.map_congr_left fun r _ => ?_
    unfold amountOf
    rw [Function.comp_apply, List.filter_filter]
    congr 2
    refine List.filter_congr fun p _ => ?_
    rw [Bool.eq_iff_iff]
    simp
  have hsum2 : (n.index.map fun r => amountOf out r.id a) =
      n.index.map fun r => ((((n.wanted aw).zip shares).filter fun q => decide (q.1.2.1 = a)).map fun q => q.2 r.id).sum :=
    List.map_congr_left fun r hrm => he3 r hrm a
  rw [hsum, hsum2]
  clear hsum hsum2 he3 he1 he2 h
  generalize n.wanted aw = qs at hd
  induction hd with
  | nil => simp
  | @cons q f qs fs hq hqs ih =>
    simp only [List.zip_cons_cons, List.filter_cons]
    by_cases ha : q.2.1 = a
    · simp only [ha, decide_true, if_true, List.map_cons, List.sum_cons]
      rw [List.sum_map_add, ih]
      by_cases hp : n.Placed cm q
      · simp only [hp, decide_true, if_true, and_self, List.map_cons, List.sum_cons]
        rw [← hq.1 hp]
        rfl
      · simp only [hp, false_and, decide_false, Bool.false_eq_true, if_false]
        have : (n.index.map fun r => f r.id).sum = 0 := by
          simp [hq.2.1 hp]
        rw [this, zero_add]
    · simp only [ha, decide_false, Bool.false_eq_true, if_false]
      rw [ih]
      simp only [and_false, decide_false, Bool.false_eq_true, if_false]

/-- **C86 (conditions).** With conditions on labels both methods return the rows, of those returned without them, whose
record has these labels. -/
theorem C86_where (n : Node) (cm : CaseMap) (keys : List PyStr) (lw aw : List (PyStr × PyStr)) :
    ((∀ out, n.staticDisaggregate cm lw aw = .ok out →
      ∃ all, n.staticDisaggregate cm [] aw = .ok all ∧ ∀ p, p ∈ out ↔ p ∈ all ∧ n.recordHas lw p.index) ∧
     ∀ out, n.adaptiveDisaggregate cm keys lw aw = .ok out →
      ∃ all, n.adaptiveDisaggregate cm keys [] aw = .ok all ∧ ∀ p, p ∈ out ↔ p ∈ all ∧ n.recordHas lw p.index) ∧
    ∀ e, (n.staticDisaggregate cm [] aw = .error e ↔ n.staticDisaggregate cm lw aw = .error e) ∧
      (n.staticDisaggregate cm [] aw = .error e ↔ n.adaptiveDisaggregate cm keys lw aw = .error e) := by
  have key : ∀ ps p, p ∈ n.grouped lw ps ↔ p ∈ n.grouped [] ps ∧ n.recordHas lw p.index := by
    intro ps p
    rw [mem_grouped, mem_grouped]
    have hex : (∃ r ∈ n.recordsWhere lw, r.id = p.index) ↔ n.recordHas lw p.index := by
      unfold Node.recordHas Node.recordsWhere Node.indexRecords Node.indexColumns
      constructor
      · rintro ⟨r, hr, he⟩
        obtain ⟨h1, h2⟩ := List.mem_filter.1 hr
        refine ⟨r, h1, he, fun cl hcl => ?_⟩
        simpa using List.all_eq_true.1 h2 cl hcl
      · rintro ⟨r, hr, he, h⟩
        refine ⟨r, List.mem_filter.2 ⟨hr, List.all_eq_true.2 fun cl hcl => ?_⟩, he⟩
        simpa using h cl hcl
    have hex' : n.recordHas lw p.index → ∃ r ∈ n.recordsWhere [], r.id = p.index := by
      rintro ⟨r, hr, he, _⟩
      exact ⟨r, List.mem_filter.2 ⟨hr, rfl⟩, he⟩
    rw [hex]
    exact ⟨fun ⟨a, b, c⟩ => ⟨⟨a, hex' b, c⟩, b⟩, fun ⟨⟨a, _, c⟩, b⟩ => ⟨a, b, c⟩⟩
  unfold Node.staticDisaggregate Node.adaptiveDisaggregate
  rcases n.prepare cm aw with e' | srcs
  · refine ⟨⟨fun out h => ?_, fun out h => ?_⟩, fun e => ⟨Iff.rfl, Iff.rfl⟩⟩ <;> cases h
  · refine ⟨⟨fun out h => ⟨_, rfl, ?_⟩, fun out h => ⟨_, rfl, ?_⟩⟩, fun e => ⟨?_, ?_⟩⟩
    · injection h with h
      subst h
      exact key _
    · injection h with h
      subst h
      exact key _
    · exact ⟨fun h => (nomatch h), fun h => (nomatch h)⟩
    · exact ⟨fun h => (nomatch h), fun h => (nomatch h)⟩

namespace Demo

/-- Three places with a weighting that has a selector, and quantities for two levels. -/
def divided : Node :=
  Node.new.run [.addIndexColumns [['A'], ['B']],
   .addIndexRecords [['A'], ['B']] [[['x'], ['1']], [['x'], ['2']], [['y'], ['1']]],
   .addWeights [['A'], ['B']] false
     [⟨[['x'], ['1']], none, some 3⟩, ⟨[['x'], ['2']], none, some 4⟩, ⟨[['y'], ['1']], none, some 5⟩] ['w']
     [['[', 'k', ']']],
   .addPartitionDefinitions [{['A']}],
   .addQuantities [amount ['x'] ['1'] 10, amount ['x'] ['2'] 5, amount ['x'] [] 21]]

/-- Another place is added, and a quantity for it. -/
def dividedLater : Node :=
  divided.run [.addIndexRecords [['A'], ['B']] [[['z'], ['1']]], .addQuantities [amount ['z'] ['1'] 100]]

end Demo

/-- The conditions are met: the quantity for both places of a county is divided 3 : 4 or 10 : 5. -/
example : Reachable Demo.divided ∧
    ((Demo.divided.staticDisaggregate ⟨id, id⟩ [] []).toOption.map fun out =>
      [amountOf out 1 [(['k'], ['v'])], amountOf out 2 [(['k'], ['v'])]]) = some [19, 17] ∧
    ((Demo.divided.adaptiveDisaggregate ⟨id, id⟩ [] [] []).toOption.map fun out =>
      [amountOf out 1 [(['k'], ['v'])], amountOf out 2 [(['k'], ['v'])]]) = some [24, 12] ∧
    ((Demo.divided.adaptiveDisaggregate ⟨id, id⟩ [] [(['B'], ['2'])] []).toOption.map fun out =>
      out.map (·.index)) = some [2] ∧
    (Demo.divided.wanted []).length = 3 ∧ ∀ q ∈ Demo.divided.wanted [], Demo.divided.Placed ⟨id, id⟩ q :=
  ⟨⟨_, rfl⟩, by decide +kernel, by decide +kernel, by decide +kernel, by decide +kernel, by decide +kernel⟩

/-- **C86, violated.** A complete weighting without selectors makes every disaggregation raise `TypeError`, with every
condition; adding weights without giving selectors creates one. -/
theorem C86_violated_selectors :
    (∀ (n : Node) (g : Weighting), g ∈ n.weightings → g.complete = true → g.selectors = [] → ∀ cm keys lw aw,
      (∃ e, n.staticDisaggregate cm lw aw = .error e) ∧ ∃ e, n.adaptiveDisaggregate cm keys lw aw = .error e) ∧
    Reachable Demo.counted ∧ (∃ g ∈ Demo.counted.weightings, g.complete = true ∧ g.selectors = []) ∧
    Demo.counted.staticDisaggregate ⟨id, id⟩ [] [] = .error (.typeError "'NoneType' object is not iterable") := by
  refine ⟨?_, ⟨_, rfl⟩, by decide +kernel, by decide +kernel⟩
  intro n g hg hc hsel cm keys lw aw
  have hp : ∃ e, n.prepare cm aw = .error e := by
    have hsl : ∃ e, n.selectorLists = .error e := by
      rcases hl : n.selectorLists with e | l
      · exact ⟨e, rfl⟩
      · exfalso
        have h2 := MappingCsv.mapM_forall₂.1 hl
        have hgm : g ∈ n.weightings.filter (·.complete) := List.mem_filter.2 ⟨hg, hc⟩
        clear hl
        generalize (n.weightings.filter (·.complete)) = gs at h2 hgm
        induction h2 with
        | nil => cases hgm
        | cons h _ ih =>
          rcases List.mem_cons.1 hgm with rfl | hm
          · rw [if_pos hsel] at h
            cases h
          · exact ih hm
    obtain ⟨e, he⟩ := hsl
    unfold Node.prepare
    rw [he]
    exact ⟨e, rfl⟩
  obtain ⟨e, he⟩ := hp
  unfold Node.staticDisaggregate Node.adaptiveDisaggregate
  rw [he]
  exact ⟨⟨e, rfl⟩, e, rfl⟩

/-- **C86, violated.** A quantity whose place has no weight is left out without an error, although its labels are those of a
record and the only weighting is flagged complete: 100 of 136 units are missing in the result. -/
theorem C86_violated_lost : Reachable Demo.dividedLater ∧
    (∃ r ∈ Demo.dividedLater.indexRecords, r.labels = [['z'], ['1']]) ∧
    ([['z'], ['1']], [(['k'], ['v'])], 100) ∈ Demo.dividedLater.wanted [] ∧
    (∀ g ∈ Demo.dividedLater.weightings, g.complete = true) ∧
    ∃ out, Demo.dividedLater.staticDisaggregate ⟨id, id⟩ [] [] = .ok out ∧ totalOf out [(['k'], ['v'])] = 36 := by
  have hrun : Reachable Demo.dividedLater := ⟨_, by unfold Demo.dividedLater Demo.divided Node.run; rw [← List.foldl_append]⟩
  refine ⟨hrun, by decide +kernel, by decide +kernel, by decide +kernel, ?_⟩
  have h : ((Demo.dividedLater.staticDisaggregate ⟨id, id⟩ [] []).toOption.map fun out =>
      totalOf out [(['k'], ['v'])]) = some 36 := by decide +kernel
  rcases hout : Demo.dividedLater.staticDisaggregate ⟨id, id⟩ [] [] with e | out
  · rw [hout] at h
    cases h
  · rw [hout] at h
    injection h with h
    exact ⟨out, rfl, h⟩

end Toron.Legacy
