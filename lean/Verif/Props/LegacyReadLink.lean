/-
C121: what is read of a link of a legacy node.
-/
import Verif.Spec.ReadLink
import Verif.Lemmas.Legacy.Relations
import Verif.Lemmas.Legacy.Split
import Verif.Lemmas.Legacy.Edges
import Verif.Props.BitFlags
import Verif.Props.Text

namespace Toron.Legacy

open Toron.Selectors (PyStr)
open Toron.Space (IndexRec)

theorem bitAt_ofBytes (b : List Byte) (i : Nat) :
    Spec.bitAt (BitFlags.ofBytes b).toBits i = Spec.bitAt (bytesToBitstream b) i := by
  unfold BitFlags.toBits BitFlags.ofBytes
  rw [bitAt_bytesToBitstream, bitAt_bytesToBitstream]
  exact byteBit_rstrip b i

theorem shownLabel_covers {level : Option (List Byte)} {i : Nat} (h : Covers level i) (l : PyStr) :
    shownLabel l level i = some l := by
  cases level with
  | none => rfl
  | some b =>
    have hb := h b rfl
    rw [← bitAt_ofBytes] at hb
    show (match (BitFlags.ofBytes b).getItem i with | .ok true => some l | _ => none) = _
    have hi : i < (BitFlags.ofBytes b).len := by
      by_contra hc
      unfold Spec.bitAt at hb
      rw [List.getD_eq_default _ _ (by rw [(BitFlags.C07_len _).1]; omega)] at hb
      cases hb
    have := (BitFlags.C07_getItem (BitFlags.ofBytes b) i).1 ⟨by omega, by omega⟩
    rw [this]
    rw [Int.toNat_natCast, hb]

theorem shownLabel_not {level : Option (List Byte)} {i : Nat} (h : ¬ Covers level i) (l : PyStr) :
    shownLabel l level i = none := by
  cases level with
  | none => exact absurd (fun b hb => by cases hb) h
  | some b =>
    have hb : Spec.bitAt (bytesToBitstream b) i = false := by
      by_contra hc
      exact h fun b' hb' => by
        cases hb'
        exact Bool.not_eq_false _ ▸ hc
    rw [← bitAt_ofBytes] at hb
    show (match (BitFlags.ofBytes b).getItem i with | .ok true => some l | _ => none) = _
    by_cases hi : i < (BitFlags.ofBytes b).len
    · have := (BitFlags.C07_getItem (BitFlags.ofBytes b) i).1 ⟨by omega, by omega⟩
      rw [this]
      rw [Int.toNat_natCast, hb]
    · obtain ⟨t, ht⟩ := (BitFlags.C07_getItem (BitFlags.ofBytes b) i).2.2 (.inr (by omega))
      rw [ht]

theorem shownFrom_length (level : Option (List Byte)) (i : Nat) (labels : List PyStr) :
    (shownFrom level i labels).length = labels.length := by
  induction labels generalizing i with
  | nil => rfl
  | cons l ls ih => rw [shownFrom, List.length_cons, ih, List.length_cons]

theorem shownFrom_get (level : Option (List Byte)) (k : Nat) (labels : List PyStr) (i : Nat) :
    (shownFrom level k labels)[i]? = labels[i]?.map fun l => shownLabel l level (k + i) := by
  induction labels generalizing k i with
  | nil => rfl
  | cons l ls ih =>
    cases i with
    | zero => rfl
    | succ i =>
      rw [shownFrom, List.getElem?_cons_succ, List.getElem?_cons_succ, ih]
      have : k + 1 + i = k + (i + 1) := by omega
      rw [this]

/-- The labels that are shown are those that were given. -/
theorem shown_iff (labels : List PyStr) (level : Option (List Byte)) (given : List (Option PyStr)) :
    shownLabels labels level = given ↔ GivenAs labels level given := by
  have hget : ∀ i, (shownLabels labels level)[i]? = labels[i]?.map fun l => shownLabel l level i := by
    intro i
    unfold shownLabels
    rw [shownFrom_get, Nat.zero_add]
  constructor
  · rintro rfl
    refine ⟨shownFrom_length _ _ _, fun i l hl => ⟨fun hc => ?_, fun hc => ?_⟩⟩
    · rw [hget, hl, Option.map_some, shownLabel_covers hc]
    · rw [hget, hl, Option.map_some, shownLabel_not hc]
  · rintro ⟨hlen, h⟩
    apply List.ext_getElem?
    intro i
    rw [hget]
    cases hl : labels[i]? with
    | none =>
      rw [List.getElem?_eq_none_iff] at hl
      rw [List.getElem?_eq_none (by omega)]
      rfl
    | some l =>
      by_cases hc : Covers level i
      · rw [(h i l hl).1 hc, Option.map_some, shownLabel_covers hc]
      · rw [(h i l hl).2 hc, Option.map_some, shownLabel_not hc]

theorem mem_leftJoin_some {index : List IndexRec} {rels : List Kept} {r : IndexRec} {m : Kept} :
    (r, some m) ∈ leftJoin index rels ↔ r ∈ index ∧ m ∈ rels ∧ m.index = r.id := by
  unfold leftJoin
  rw [List.mem_flatMap]
  constructor
  · rintro ⟨r', hr, h⟩
    rcases hf : rels.filter (fun m => m.index == r'.id) with _ | ⟨x, xs⟩
    · rw [hf] at h
      simp at h
    · rw [hf] at h
      obtain ⟨m', hm', he⟩ := List.mem_map.1 h
      cases he
      rw [← hf, List.mem_filter, beq_iff_eq] at hm'
      exact ⟨hr, hm'⟩
  · rintro ⟨hr, hm, he⟩
    refine ⟨r, hr, ?_⟩
    have hf : m ∈ rels.filter (fun m => m.index == r.id) := List.mem_filter.2 ⟨hm, beq_iff_eq.2 he⟩
    generalize rels.filter (fun m => m.index == r.id) = l at hf
    cases l with
    | nil => cases hf
    | cons x xs => exact List.mem_map.2 ⟨m, hf, rfl⟩

theorem mem_leftJoin_none {index : List IndexRec} {rels : List Kept} {r : IndexRec} :
    (r, none) ∈ leftJoin index rels ↔ r ∈ index ∧ ∀ m ∈ rels, m.index ≠ r.id := by
  unfold leftJoin
  rw [List.mem_flatMap]
  constructor
  · rintro ⟨r', hr, h⟩
    rcases hf : rels.filter (fun m => m.index == r'.id) with _ | ⟨x, xs⟩
    · rw [hf] at h
      rw [List.mem_singleton] at h
      cases h
      refine ⟨hr, fun m hm he => ?_⟩
      have : m ∈ rels.filter (fun m => m.index == r.id) := List.mem_filter.2 ⟨hm, beq_iff_eq.2 he⟩
      rw [hf] at this
      cases this
    · rw [hf] at h
      obtain ⟨m', _, he⟩ := List.mem_map.1 h
      cases he
  · rintro ⟨hr, hn⟩
    refine ⟨r, hr, ?_⟩
    have : rels.filter (fun m => m.index == r.id) = [] := by
      rw [List.filter_eq_nil_iff]
      intro m hm he
      exact hn m hm (beq_iff_eq.1 he)
    rw [this]
    exact List.mem_singleton.2 rfl

/-- Adding up over the join is adding up over the relations. -/
theorem leftJoin_sum {index : List IndexRec} {rels : List Kept} (hw : WellFormed index rels)
    (h : IndexRec × Option Kept → ℚ) (h0 : ∀ r, h (r, none) = 0) (g : Kept → ℚ)
    (hg : ∀ r ∈ index, ∀ m ∈ rels, m.index = r.id → h (r, some m) = g m) :
    ((leftJoin index rels).map h).sum = (rels.map g).sum := by
  unfold leftJoin
  rw [map_flatMap_sum]
  have key := sum_over_ids (index.map (·.id)) hw.ids rels (·.index) g (by
    intro m hm
    obtain ⟨r, hr, he⟩ := hw.refs m hm
    exact List.mem_map.2 ⟨r, hr, he⟩)
  rw [← key, List.map_map]
  congr 1
  apply List.map_congr_left
  intro r hr
  have hf : rels.filter (fun m => decide (m.index = r.id)) = rels.filter (fun m => m.index == r.id) := by
    apply List.filter_congr
    intro m _
    rfl
  show _ = ((rels.filter fun m => decide (m.index = r.id)).map g).sum
  rw [hf]
  rcases hx : rels.filter (fun m => m.index == r.id) with _ | ⟨x, xs⟩
  · rw [hx]
    simp [h0]
  · rw [hx]
    show (((x :: xs).map fun m => (r, some m)).map h).sum = _
    rw [List.map_map]
    congr 1
    apply List.map_congr_left
    intro m hm
    rw [← hx, List.mem_filter, beq_iff_eq] at hm
    exact hg r hr m hm.1 hm.2

theorem sqlSum_getD (vs : List (Option ℚ)) : (sqlSum vs).getD 0 = (vs.map fun v => v.getD 0).sum := by
  have : (vs.filterMap id).sum = (vs.map fun v => v.getD 0).sum := by
    induction vs with
    | nil => rfl
    | cons v vs ih =>
      cases v with
      | none => rw [List.filterMap_cons_none rfl, List.map_cons, List.sum_cons, ih]; simp
      | some q => rw [List.filterMap_cons_some (by rfl), List.map_cons, List.sum_cons, List.sum_cons, ih]; rfl
  unfold sqlSum
  rw [← this]
  split
  · rename_i h
    rw [h]
    rfl
  · rfl

theorem sqlSum_some {vs : List (Option ℚ)} {q : ℚ} (h : some q ∈ vs) : sqlSum vs = some ((vs.map fun v => v.getD 0).sum) := by
  have hs : ∃ t, sqlSum vs = some t := by
    unfold sqlSum
    have : q ∈ vs.filterMap id := List.mem_filterMap.2 ⟨some q, h, rfl⟩
    split
    · rename_i he
      rw [he] at this
      cases this
    · exact ⟨_, rfl⟩
  obtain ⟨t, ht⟩ := hs
  have := sqlSum_getD vs
  rw [ht] at this
  rw [ht, ← this]
  rfl

/-- The sum of a group of rows from one record. -/
theorem group_sum {index : List IndexRec} {rels : List Kept} (hw : WellFormed index rels) (j : Nat)
    (given : List (Option PyStr)) (P : Kept → Bool)
    (hP : ∀ r ∈ index, ∀ m ∈ rels, m.index = r.id → (P m = true ↔ shownLabels r.labels m.level = given)) :
    ((((leftJoin index rels).filter fun rm => groupKey rm = (some j, given)).map fun rm => rm.2.map (·.value)).map
      fun v => v.getD 0).sum = ((rels.filter fun m => decide (m.source = j) && P m).map (·.value)).sum := by
  rw [List.map_map, filter_map_sum, filter_map_sum]
  refine leftJoin_sum hw _ ?_ _ ?_
  · intro r
    split <;> rfl
  · intro r hr m hm he
    have hk : groupKey (r, some m) = (some j, given) ↔ m.source = j ∧ shownLabels r.labels m.level = given := by
      unfold groupKey
      rw [Prod.mk.injEq]
      exact and_congr_left fun _ => Option.some_inj
    by_cases hc : m.source = j ∧ shownLabels r.labels m.level = given
    · rw [if_pos (decide_eq_true (hk.2 hc)), if_pos]
      · rfl
      · rw [Bool.and_eq_true]
        exact ⟨decide_eq_true hc.1, (hP r hr m hm he).2 hc.2⟩
    · rw [if_neg (by rw [decide_eq_true_iff, hk]; exact hc), if_neg]
      rw [Bool.and_eq_true, decide_eq_true_iff, hP r hr m hm he]
      exact hc

/-- **C121.** A row is shown once for each record of the other node and labels that were given. -/
theorem C121_once (index : List IndexRec) (rels : List Kept) :
    ((reconstructed index rels).map fun x => (x.other, x.labels)).Nodup := by
  unfold reconstructed
  rw [List.map_map]
  have : ((fun x : LinkRow => (x.other, x.labels)) ∘ fun k : Option Nat × List (Option PyStr) =>
      (⟨k.1, sqlSum (((leftJoin index rels).filter fun rm => groupKey rm = k).map fun rm => rm.2.map (·.value)), k.2⟩ : LinkRow)) =
      id := by
    funext k
    rfl
  rw [this, List.map_id]
  exact List.nodup_dedup _

theorem mem_reconstructed {index : List IndexRec} {rels : List Kept} {x : LinkRow} :
    x ∈ reconstructed index rels ↔ (∃ rm ∈ leftJoin index rels, groupKey rm = (x.other, x.labels)) ∧
      x.value = sqlSum (((leftJoin index rels).filter fun rm => groupKey rm = (x.other, x.labels)).map fun rm =>
        rm.2.map (·.value)) := by
  unfold reconstructed
  rw [List.mem_map]
  constructor
  · rintro ⟨k, hk, rfl⟩
    rw [List.mem_dedup, List.mem_map] at hk
    exact ⟨hk, rfl⟩
  · rintro ⟨hk, hv⟩
    refine ⟨(x.other, x.labels), List.mem_dedup.2 (List.mem_map.2 hk), ?_⟩
    cases x
    rw [LinkRow.mk.injEq]
    exact ⟨rfl, hv.symm, rfl⟩

/-- **C121.** Which labels are shown for a record of the other node: exactly those that one of its relations was given
with. -/
theorem C121_rows (index : List IndexRec) (rels : List Kept) (j : Nat)
    (given : List (Option PyStr)) :
    (∃ v, ⟨some j, v, given⟩ ∈ reconstructed index rels) ↔
      ∃ m ∈ rels, m.source = j ∧ ∃ r ∈ index, r.id = m.index ∧ GivenAs r.labels m.level given := by
  constructor
  · rintro ⟨v, hv⟩
    obtain ⟨⟨⟨r, m⟩, hrm, hk⟩, -⟩ := mem_reconstructed.1 hv
    unfold groupKey at hk
    rw [Prod.mk.injEq] at hk
    cases m with
    | none => cases hk.1
    | some m =>
      obtain ⟨hr, hm, he⟩ := mem_leftJoin_some.1 hrm
      exact ⟨m, hm, Option.some_inj.1 hk.1, r, hr, he.symm, (shown_iff _ _ _).1 hk.2⟩
  · rintro ⟨m, hm, rfl, r, hr, he, hg⟩
    refine ⟨sqlSum (((leftJoin index rels).filter fun rm => groupKey rm = (some m.source, given)).map fun rm =>
      rm.2.map (·.value)), mem_reconstructed.2 ⟨⟨(r, some m), mem_leftJoin_some.2 ⟨hr, hm, he.symm⟩, ?_⟩, rfl⟩⟩
    unfold groupKey
    rw [Prod.mk.injEq]
    exact ⟨rfl, (shown_iff _ _ _).2 hg⟩

open Classical in
/-- **C121.** The value of a row is the sum of all relations that were given with these labels. -/
theorem C121_value {index : List IndexRec} {rels : List Kept} (hw : WellFormed index rels) {j : Nat} {v : Option ℚ}
    {given : List (Option PyStr)} (h : ⟨some j, v, given⟩ ∈ reconstructed index rels) :
    v = some ((rels.filter fun m => decide (m.source = j ∧ ∃ r ∈ index, r.id = m.index ∧ GivenAs r.labels m.level given)).map
      (·.value)).sum := by
  obtain ⟨⟨⟨r, m⟩, hrm, hk⟩, hv⟩ := mem_reconstructed.1 h
  have hin : ∃ q, some q ∈ ((leftJoin index rels).filter fun rm => groupKey rm = (some j, given)).map fun rm =>
      rm.2.map (·.value) := by
    cases m with
    | none =>
      unfold groupKey at hk
      rw [Prod.mk.injEq] at hk
      cases hk.1
    | some m => exact ⟨m.value, List.mem_map.2 ⟨(r, some m), List.mem_filter.2 ⟨hrm, decide_eq_true hk⟩, rfl⟩⟩
  obtain ⟨q, hq⟩ := hin
  refine hv.trans ((sqlSum_some hq).trans ?_)
  rw [group_sum hw j given (fun m => decide (∃ r ∈ index, r.id = m.index ∧ GivenAs r.labels m.level given))]
  · congr 3
    apply List.filter_congr
    intro m _
    rw [Bool.eq_iff_iff, Bool.and_eq_true, decide_eq_true_iff, decide_eq_true_iff, decide_eq_true_iff]
  · intro r hr m hm he
    rw [decide_eq_true_iff]
    constructor
    · rintro ⟨r', hr', he', hg⟩
      have : r' = r := List.inj_on_of_nodup_map hw.ids hr' hr (he'.trans he)
      rw [← this]
      exact (shown_iff _ _ _).2 hg
    · intro hs
      exact ⟨r, hr, he.symm, (shown_iff _ _ _).1 hs⟩

/-- **C121.** Nothing is lost or added: for every record of the other node, the values that are shown have the same total
as its relations. -/
theorem C121_total {index : List IndexRec} {rels : List Kept} (hw : WellFormed index rels) (j : Nat) :
    (((reconstructed index rels).filter fun x => x.other = some j).map fun x => x.value.getD 0).sum = totalFrom rels j := by
  rw [filter_map_sum]
  unfold reconstructed
  rw [List.map_map]
  have := grouped_sum (ks := ((leftJoin index rels).map groupKey).dedup) (List.nodup_dedup _)
    ((leftJoin index rels).map fun rm => (groupKey rm, (rm.2.map (·.value)).getD 0))
    (by
      intro p hp
      obtain ⟨rm, hrm, rfl⟩ := List.mem_map.1 hp
      exact List.mem_dedup.2 (List.mem_map_of_mem hrm))
    (fun k => decide (k.1 = some j))
  refine Eq.trans ?_ (this.trans ?_)
  · congr 1
    apply List.map_congr_left
    intro k _
    show (if decide (k.1 = some j) = true then (sqlSum _).getD 0 else 0) = _
    rw [sqlSum_getD, List.map_map, List.filter_map, List.map_map]
    rfl
  · rw [List.map_map]
    unfold totalFrom
    rw [filter_map_sum]
    refine leftJoin_sum hw _ ?_ _ ?_
    · intro r
      simp [groupKey]
    · intro r _ m _ _
      show (if decide (some m.source = some j) = true then m.value else 0) = _
      by_cases hj : m.source = j
      · rw [if_pos (decide_eq_true (congrArg some hj)), if_pos (decide_eq_true hj)]
      · rw [if_neg (by rw [decide_eq_true_iff, Option.some_inj]; exact hj), if_neg (by rw [decide_eq_true_iff]; exact hj)]

theorem givenAs_none {labels : List PyStr} {given : List (Option PyStr)} (h : GivenAs labels none given) :
    given = labels.map some := by
  apply List.ext_getElem?
  intro i
  rw [List.getElem?_map]
  cases hl : labels[i]? with
  | none =>
    rw [List.getElem?_eq_none_iff] at hl
    rw [List.getElem?_eq_none (by rw [h.1]; exact hl)]
    rfl
  | some l => exact (h.2 i l hl).1 fun b hb => by cases hb

theorem givenAs_full {labels labels' : List PyStr} {level : Option (List Byte)} (h : GivenAs labels' level (labels.map some)) :
    labels' = labels := by
  have hlen : labels.length = labels'.length := by have := h.1; rwa [List.length_map] at this
  apply List.ext_getElem?
  intro i
  cases hl : labels'[i]? with
  | none =>
    rw [List.getElem?_eq_none_iff] at hl
    rw [List.getElem?_eq_none (by omega)]
  | some l =>
    by_cases hc : Covers level i
    · have := (h.2 i l hl).1 hc
      rw [List.getElem?_map] at this
      cases hx : labels[i]? with
      | none => rw [hx] at this; cases this
      | some x =>
        rw [hx] at this
        rw [Option.map_some, Option.some_inj, Option.some_inj] at this
        rw [this]
    · have := (h.2 i l hl).2 hc
      rw [List.getElem?_map] at this
      cases hx : labels[i]? with
      | none => rw [hx] at this; cases this
      | some x => rw [hx] at this; cases this

open Classical in
/-- **C121.** A relation that was given with all labels is shown with these labels and its own value. -/
theorem C121_exact {index : List IndexRec} {rels : List Kept} (hw : WellFormed index rels) {m : Kept} (hm : m ∈ rels)
    (hl : m.level = none) {r : IndexRec} (hr : r ∈ index) (he : r.id = m.index) :
    ⟨some m.source, some m.value, r.labels.map some⟩ ∈ reconstructed index rels := by
  have hg : GivenAs r.labels m.level (r.labels.map some) := by
    rw [hl]
    refine ⟨List.length_map _, fun i l h => ⟨fun _ => ?_, fun hc => absurd (fun b hb => by cases hb) hc⟩⟩
    rw [List.getElem?_map, h]
    rfl
  obtain ⟨v, hv⟩ := (C121_rows index rels m.source (r.labels.map some)).2 ⟨m, hm, rfl, r, hr, he, hg⟩
  have hval := C121_value hw hv
  have hu : ∀ x ∈ rels, (x.source = m.source ∧ ∃ r' ∈ index, r'.id = x.index ∧
      GivenAs r'.labels x.level (r.labels.map some)) ↔ x = m := by
    intro x hx
    constructor
    · rintro ⟨hs, r', hr', he', hg'⟩
      have e1 := givenAs_full hg'
      have e2 : r' = r := List.inj_on_of_nodup_map hw.labels hr' hr e1
      refine List.inj_on_of_nodup_map hw.pairs hx hm ?_
      rw [Prod.mk.injEq]
      exact ⟨hs, by rw [← he', ← he, e2]⟩
    · rintro rfl
      exact ⟨rfl, r, hr, he, hg⟩
  have hnd : rels.Nodup := List.Nodup.of_map _ hw.pairs
  have h2 : v = some ([m].map (·.value)).sum := by
    rw [hval]
    congr 3
    refine (List.filter_congr (q := fun x => decide (x = m)) ?_).trans ?_
    · intro x hx
      by_cases hxm : x = m
      · exact (decide_eq_true ((hu x hx).2 hxm)).trans (decide_eq_true hxm).symm
      · exact (decide_eq_false fun hc => hxm ((hu x hx).1 hc)).trans (decide_eq_false hxm).symm
    · rw [List.filter_eq, List.count_eq_one_of_mem hnd hm]
      rfl
  rw [List.map_singleton, List.sum_singleton] at h2
  rw [← h2]
  exact hv

/-- **C121.** A record that no record of the other node is mapped to is shown with its labels and nothing else, and there are
no other rows without a record of the other node. -/
theorem C121_unmapped {index : List IndexRec} {rels : List Kept} (x : LinkRow) (hx : x.other = none) :
    x ∈ reconstructed index rels ↔
      x.value = none ∧ ∃ r ∈ index, x.labels = r.labels.map some ∧ ∀ m ∈ rels, m.index ≠ r.id := by
  have hs : ∀ r : IndexRec, shownLabels r.labels none = r.labels.map some := fun r =>
    givenAs_none ((shown_iff _ _ _).1 rfl)
  have hnone : ∀ given, sqlSum (((leftJoin index rels).filter fun rm => groupKey rm = (none, given)).map fun rm =>
      rm.2.map (·.value)) = none := by
    intro given
    unfold sqlSum
    have : ((((leftJoin index rels).filter fun rm => groupKey rm = (none, given)).map fun rm => rm.2.map (·.value)).filterMap id) =
        [] := by
      rw [List.filterMap_eq_nil_iff]
      intro v hv
      obtain ⟨⟨r, m⟩, hrm, rfl⟩ := List.mem_map.1 hv
      have hk := of_decide_eq_true (List.mem_filter.1 hrm).2
      unfold groupKey at hk
      rw [Prod.mk.injEq] at hk
      cases m with
      | none => rfl
      | some m => cases hk.1
    rw [this]
  rw [mem_reconstructed, hx, hnone]
  constructor
  · rintro ⟨⟨⟨r, m⟩, hrm, hk⟩, hv⟩
    unfold groupKey at hk
    rw [Prod.mk.injEq] at hk
    cases m with
    | some m => cases hk.1
    | none =>
      obtain ⟨hr, hn⟩ := mem_leftJoin_none.1 hrm
      exact ⟨hv, r, hr, hk.2.symm.trans (hs r), hn⟩
  · rintro ⟨hv, r, hr, hlab, hn⟩
    refine ⟨⟨(r, none), mem_leftJoin_none.2 ⟨hr, hn⟩, ?_⟩, hv⟩
    unfold groupKey
    rw [Prod.mk.injEq]
    exact ⟨rfl, (hs r).trans hlab.symm⟩

/-- **C121.** With `reified=True` there is a row for every relation, with the labels of its record and its own value, and one
for every record that nothing is mapped to. -/
theorem C121_reified (cols : List PyStr) {index : List IndexRec} {rels : List Kept} (x : ReifiedRow) :
    x ∈ reified cols index rels ↔
      (∃ m ∈ rels, ∃ r ∈ index, m.index = r.id ∧ x = ⟨some m.source, some m.value, r.labels,
        m.level.map fun b => Text.commaJoin (Text.ambiguousFields b cols)⟩) ∨
      ∃ r ∈ index, (∀ m ∈ rels, m.index ≠ r.id) ∧ x = ⟨none, none, r.labels, none⟩ := by
  unfold reified
  rw [List.mem_map]
  constructor
  · rintro ⟨⟨r, m⟩, hrm, rfl⟩
    cases m with
    | none =>
      obtain ⟨hr, hn⟩ := mem_leftJoin_none.1 hrm
      exact .inr ⟨r, hr, hn, rfl⟩
    | some m =>
      obtain ⟨hr, hm, he⟩ := mem_leftJoin_some.1 hrm
      exact .inl ⟨m, hm, r, hr, he, rfl⟩
  · rintro (⟨m, hm, r, hr, he, rfl⟩ | ⟨r, hr, hn, rfl⟩)
    · exact ⟨(r, some m), mem_leftJoin_some.2 ⟨hr, hm, he⟩, rfl⟩
    · exact ⟨(r, none), mem_leftJoin_none.2 ⟨hr, hn⟩, rfl⟩

/-- **C121.** Also with `reified=True` the total is that of the relations. -/
theorem C121_reified_total (cols : List PyStr) {index : List IndexRec} {rels : List Kept} (hw : WellFormed index rels) (j : Nat) :
    (((reified cols index rels).filter fun x => x.other = some j).map fun x => x.value.getD 0).sum = totalFrom rels j := by
  rw [filter_map_sum]
  unfold reified totalFrom
  rw [List.map_map, filter_map_sum]
  refine leftJoin_sum hw _ ?_ _ ?_
  · intro r
    simp [groupKey]
  · intro r _ m _ _
    show (if decide (some m.source = some j) = true then m.value else 0) = _
    by_cases hj : m.source = j
    · rw [if_pos (decide_eq_true (congrArg some hj)), if_pos (decide_eq_true hj)]
    · rw [if_neg (by rw [decide_eq_true_iff, Option.some_inj]; exact hj), if_neg (by rw [decide_eq_true_iff]; exact hj)]

/-- **C121 (part).** With at most eight columns, the fields that are named for a relation are the columns that were not
given. -/
theorem C121_fields_partial (cols : List PyStr) (hc : cols.length ≤ 8) {index : List IndexRec} {rels : List Kept} {m : Kept}
    (hm : m ∈ rels) {r : IndexRec} (hr : r ∈ index) (he : m.index = r.id) {b : List Byte} (hl : m.level = some b)
    (hb : ∃ i, Covers m.level i) :
    ⟨some m.source, some m.value, r.labels, some (Text.commaJoin (Spec.openColumns (BitFlags.ofBytes b).toBits 0 cols))⟩ ∈
      reified cols index rels := by
  obtain ⟨i, hi⟩ := hb
  have h := Text.C51_up_to_eight_partial b cols hc ⟨i, by rw [bitAt_ofBytes]; exact hi b hl⟩
  refine (C121_reified cols _).2 (.inl ⟨m, hm, r, hr, he, ?_⟩)
  rw [hl, ← h]
  rfl

/-- **C121.** The rows are those of the link with this name from this node; without such a link there is an error. -/
theorem C121_link (index : List IndexRec) (links : List Link) (rels : List Kept) (other name : PyStr)
    (hn : (links.map fun e => (e.name, e.other)).Nodup) :
    (∀ e ∈ links, e.other = other → e.name = name →
      getLinkRows index links rels other name = .ok (reconstructed index (rels.filter fun m => m.link == e.id)) ∧
      ∀ cols, getReifiedRows cols index links rels other name = .ok (reified cols index (rels.filter fun m => m.link == e.id))) ∧
    ((∀ e ∈ links, ¬ (e.other = other ∧ e.name = name)) → (getLinkRows index links rels other name).toBool = false ∧
      ∀ cols, (getReifiedRows cols index links rels other name).toBool = false) := by
  constructor
  · intro e he ho hna
    have hf : links.find? (fun e => e.other == other && e.name == name) = some e := by
      cases hx : links.find? (fun e => e.other == other && e.name == name) with
      | none =>
        rw [List.find?_eq_none] at hx
        exact absurd (by rw [ho, hna]; simp) (hx e he)
      | some y =>
        have hy := List.find?_some hx
        rw [Bool.and_eq_true, beq_iff_eq, beq_iff_eq] at hy
        have : y = e := List.inj_on_of_nodup_map hn (List.mem_of_find?_eq_some hx) he (by
          rw [Prod.mk.injEq]; exact ⟨hy.2.trans hna.symm, hy.1.trans ho.symm⟩)
        rw [this]
    have hrel : relationsNamed links rels other name = .ok (rels.filter fun m => m.link == e.id) := by
      unfold relationsNamed
      rw [hf]
    unfold getLinkRows getReifiedRows
    rw [hrel]
    exact ⟨rfl, fun _ => rfl⟩
  · intro h
    have hf : links.find? (fun e => e.other == other && e.name == name) = none := by
      rw [List.find?_eq_none]
      intro e he hc
      rw [Bool.and_eq_true, beq_iff_eq, beq_iff_eq] at hc
      exact h e he hc
    unfold getLinkRows getReifiedRows relationsNamed
    rw [hf]
    exact ⟨rfl, fun _ => rfl⟩

/-- Nine columns, one record, and a relation that was given with the first label only. -/
def nineIndex : List IndexRec := [⟨1, [['p'], ['q'], ['r'], ['s'], ['t'], ['u'], ['v'], ['w'], ['x']]⟩]
def nineCols : List PyStr := [['a'], ['b'], ['c'], ['d'], ['e'], ['f'], ['g'], ['h'], ['i']]
def nineRels : List Kept := [⟨1, 5, 1, 4, some [0x80#8]⟩]

/-- **C121 (violated).** With nine columns the ninth is not named although no label was given for it. -/
theorem C121_violated_ninth : WellFormed nineIndex nineRels ∧ ¬ Covers (some [0x80#8]) 8 ∧
    ∀ x ∈ reified nineCols nineIndex nineRels,
      x.fields = some ['b', ',', ' ', 'c', ',', ' ', 'd', ',', ' ', 'e', ',', ' ', 'f', ',', ' ', 'g', ',', ' ', 'h'] := by
  refine ⟨⟨by decide, by decide, by decide, by decide⟩, fun h => ?_, by decide +kernel⟩
  have := h _ rfl
  revert this
  decide +kernel

/-- Three records; records 1 and 2 got parts of what was given for `x` alone, record 2 also something exact. -/
def demoIndex : List IndexRec := [⟨0, [['-'], ['-']]⟩, ⟨1, [['x'], ['a']]⟩, ⟨2, [['x'], ['b']]⟩, ⟨3, [['y'], ['c']]⟩]
def demoRels : List Kept := [⟨1, 7, 1, 10, some [0x80#8]⟩, ⟨1, 7, 2, 30, some [0x80#8]⟩, ⟨1, 8, 2, 5, none⟩, ⟨1, 0, 0, 0, none⟩]

theorem demo_wellFormed : WellFormed demoIndex demoRels := ⟨by decide, by decide, by decide, by decide⟩

example : ⟨some 8, some 5, [some ['x'], some ['b']]⟩ ∈ reconstructed demoIndex demoRels :=
  C121_exact demo_wellFormed (m := ⟨1, 8, 2, 5, none⟩) (by decide) rfl (r := ⟨2, [['x'], ['b']]⟩) (by decide) rfl

example : reconstructed demoIndex demoRels =
    [⟨some 0, some 0, [some ['-'], some ['-']]⟩, ⟨some 7, some 40, [some ['x'], none]⟩,
      ⟨some 8, some 5, [some ['x'], some ['b']]⟩, ⟨none, none, [some ['y'], some ['c']]⟩] := by decide +kernel

example : ∃ i, Covers (some [0x80#8]) i := ⟨0, fun b hb => by cases hb; decide +kernel⟩

end Toron.Legacy
