/-
C18, C41 and C42: translation, listing and statistics of mappings (`src/toron/graph.py`).
-/
import Verif.Spec.Graph
import Verif.Props.Reader
import Verif.Props.StoreComplete

namespace Toron.Space

open Toron.Selectors (PyStr Sel CaseMap getGreatestUniqueSpecificity ggus_mem asciiCase)

/-! ### C41: the listing of a mapping -/

theorem mem_unmatchedIds {s : Store} {link i : Nat} :
    i ∈ s.unmatchedIds link ↔ i ∈ s.ids ∧ i ≠ 0 ∧ ¬ s.mapsToRecord link i := by
  unfold Store.unmatchedIds Store.mapsToRecord
  rw [List.mem_filter]
  refine and_congr Iff.rfl ?_
  simp only [Bool.and_eq_true, bne_iff_ne, Bool.not_eq_true', List.any_eq_false, beq_iff_eq, not_exists, not_and]

theorem findMaps_empty {s : Store} {link : Nat} {o : Int} : (s.findMaps link o).isEmpty = true ↔ ¬ s.mapsFromSource link o := by
  unfold Store.findMaps Store.mapsFromSource
  rw [List.isEmpty_iff, List.filter_eq_nil_iff]
  simp only [Bool.and_eq_true, beq_iff_eq, not_exists, not_and]

/-- A recorded fingerprint that is that of the source means that every record of the source is covered. -/
theorem hash_covers {src trg : Store} (hs : Reachable src) (hh : ReachableHashed trg) {l : Link} (hl : l ∈ trg.links)
    (he : l.otherHash = some (src.indexHash.map Int.ofNat)) (i : Nat) :
    i ∈ src.ids ↔ i = 0 ∨ trg.mapsFromSource l.id i ∧ i ≠ 0 := by
  have h1 := (C56_fingerprint hh hl he).2 (i : Int)
  have h2 := (listsIds_hash hs).2 (i : Int)
  simp only [Int.natCast_inj, exists_eq_right'] at h2
  rw [← h2, h1]
  constructor
  · rintro (h | ⟨h, hm⟩)
    · exact .inl (by omega)
    · exact .inr ⟨hm, by omega⟩
  · rintro (h | ⟨h, h0⟩)
    · exact .inl (by omega)
    · exact .inr ⟨by omega, h⟩

/-- The listing of a mapping: the pair of undefined records, every mapping of the link, every other record of
the target without a mapping, and every other record of the source without a mapping, each once. -/
theorem C41_elements {src trg : Store} (hs : Reachable src) (hf : ReachableUnflagged trg)
    (hh : ReachableHashed trg) {name : PyStr} {els : List MapElement} (h : trg.mappingElements src name = .ok els) :
    ∃ l ∈ trg.links, l.other = src.uid ∧ l.name = name ∧ ∃ ut us : List Nat,
      els = [⟨some 0, some 0, none, some 0⟩] ++
        ((trg.maps.filter fun m => decide (m.link = l.id)).map fun m =>
          ⟨some m.other, some m.index, some m.level, some m.value⟩) ++
        (ut.map fun i => ⟨none, some i, none, none⟩) ++ (us.map fun i => ⟨some (i : Int), none, none, none⟩) ∧
      ut.Nodup ∧ (∀ i, i ∈ ut ↔ i ∈ trg.ids ∧ i ≠ 0 ∧ ¬ trg.mapsToRecord l.id i) ∧
      us.Nodup ∧ (∀ i, i ∈ us ↔ i ∈ src.ids ∧ i ≠ 0 ∧ ¬ trg.mapsFromSource l.id i) := by
  unfold Store.mappingElements at h
  split at h
  · cases h
  rename_i l hl
  cases h
  have hl := List.mem_of_getLast? hl
  obtain ⟨hl, hn⟩ := List.mem_filter.1 hl
  obtain ⟨hl, ho⟩ := List.mem_filter.1 hl
  refine ⟨l, hl, by simpa using ho, by simpa using hn,
    if l.complete then [] else trg.unmatchedIds l.id,
    if some (src.indexHash.map Int.ofNat) = l.otherHash then []
    else (src.index.map (·.id)).filter fun i => i != 0 && (trg.findMaps l.id i).isEmpty, ?_, ?_, ?_, ?_, ?_⟩
  · unfold Store.linkElements
    have he : (trg.maps.filter fun m => m.link == l.id) = trg.maps.filter fun m => decide (m.link = l.id) := by
      apply List.filter_congr
      intro m _
      rw [Bool.eq_iff_iff]
      simp
    rw [he]
    congr 1
    · congr 1
      split <;> rfl
    · split <;> rfl
  · split
    · exact List.nodup_nil
    · exact hf.reachable.indexInv.idsNodup.filter _
  · intro i
    by_cases hc : l.complete = true
    · rw [if_pos hc]
      simp only [List.not_mem_nil, false_iff, not_and, not_not]
      intro hi h0
      obtain ⟨r, hr, rfl⟩ := List.mem_map.1 hi
      exact C30_link_complete hf l hl hc r hr h0
    · rw [if_neg hc]
      exact mem_unmatchedIds
  · split
    · exact List.nodup_nil
    · exact hs.indexInv.idsNodup.filter _
  · intro i
    by_cases hc : some (src.indexHash.map Int.ofNat) = l.otherHash
    · rw [if_pos hc]
      simp only [List.not_mem_nil, false_iff, not_and, not_not]
      intro hi h0
      rcases (hash_covers hs hh hl hc.symm i).1 hi with h | h
      · exact absurd h h0
      · exact h.1
    · rw [if_neg hc, List.mem_filter, Bool.and_eq_true, findMaps_empty, bne_iff_ne]
      rfl

/-- In particular every record of both sides is listed. -/
theorem C41_all_listed {src trg : Store} (hs : Reachable src) (hf : ReachableUnflagged trg)
    (hh : ReachableHashed trg) {name : PyStr} {els : List MapElement} (h : trg.mappingElements src name = .ok els) :
    (∀ i ∈ trg.ids, ∃ e ∈ els, e.target = some i) ∧ ∀ i ∈ src.ids, ∃ e ∈ els, e.source = some (i : Int) := by
  obtain ⟨l, _, _, _, ut, us, rfl, _, hut, _, hus⟩ := C41_elements hs hf hh h
  refine ⟨fun i hi => ?_, fun i hi => ?_⟩
  · by_cases h0 : i = 0
    · exact ⟨⟨some 0, some 0, none, some 0⟩, by simp, by simp [h0]⟩
    · by_cases hm : trg.mapsToRecord l.id i
      · obtain ⟨m, hm, hml, rfl⟩ := hm
        refine ⟨_, List.mem_append_left _ (List.mem_append_left _ (List.mem_append_right _
          (List.mem_map_of_mem (List.mem_filter.2 ⟨hm, by simpa using hml⟩)))), rfl⟩
      · exact ⟨_, List.mem_append_left _ (List.mem_append_right _
          (List.mem_map_of_mem ((hut i).2 ⟨hi, h0, hm⟩))), rfl⟩
  · by_cases h0 : i = 0
    · exact ⟨⟨some 0, some 0, none, some 0⟩, by simp, by simp [h0]⟩
    · by_cases hm : trg.mapsFromSource l.id i
      · obtain ⟨m, hm, hml, hmo⟩ := hm
        refine ⟨_, List.mem_append_left _ (List.mem_append_left _ (List.mem_append_right _
          (List.mem_map_of_mem (List.mem_filter.2 ⟨hm, by simpa using hml⟩)))), by simp [hmo]⟩
      · exact ⟨_, List.mem_append_right _ (List.mem_map_of_mem ((hus i).2 ⟨hi, h0, hm⟩)), rfl⟩

theorem Demo.unflagged : ReachableUnflagged Demo.store := ⟨['u'], Demo.ops, by simp [Demo.ops, Op.setsFlag], rfl⟩

-- the hypotheses can be met; here with an unmatched record of the source
example : Reachable Demo.src ∧ ReachableUnflagged Demo.store ∧ ReachableHashed Demo.store ∧
    (Demo.store'.mappingElements Demo.src ['l']).toOption.map (fun els => els.map fun e => (e.source, e.target)) =
      some [(some 0, some 0), (some 1, some 1), (some 1, some 2), (none, some 3), (some 2, none)] :=
  ⟨Demo.src_reachable, Demo.unflagged, Demo.reachableHashed, by decide +kernel⟩

/-- C41 is violated for a link that was marked complete by hand: records of the target without a mapping are not
listed. -/
theorem C41_flag_violated : ∃ src trg els, Reachable src ∧ Reachable trg ∧ trg.mappingElements src ['k'] = .ok els ∧
    ∃ i ∈ trg.ids, ∀ e ∈ els, e.target ≠ some i := by
  refine ⟨Demo.src, run (Demo.ops ++ [.addLink Demo.other ['k'] none [] none none true]) (Store.new ['u']), _,
    Demo.src_reachable, ⟨_, _, rfl⟩, ok_of_toOption (a := [⟨some 0, some 0, none, some 0⟩,
      ⟨some 1, none, none, none⟩, ⟨some 2, none, none, none⟩]) (by decide +kernel), 1, by decide +kernel, by decide⟩

/-! ### C42: the statistics of a mapping -/

theorem zero_mem_ids {s : Store} (h : Reachable s) : 0 ∈ s.ids :=
  List.mem_map.2 ⟨_, h.indexInv.undef, rfl⟩

open Classical in
theorem exactly_filter {α : Type} {l : List α} (h : l.Nodup) (P : α → Prop) :
    Exactly (fun x => x ∈ l ∧ P x) (l.filter fun x => decide (P x)).length :=
  ⟨_, h.filter _, fun x => by simp, rfl⟩

/-- The statistics of a mapping. Source side: records that are covered (the undefined one always is), records
that are not, and ids with a mapping that are not records any more. Target side: records that are reached, and
records that are not. -/
theorem C42_stats {src trg : Store} (hs : Reachable src) (hf : ReachableFk trg) (hh : ReachableHashed trg)
    {l : Link} (hl : l ∈ trg.links) {st : MapStats} (h : trg.mappingStats src l = .ok st) :
    Exactly (fun i => i ∈ src.ids) st.srcCard ∧
    Exactly (fun i : Nat => i ∈ src.ids ∧ (i = 0 ∨ trg.mapsFromSource l.id i)) st.srcMatched ∧
    Exactly (fun i : Nat => i ∈ src.ids ∧ ¬ (i = 0 ∨ trg.mapsFromSource l.id i)) st.srcMissing ∧
    Exactly (fun o : Int => 0 < o ∧ trg.mapsFromSource l.id o ∧ ∀ i ∈ src.ids, o ≠ (i : Int)) st.srcStale ∧
    Exactly (fun i => i ∈ trg.ids) st.trgCard ∧
    Exactly (fun i => i ∈ trg.ids ∧ (i = 0 ∨ trg.mapsToRecord l.id i)) st.trgMatched ∧
    Exactly (fun i => i ∈ trg.ids ∧ ¬ (i = 0 ∨ trg.mapsToRecord l.id i)) st.trgMissing := by
  classical
  have ht := hf.reachable
  unfold Store.mappingStats at h
  split at h
  · cases h
  cases h
  dsimp only
  have hsn : src.ids.Nodup := hs.indexInv.idsNodup
  have htn : trg.ids.Nodup := ht.indexInv.idsNodup
  have hsl : src.index.length = src.ids.length := (List.length_map _).symm
  have htl : trg.index.length = trg.ids.length := (List.length_map _).symm
  have hon := distinctOthers_covered trg l.id
  have honn : (trg.distinctOthers l.id).Nodup := hon.1.imp fun h => ne_of_lt h
  have hcov : ∀ i : Nat, (i = 0 ∨ trg.mapsFromSource l.id i) ↔ (i : Int) ∈ trg.distinctOthers l.id := by
    intro i
    rw [hon.2]
    constructor
    · rintro (rfl | h)
      · exact .inl rfl
      · by_cases h0 : i = 0
        · exact .inl (by omega)
        · exact .inr ⟨by omega, h⟩
    · rintro (h | ⟨_, h⟩)
      · exact .inl (by omega)
      · exact .inr h
  -- the ids found in the source
  have hfound : ((trg.distinctOthers l.id).filter fun o => src.index.any fun r => (r.id : Int) == o).length =
      (src.ids.filter fun i : Nat => decide (i = 0 ∨ trg.mapsFromSource l.id i)).length := by
    rw [← List.length_map (f := fun i : Nat => (i : Int))]
    apply List.Perm.length_eq
    rw [List.perm_ext_iff_of_nodup (honn.filter _)
      ((hsn.filter _).map fun a b h => by simpa using h)]
    intro o
    simp only [List.mem_filter, List.any_eq_true, beq_iff_eq, List.mem_map, decide_eq_true_eq]
    constructor
    · rintro ⟨ho, r, hr, rfl⟩
      exact ⟨r.id, ⟨List.mem_map_of_mem hr, (hcov _).2 ho⟩, rfl⟩
    · rintro ⟨i, ⟨hi, hc⟩, rfl⟩
      obtain ⟨r, hr, rfl⟩ := List.mem_map.1 hi
      exact ⟨(hcov _).1 hc, r, hr, rfl⟩
  have hsplit : (src.ids.filter fun i : Nat => decide (i = 0 ∨ trg.mapsFromSource l.id i)).length +
      (src.ids.filter fun i : Nat => decide (¬ (i = 0 ∨ trg.mapsFromSource l.id i))).length = src.ids.length := by
    have := (List.filter_append_perm (fun i : Nat => decide (i = 0 ∨ trg.mapsFromSource l.id i)) src.ids).length_eq
    rw [List.length_append] at this
    simp only [decide_not]
    exact this
  have hall : l.otherHash = some (src.indexHash.map Int.ofNat) →
      ∀ i ∈ src.ids, i = 0 ∨ trg.mapsFromSource l.id i := by
    intro he i hi
    rcases (hash_covers hs hh hl he i).1 hi with h | h
    · exact .inl h
    · exact .inr h.1
  have hreach : trg.mappedCard l.id =
      (trg.ids.filter fun i => decide (i = 0 ∨ trg.mapsToRecord l.id i)).length := by
    unfold Store.mappedCard
    have hp : (0 :: distinct ((trg.maps.filter fun m => m.link == l.id && m.index != 0).map (·.index))).Perm
        (trg.ids.filter fun i => decide (i = 0 ∨ trg.mapsToRecord l.id i)) := by
      rw [List.perm_ext_iff_of_nodup ?_ (htn.filter _)]
      · intro i
        unfold Store.mapsToRecord
        simp only [List.mem_cons, mem_distinct, List.mem_map, List.mem_filter, Bool.and_eq_true, beq_iff_eq,
          bne_iff_ne, decide_eq_true_eq]
        constructor
        · rintro (rfl | ⟨m, ⟨hm, hml, h0⟩, rfl⟩)
          · exact ⟨zero_mem_ids ht, .inl rfl⟩
          · exact ⟨hf.indexRefs.2 m hm, .inr ⟨m, hm, hml, rfl⟩⟩
        · rintro ⟨_, h⟩
          by_cases h0 : i = 0
          · exact .inl h0
          · rcases h with h | ⟨m, hm, hml, rfl⟩
            · exact absurd h h0
            · exact .inr ⟨m, ⟨hm, hml, h0⟩, rfl⟩
      · refine List.nodup_cons.2 ⟨?_, nodup_distinct _⟩
        rw [mem_distinct]
        intro h
        obtain ⟨m, hm, h0⟩ := List.mem_map.1 h
        have := (List.mem_filter.1 hm).2
        rw [Bool.and_eq_true, bne_iff_ne] at this
        exact this.2 h0
    rw [← hp.length_eq]
    rfl
  have htsplit : (trg.ids.filter fun i => decide (i = 0 ∨ trg.mapsToRecord l.id i)).length +
      (trg.ids.filter fun i => decide (¬ (i = 0 ∨ trg.mapsToRecord l.id i))).length = trg.ids.length := by
    have := (List.filter_append_perm (fun i => decide (i = 0 ∨ trg.mapsToRecord l.id i)) trg.ids).length_eq
    rw [List.length_append] at this
    simp only [decide_not]
    exact this
  refine ⟨⟨src.ids, hsn, fun _ => Iff.rfl, by rw [hsl]⟩, ?_, ?_, ?_,
    ⟨trg.ids, htn, fun _ => Iff.rfl, by rw [htl]⟩, ?_, ?_⟩
  · refine ⟨_, hsn.filter fun i : Nat => decide (i = 0 ∨ trg.mapsFromSource l.id i), fun i => by simp, ?_⟩
    split
    · rename_i he
      rw [List.filter_eq_self.2 fun i hi => decide_eq_true (hall he i hi), hsl]
    · rw [hfound]
  · refine ⟨_, hsn.filter fun i : Nat => decide (¬ (i = 0 ∨ trg.mapsFromSource l.id i)), fun i => by simp, ?_⟩
    split
    · rename_i he
      rw [List.filter_eq_nil_iff.2 fun i hi => by simpa only [decide_eq_true_eq, not_not] using hall he i hi]
      rfl
    · rw [hfound, hsl]
      omega
  · refine ⟨_, honn.filter fun o => decide (∀ i ∈ src.ids, o ≠ (i : Int)), fun o => ?_, ?_⟩
    · rw [List.mem_filter, hon.2, decide_eq_true_eq]
      constructor
      · rintro ⟨rfl | ⟨h, hm⟩, hn⟩
        · exact absurd rfl (hn 0 (zero_mem_ids hs))
        · exact ⟨h, hm, hn⟩
      · rintro ⟨h, hm, hn⟩
        exact ⟨.inr ⟨h, hm⟩, hn⟩
    · have hsp : ((trg.distinctOthers l.id).filter fun o => src.index.any fun r => (r.id : Int) == o).length +
          ((trg.distinctOthers l.id).filter fun o => decide (∀ i ∈ src.ids, o ≠ (i : Int))).length =
          (trg.distinctOthers l.id).length := by
        have := (List.filter_append_perm (fun o => src.index.any fun r => (r.id : Int) == o)
          (trg.distinctOthers l.id)).length_eq
        rw [List.length_append] at this
        rw [← this]
        congr 2
        apply List.filter_congr
        intro o _
        rw [Bool.eq_iff_iff, decide_eq_true_eq, Bool.not_eq_true', List.any_eq_false]
        unfold Store.ids
        simp only [List.mem_map, forall_exists_index, and_imp, forall_apply_eq_imp_iff₂, beq_iff_eq]
        exact forall₂_congr fun r hr => ⟨fun h h' => h h'.symm, fun h h' => h h'.symm⟩
      split
      · rename_i he
        have : ((trg.distinctOthers l.id).filter fun o => decide (∀ i ∈ src.ids, o ≠ (i : Int))) = [] := by
          rw [List.filter_eq_nil_iff]
          intro o ho
          simp only [decide_eq_true_eq, not_forall]
          have h1 := (C56_fingerprint hh hl he).2 o
          rw [← hon.2 o] at h1
          obtain ⟨i, hi, rfl⟩ := ((listsIds_hash hs).2 o).1 (h1.2 ho)
          exact ⟨i, hi, by simp⟩
        rw [this]
        rfl
      · omega
  · exact ⟨_, htn.filter fun i => decide (i = 0 ∨ trg.mapsToRecord l.id i), fun i => by simp, by rw [hreach]⟩
  · refine ⟨_, htn.filter fun i => decide (¬ (i = 0 ∨ trg.mapsToRecord l.id i)), fun i => by simp, ?_⟩
    rw [hreach, htl]
    omega

/-- The numbers add up: on both sides matched and missing make up all records, and on the source side matched and
stale make up all ids the link covers. -/
theorem C42_sums {src trg : Store} (hs : Reachable src) (hf : ReachableFk trg) (hh : ReachableHashed trg)
    {l : Link} (hl : l ∈ trg.links) {st : MapStats} (h : trg.mappingStats src l = .ok st) :
    st.srcMatched + st.srcMissing = st.srcCard ∧ st.trgMatched + st.trgMissing = st.trgCard ∧
    Exactly (fun o : Int => o = 0 ∨ 0 < o ∧ trg.mapsFromSource l.id o) (st.srcMatched + st.srcStale) := by
  classical
  obtain ⟨h1, h2, h3, h4, h5, h6, h7⟩ := C42_stats hs hf hh hl h
  have add : ∀ {n a b : Int} {P Q : Nat → Prop}, Exactly (fun i => P i) n → Exactly (fun i => P i ∧ Q i) a →
      Exactly (fun i => P i ∧ ¬ Q i) b → a + b = n := by
    rintro n a b P Q ⟨l1, n1, m1, rfl⟩ ⟨l2, n2, m2, rfl⟩ ⟨l3, n3, m3, rfl⟩
    have : (l2 ++ l3).Perm l1 := by
      rw [List.perm_ext_iff_of_nodup ?_ n1]
      · intro x
        rw [List.mem_append, m2, m3, m1]
        by_cases hQ : Q x <;> simp [hQ]
      · rw [List.nodup_append']
        exact ⟨n2, n3, fun x hx hx' => ((m3 x).1 hx').2 ((m2 x).1 hx).2⟩
    have := this.length_eq
    rw [List.length_append] at this
    omega
  refine ⟨add h1 h2 h3, add h5 h6 h7, ?_⟩
  obtain ⟨a, an, am, ae⟩ := h2
  obtain ⟨b, bn, bm, be⟩ := h4
  refine ⟨a.map (fun i : Nat => (i : Int)) ++ b, ?_, fun o => ?_, ?_⟩
  · rw [List.nodup_append']
    refine ⟨an.map fun x y h => by simpa using h, bn, ?_⟩
    intro o ho hb
    obtain ⟨i, hi, rfl⟩ := List.mem_map.1 ho
    exact ((bm _).1 hb).2.2 i ((am i).1 hi).1 rfl
  · rw [List.mem_append, List.mem_map, bm]
    constructor
    · rintro (⟨i, hi, rfl⟩ | ⟨h0, hm, _⟩)
      · rcases ((am i).1 hi).2 with rfl | hm
        · exact .inl rfl
        · by_cases h0 : i = 0
          · exact .inl (by omega)
          · exact .inr ⟨by omega, hm⟩
      · exact .inr ⟨h0, hm⟩
    · intro h
      by_cases hi : ∃ i ∈ src.ids, o = (i : Int)
      · obtain ⟨i, hi, rfl⟩ := hi
        refine .inl ⟨i, (am i).2 ⟨hi, ?_⟩, rfl⟩
        rcases h with h | ⟨_, h⟩
        · exact .inl (by omega)
        · exact .inr h
      · rcases h with rfl | ⟨h0, hm⟩
        · exact absurd ⟨0, zero_mem_ids hs, rfl⟩ hi
        · exact .inr ⟨h0, hm, fun i hii he => hi ⟨i, hii, he⟩⟩
  · rw [ae, be, List.length_append, List.length_map]
    omega

-- the hypotheses can be met: for the source as it was, and after one of its records was deleted
example : ReachableFk Demo.store ∧ ReachableHashed Demo.store ∧
    (Demo.store.links.map fun l => ((Demo.store.mappingStats Demo.src l).toOption,
      (Demo.store.mappingStats Demo.src' l).toOption)) =
      [(some ⟨3, 3, 0, 0, 4, 4, 0⟩, some ⟨2, 2, 0, 1, 4, 4, 0⟩)] :=
  ⟨Demo.reachableFk, Demo.reachableHashed, by decide +kernel⟩

/-- A history with a mapping to a record that does not exist, after the dataspace was opened from a file. -/
def danglingOps : List Op :=
  Demo.ops ++ [.reopen, .insertMappings2 Demo.other none [⟨2, 5, 99, [], some [0xC0#8]⟩]]

def dangling : Store := run danglingOps (Store.new ['u'])

/-- C42 is violated for dataspaces opened from a file: a mapping to a record that does not exist is accepted, and
the number of missing records is negative. -/
theorem C42_dangling_violated : Reachable Demo.src ∧ Reachable dangling ∧
    (dangling.links.map fun l => (dangling.mappingStats Demo.src l).toOption.map fun st => st.trgMissing) =
      [some (-1)] :=
  ⟨Demo.src_reachable, ⟨_, _, rfl⟩, by decide +kernel⟩

/-! ### C18: the translation of quantity iterators -/

theorem graphDefault_ok {src trg : Store} {d : Nat}
    (h : trg.graphDefault src.uid (src.indexHash.map Int.ofNat) = .ok d) :
    ∃ l ∈ trg.candidates src, l.isDefault = true ∧ l.complete = true ∧ l.id = d := by
  unfold Store.graphDefault at h
  split at h
  · cases h
  rename_i l hl
  split at h
  · cases h
  rename_i hc
  cases h
  simp only [Bool.or_eq_true, bne_iff_ne, Bool.not_eq_true', not_or, not_not, Bool.not_eq_false] at hc
  exact ⟨l, List.mem_filter.2 ⟨List.mem_of_find?_eq_some hl, by simpa using hc.1⟩,
    by simpa using List.find?_some hl, hc.2, rfl⟩

/-- A quantity iterator is translated row by row along one link per row: the default link, made for the present
records of the source and complete, or a complete link with selectors. -/
theorem graph_parts {src trg : Store} {cm : CaseMap} {data : List (Nat × Attrs × Option ℚ)}
    {out : List (Nat × Attrs × ℚ)}
    (h : trg.graphTranslate cm src.uid (src.indexHash.map Int.ofNat) data = .ok out) :
    ∃ parts : List ((Nat × Attrs × Option ℚ) × List (Nat × Attrs × ℚ)),
      parts.map (·.1) = data ∧ out = parts.flatMap (·.2) ∧ ∀ p ∈ parts,
        (p.1.2.2 = none ∧ p.2 = []) ∨ ∃ v l, p.1.2.2 = some v ∧ l ∈ findLinksByRef trg.links src.uid ∧
          l.complete = true ∧ (l ∈ trg.candidates src ∧ l.isDefault = true ∨ l.selectors ≠ []) ∧
          flatMapE (trg.graphPart p.1.2.1 v) (trg.findMaps l.id p.1.1) = .ok p.2 := by
  unfold Store.graphTranslate at h
  simp only [bind, Except.bind] at h
  split at h
  · cases h
  rename_i d hd
  obtain ⟨l0, hl0, hdef, hcomp, rfl⟩ := graphDefault_ok hd
  obtain ⟨bs, h1, h2, h3⟩ := flatMapE_ok h
  refine ⟨bs, h1, h2, fun p hp => ?_⟩
  have := h3 p hp
  split at this
  · rename_i hv
    cases hp2 : p.2 with
    | nil => exact .inl ⟨hv, rfl⟩
    | cons => rw [hp2] at this; cases this
  · rename_i v hv
    split at this
    · cases this
    rename_i lid hg
    right
    rcases ggus_mem hg with rfl | ⟨sels, hm⟩
    · exact ⟨v, l0, hv, List.mem_of_mem_filter hl0, hcomp, .inl ⟨hl0, hdef⟩, this⟩
    · rw [List.mem_map] at hm
      obtain ⟨l, hl, he⟩ := hm
      cases he
      obtain ⟨hl, hc⟩ := List.mem_filter.1 hl
      rw [Bool.and_eq_true, Bool.not_eq_true', List.isEmpty_eq_false_iff] at hc
      exact ⟨v, l, hv, hl, hc.1, .inr hc.2, this⟩

theorem graphPart_all {trg : Store} {a : Attrs} {v : ℚ} {ms : List Mapping} {out : List (Nat × Attrs × ℚ)}
    (h : flatMapE (trg.graphPart a v) ms = .ok out) :
    (∀ m ∈ ms, m.prop = some (m.prop.getD 0) ∧ m.index ∈ trg.ids) ∧
    out = ms.map fun m => (m.index, a, v * m.prop.getD 0) := by
  induction ms generalizing out with
  | nil => cases h; simp
  | cons m ms ih =>
    unfold flatMapE at h
    simp only [bind, Except.bind] at h
    unfold Store.graphPart at h
    rcases hp : m.prop with _ | p
    · rw [hp] at h; cases h
    · rw [hp] at h
      simp only at h
      split at h
      · cases h
      rename_i x hx
      split at hx
      · rename_i hi
        cases hx
        split at h
        · cases h
        rename_i y hy
        cases h
        obtain ⟨h1, h2⟩ := ih hy
        refine ⟨?_, by simp [hp, h2]⟩
        intro m' hm'
        rcases List.mem_cons.1 hm' with rfl | hm'
        · refine ⟨by rw [hp]; rfl, ?_⟩
          obtain ⟨r, hr, he⟩ := List.any_eq_true.1 hi
          exact List.mem_map.2 ⟨r, hr, by simpa using he⟩
        · exact h1 m' hm'
      · cases hx

/-- Translating a quantity iterator conserves the total for every attribute set, if its quantities are at defined
records of the source, and the complete links with selectors were made for the present records of the source.
Missing for the full claim: the undefined record and other links, for which it is false
(`C18_undefined_violated`, `C18_stale_violated`). -/
theorem C18_conserves_partial {src trg : Store} (hs : Reachable src) (ht : ReachableTidy trg)
    (hh : ReachableHashed trg) (hcur : ∀ l ∈ findLinksByRef trg.links src.uid, l.complete = true →
      l.selectors ≠ [] → trg.currentLink src l)
    {cm : CaseMap} {data : List (Nat × Attrs × Option ℚ)} {out : List (Nat × Attrs × ℚ)}
    (hdata : ∀ x ∈ data, x.1 ∈ src.ids ∧ x.1 ≠ 0)
    (h : trg.graphTranslate cm src.uid (src.indexHash.map Int.ofNat) data = .ok out) (a : Attrs) :
    attrsTotal a out = attrsTotal a (data.map fun x => (x.1, x.2.1, x.2.2.getD 0)) := by
  obtain ⟨parts, rfl, rfl, h3⟩ := graph_parts h
  clear h
  induction parts with
  | nil => rfl
  | cons p ps ih =>
    have hps := ih (fun x hx => hdata x (List.mem_cons_of_mem _ hx)) fun q hq => h3 q (List.mem_cons_of_mem _ hq)
    unfold attrsTotal at hps ⊢
    rw [List.flatMap_cons, List.filter_append, List.map_append, List.sum_append, hps, List.map_cons, List.map_cons]
    have hp : ((p.2.filter fun x => decide (x.2.1 = a)).map (·.2.2)).sum =
        if p.1.2.1 = a then p.1.2.2.getD 0 else 0 := by
      rcases h3 p (by simp) with ⟨hv, hp2⟩ | ⟨v, l, hv, hl, hc, hcase, hf⟩
      · rw [hv, hp2]; simp
      · have hlc : trg.currentLink src l := by
          rcases hcase with ⟨h, _⟩ | h
          · exact (currentLink_iff hs).2 h
          · exact hcur l hl hc h
        obtain ⟨h1, h0⟩ := hdata p.1 (by simp)
        obtain ⟨hne, hsum⟩ := current_maps ht hh hlc h1 h0
        obtain ⟨_, hout⟩ := graphPart_all hf
        rw [hout, hv, findMaps_eq]
        by_cases ha : p.1.2.1 = a
        · rw [if_pos ha, List.filter_eq_self.2 (by
            intro x hx
            obtain ⟨m, _, rfl⟩ := List.mem_map.1 hx
            simpa using ha), List.map_map]
          have : ((fun x : Nat × Attrs × ℚ => x.2.2) ∘ fun m : Mapping => (m.index, p.1.2.1, v * m.prop.getD 0)) =
              fun m : Mapping => v * m.prop.getD 0 := rfl
          rw [this, List.sum_map_mul_left, (propSum_one hsum).2, mul_one]
          rfl
        · rw [if_neg ha, List.filter_eq_nil_iff.2 (by
            intro x hx
            obtain ⟨m, _, rfl⟩ := List.mem_map.1 hx
            simpa using ha)]
          rfl
    rw [hp]
    by_cases ha : p.1.2.1 = a
    · rw [if_pos ha, List.filter_cons_of_pos (by simpa using ha), List.map_cons, List.sum_cons]
    · rw [if_neg ha, List.filter_cons_of_neg (by simpa using ha), zero_add]

/-- The values are those of the mappings: each quantity is split along the mappings of one link, by their
proportions, among existing records, with its attributes. -/
theorem C18_split {src trg : Store} {cm : CaseMap} {data : List (Nat × Attrs × Option ℚ)}
    {out : List (Nat × Attrs × ℚ)}
    (h : trg.graphTranslate cm src.uid (src.indexHash.map Int.ofNat) data = .ok out) :
    ∃ parts : List ((Nat × Attrs × Option ℚ) × List (Nat × Attrs × ℚ)),
      parts.map (·.1) = data ∧ out = parts.flatMap (·.2) ∧ ∀ p ∈ parts,
        (p.1.2.2 = none ∧ p.2 = []) ∨ ∃ v, ∃ l ∈ findLinksByRef trg.links src.uid, p.1.2.2 = some v ∧
          l.complete = true ∧ List.Forall₂ (fun m o => o.1 = m.index ∧ o.1 ∈ trg.ids ∧ o.2.1 = p.1.2.1 ∧
            ∃ q, m.prop = some q ∧ o.2.2 = v * q) (trg.mapsFrom l.id p.1.1) p.2 := by
  obtain ⟨parts, h1, h2, h3⟩ := graph_parts h
  refine ⟨parts, h1, h2, fun p hp => ?_⟩
  rcases h3 p hp with h | ⟨v, l, hv, hl, hc, _, hf⟩
  · exact .inl h
  · refine .inr ⟨v, l, hl, hv, hc, ?_⟩
    obtain ⟨hm, hout⟩ := graphPart_all hf
    rw [findMaps_eq] at hm hout
    rw [hout, List.forall₂_map_right_iff, List.forall₂_same]
    intro m hmm
    exact ⟨rfl, (hm m hmm).2, rfl, _, (hm m hmm).1, rfl⟩

-- the hypotheses can be met
example : Reachable Demo.src ∧ ReachableTidy Demo.store ∧ ReachableHashed Demo.store ∧
    (Demo.store.links.map fun l => (l.complete, l.selectors.length)) = [(true, 0)] ∧
    (∀ x ∈ [(1, Demo.attrM, some (100 : ℚ)), (2, Demo.attrN, some 7), (1, Demo.attrN, none)],
      x.1 ∈ Demo.src.ids ∧ x.1 ≠ 0) ∧
    (Demo.store.graphTranslate asciiCase Demo.src.uid (Demo.src.indexHash.map Int.ofNat)
      [(1, Demo.attrM, some 100), (2, Demo.attrN, some 7), (1, Demo.attrN, none)]).toOption =
      some [(1, Demo.attrM, 25), (2, Demo.attrM, 75), (3, Demo.attrN, 7)] :=
  ⟨Demo.src_reachable, Demo.reachableFk.tidy, Demo.reachableHashed, by decide +kernel, by decide +kernel,
    by decide +kernel⟩

/-- C18 is violated for the undefined record: its quantities disappear. -/
theorem C18_undefined_violated : Reachable Demo.src ∧ ReachableTidy Demo.store ∧ ReachableHashed Demo.store ∧
    (Demo.store.graphTranslate asciiCase Demo.src.uid (Demo.src.indexHash.map Int.ofNat)
      [(1, Demo.attrM, some 100), (0, Demo.attrM, some 2)]).toOption =
      some [(1, Demo.attrM, 25), (2, Demo.attrM, 75)] ∧
    attrsTotal Demo.attrM [(1, Demo.attrM, 100), (0, Demo.attrM, 2)] = 102 ∧
    attrsTotal Demo.attrM [(1, Demo.attrM, 25), (2, Demo.attrM, 75)] = 100 :=
  ⟨Demo.src_reachable, Demo.reachableFk.tidy, Demo.reachableHashed, by decide +kernel, by decide +kernel,
    by decide +kernel⟩

/-- A target with a default link for the present source, and a complete link for the attributes `c = n` that was
made when the source had one record only. -/
def staleLinkOps : List Op :=
  Demo.ops ++ [.addLink Demo.other ['k'] none [.simple ['c'] (some .eq) (some ['n']) false] none none false,
   .insertMappings2 Demo.other (some ['k'])
    [⟨1, 1, 1, [], some [0xC0#8]⟩, ⟨1, 1, 2, [], some [0xC0#8]⟩, ⟨1, 2, 3, [], some [0xC0#8]⟩]]

def staleLink : Store := run staleLinkOps (Store.new ['u'])

/-- C18 is violated when a complete link with selectors is older than a record of the source: the quantities of
that record disappear (only the default link is compared with the source). -/
theorem C18_stale_violated : Reachable Demo.src ∧ ReachableTidy staleLink ∧ ReachableHashed staleLink ∧
    Demo.src.ids = [0, 1, 2] ∧
    (staleLink.graphTranslate asciiCase Demo.src.uid (Demo.src.indexHash.map Int.ofNat)
      [(1, Demo.attrM, some 100), (2, Demo.attrN, some 7)]).toOption =
      some [(1, Demo.attrM, 25), (2, Demo.attrM, 75)] ∧
    attrsTotal Demo.attrN [(1, Demo.attrM, 100), (2, Demo.attrN, 7)] = 7 ∧
    attrsTotal Demo.attrN [(1, Demo.attrM, 25), (2, Demo.attrM, 75)] = 0 :=
  ⟨Demo.src_reachable, ⟨_, _, by simp [staleLinkOps, Demo.ops, Op.dropsOwner], rfl⟩,
    ⟨_, _, by simp [staleLinkOps, Demo.ops, Op.setsHash], rfl⟩, by decide +kernel, by decide +kernel, by decide +kernel,
    by decide +kernel⟩

/-! ### C57: the listing of weights -/

/-- The listing has one row for each record, and in it for each group the record's stored weight; without one,
zero for the undefined record and no value for others. -/
theorem C57_weights {s : Store} (hr : Reachable s) (groups : List WGroup) :
    (s.weightTable groups).map (·.1) = s.ids ∧ s.ids.Nodup ∧
    ∀ row ∈ s.weightTable groups, List.Forall₂ (fun (g : WGroup) v =>
      (∀ w ∈ s.weights, w.group = g.id → w.index = row.1 → v = some w.value) ∧
      ((∀ w ∈ s.weights, w.group = g.id → w.index ≠ row.1) → v = if row.1 = 0 then some 0 else none))
      groups row.2 := by
  refine ⟨by unfold Store.weightTable Store.ids; rw [List.map_map]; rfl, hr.indexInv.idsNodup, ?_⟩
  intro row hrow
  obtain ⟨r, hr', rfl⟩ := List.mem_map.1 hrow
  rw [List.forall₂_map_right_iff, List.forall₂_same]
  intro g _
  unfold Store.weightOf Store.findWeight
  constructor
  · intro w hw h1 h2
    rcases hf : s.weights.find? fun w => w.group == g.id && w.index == r.id with _ | w'
    · have := List.find?_eq_none.1 hf w hw
      simp [h1, h2] at this
    · have hm := List.mem_of_find?_eq_some hf
      have hp := List.find?_some hf
      rw [Bool.and_eq_true, beq_iff_eq, beq_iff_eq] at hp
      have he := List.inj_on_of_nodup_map hr.weightInv.pairs hm hw (by rw [hp.1, hp.2, h1, h2])
      rw [hf, he]
      rfl
  · intro hno
    rw [List.find?_eq_none.2 (by
      intro w hw
      rw [Bool.and_eq_true, beq_iff_eq, beq_iff_eq]
      rintro ⟨h1, h2⟩
      exact hno w hw h1 h2)]
    rfl

-- a table with stored weights
example : Demo.store.weightTable Demo.store.wgroups = [(0, [some 0]), (1, [some 3]), (2, [some 1]), (3, [some 5])] := by
  decide +kernel

end Toron.Space
