/-
When a load of index data succeeds (C65).
-/
import Verif.Lemmas.Store.IndexLoad

namespace Toron.Space

open Toron.Selectors (PyStr)

theorem insertIndexWeight_run {i : Nat} {p : Policy} (hp : p = .ignore ∨ p = .replace ∨ p = .abort) {c : Counts}
    {gw : WGroup × Option ℚ} {s : Store} (hg : gw.1 ∈ s.wgroups) (hv : ∀ v ∈ gw.2, i ≠ 0 ∧ 0 ≤ v)
    (ha : p.Allows (s.weightOf gw.1.id i) gw.2.toList) : ∃ c' s', insertIndexWeight i p c gw s = .ok (c', s') := by
  unfold insertIndexWeight
  rcases hgw : gw.2 with _ | v
  · exact ⟨c, s, rfl⟩
  obtain ⟨h0, hv⟩ := hv v hgw
  rw [hgw, Option.toList_some, Policy.allows_one] at ha
  rcases hf : s.findWeight gw.1.id i with _ | w
  · have hadd : weightAdd gw.1.id i v s = .ok ((), { s with
        weights := s.weights ++ [⟨nextId (s.weights.map (·.id)), gw.1.id, i, v⟩] }) := by
      unfold weightAdd
      refine bind_ok.2 ⟨s, s, rfl, ?_⟩
      rw [if_neg h0, if_neg (not_lt.2 hv), if_neg, if_neg]
      · rfl
      · rintro ⟨_, h⟩
        exact h (List.any_eq_true.2 ⟨gw.1, hg, by simp⟩)
      · intro h
        obtain ⟨w, hw, h⟩ := List.any_eq_true.1 h
        unfold Store.findWeight at hf
        exact absurd h (List.find?_eq_none.1 hf w hw)
    refine ⟨{ c with weights := true }, { s with
      weights := s.weights ++ [⟨nextId (s.weights.map (·.id)), gw.1.id, i, v⟩] }, bind_ok.2 ⟨s, s, rfl, ?_⟩⟩
    simp only [hf]
    exact bind_ok.2 ⟨(), _, hadd, rfl⟩
  · have hn : s.weightOf gw.1.id i ≠ none := by unfold Store.weightOf; rw [hf]; exact Option.some_ne_none _
    rcases hp with rfl | rfl | rfl
    · refine ⟨c, s, bind_ok.2 ⟨s, s, rfl, ?_⟩⟩
      simp only [hf]; rfl
    · refine ⟨c, { s with weights := s.weights.map fun x => if x.id = w.id then { x with value := v } else x },
        bind_ok.2 ⟨s, s, rfl, ?_⟩⟩
      simp only [hf]
      refine bind_ok.2 ⟨(), _, ?_, rfl⟩
      unfold weightSetValue
      refine bind_ok.2 ⟨s, s, rfl, ?_⟩
      rw [if_neg (not_lt.2 hv)]; rfl
    · exact absurd ⟨rfl, hn⟩ ha

theorem insertIndexWeights_run {i : Nat} {p : Policy} (hp : p = .ignore ∨ p = .replace ∨ p = .abort)
    {l : List (WGroup × Option ℚ)} {c : Counts} {s : Store} (hw : WeightInv s) (hg : ∀ gw ∈ l, gw.1 ∈ s.wgroups)
    (hv : ∀ gw ∈ l, ∀ v ∈ gw.2, i ≠ 0 ∧ 0 ≤ v) (ha : ∀ g, p.Allows (s.weightOf g i) (cellsFor g l)) :
    ∃ c' s', l.foldlM (insertIndexWeight i p) c s = .ok (c', s') := by
  induction l generalizing c s with
  | nil => exact ⟨c, s, rfl⟩
  | cons x xs ih =>
    have h1 := ha x.1.id
    rw [cellsFor_cons, if_pos rfl, Policy.allows_append] at h1
    obtain ⟨d, t, h2⟩ := insertIndexWeight_run hp (c := c) (hg x List.mem_cons_self) (hv x List.mem_cons_self) h1.1
    obtain ⟨a1, a2, a3, -, -, a6⟩ := insertIndexWeight_ok hw h2
    have h3 : ∀ g, p.Allows (t.weightOf g i) (cellsFor g xs) := by
      intro g
      have := ha g
      rw [cellsFor_cons, Policy.allows_append] at this
      rw [a6]
      by_cases he : x.1.id = g
      · subst he
        rw [if_pos rfl] at this
        rw [if_pos ⟨rfl, rfl⟩]
        exact this.2
      · rw [if_neg he, Policy.after_nil] at this
        rw [if_neg fun h => he h.1.symm]
        exact this.2
    obtain ⟨c', s', h4⟩ := ih a3 (fun gw hm => by rw [a2]; exact hg gw (List.mem_cons_of_mem _ hm))
      (fun gw hm => hv gw (List.mem_cons_of_mem _ hm)) h3
    exact ⟨c', s', foldlM_cons_ok.2 ⟨d, t, h2, h4⟩⟩

/-- The record a row that fits refers to. -/
theorem insertIndexRecord_run {p : Policy} {c : Counts} {row : IndexRow} {s : Store} (hi : IndexInv s)
    (hc : s.cols ≠ []) (hcount : row.Counts) (hlen : (row.labels.getD []).length = s.cols.length)
    (hid : ∀ i ∈ row.idv, (⟨i, row.labels.getD []⟩ : IndexRec) ∈ s.index) :
    ∃ i c' s', insertIndexRecord p c row s = .ok ((i, c'), s') ∧ s'.weights = s.weights ∧
      (⟨i, row.labels.getD []⟩ : IndexRec) ∈ s'.index ∧
      ((s' = s) ∨ (row.idv = none ∧ row.labels.getD [] ∉ s.index.map (·.labels) ∧ i = s.seq + 1 ∧
        s' = { s with index := s.index ++ [⟨s.seq + 1, row.labels.getD []⟩], seq := s.seq + 1 })) := by
  have hne : row.labels.getD [] ≠ [] := by
    intro h; rw [h] at hlen
    exact hc (List.length_eq_zero_iff.1 hlen.symm)
  unfold insertIndexRecord
  rcases hv : row.idv with _ | i
  · simp only
    by_cases hm : row.labels.getD [] ∈ s.index.map (·.labels)
    · have hadd : indexAdd (row.labels.getD []) s = .error (.valueError "label_index: UNIQUE") := by
        unfold indexAdd
        simp only [bind, StateT.bind, get, getThe, MonadStateOf.get, StateT.get, pure, Except.pure, Except.bind]
        rw [if_neg (by rintro (h | h) <;> contradiction), if_neg hcount, if_pos hm]
        rfl
      obtain ⟨r, hr, he⟩ := List.mem_map.1 hm
      have hf : s.findByLabels (row.labels.getD []) = some r := (find_nodup_iff hi.labels).2 ⟨hr, he⟩
      rw [hadd]
      simp only [hf]
      exact ⟨r.id, c, s, rfl, rfl, by rw [← he]; exact hr, .inl rfl⟩
    · have hadd : indexAdd (row.labels.getD []) s = .ok (s.seq + 1,
          { s with index := s.index ++ [⟨s.seq + 1, row.labels.getD []⟩], seq := s.seq + 1 }) := by
        unfold indexAdd
        refine bind_ok.2 ⟨s, s, rfl, ?_⟩
        rw [if_neg (by rintro (h | h) <;> contradiction), if_neg hcount, if_neg hm]
        rfl
      rw [hadd]
      exact ⟨_, _, _, rfl, rfl, List.mem_append_right _ (List.mem_singleton.2 rfl), .inr ⟨trivial, hm, rfl, rfl⟩⟩
  · simp only
    have hm := hid i hv
    have hf : s.index.find? (fun r => r.id == i) = some ⟨i, row.labels.getD []⟩ :=
      (find_nodup_iff hi.idsNodup).2 ⟨hm, rfl⟩
    have hget : indexGet i s = .ok (⟨i, row.labels.getD []⟩, s) := by
      unfold indexGet
      refine bind_ok.2 ⟨s, s, rfl, ?_⟩
      rw [hf]; rfl
    refine ⟨i, c, s, bind_ok.2 ⟨_, s, hget, ?_⟩, rfl, hm, .inl rfl⟩
    rcases hl : row.labels with _ | l
    · rfl
    · simp only [Option.getD_some, if_true]
      rfl

/-- The stored weight of the record with these labels. -/
def Store.weightAt (s : Store) (g : Nat) (labels : List PyStr) : Option ℚ :=
  (s.findByLabels labels).bind fun r => s.weightOf g r.id

theorem weightAt_eq {s : Store} (hi : IndexInv s) {i : Nat} {labels : List PyStr}
    (h : (⟨i, labels⟩ : IndexRec) ∈ s.index) (g : Nat) : s.weightAt g labels = s.weightOf g i := by
  unfold Store.weightAt
  have : s.findByLabels labels = some ⟨i, labels⟩ := (find_nodup_iff hi.labels).2 ⟨h, rfl⟩
  rw [this]; rfl

theorem insertIndexRows_run {groups : List WGroup} {pl pw : Policy} (hp : pw = .ignore ∨ pw = .replace ∨ pw = .abort)
    {rows : List IndexRow} {c : Counts} {s : Store} (hi : IndexInv s) (hw : WeightInv s) (hcols : s.cols ≠ [])
    (hfk : ∀ w ∈ s.weights, ∃ r ∈ s.index, r.id = w.index) (hg : ∀ g ∈ groups, g ∈ s.wgroups)
    (hfit : ∀ row ∈ rows, row.Counts → (row.labels.getD []).length = s.cols.length ∧
      (∀ i ∈ row.idv, (⟨i, row.labels.getD []⟩ : IndexRec) ∈ s.index))
    (hv : ∀ row ∈ rows, row.Counts → ∀ gw ∈ groups.zip row.ws, ∀ v ∈ gw.2,
      row.labels.getD [] ≠ s.undefinedRecord.labels ∧ 0 ≤ v)
    (ha : ∀ g labels, pw.Allows (s.weightAt g labels)
      ((rows.filter fun row => decide (row.Counts ∧ row.labels.getD [] = labels)).flatMap
        fun row => cellsFor g (groups.zip row.ws))) :
    ∃ c' s', rows.foldlM (insertIndexRow groups pl pw) c s = .ok (c', s') ∧ s'.cols = s.cols ∧ s'.fk = s.fk ∧
      s'.maps = s.maps ∧ s'.links = s.links ∧ s'.partDefs = s.partDefs ∧ s.index <+: s'.index ∧
      (∀ w ∈ s'.weights, ∃ r ∈ s'.index, r.id = w.index) := by
  induction rows generalizing c s with
  | nil => exact ⟨c, s, rfl, rfl, rfl, rfl, rfl, rfl, List.prefix_rfl, hfk⟩
  | cons row rows ih =>
    by_cases hc : row.Counts
    · obtain ⟨hlen, hid⟩ := hfit row List.mem_cons_self hc
      obtain ⟨i, c1, t, h1, hwt, hm, hcase⟩ := insertIndexRecord_run (p := pl) (c := c) hi hcols hc hlen hid
      have hst := (insertIndexRecord_does ..).steps _ _ _ h1
      have hit : IndexInv t := hst.invariant (fun _ _ _ _ hp h => h.prim hp) hi
      have hwti : WeightInv t := WeightInv.steps hst hw
      have hof : ∀ g i, t.weightOf g i = s.weightOf g i := by
        intro g i; unfold Store.weightOf Store.findWeight; rw [hwt]
      have hgt : t.wgroups = s.wgroups := hst.wgroups_eq (by decide)
      have hct : t.cols = s.cols := hst.cols_eq (by decide)
      have hut : t.undefinedRecord = s.undefinedRecord := by unfold Store.undefinedRecord; rw [hct]
      have hpre : s.index <+: t.index := by
        rcases hcase with rfl | ⟨_, _, _, rfl⟩
        · exact List.prefix_rfl
        · exact List.prefix_append _ _
      -- weights by labels do not change when a record is added
      have hatt : ∀ g labels, t.weightAt g labels = s.weightAt g labels := by
        intro g labels
        rcases hcase with rfl | ⟨_, hnew, rfl, rfl⟩
        · rfl
        · unfold Store.weightAt Store.findByLabels
          rw [List.find?_append]
          cases hf : s.index.find? (fun r => r.labels == labels) with
          | none =>
            rw [Option.none_or, Option.bind_none, List.find?_cons, List.find?_nil]
            by_cases hl : (row.labels.getD [] == labels) = true
            · simp only [hl, Option.bind_some]
              refine Option.eq_none_iff_forall_ne_some.2 fun x hx => ?_
              obtain ⟨w, hw', _, he, _⟩ := (weightOf_iff hwti.pairs).1 hx
              obtain ⟨r, hr, he'⟩ := hfk w hw'
              have := hi.idsLe r hr
              omega
            · simp only [hl, Option.bind_none]
          | some r => rfl
      have hi0 : ∀ gw ∈ groups.zip row.ws, ∀ v ∈ gw.2, i ≠ 0 ∧ 0 ≤ v := by
        intro gw hgw v hgv
        obtain ⟨h2, h3⟩ := hv row List.mem_cons_self hc gw hgw v hgv
        refine ⟨?_, h3⟩
        rintro rfl
        have := List.inj_on_of_nodup_map hit.idsNodup hm hit.undef rfl
        rw [hut] at this
        exact h2 (congrArg IndexRec.labels this)
      have hcons : ∀ labels, ((row :: rows).filter fun row => decide (row.Counts ∧ row.labels.getD [] = labels)) =
          if row.labels.getD [] = labels then
            row :: rows.filter fun row => decide (row.Counts ∧ row.labels.getD [] = labels)
          else rows.filter fun row => decide (row.Counts ∧ row.labels.getD [] = labels) := by
        intro labels
        rw [List.filter_cons]
        by_cases hl : row.labels.getD [] = labels
        · rw [if_pos (by simpa using ⟨hc, hl⟩), if_pos hl]
        · rw [if_neg (by simpa using fun _ => hl), if_neg hl]
      obtain ⟨d, u, h2⟩ := insertIndexWeights_run (i := i) hp (l := groups.zip row.ws) (c := c1) hwti
        (fun gw hgw => by rw [hgt]; exact hg _ (List.of_mem_zip hgw).1) hi0 (fun g => by
          have := ha g (row.labels.getD [])
          rw [hcons, if_pos rfl, List.flatMap_cons, Policy.allows_append] at this
          rw [← weightAt_eq hit hm, hatt]
          exact this.1)
      obtain ⟨b1, b2, b3, -, -, b6⟩ := insertIndexWeights_ok hwti h2
      have hsu : Steps [.wAdd, .wSet] t u :=
        Does.steps (K := [.wAdd, .wSet]) (Does.foldlM fun c gw _ => insertIndexWeight_does _ _ _ _) _ _ _ h2
      have hiu : IndexInv u := hsu.invariant (fun _ _ _ _ hp h => h.prim hp) hit
      have hcu : u.cols = s.cols := (hsu.cols_eq (by decide)).trans hct
      have huu : u.undefinedRecord = s.undefinedRecord := by unfold Store.undefinedRecord; rw [hcu]
      have hrow : insertIndexRow groups pl pw c row s = .ok (d, u) := by
        unfold insertIndexRow
        rw [if_neg hc]
        exact bind_ok.2 ⟨(i, c1), t, h1, h2⟩
      have hfku : ∀ w ∈ u.weights, ∃ r ∈ u.index, r.id = w.index := by
        intro w hw'
        have hx : u.weightOf w.group w.index = some w.value := (weightOf_iff b3.pairs).2 ⟨w, hw', rfl, rfl, rfl⟩
        rw [b6] at hx
        rw [b1]
        by_cases he : w.index = i
        · exact ⟨_, hm, he.symm⟩
        · rw [if_neg he, hof] at hx
          obtain ⟨w', hw'', _, he', _⟩ := (weightOf_iff hw.pairs).1 hx
          obtain ⟨r, hr, he''⟩ := hfk w' hw''
          exact ⟨r, hpre.subset hr, he''.trans he'⟩
      have hatu : ∀ g labels, u.weightAt g labels =
          if row.labels.getD [] = labels then pw.after (s.weightAt g labels) (cellsFor g (groups.zip row.ws))
          else s.weightAt g labels := by
        intro g labels
        rw [← hatt]
        unfold Store.weightAt Store.findByLabels
        rw [b1]
        by_cases hl : row.labels.getD [] = labels
        · rw [if_pos hl]
          have hf : t.index.find? (fun r => r.labels == labels) = some ⟨i, row.labels.getD []⟩ :=
            (find_nodup_iff hit.labels).2 ⟨hm, hl⟩
          rw [hf]
          show u.weightOf g i = pw.after (t.weightOf g i) _
          rw [b6, if_pos rfl]
        · rw [if_neg hl]
          cases hf : t.index.find? (fun r => r.labels == labels) with
          | none => rfl
          | some r =>
            show u.weightOf g r.id = t.weightOf g r.id
            rw [b6, if_neg]
            intro he
            obtain ⟨hr, hrl⟩ := (find_nodup_iff hit.labels).1 hf
            have := List.inj_on_of_nodup_map hit.idsNodup hr hm he
            rw [this] at hrl
            exact hl hrl
      obtain ⟨c', s', h3, k1, k2, k3, k4, k5, k6, k7⟩ := ih (c := d) hiu b3 (by rw [hcu]; exact hcols) hfku
        (fun g hgm => by rw [b2, hgt]; exact hg g hgm)
        (fun row' hm' hc' => by
          obtain ⟨h4, h5⟩ := hfit row' (List.mem_cons_of_mem _ hm') hc'
          rw [hcu, b1]
          exact ⟨h4, fun j hj => hpre.subset (h5 j hj)⟩)
        (fun row' hm' hc' gw hgw v hgv => by
          rw [huu]; exact hv row' (List.mem_cons_of_mem _ hm') hc' gw hgw v hgv)
        (fun g labels => by
          have := ha g labels
          rw [hcons] at this
          rw [hatu]
          by_cases hl : row.labels.getD [] = labels
          · rw [if_pos hl, List.flatMap_cons, Policy.allows_append] at this
            rw [if_pos hl]; exact this.2
          · rw [if_neg hl] at this
            rw [if_neg hl]; exact this)
      have hfr : t.fk = s.fk ∧ t.maps = s.maps ∧ t.links = s.links ∧ t.partDefs = s.partDefs :=
        ⟨hst.fk_eq (by decide), hst.maps_eq (by decide), hst.links_eq (by decide), hst.partDefs_eq (by decide)⟩
      refine ⟨c', s', foldlM_cons_ok.2 ⟨d, u, hrow, h3⟩, k1.trans hcu, ?_, ?_, ?_, ?_, ?_, k7⟩
      · rw [k2, hsu.fk_eq (by decide), hfr.1]
      · rw [k3, hsu.maps_eq (by decide), hfr.2.1]
      · rw [k4, hsu.links_eq (by decide), hfr.2.2.1]
      · rw [k5, hsu.partDefs_eq (by decide), hfr.2.2.2]
      · rw [b1] at k6; exact hpre.trans k6
    · have hrow : insertIndexRow groups pl pw c row s = .ok (c, s) := by
        unfold insertIndexRow
        rw [if_pos (not_not.1 hc)]
        rfl
      obtain ⟨c', s', h3, h4⟩ := ih (c := c) hi hw hcols hfk hg
        (fun row' hm => hfit row' (List.mem_cons_of_mem _ hm)) (fun row' hm => hv row' (List.mem_cons_of_mem _ hm))
        (fun g labels => by
          have := ha g labels
          rwa [List.filter_cons, if_neg (by simpa using fun h => absurd h hc)] at this)
      exact ⟨c', s', foldlM_cons_ok.2 ⟨c, s, hrow, h3⟩, h4⟩

/-! ### After the rows -/

theorem forM_run {α : Type} {l : List α} {f : α → M Unit} {P : Store → Prop}
    (hf : ∀ a ∈ l, ∀ s, P s → ∃ s', f a s = .ok ((), s') ∧ P s') {s : Store} (hP : P s) :
    ∃ s', l.forM f s = .ok ((), s') ∧ P s' := by
  induction l generalizing s with
  | nil => exact ⟨s, rfl, hP⟩
  | cons x xs ih =>
    obtain ⟨t, h1, h2⟩ := hf x List.mem_cons_self s hP
    obtain ⟨s', h3, h4⟩ := ih (fun a ha => hf a (List.mem_cons_of_mem _ ha)) h2
    exact ⟨s', forM_cons_ok.2 ⟨t, h1, h3⟩, h4⟩

theorem recomputeComplete_run {s : Store} (hw : WeightInv s) : ∃ s', recomputeComplete s = .ok ((), s') := by
  obtain ⟨s', h, -⟩ := forM_run (l := s.wgroups)
    (f := fun g => do wgroupUpdate { g with complete := (← get).wgroupIsComplete g.id })
    (P := fun t => t.wgroups.map (fun g => (g.id, g.name)) = s.wgroups.map fun g => (g.id, g.name)) (s := s)
    (fun g hg t ht => by
      have key : ∀ x ∈ t.wgroups, ∃ y ∈ s.wgroups, y.id = x.id ∧ y.name = x.name := by
        intro x hx
        have hm : (x.id, x.name) ∈ s.wgroups.map fun g => (g.id, g.name) := by
          rw [← ht]; exact List.mem_map_of_mem (f := fun g : WGroup => (g.id, g.name)) hx
        obtain ⟨y, hy, he⟩ := List.mem_map.1 hm
        exact ⟨y, hy, congrArg Prod.fst he, congrArg Prod.snd he⟩
      refine ⟨{ t with wgroups := t.wgroups.map fun x =>
        if x.id = g.id then { g with complete := t.wgroupIsComplete g.id } else x }, ?_, ?_⟩
      · refine bind_ok.2 ⟨t, t, rfl, ?_⟩
        unfold wgroupUpdate
        refine bind_ok.2 ⟨t, t, rfl, ?_⟩
        rw [if_neg, if_neg]
        · rfl
        · intro h
          obtain ⟨x, hx, h⟩ := List.any_eq_true.1 h
          rw [Bool.and_eq_true, bne_iff_ne, beq_iff_eq] at h
          obtain ⟨y, hy, h1, h2⟩ := key x hx
          have := List.inj_on_of_nodup_map hw.names hy hg (h2.trans h.2)
          exact h.1 (by rw [← h1, this])
        · rw [not_not]
          have hm : (g.id, g.name) ∈ t.wgroups.map fun g => (g.id, g.name) := by
            rw [ht]; exact List.mem_map_of_mem (f := fun g : WGroup => (g.id, g.name)) hg
          obtain ⟨y, hy, he⟩ := List.mem_map.1 hm
          exact List.any_eq_true.2 ⟨y, hy, by simpa using congrArg Prod.fst he⟩
      · rw [← ht]
        show (t.wgroups.map _).map _ = _
        rw [List.map_map]
        apply List.map_congr_left
        intro x hx
        rw [Function.comp_apply]
        split
        · rename_i he
          obtain ⟨y, hy, h1, h2⟩ := key x hx
          have := List.inj_on_of_nodup_map hw.gids hy hg (h1.trans he)
          subst this
          rw [Prod.mk.injEq]; exact ⟨h1, h2⟩
        · rfl) rfl
  exact ⟨s', bind_ok.2 ⟨s, s, rfl, h⟩⟩

theorem afterNewRecords_run {s : Store} (hl : LinkInv s) (hd : s.partDefs.getD [] ≠ []) :
    ∃ s', afterNewRecords s = .ok ((), s') := by
  let t : Store := { s with indexHash := s.indexIds }
  let u : Store := { t with structs := t.structs.map fun r => { r with gran := t.granPy (defOf t.cols r.bits) } }
  have h1 : refreshIndexHash s = .ok ((), t) := rfl
  have h2 : refreshOrRebuild t = .ok ((), u) := by
    unfold refreshOrRebuild
    refine bind_ok.2 ⟨t, t, rfl, ?_⟩
    rw [if_pos hd]; rfl
  obtain ⟨s', h, -⟩ := forM_run (l := u.links)
    (f := fun l => whenM l.complete (linkUpdate { l with complete := false }))
    (P := fun t => t.links.map (fun l => (l.id, l.other, l.name, l.isDefault)) =
      u.links.map fun l => (l.id, l.other, l.name, l.isDefault)) (s := u)
    (fun g hg t ht => by
      by_cases hcomp : g.complete = true
      swap
      · exact ⟨t, whenM_ok.2 (.inr ⟨by simpa using hcomp, rfl⟩), ht⟩
      have key : ∀ x ∈ t.links, ∃ y ∈ u.links, y.id = x.id ∧ y.other = x.other ∧ y.name = x.name ∧
          y.isDefault = x.isDefault := by
        intro x hx
        have hm : (x.id, x.other, x.name, x.isDefault) ∈ u.links.map fun l => (l.id, l.other, l.name, l.isDefault) := by
          rw [← ht]; exact List.mem_map_of_mem (f := fun l : Link => (l.id, l.other, l.name, l.isDefault)) hx
        obtain ⟨y, hy, he⟩ := List.mem_map.1 hm
        simp only [Prod.mk.injEq] at he
        exact ⟨y, hy, he.1, he.2.1, he.2.2.1, he.2.2.2⟩
      refine ⟨{ t with links := t.links.map fun x => if x.id = g.id then { g with complete := false } else x }, ?_, ?_⟩
      · refine whenM_ok.2 (.inl ⟨hcomp, ?_⟩)
        unfold linkUpdate
        refine bind_ok.2 ⟨t, t, rfl, ?_⟩
        rw [if_neg, if_neg]
        · rfl
        · intro h
          obtain ⟨x, hx, h⟩ := List.any_eq_true.1 h
          simp only [Bool.and_eq_true, bne_iff_ne, beq_iff_eq, Bool.or_eq_true] at h
          obtain ⟨y, hy, h1, h2, h3, h4⟩ := key x hx
          obtain ⟨⟨k1, k2⟩, k3⟩ := h
          have hne : y ≠ g := fun he => k1 (by rw [← h1, he])
          rcases k3 with k3 | ⟨k3, k4⟩
          · exact hne (List.inj_on_of_nodup_map hl.names hy hg (by rw [h2, h3, k2, k3]))
          · haveI : Std.Symm fun a b : Link => a.other = b.other → ¬ (a.isDefault = true ∧ b.isDefault = true) :=
              ⟨fun a b hab ho hd => hab ho.symm hd.symm⟩
            have := hl.defaults.forall hy hg hne
            exact this (h2.trans k2) ⟨h4.trans k3, k4⟩
        · rw [not_not]
          have hm : (g.id, g.other, g.name, g.isDefault) ∈ t.links.map fun l => (l.id, l.other, l.name, l.isDefault) := by
            rw [ht]; exact List.mem_map_of_mem (f := fun l : Link => (l.id, l.other, l.name, l.isDefault)) hg
          obtain ⟨y, hy, he⟩ := List.mem_map.1 hm
          exact List.any_eq_true.2 ⟨y, hy, by simpa using congrArg Prod.fst he⟩
      · rw [← ht]
        show (t.links.map _).map _ = _
        rw [List.map_map]
        apply List.map_congr_left
        intro x hx
        rw [Function.comp_apply]
        split
        · rename_i he
          obtain ⟨y, hy, h1, h2, h3, h4⟩ := key x hx
          have := List.inj_on_of_nodup_map hl.ids hy hg (h1.trans he)
          subst this
          simp only [Prod.mk.injEq]; exact ⟨h1, h2, h3, h4⟩
        · rfl) rfl
  exact ⟨s', bind_ok.2 ⟨(), t, h1, bind_ok.2 ⟨(), u, h2, bind_ok.2 ⟨u, u, rfl, h⟩⟩⟩⟩

theorem mapM_wgroups_run {names : List PyStr} {s : Store} (hw : WeightInv s)
    (hn : ∀ n ∈ names, ∃ g ∈ s.wgroups, g.name = n) : ∃ groups, names.mapM wgroupGetByName s = .ok (groups, s) := by
  induction names with
  | nil => exact ⟨[], rfl⟩
  | cons n ns ih =>
    obtain ⟨g, hg, rfl⟩ := hn n List.mem_cons_self
    obtain ⟨gs, h⟩ := ih fun n hm => hn n (List.mem_cons_of_mem _ hm)
    have hf : s.findWGroup g.name = some g := (find_nodup_iff hw.names).2 ⟨hg, rfl⟩
    have hget : wgroupGetByName g.name s = .ok (g, s) := by
      unfold wgroupGetByName
      refine bind_ok.2 ⟨s, s, rfl, ?_⟩
      rw [hf]; rfl
    refine ⟨g :: gs, ?_⟩
    rw [List.mapM_cons]
    exact bind_ok.2 ⟨g, s, hget, bind_ok.2 ⟨gs, s, h, rfl⟩⟩

/-- When a load without a selection of weights succeeds. -/
theorem insertIndex_run {wcols : List PyStr} {pl pw : Policy} (hp : pw = .ignore ∨ pw = .replace ∨ pw = .abort)
    {rows : List IndexRow} {s : Store} (hi : IndexInv s) (hw : WeightInv s) (hl : LinkInv s) (hcols : s.cols ≠ [])
    (hd : s.partDefs.getD [] ≠ []) (hfk : ∀ w ∈ s.weights, ∃ r ∈ s.index, r.id = w.index)
    (hmaps : ∀ m ∈ s.maps, ∃ r ∈ s.index, r.id = m.index) (hn : ∀ n ∈ wcols, ∃ g ∈ s.wgroups, g.name = n)
    (hfit : ∀ row ∈ rows, row.Counts → (row.labels.getD []).length = s.cols.length ∧
      (∀ i ∈ row.idv, (⟨i, row.labels.getD []⟩ : IndexRec) ∈ s.index))
    (hv : ∀ row ∈ rows, row.Counts → ∀ nw ∈ wcols.zip row.ws, ∀ v ∈ nw.2,
      row.labels.getD [] ≠ s.undefinedRecord.labels ∧ 0 ≤ v)
    (ha : ∀ g ∈ s.wgroups, ∀ labels, pw.Allows (s.weightAt g.id labels)
      ((rows.filter fun row => decide (row.Counts ∧ row.labels.getD [] = labels)).flatMap
        (IndexRow.numbers wcols g.name))) :
    (step (.insertIndex none wcols pl pw rows) s).2 = .ok () := by
  obtain ⟨groups, h1⟩ := mapM_wgroups_run hw hn
  obtain ⟨hgn, hgm⟩ := mapM_wgroups h1
  have ha' : ∀ g labels, pw.Allows (s.weightAt g labels)
      ((rows.filter fun row => decide (row.Counts ∧ row.labels.getD [] = labels)).flatMap
        fun row => cellsFor g (groups.zip row.ws)) := by
    intro g labels
    by_cases hg : ∃ x ∈ groups, x.id = g
    · obtain ⟨x, hx, rfl⟩ := hg
      have := ha x (hgm x hx) labels
      rw [← hgn] at this
      rwa [List.flatMap_congr fun row _ => cellsFor_eq hw hgm (hgm x hx) row]
    · have : ∀ row : IndexRow, cellsFor g (groups.zip row.ws) = [] := by
        intro row
        unfold cellsFor
        rw [List.filter_eq_nil_iff.2]
        · rfl
        · intro x hx
          simpa using fun he => hg ⟨x.1, (List.of_mem_zip hx).1, he⟩
      simp only [this]
      rw [List.flatMap_eq_nil_iff.2 (fun _ _ => rfl)]
      exact Policy.allows_nil _ _
  have hv' : ∀ row ∈ rows, row.Counts → ∀ gw ∈ groups.zip row.ws, ∀ v ∈ gw.2,
      row.labels.getD [] ≠ s.undefinedRecord.labels ∧ 0 ≤ v := by
    intro row hm hc gw hgw v hgv
    refine hv row hm hc (gw.1.name, gw.2) ?_ v hgv
    rw [← hgn, List.zip_map_left]
    exact List.mem_map.2 ⟨gw, hgw, rfl⟩
  obtain ⟨c, t, h2, k1, k2, k3, k4, k5, k6, k7⟩ := insertIndexRows_run (pl := pl) (c := ⟨false, false⟩) hp hi hw hcols hfk hgm
    hfit hv' ha'
  obtain ⟨hit, hwt⟩ := insertIndexRows_inv hi hw h2
  have hlt : LinkInv t := by
    obtain ⟨a, b, d⟩ := hl
    exact ⟨by rw [k4]; exact a, by rw [k4]; exact b, by rw [k4]; exact d⟩
  obtain ⟨u, h3⟩ : ∃ u, whenM c.labels afterNewRecords t = .ok ((), u) := by
    by_cases hc : c.labels = true
    · obtain ⟨u, h⟩ := afterNewRecords_run hlt (by rw [k5]; exact hd)
      exact ⟨u, whenM_ok.2 (.inl ⟨hc, h⟩)⟩
    · exact ⟨t, whenM_ok.2 (.inr ⟨by simpa using hc, rfl⟩)⟩
  have hu : Steps [.hash, .structs, .pdefs, .lUpd] t u := by
    rw [whenM_ok] at h3
    obtain ⟨_, h3⟩ | ⟨_, rfl⟩ := h3
    · exact afterNewRecords_does.steps _ _ _ h3
    · exact Steps.refl _
  obtain ⟨s', h4⟩ : ∃ s', whenM (c.labels || c.weights) recomputeComplete u = .ok ((), s') := by
    by_cases hc : (c.labels || c.weights) = true
    · obtain ⟨v, h⟩ := recomputeComplete_run (WeightInv.steps hu hwt)
      exact ⟨v, whenM_ok.2 (.inl ⟨hc, h⟩)⟩
    · exact ⟨u, whenM_ok.2 (.inr ⟨by simpa using hc, rfl⟩)⟩
  have hs : Steps [.wgUpd] u s' := by
    rw [whenM_ok] at h4
    obtain ⟨_, h4⟩ | ⟨_, rfl⟩ := h4
    · exact recomputeComplete_does.steps _ _ _ h4
    · exact Steps.refl _
  have hall : insertIndex none wcols pl pw rows s = .ok ((), s') := by
    unfold insertIndex
    refine bind_ok.2 ⟨s, s, rfl, ?_⟩
    rw [if_neg (by simp), if_neg hcols]
    exact bind_ok.2 ⟨groups, s, h1, bind_ok.2 ⟨c, t, h2, bind_ok.2 ⟨(), u, h3, h4⟩⟩⟩
  have hfkok : fkOk s' = true := by
    have e1 : s'.index = t.index := (hs.index_eq (by decide)).trans (hu.index_eq (by decide))
    have e2 : s'.weights = t.weights := (hs.weights_eq (by decide)).trans (hu.weights_eq (by decide))
    have e3 : s'.maps = s.maps := ((hs.maps_eq (by decide)).trans (hu.maps_eq (by decide))).trans k3
    unfold fkOk
    rw [e1, e2, e3, Bool.or_eq_true, Bool.and_eq_true]
    refine .inr ⟨List.all_eq_true.2 fun w hw => ?_, List.all_eq_true.2 fun m hm => ?_⟩
    · obtain ⟨r, hr, he⟩ := k7 w hw
      exact List.any_eq_true.2 ⟨r, hr, by simp [he]⟩
    · obtain ⟨r, hr, he⟩ := hmaps m hm
      exact List.any_eq_true.2 ⟨r, k6.subset hr, by simp [he]⟩
  rw [step_of_body (m := insertIndex none wcols pl pw rows) rfl]
  unfold runTx
  rw [hall]
  simp only [hfkok, if_true]

end Toron.Space
