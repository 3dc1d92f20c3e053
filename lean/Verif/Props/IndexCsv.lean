/-
C66: a written index can be loaded again.
-/
import Verif.Lemmas.IndexCsv
import Verif.Demo

namespace Toron.IndexCsv

open Toron.Selectors (PyStr)
open Toron.Space
open Toron.IndexCode (isCode toId toCode)
open Toron.MappingCsv (Table)

theorem ids_of_sublist {s : Store} (hi : IndexInv s) {recs : List IndexRec} (h : recs.Sublist s.index) :
    (recs.map (·.id)).Nodup ∧ (recs.map (·.labels)).Nodup :=
  ⟨hi.idsNodup.sublist (h.map _), hi.labels.sublist (h.map _)⟩

theorem exists_weightIs {s : Store} (hw : WeightInv s) {g : WGroup} (hg : g ∈ s.wgroups) (i : Nat) :
    s.WeightIs g.name i (s.weightOf g.id i) := (weightIs_iff hw hg).2 rfl

/-- The output of `toron index` for a dataspace with a weight group cannot be loaded again, neither into the same
dataspace nor into one of the same layout, whatever the policies: it contains the undefined record with the weight 0,
and a weight for the undefined record is refused. -/
theorem C66_violated {F : Floats} {uid : List Byte} {s s' : Store} (hr : Reachable s) (hr' : Reachable s')
    (hcols : s.cols ≠ []) (hg : s.wgroups ≠ []) (hp : PlainGroups s) (hl : SameLayout s s') {t : Table}
    (h : writeIndex F uid s = .ok t) (hcl : Clear uid t) (pl pw : Policy) :
    (loadIndex F uid pl pw t s').2 ≠ .ok () := by
  rw [loadIndex_written hr.indexInv hr.colInv hcols hp hl (fun _ h => h) (List.ne_nil_of_mem hr.indexInv.undef) h hcl]
  intro hok
  obtain ⟨g, hg⟩ := List.exists_mem_of_ne_nil _ hg
  obtain ⟨g', hg', he⟩ := List.mem_map.1 ((hl.2 g.name).2 (List.mem_map_of_mem hg))
  have h3 := (C65_weights_final hr' (.inr (.inl (by
    intro row hm
    obtain ⟨r, -, rfl⟩ := List.mem_map.1 hm
    exact fun h => (nomatch h)))) hok ⟨g', hg', he⟩ (he ▸ exists_weightIs hr'.weightInv hg' 0)).2.2 rfl
  have h4 := (weightsGiven_ids (s' := (step (.insertIndex none (names s) pl pw
    (s.index.map fun r => rowOf s (some r.id) r)) s').1) hr.indexInv hr.weightInv (fun _ h => h) hr.indexInv.idsNodup hg).1
    s.undefinedRecord hr.indexInv.undef
  have h5 : s.undefinedRecord.id = 0 := rfl
  rw [h5] at h4
  have h6 := h4.symm.trans h3
  unfold writtenWeight at h6
  rcases h7 : s.weightOf g.id 0 with _ | v
  · rw [h7] at h6; exact (nomatch h6)
  · rw [h7] at h6; exact (nomatch h6)

/-- Loading rows with ids adds no record. -/
theorem load_ids_index {s s' : Store} (hi : IndexInv s) (hr' : Reachable s') {recs : List IndexRec}
    (hsub : recs.Sublist s.index) {pl pw : Policy}
    (hok : (step (.insertIndex none (names s) pl pw (recs.map fun r => rowOf s (some r.id) r)) s').2 = .ok ()) :
    (step (.insertIndex none (names s) pl pw (recs.map fun r => rowOf s (some r.id) r)) s').1.index =
      s'.index.map (fun r => ⟨r.id, labelsAfter pl r.labels
        (labelsGiven (recs.map fun r => rowOf s (some r.id) r) r.id)⟩) ∧
    ∀ r ∈ recs, ∃ r' ∈ s'.index, r'.id = r.id := by
  obtain ⟨⟨new, h1, -, h3⟩, h4⟩ := C65_records hr' hok
  have hnil : new = [] := by
    rw [List.filter_eq_nil_iff.2] at h3
    · exact List.length_eq_zero_iff.1 (Nat.le_zero.1 h3)
    · intro row hm hd
      obtain ⟨r, -, rfl⟩ := List.mem_map.1 hm
      exact (nomatch (of_decide_eq_true hd).2)
  rw [hnil, List.append_nil] at h1
  refine ⟨h1, fun r hm => ?_⟩
  obtain ⟨r', hr1, hr2⟩ := h4 _ (List.mem_map_of_mem hm) (rowOf_counts hi (hsub.subset hm) _) r.id rfl
  rw [h1] at hr1
  obtain ⟨r0, hr0, rfl⟩ := List.mem_map.1 hr1
  exact ⟨r0, hr0, hr2⟩

/-- Without the undefined record the table can be loaded again into the dataspace it was written from, under every
policy for labels and unless `abort` or `sum` is the policy for weights, and afterwards the records and the weights are
the same. -/
theorem C66_unchanged {F : Floats} {uid : List Byte} {s : Store} (hr : ReachableFk s) (hcols : s.cols ≠ [])
    (hd : s.partDefs.getD [] ≠ []) (hp : PlainGroups s) {recs : List IndexRec} (hsub : recs.Sublist (defined s))
    (hne : recs ≠ []) {t : Table} (h : writeRecords F uid s recs = .ok t) (hcl : Clear uid t) (pl : Policy) {pw : Policy}
    (hpw : pw = .ignore ∨ pw = .replace) :
    (loadIndex F uid pl pw t s).2 = .ok () ∧ (loadIndex F uid pl pw t s).1.index = s.index ∧
      ∀ name i v, (∃ g ∈ s.wgroups, g.name = name) →
        s.WeightIs name i v → (loadIndex F uid pl pw t s).1.WeightIs name i v := by
  have hi := hr.reachable.indexInv
  have hw := hr.reachable.weightInv
  have hsub' : recs.Sublist s.index := hsub.trans List.filter_sublist
  have hm : ∀ r ∈ recs, r ∈ s.index := fun r h => hsub'.subset h
  have hn0 : ∀ r ∈ recs, r.id ≠ 0 := fun r h => by simpa using (List.mem_filter.1 (hsub.subset h)).2
  obtain ⟨hnd, -⟩ := ids_of_sublist hi hsub'
  rw [loadIndex_written hi hr.reachable.colInv hcols hp ⟨rfl, fun _ => Iff.rfl⟩ hm hne h hcl]
  have hok : (step (.insertIndex none (names s) pl pw (recs.map fun r => rowOf s (some r.id) r)) s).2 = .ok () := by
    refine C65_accepts hr hcols hd (fun n hn => List.mem_map.1 (mem_names.1 hn)) (by tauto) ?_ ?_ ?_
    · intro row hrow _
      obtain ⟨r, hr', rfl⟩ := List.mem_map.1 hrow
      refine ⟨hi.lens r (hm r hr'), fun i hi' => ?_⟩
      cases hi'
      exact hm r hr'
    · intro row hrow _ cell hc v hv
      obtain ⟨r, hr', rfl⟩ := List.mem_map.1 hrow
      constructor
      · intro he
        have := List.inj_on_of_nodup_map hi.labels (hm r hr') hi.undef he
        exact hn0 r hr' (congrArg IndexRec.id this)
      · obtain ⟨g, -, he⟩ := List.mem_map.1 (List.of_mem_zip hc).2
        rw [← he] at hv
        exact writtenWeight_nonneg hw hv
    · intro name labels old _ ha
      rcases hpw with rfl | rfl <;> cases ha
  obtain ⟨l1, l2⟩ := labelsGiven_ids hi hm hnd
  refine ⟨hok, ?_, ?_⟩
  · rw [(load_ids_index hi hr.reachable hsub' hok).1, Space.map_self]
    intro r hrs
    by_cases hin : r.id ∈ recs.map (·.id)
    · obtain ⟨r', hr', he⟩ := List.mem_map.1 hin
      have : r' = r := List.inj_on_of_nodup_map hi.idsNodup (hm r' hr') hrs he
      subst this
      rw [l1 r' hr']
      unfold labelsAfter
      split <;> rfl
    · rw [l2 r.id hin]
      unfold labelsAfter
      split <;> rfl
  · rintro name i v ⟨g, hg, rfl⟩ hv
    have h2 := (C65_weights_final hr.reachable (.inr (.inl (by
      intro row hm
      obtain ⟨r, -, rfl⟩ := List.mem_map.1 hm
      exact fun h => (nomatch h)))) hok ⟨g, hg, rfl⟩ hv).2.1
    obtain ⟨w1, w2⟩ := weightsGiven_ids (s' := (step (.insertIndex none (names s) pl pw
      (recs.map fun r => rowOf s (some r.id) r)) s).1) hi hw hm hnd hg
    have hv' := (weightIs_iff hw hg).1 hv
    have key : pw.after v ((step (.insertIndex none (names s) pl pw (recs.map fun r => rowOf s (some r.id) r)) s).1.weightsGiven
        (weightColumns none (names s)) g.name (recs.map fun r => rowOf s (some r.id) r) i) = v := by
      by_cases hin : i ∈ recs.map (·.id)
      · obtain ⟨r, hr', rfl⟩ := List.mem_map.1 hin
        rw [show weightColumns none (names s) = names s from rfl, w1 r hr']
        have : writtenWeight s r.id g = v := by
          unfold writtenWeight
          rw [if_neg (hn0 r hr'), Option.or_none, hv']
        rw [this]
        rcases hpw with rfl | rfl <;> cases v <;> rfl
      · rw [show weightColumns none (names s) = names s from rfl, w2 _ i hin]
        rcases hpw with rfl | rfl <;> cases v <;> rfl
    rw [key] at h2
    exact h2

/-- Loaded with `replace` into a dataspace of the same layout, if this succeeds, the table gives every record in it
its labels and weights as they were when it was written. No record is added or removed, and the other records and the
weights of these, as well as weights that were missing, are not touched. -/
theorem C66_restored {F : Floats} {uid : List Byte} {s s' : Store} (hr : Reachable s) (hr' : Reachable s')
    (hcols : s.cols ≠ []) (hp : PlainGroups s) (hl : SameLayout s s') {recs : List IndexRec}
    (hsub : recs.Sublist (defined s)) (hne : recs ≠ []) {t : Table} (h : writeRecords F uid s recs = .ok t)
    (hcl : Clear uid t) (hok : (loadIndex F uid .replace .replace t s').2 = .ok ()) :
    (loadIndex F uid .replace .replace t s').1.index.map (·.id) = s'.index.map (·.id) ∧
    (∀ r ∈ recs, r ∈ (loadIndex F uid .replace .replace t s').1.index) ∧
    (∀ r ∈ s'.index, r.id ∉ recs.map (·.id) → r ∈ (loadIndex F uid .replace .replace t s').1.index) ∧
    (∀ r ∈ recs, ∀ name x, s.HasWeight name r.id x → (loadIndex F uid .replace .replace t s').1.HasWeight name r.id x) ∧
    (∀ name i v, (∃ g ∈ s.wgroups, g.name = name) → (i ∈ recs.map (·.id) → ∀ x, ¬ s.HasWeight name i x) →
      s'.WeightIs name i v → (loadIndex F uid .replace .replace t s').1.WeightIs name i v) := by
  have hi := hr.indexInv
  have hw := hr.weightInv
  have hsub' : recs.Sublist s.index := hsub.trans List.filter_sublist
  have hm : ∀ r ∈ recs, r ∈ s.index := fun r h => hsub'.subset h
  have hn0 : ∀ r ∈ recs, r.id ≠ 0 := fun r h => by simpa using (List.mem_filter.1 (hsub.subset h)).2
  obtain ⟨hnd, -⟩ := ids_of_sublist hi hsub'
  rw [loadIndex_written hi hr.colInv hcols hp hl hm hne h hcl] at hok ⊢
  obtain ⟨l1, l2⟩ := labelsGiven_ids hi hm hnd
  obtain ⟨i1, i2⟩ := load_ids_index hi hr' hsub' hok
  have hwt : ∀ g ∈ s.wgroups, ∀ i v, s'.WeightIs g.name i v → (step (.insertIndex none (names s) .replace .replace
      (recs.map fun r => rowOf s (some r.id) r)) s').1.WeightIs g.name i
      (if i ∈ recs.map (·.id) then (s.weightOf g.id i).or v else v) := by
    intro g hg i v hv
    obtain ⟨g', hg', he⟩ := List.mem_map.1 ((hl.2 g.name).2 (List.mem_map_of_mem hg))
    have h2 := (C65_weights_final hr' (.inr (.inl (by
      intro row hm
      obtain ⟨r, -, rfl⟩ := List.mem_map.1 hm
      exact fun h => (nomatch h)))) hok ⟨g', hg', he⟩ hv).2.1
    obtain ⟨w1, w2⟩ := weightsGiven_ids (s' := (step (.insertIndex none (names s) .replace .replace
      (recs.map fun r => rowOf s (some r.id) r)) s').1) hi hw hm hnd hg
    rw [show weightColumns none (names s) = names s from rfl] at h2
    by_cases hin : i ∈ recs.map (·.id)
    · rw [if_pos hin]
      obtain ⟨r, hr', rfl⟩ := List.mem_map.1 hin
      rw [w1 r hr'] at h2
      unfold writtenWeight at h2
      rw [if_neg (hn0 r hr'), Option.or_none] at h2
      cases hx : s.weightOf g.id r.id with
      | none => rw [hx] at h2; exact h2
      | some x => rw [hx] at h2; exact h2
    · rw [if_neg hin]
      rw [w2 _ i hin] at h2
      exact h2
  refine ⟨?_, ?_, ?_, ?_, ?_⟩
  · rw [i1, List.map_map]; rfl
  · intro r hr0
    obtain ⟨r', h1, h2⟩ := i2 r hr0
    rw [i1]
    refine List.mem_map.2 ⟨r', h1, ?_⟩
    rw [h2, l1 r hr0]
    rfl
  · intro r hr0 hn
    rw [i1]
    refine List.mem_map.2 ⟨r, hr0, ?_⟩
    rw [l2 _ hn]
    rfl
  · rintro r hr0 name x hx
    obtain ⟨g, hg, rfl, -⟩ := id hx
    obtain ⟨g', hg', he⟩ := List.mem_map.1 ((hl.2 g.name).2 (List.mem_map_of_mem hg))
    have h1 := hwt g hg r.id _ (he ▸ exists_weightIs hr'.weightInv hg' r.id)
    rw [if_pos (List.mem_map_of_mem hr0)] at h1
    have h2 := (exists_weightIs hw hg r.id x).2 hx
    rw [h2] at h1
    exact (h1 x).1 rfl
  · rintro name i v ⟨g, hg, rfl⟩ hno hv
    have h1 := hwt g hg i v hv
    by_cases hin : i ∈ recs.map (·.id)
    · rw [if_pos hin] at h1
      cases hx : s.weightOf g.id i with
      | none => rw [hx] at h1; exact h1
      | some x => exact absurd ((exists_weightIs hw hg i x).1 hx) (hno hin x)
    · rw [if_neg hin] at h1; exact h1

/-- Loaded into another dataspace of the same layout, the codes being foreign to it, the table without the undefined
record is accepted and adds a record for every label combination that was not there, in the order of the table. Such
records have the weights of the written ones. (`abort` for weights: if all label combinations are new.) -/
theorem C66_copied {F : Floats} {uid uid' : List Byte} {s s' : Store} (hr : Reachable s) (hr' : ReachableFk s')
    (hcols : s.cols ≠ []) (hd : s'.partDefs.getD [] ≠ []) (hp : PlainGroups s) (hl : SameLayout s s') {recs : List IndexRec}
    (hsub : recs.Sublist (defined s)) {t : Table} (h : writeRecords F uid s recs = .ok t)
    (hcl : Foreign uid' t) (hh : codeHeader s.getDomain ∉ s.cols) (hh' : ∀ g ∈ s.wgroups, g.name ≠ codeHeader s.getDomain)
    {pl pw : Policy} (hpl : pl ≠ .replace)
    (hpw : pw = .ignore ∨ pw = .replace ∨ pw = .abort ∧ ∀ r ∈ recs, r.labels ∉ s'.index.map (·.labels)) :
    (loadIndex F uid' pl pw t s').2 = .ok () ∧
    (∃ new, (loadIndex F uid' pl pw t s').1.index = s'.index ++ new ∧
      new.map (·.labels) = (recs.map (·.labels)).filter fun l => decide (l ∉ s'.index.map (·.labels))) ∧
    ∀ r ∈ recs, r.labels ∉ s'.index.map (·.labels) →
      ∀ r' ∈ (loadIndex F uid' pl pw t s').1.index, r'.labels = r.labels →
        ∀ name v, (∃ g ∈ s.wgroups, g.name = name) → s.WeightIs name r.id v →
          (loadIndex F uid' pl pw t s').1.WeightIs name r'.id v := by
  have hi := hr.indexInv
  have hw := hr.weightInv
  have hi' := hr'.reachable.indexInv
  have hsub' : recs.Sublist s.index := hsub.trans List.filter_sublist
  have hm : ∀ r ∈ recs, r ∈ s.index := fun r h => hsub'.subset h
  have hn0 : ∀ r ∈ recs, r.id ≠ 0 := fun r h => by simpa using (List.mem_filter.1 (hsub.subset h)).2
  obtain ⟨-, hnd⟩ := ids_of_sublist hi hsub'
  rw [loadIndex_foreign hi hr.colInv hcols hp hl hm h hcl hh hh']
  have hok : (step (.insertIndex none (names s) pl pw (recs.map fun r => rowOf s none r)) s').2 = .ok () := by
    refine C65_accepts hr' (hl.1 ▸ hcols) hd (fun n hn => List.mem_map.1 ((hl.2 n).2 (mem_names.1 hn))) (by tauto) ?_ ?_ ?_
    · intro row hrow _
      obtain ⟨r, hr', rfl⟩ := List.mem_map.1 hrow
      refine ⟨?_, fun i hi' => (nomatch hi')⟩
      rw [hl.1]
      exact hi.lens r (hm r hr')
    · intro row hrow _ cell hc v hv
      obtain ⟨r, hr', rfl⟩ := List.mem_map.1 hrow
      constructor
      · intro he
        rw [hl.1] at he
        have := List.inj_on_of_nodup_map hi.labels (hm r hr') hi.undef he
        exact hn0 r hr' (congrArg IndexRec.id this)
      · obtain ⟨g, -, he⟩ := List.mem_map.1 (List.of_mem_zip hc).2
        rw [← he] at hv
        exact writtenWeight_nonneg hw hv
    · intro name labels old hold ha
      rcases hpw with rfl | rfl | ⟨rfl, hno⟩
      · cases ha
      · cases ha
      have key : (recs.map fun r => rowOf s none r).filter (fun row => decide (row.Counts ∧ row.labels.getD [] = labels)) =
          (recs.filter fun x => decide (x.labels = labels)).map fun r => rowOf s none r := by
        rw [List.filter_map]
        refine congrArg _ (List.filter_congr fun r hr0 => ?_)
        rw [Function.comp_apply, decide_eq_decide]
        exact ⟨fun h => h.2, fun h => ⟨rowOf_counts hi (hm r hr0) _, h⟩⟩
      rw [key]
      by_cases hin : labels ∈ recs.map (·.labels)
      · obtain ⟨r, hr0, rfl⟩ := List.mem_map.1 hin
        rw [filter_key (f := fun r : IndexRec => r.labels) hnd hr0]
        have ho : old = none := by
          cases old with
          | none => rfl
          | some x =>
            obtain ⟨i, hi0, -⟩ := (hold x).1 rfl
            exact absurd (List.mem_map_of_mem (f := fun r : IndexRec => r.labels) hi0) (hno r hr0)
        rw [ho]
        simpa using numbers_length hw name none r
      · rw [List.filter_eq_nil_iff.2]
        · cases old <;> simp
        · intro r hr0 he
          exact hin (by rw [← of_decide_eq_true he]; exact List.mem_map_of_mem hr0)
  have hi'' := (hr'.reachable.step (.insertIndex none (names s) pl pw (recs.map fun r => rowOf s none r))).indexInv
  refine ⟨hok, ?_, ?_⟩
  · obtain ⟨new, h1, h2⟩ := C65_added hr'.reachable hpl hok
    exact ⟨new, h1, h2.trans (newLabels_written hi hm hnd)⟩
  · rintro r hr0 hno r' hr1 he name v ⟨g, hg, rfl⟩ hv
    obtain ⟨g', hg', hge⟩ := List.mem_map.1 ((hl.2 g.name).2 (List.mem_map_of_mem hg))
    have hold : s'.WeightIs g.name r'.id none := by
      intro x
      refine ⟨fun h => (nomatch h), ?_⟩
      rintro ⟨g0, -, -, w, hw0, -, hwi, -⟩
      exfalso
      obtain ⟨r2, hr2, hid⟩ := List.mem_map.1 (hr'.indexRefs.1 w hw0)
      obtain ⟨new, h1, -⟩ := C65_added hr'.reachable hpl hok
      have hr2' : r2 ∈ (step (.insertIndex none (names s) pl pw (recs.map fun r => rowOf s none r)) s').1.index := by
        rw [h1]; exact List.mem_append_left _ hr2
      have : r2 = r' := List.inj_on_of_nodup_map hi''.idsNodup hr2' hr1 (hid.trans hwi)
      subst this
      exact hno (by rw [← he]; exact List.mem_map_of_mem hr2)
    have h2 := (C65_weights_final hr'.reachable (.inl hpl) hok ⟨g', hg', hge⟩ hold).2.1
    rw [show weightColumns none (names s) = names s from rfl,
      weightsGiven_labels hi hw hi'' hm hnd hg hr0 hr1 he] at h2
    have hv' := (weightIs_iff hw hg).1 hv
    have hx : writtenWeight s r.id g = v := by
      unfold writtenWeight
      rw [if_neg (hn0 r hr0), Option.or_none, hv']
    rw [hx] at h2
    have : pw.after none v.toList = v := by
      rcases hpw with rfl | rfl | ⟨rfl, -⟩ <;> cases v <;> rfl
    rw [this] at h2
    exact h2

/-! ### The hypotheses can be met -/

/-- Numbers written in unary, to have an example. -/
def Demo.floats : Floats where
  text q := (if q.num < 0 then '-' else '+') :: (List.replicate q.num.natAbs 'n' ++ List.replicate q.den 'd')
  parse t :=
    match t with
    | '-' :: r => some (mkRat (-(r.count 'n' : Int)) (r.count 'd'))
    | '+' :: r => some (mkRat (r.count 'n' : Int) (r.count 'd'))
    | _ => none
  parse_text q := by
    by_cases h : q.num < 0
    · simp only [if_pos h, List.count_append, List.count_replicate]
      have : -((q.num.natAbs : Int)) = q.num := by omega
      simp only [beq_self_eq_true, if_true]
      simp only [show (('d' == 'n') = false) by decide, show (('n' == 'd') = false) by decide, Bool.false_eq_true, if_false,
        Nat.add_zero, Nat.zero_add, this, Rat.mkRat_self]
    · simp only [if_neg h, List.count_append, List.count_replicate]
      have : ((q.num.natAbs : Int)) = q.num := by omega
      simp only [beq_self_eq_true, if_true]
      simp only [show (('d' == 'n') = false) by decide, show (('n' == 'd') = false) by decide, Bool.false_eq_true, if_false,
        Nat.add_zero, Nat.zero_add, this, Rat.mkRat_self]
  text_ne q := by simp

/-- Some unique id. -/
def Demo.uid : List Byte := [1#8, 2#8]

/-- Its index as written, with and without the undefined record. -/
def Demo.full : Table := (writeIndex Demo.floats Demo.uid Space.Demo.store).toOption.getD ⟨[], []⟩
def Demo.part : Table := (writeRecords Demo.floats Demo.uid Space.Demo.store (defined Space.Demo.store)).toOption.getD ⟨[], []⟩

/-- The dataspace after its first record got other labels. -/
def Demo.relabelled : Store :=
  (step (.insertIndex none [] .replace .abort [⟨some 1, some [['z'], ['1']], []⟩]) Space.Demo.store).1

/-- The dataspace after two records exchanged their labels. -/
def Demo.swapped : Store :=
  (step (.insertIndex none [] .replace .abort [⟨some 1, some [['z'], ['1']], []⟩, ⟨some 2, some [['x'], ['1']], []⟩,
    ⟨some 1, some [['x'], ['2']], []⟩]) Space.Demo.store).1

/-- Another dataspace with the same columns and weight group. -/
def Demo.elsewhere : Store :=
  run [.addIndexColumns [Space.Demo.colA, Space.Demo.colB], .addPartitionDef {Space.Demo.colA},
    .addWeightGroup Space.Demo.wname [] false none] (Store.new ['v'])

/-- If two records have exchanged their labels since the table was written, it cannot be loaded to undo this: the first
of them cannot get its labels back while the other still has them. -/
theorem C66_violated_swapped : ∃ (F : Floats) (uid : List Byte) (s s' : Store) (t : Table), ReachableFk s ∧ ReachableFk s' ∧
    SameLayout s s' ∧ PlainGroups s ∧ s'.index.map (·.id) = s.index.map (·.id) ∧
    writeRecords F uid s (defined s) = .ok t ∧ Clear uid t ∧ (loadIndex F uid .replace .replace t s').2 ≠ .ok () := by
  refine ⟨Demo.floats, Demo.uid, Space.Demo.store, Demo.swapped, Demo.part, Space.Demo.reachableFk, ?_, ⟨?_, ?_⟩, ?_, ?_, ?_,
    ⟨?_, ?_⟩, ?_⟩
  · exact Space.Demo.reachableFk.step _ (fun h => nomatch h)
  · decide +kernel
  · have : Demo.swapped.wgroups.map (·.name) = Space.Demo.store.wgroups.map (·.name) := by decide +kernel
    intro n
    rw [this]
  · unfold PlainGroups
    decide +kernel
  · decide +kernel
  · exact Space.ok_of_toOption (by decide +kernel)
  · decide +kernel
  · decide +kernel
  · intro h
    have h1 : (loadIndex Demo.floats Demo.uid .replace .replace Demo.part Demo.swapped).2.toBool = true := by rw [h]; rfl
    revert h1
    decide +kernel

example : Space.Demo.store.cols ≠ [] ∧ Space.Demo.store.wgroups ≠ [] ∧ Space.Demo.store.partDefs.getD [] ≠ [] ∧
    (∀ g ∈ Space.Demo.store.wgroups, g.name ∉ Space.Demo.store.cols ∧ g.name ≠ idName) ∧ defined Space.Demo.store ≠ [] := by
  decide +kernel

/-- The whole table is refused, the rest is accepted and changes nothing. -/
example : (loadIndex Demo.floats Demo.uid .replace .replace Demo.full Space.Demo.store).2.toBool = false ∧
    (loadIndex Demo.floats Demo.uid .abort .ignore Demo.part Space.Demo.store).2.toBool = true ∧
    (loadIndex Demo.floats Demo.uid .abort .ignore Demo.part Space.Demo.store).1.weights = Space.Demo.store.weights := by
  decide +kernel

/-- Loading brings back the labels. -/
example : Demo.relabelled.index ≠ Space.Demo.store.index ∧
    (loadIndex Demo.floats Demo.uid .replace .replace Demo.part Demo.relabelled).2.toBool = true ∧
    (loadIndex Demo.floats Demo.uid .replace .replace Demo.part Demo.relabelled).1.index = Space.Demo.store.index := by
  decide +kernel

/-- Loading into another dataspace. -/
example : (∀ h ∈ Demo.part.header, (isCode h [7#8]).toOption = some false) ∧
    (∀ row ∈ Demo.part.rows.take 9, ∀ c ∈ row, (isCode c [7#8]).toOption = some false) ∧
    codeHeader Space.Demo.store.getDomain ∉ Space.Demo.store.cols ∧
    (loadIndex Demo.floats [7#8] .abort .abort Demo.part Demo.elsewhere).2.toBool = true ∧
    (loadIndex Demo.floats [7#8] .abort .abort Demo.part Demo.elsewhere).1.index = Space.Demo.store.index ∧
    (loadIndex Demo.floats [7#8] .abort .abort Demo.part Demo.elsewhere).1.weights = Space.Demo.store.weights := by
  decide +kernel

end Toron.IndexCsv
