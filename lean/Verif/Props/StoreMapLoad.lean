/-
C79: adding, correcting and deleting mappings row by row (`insert_mappings`, `update_mappings`, `delete_mappings` in
`src/toron/space.py`).
-/
import Verif.Lemmas.Store.MapLoad
import Verif.Demo

namespace Toron.Space

open Toron.Selectors (PyStr)

private theorem tx_ok {m : M Unit} {s s' : Store} (h : m s = .ok ((), s')) (hfk : fkOk s' = true) :
    runTx m s = (s', .ok ()) := by
  unfold runTx
  rw [h]
  dsimp only
  rw [if_pos hfk]

private theorem tx_error {m : M Unit} {s : Store} {e : Err} (h : m s = .error e) :
    (runTx m s).2 ≠ .ok () ∧ (runTx m s).1 = s := by
  unfold runTx
  rw [h]
  exact ⟨(nomatch ·), rfl⟩

private theorem liftE_run {α : Type} {e : Except Err α} {a : α} (h : e = .ok a) (s : Store) :
    liftE e s = .ok (a, s) := by
  rw [h]; rfl

private theorem taken_nil_iff {s : Store} {rows : List MapRow} : s.taken rows = [] ↔ ∀ row ∈ rows, ¬ s.Takes row := by
  unfold Store.taken
  rw [List.filter_eq_nil_iff]
  simp

/-- C79, adding. The call succeeds exactly if the rows that are for a record can be stored, are for different things
and nothing is stored for them yet. Then the link has its old mappings and, after them, what these rows say, in their
order; the mappings of other links stay as they are. The link's fingerprint and mark of completeness are brought up to
date if anything was added, and no link is changed otherwise. If the call does not succeed nothing changes. -/
theorem C79_insert {s : Store} (hr : Reachable s) {ref : PyStr} {name : Option PyStr} {l : Link}
    (hl : getLink s.links ref name = .ok l) (rows : List MapRow) :
    ((∀ row ∈ s.taken rows, row.Sound) ∧ ((s.taken rows).map MapRow.key).Nodup ∧
        (∀ row ∈ s.taken rows, ∀ m ∈ s.maps, m.link = l.id → (m.other, m.index, m.level) ≠ row.key) →
      (step (.insertMappings ref name true rows) s).2 = .ok () ∧
      (step (.insertMappings ref name true rows) s).1.rowsOf l.id =
        s.rowsOf l.id ++ (s.taken rows).map MapRow.content ∧
      (step (.insertMappings ref name true rows) s).1.mapsOfOthers l.id = s.mapsOfOthers l.id ∧
      (s.taken rows ≠ [] → LinkBrought s (step (.insertMappings ref name true rows) s).1 l.id) ∧
      (s.taken rows = [] → (step (.insertMappings ref name true rows) s).1 = s)) ∧
    (¬ ((∀ row ∈ s.taken rows, row.Sound) ∧ ((s.taken rows).map MapRow.key).Nodup ∧
        (∀ row ∈ s.taken rows, ∀ m ∈ s.maps, m.link = l.id → (m.other, m.index, m.level) ≠ row.key)) →
      (step (.insertMappings ref name true rows) s).2 ≠ .ok () ∧
      (step (.insertMappings ref name true rows) s).1 = s) := by
  have hm := getLink_mem hl
  have hstep : step (.insertMappings ref name true rows) s = runTx (insertMappings ref name true rows) s := rfl
  rw [hstep]
  have hun : insertMappings ref name true rows s =
      (rows.foldlM (insertMappingRow l.id) false >>= fun inserted => whenM inserted (refreshLink l)) s := by
    unfold insertMappings
    rw [if_neg (by simp), get_bind]
    simp only [bind, StateT.bind, Except.bind]
    rw [liftE_run hl]
  rcases insertMappingRows_spec (link := l.id) rows hr.mapInv hr.indexInv (fun _ => ⟨l, hm, rfl⟩) false with
    ⟨hgood, ms, h1, h2, h3, h4⟩ | ⟨hbad, e, he⟩
  · refine ⟨fun _ => ?_, fun h => absurd ⟨hgood.1, hgood.2.1, hgood.2.2⟩ h⟩
    have hidx : ∀ m ∈ s.maps ++ ms, (∃ r ∈ s.index, r.id = m.index) ∨ ∃ m' ∈ s.maps, m'.index = m.index := by
      intro m hmm
      rcases List.mem_append.1 hmm with h | h
      · exact .inr ⟨m, h, rfl⟩
      · exact .inl (h3 m h).2
    have hrows : Store.rowsOf { s with maps := s.maps ++ ms } l.id =
        s.rowsOf l.id ++ (s.taken rows).map MapRow.content := by
      unfold Store.rowsOf
      rw [List.filter_append, List.map_append, ← h4]
      congr 2
      rw [List.filter_eq_self]
      intro m hmm
      simpa using (h3 m hmm).1
    have hothers : ((s.maps ++ ms).filter fun m => m.link != l.id) = s.mapsOfOthers l.id := by
      unfold Store.mapsOfOthers
      rw [List.filter_append]
      have : (ms.filter fun m => m.link != l.id) = [] := by
        rw [List.filter_eq_nil_iff]
        intro m hmm
        simp [(h3 m hmm).1]
      rw [this, List.append_nil]
    by_cases ht : s.taken rows = []
    · have hms : ms = [] := by
        rw [ht, List.map_nil, List.map_eq_nil_iff] at h4; exact h4
      subst hms
      have hrun : insertMappings ref name true rows s = .ok ((), s) := by
        rw [hun]
        refine bind_ok.2 ⟨_, _, h1, ?_⟩
        rw [ht]
        simp [whenM]
        rfl
      rw [tx_ok hrun hr.fkOk]
      exact ⟨rfl, by rw [ht]; simp, rfl, fun h => absurd ht h, fun _ => rfl⟩
    · obtain ⟨s', k1, k2, k3, k4, k5⟩ := refreshLink_finish h2 hr.linkInv hm hr.fkOk hidx
      have hrun : insertMappings ref name true rows s = .ok ((), s') := by
        rw [hun]
        refine bind_ok.2 ⟨_, _, h1, ?_⟩
        refine whenM_ok.2 (.inl ⟨?_, k1⟩)
        rw [List.isEmpty_eq_false_iff.2 ht]; rfl
      rw [tx_ok hrun k2]
      refine ⟨rfl, ?_, k4.trans hothers, fun _ => k5, fun h => absurd h ht⟩
      rw [← hrows]
      exact sameContent_rowsOf k3 s' l.id
  · refine ⟨fun h => absurd ⟨h.1, h.2.1, h.2.2⟩ hbad, fun _ => tx_error (e := e) ?_⟩
    rw [hun]
    simp only [bind, StateT.bind, Except.bind]
    rw [he]

/-- C79, correcting, if no two records of the rows have more than one mapping. The call succeeds exactly if the rows
that are for a record can be stored. Then the mapping between two records is what the last row for them says, or what
it was before; the mappings of other links stay as they are. The link's fingerprint and mark of completeness are
brought up to date if a mapping was added, and no link is changed otherwise. If the call does not succeed nothing
changes. -/
theorem C79_update_partial {s : Store} (hr : Reachable s) {ref : PyStr} {name : Option PyStr} {l : Link}
    (hl : getLink s.links ref name = .ok l) (rows : List MapRow)
    (hone : ∀ row ∈ s.taken rows, (s.between l.id row.other row.index).length ≤ 1) :
    ((∀ row ∈ s.taken rows, row.Sound) →
      (step (.updateMappings ref name true rows) s).2 = .ok () ∧
      (∀ o i, (step (.updateMappings ref name true rows) s).1.between l.id o i =
        match newest (s.taken rows) o i with
        | none => s.between l.id o i
        | some row => [(row.level.getD [], row.value)]) ∧
      (step (.updateMappings ref name true rows) s).1.mapsOfOthers l.id = s.mapsOfOthers l.id ∧
      ((∃ row ∈ s.taken rows, s.between l.id row.other row.index = []) →
        LinkBrought s (step (.updateMappings ref name true rows) s).1 l.id) ∧
      ((¬ ∃ row ∈ s.taken rows, s.between l.id row.other row.index = []) →
        (step (.updateMappings ref name true rows) s).1.links = s.links)) ∧
    ((¬ ∀ row ∈ s.taken rows, row.Sound) →
      (step (.updateMappings ref name true rows) s).2 ≠ .ok () ∧
      (step (.updateMappings ref name true rows) s).1 = s) := by
  have hm := getLink_mem hl
  have hstep : step (.updateMappings ref name true rows) s = runTx (updateMappings ref name true rows) s := rfl
  rw [hstep]
  have hun : updateMappings ref name true rows s =
      (rows.foldlM (updateMappingRow l.id) (false, false) >>= fun c =>
        if c.1 then refreshLink l
        else if c.2 then (get : M Store) >>= fun t => (t.distinctOthers l.id).forM fun o => refreshProportions l.id o
        else pure ()) s := by
    unfold updateMappings
    rw [if_neg (by simp), get_bind]
    simp only [bind, StateT.bind, Except.bind]
    rw [liftE_run hl]
  rcases updateMappingRows_spec (link := l.id) rows hr.mapInv hr.indexInv (fun _ => ⟨l, hm, rfl⟩) (false, false) hone with
    ⟨hgood, c, ms, h1, h2, h3, h4, h5, h6⟩ | ⟨hbad, e, he⟩
  · refine ⟨fun _ => ?_, fun h => absurd hgood h⟩
    have h2' : c.1 = true ↔ ∃ row ∈ s.taken rows, s.between l.id row.other row.index = [] := by
      rw [h2]; simp
    have hbet : ∀ s' : Store, s'.maps.map Mapping.content = ms.map Mapping.content → ∀ o i,
        s'.between l.id o i = match newest (s.taken rows) o i with
          | none => s.between l.id o i
          | some row => [(row.level.getD [], row.value)] := by
      intro s' h o i
      have := sameContent_between h s' l.id o i
      have e2 : s'.between l.id o i = Store.between { s with maps := ms } l.id o i := this
      rw [e2, h6]
      rcases newest (s.taken rows) o i with _ | x <;> rfl
    rw [← h2']
    by_cases hc : c.1 = true
    · obtain ⟨s', k1, k2, k3, k4, k5⟩ := refreshLink_finish h3 hr.linkInv hm hr.fkOk h4
      have hrun : updateMappings ref name true rows s = .ok ((), s') := by
        rw [hun]
        refine bind_ok.2 ⟨_, _, h1, ?_⟩
        rw [if_pos hc]
        exact k1
      rw [tx_ok hrun k2]
      exact ⟨rfl, hbet s' k3, k4.trans h5, fun _ => k5, fun h => absurd hc h⟩
    · by_cases hc2 : c.2 = true
      · obtain ⟨s', k1, k2, k3, k4, k5⟩ := forM_refresh_finish h3 hm hr.fkOk h4
          (Store.distinctOthers { s with maps := ms } l.id)
        have hrun : updateMappings ref name true rows s = .ok ((), s') := by
          rw [hun]
          refine bind_ok.2 ⟨_, _, h1, ?_⟩
          rw [if_neg hc, if_pos hc2, get_bind]
          exact k1
        rw [tx_ok hrun k2]
        exact ⟨rfl, hbet s' k3, k4.trans h5, fun h => absurd h hc, fun _ => k5⟩
      · have hrun : updateMappings ref name true rows s = .ok ((), { s with maps := ms }) := by
          rw [hun]
          refine bind_ok.2 ⟨_, _, h1, ?_⟩
          rw [if_neg hc, if_neg hc2]
          rfl
        rw [tx_ok hrun (fkOk_maps (s' := { s with maps := ms }) hr.fkOk rfl rfl rfl h4)]
        exact ⟨rfl, hbet { s with maps := ms } rfl, h5, fun h => absurd h hc, fun _ => rfl⟩
  · refine ⟨fun h => absurd h hbad, fun _ => tx_error (e := e) ?_⟩
    rw [hun]
    simp only [bind, StateT.bind, Except.bind]
    rw [he]

open Classical in
/-- C79, deleting by rows, if no two records of the rows have more than one mapping. The call succeeds. Exactly the
mappings that a row names are gone; what the others say, apart from the proportions, stays as it is, and the mappings
of other links stay altogether. The link's fingerprint and mark of completeness are brought up to date if a mapping
was deleted, and otherwise nothing changes. -/
theorem C79_delete_partial {s : Store} (hr : Reachable s) {ref : PyStr} {name : Option PyStr} {l : Link}
    (hl : getLink s.links ref name = .ok l) {rows : List MapRow} (hne : rows ≠ [])
    (hone : ∀ row ∈ rows, (s.between l.id row.other row.index).length ≤ 1) :
    (step (.deleteMappings ref name true (.rows rows)) s).2 = .ok () ∧
    (step (.deleteMappings ref name true (.rows rows)) s).1.maps.map Mapping.content =
      (s.maps.filter fun m => ¬ ∃ row ∈ rows, s.Names l.id row m).map Mapping.content ∧
    (step (.deleteMappings ref name true (.rows rows)) s).1.mapsOfOthers l.id = s.mapsOfOthers l.id ∧
    ((∃ m ∈ s.maps, ∃ row ∈ rows, s.Names l.id row m) →
      LinkBrought s (step (.deleteMappings ref name true (.rows rows)) s).1 l.id) ∧
    ((¬ ∃ m ∈ s.maps, ∃ row ∈ rows, s.Names l.id row m) →
      (step (.deleteMappings ref name true (.rows rows)) s).1 = s) := by
  have hm := getLink_mem hl
  have hstep : step (.deleteMappings ref name true (.rows rows)) s = runTx (deleteMappings ref name true (.rows rows)) s :=
    rfl
  rw [hstep]
  have hun : deleteMappings ref name true (.rows rows) s =
      (rows.foldlM (deleteMappingRow l.id) false >>= fun deleted => whenM deleted (refreshLink l)) s := by
    unfold deleteMappings
    rw [get_bind]
    simp only [bind, StateT.bind, Except.bind]
    rw [liftE_run hl]
    dsimp only
    rw [if_neg (by simpa [Target.isEmpty] using hne)]
    rfl
  obtain ⟨d, ms, h1, h2, h3, h4⟩ := deleteMappingRows_run (link := l.id) rows hr.mapInv hr.indexInv false hone
  have h2' : d = true ↔ ∃ m ∈ s.maps, ∃ row ∈ rows, s.Names l.id row m := by rw [h2]; simp
  have hms : ms = s.maps.filter fun m => ¬ ∃ row ∈ rows, s.Names l.id row m := by
    rw [sublist_eq_filter h3 hr.mapInv.ids.of_map]
    apply List.filter_congr
    intro m hmm
    simp [h4 m, hmm]
  have hothers : (ms.filter fun m => m.link != l.id) = s.mapsOfOthers l.id := by
    unfold Store.mapsOfOthers
    rw [hms, List.filter_filter]
    apply List.filter_congr
    intro m _
    rw [Bool.eq_iff_iff, Bool.and_eq_true, bne_iff_ne, decide_eq_true_eq]
    exact ⟨fun h => h.1, fun h => ⟨h, fun ⟨_, _, hn⟩ => h hn.2.1⟩⟩
  rw [← h2', ← hms]
  cases d with
  | true =>
    obtain ⟨s', k1, k2, k3, k4, k5⟩ := refreshLink_finish (hr.mapInv.sublist h3) hr.linkInv hm hr.fkOk
      fun m hmm => .inr ⟨m, h3.subset hmm, rfl⟩
    have hrun : deleteMappings ref name true (.rows rows) s = .ok ((), s') := by
      rw [hun]
      exact bind_ok.2 ⟨_, _, h1, whenM_ok.2 (.inl ⟨rfl, k1⟩)⟩
    rw [tx_ok hrun k2]
    exact ⟨rfl, k3, k4.trans hothers, fun _ => k5, fun h => absurd rfl h⟩
  | false =>
    have hse : ms = s.maps := by
      rw [hms, List.filter_eq_self]
      intro m hmm
      have : ¬ ∃ m ∈ s.maps, ∃ row ∈ rows, s.Names l.id row m := by rw [← h2']; simp
      simp only [decide_eq_true_eq]
      exact fun h => this ⟨m, hmm, h⟩
    subst hse
    have hrun : deleteMappings ref name true (.rows rows) s = .ok ((), s) := by
      rw [hun]
      exact bind_ok.2 ⟨_, _, h1, whenM_ok.2 (.inr ⟨rfl, rfl⟩)⟩
    rw [tx_ok hrun hr.fkOk]
    exact ⟨rfl, rfl, rfl, fun h => (nomatch h), fun _ => rfl⟩

/-- A link that is not found is an error, and so are wrong columns; nothing changes. -/
theorem C79_refused (s : Store) {ref : PyStr} {name : Option PyStr} {colsOk : Bool} (rows : List MapRow)
    (h : colsOk = false ∨ ∀ l, getLink s.links ref name ≠ .ok l) :
    ((step (.insertMappings ref name colsOk rows) s).2 ≠ .ok () ∧ (step (.insertMappings ref name colsOk rows) s).1 = s) ∧
    ((step (.updateMappings ref name colsOk rows) s).2 ≠ .ok () ∧ (step (.updateMappings ref name colsOk rows) s).1 = s) ∧
    ((step (.deleteMappings ref name colsOk (.rows rows)) s).2 ≠ .ok () ∧
      (step (.deleteMappings ref name colsOk (.rows rows)) s).1 = s) := by
  have hlink : (∀ l, getLink s.links ref name ≠ .ok l) → ∃ e, getLink s.links ref name = .error e := by
    intro h
    rcases he : getLink s.links ref name with e | l
    · exact ⟨e, rfl⟩
    · exact absurd he (h l)
  have e1 : ∃ e, insertMappings ref name colsOk rows s = .error e := by
    unfold insertMappings
    rcases h with rfl | h
    · rw [if_pos (by rfl)]; exact ⟨_, rfl⟩
    · by_cases hc : (!colsOk) = true
      · rw [if_pos hc]; exact ⟨_, rfl⟩
      · obtain ⟨e, he⟩ := hlink h
        rw [if_neg hc, get_bind]
        simp only [bind, StateT.bind, Except.bind]
        rw [he]
        exact ⟨e, rfl⟩
  have e2 : ∃ e, updateMappings ref name colsOk rows s = .error e := by
    unfold updateMappings
    rcases h with rfl | h
    · rw [if_pos (by rfl)]; exact ⟨_, rfl⟩
    · by_cases hc : (!colsOk) = true
      · rw [if_pos hc]; exact ⟨_, rfl⟩
      · obtain ⟨e, he⟩ := hlink h
        rw [if_neg hc, get_bind]
        simp only [bind, StateT.bind, Except.bind]
        rw [he]
        exact ⟨e, rfl⟩
  have e3 : ∃ e, deleteMappings ref name colsOk (.rows rows) s = .error e := by
    unfold deleteMappings
    rw [get_bind]
    simp only [bind, StateT.bind, Except.bind]
    rcases he : getLink s.links ref name with e | l
    · exact ⟨e, rfl⟩
    · rcases h with rfl | h
      · rw [liftE_run rfl]
        dsimp only
        by_cases hc : (Target.rows rows : Target MapRow).isEmpty = true
        · rw [if_pos hc]; exact ⟨_, rfl⟩
        · rw [if_neg hc]
          unfold deleteMappingTarget
          dsimp only
          rw [if_pos (by rfl)]
          exact ⟨_, rfl⟩
      · exact absurd he (h l)
  obtain ⟨_, e1⟩ := e1
  obtain ⟨_, e2⟩ := e2
  obtain ⟨_, e3⟩ := e3
  exact ⟨tx_error e1, tx_error e2, tx_error e3⟩

/-! ### Two records with mappings of several levels -/

/-- A dataspace with a mapping of level A and one of level A and B between the same records. -/
def twoLevels : List Op :=
  Demo.ops ++ [.insertMappings Demo.other none true [⟨9, 4, 1, [Demo.lx, Demo.l1], some [0x80#8]⟩,
    ⟨9, 6, 1, [Demo.lx, Demo.l1], some [0xC0#8]⟩]]

theorem twoLevels_between : (run twoLevels (Store.new ['u'])).between 1 9 1 = [([0x80#8], 4), ([0xC0#8], 6)] := by
  decide +kernel

/-- The property fails: corrections of both mappings, with correct labels and with the levels the mappings have, are
refused, because each row is applied to whichever mapping between the two records comes first. -/
theorem C79_violated_levels :
    let s := run twoLevels (Store.new ['u'])
    let rows : List MapRow := [⟨9, 7, 1, [Demo.lx, Demo.l1], some [0xC0#8]⟩, ⟨9, 8, 1, [Demo.lx, Demo.l1], some [0x80#8]⟩]
    (∀ row ∈ rows, s.Takes row ∧ row.Sound ∧ ∃ v, (row.level.getD [], v) ∈ s.between 1 9 1) ∧
    (step (.updateMappings Demo.other none true rows) s).2 ≠ .ok () := by
  intro s rows
  have hr : Reachable s := ⟨['u'], twoLevels, rfl⟩
  refine ⟨fun row hrow => ?_, fun h => ?_⟩
  · have hok : ∀ row ∈ rows, s.mapRowOk row = true := by decide +kernel
    refine ⟨(mapRowOk_iff hr.indexInv).1 (hok row hrow), ?_, ?_⟩
    · have : ∀ row ∈ rows, row.level ≠ none ∧ 0 ≤ row.value ∧ ¬ (row.other = 0 ∧ row.index = 0) := by decide +kernel
      exact this row hrow
    · show ∃ v, (row.level.getD [], v) ∈ (run twoLevels (Store.new ['u'])).between 1 9 1
      rw [twoLevels_between]
      rcases List.mem_cons.1 hrow with rfl | hrow
      · exact ⟨6, by simp⟩
      · rw [List.mem_singleton] at hrow
        subst hrow
        exact ⟨4, by simp⟩
  · have : (step (.updateMappings Demo.other none true rows) s).2.toBool = false := by decide +kernel
    rw [h] at this
    cases this

/-- The property fails: a correction is accepted that neither adds a mapping of its level and leaves the two mappings
alone, nor replaces both of them: it changes the level and the value of the first one. -/
theorem C79_violated_first :
    let s := run twoLevels (Store.new ['u'])
    let row : MapRow := ⟨9, 5, 1, [Demo.lx, Demo.l1], some []⟩
    (step (.updateMappings Demo.other none true [row]) s).2.toBool = true ∧
    (step (.updateMappings Demo.other none true [row]) s).1.between 1 9 1 = [([], 5), ([0xC0#8], 6)] := by
  decide +kernel

/-- The property fails: a row with the source record, the record, its labels and the value of an exact mapping does
not delete it if a mapping of another level comes first. -/
theorem C79_violated_delete :
    let s := run twoLevels (Store.new ['u'])
    let row : MapRow := ⟨9, 6, 1, [Demo.lx, Demo.l1], none⟩
    (∃ m ∈ s.maps, s.Names 1 row m) ∧
    (step (.deleteMappings Demo.other none true (.rows [row])) s).2.toBool = true ∧
    (step (.deleteMappings Demo.other none true (.rows [row])) s).1.maps = s.maps := by
  intro s row
  refine ⟨?_, by decide +kernel, by decide +kernel⟩
  unfold Store.Names
  decide +kernel

/-! ### The hypotheses can be met -/

/-- In the demonstration: a row for a record, one with wrong labels, one with a level that is no valid combination. -/
example : (step (.insertMappings Demo.other none true [⟨7, 4, 1, [Demo.lx, Demo.l1], some [0x80#8]⟩,
    ⟨7, 4, 1, [Demo.lx, Demo.l2], some [0x80#8]⟩, ⟨7, 4, 1, [Demo.lx, Demo.l1], some [0x40#8]⟩]) Demo.store).1.rowsOf 1 =
    Demo.store.rowsOf 1 ++ [(7, 1, [0x80#8], 4)] := by decide +kernel

/-- In the demonstration: a mapping is corrected twice and a new one is added. -/
example : let s' := (step (.updateMappings Demo.other none true [⟨1, 4, 1, [Demo.lx, Demo.l1], some [0xC0#8]⟩,
    ⟨1, 5, 1, [Demo.lx, Demo.l1], some [0x80#8]⟩, ⟨2, 8, 1, [Demo.lx, Demo.l1], some [0xC0#8]⟩]) Demo.store).1
    s'.between 1 1 1 = [([0x80#8], 5)] ∧ s'.between 1 2 1 = [([0xC0#8], 8)] ∧ s'.between 1 1 2 = [([0xC0#8], 30)] := by
  decide +kernel

/-- In the demonstration: one row names a mapping, the other has a wrong value. -/
example : (step (.deleteMappings Demo.other none true (.rows [⟨1, 10, 1, [Demo.lx, Demo.l1], none⟩,
    ⟨1, 31, 2, [Demo.lx, Demo.l2], none⟩])) Demo.store).1.rowsOf 1 =
    [(1, 2, [0xC0#8], 30), (2, 3, [0xC0#8], 30)] := by decide +kernel

example : (getLink Demo.store.links Demo.other none).toBool = true := by decide +kernel

example : ∀ o ∈ [1, 2, 7], ∀ i ∈ [1, 2, 3], (Demo.store.between 1 o i).length ≤ 1 := by decide +kernel

end Toron.Space
