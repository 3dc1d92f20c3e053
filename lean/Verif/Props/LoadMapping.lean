/-
C68: loading a table of mapping data as a link between two dataspaces (`load_mapping` in `src/toron/graph.py`,
`Mapper_OLD` in `src/toron/mapper.py`).
-/
import Verif.Lemmas.LoadMapping
import Verif.Lemmas.Store.MapOps
import Verif.Props.Mapper
import Verif.Props.MappingRoundtrip

namespace Toron.LoadMapping

open Toron.Selectors (PyStr)
open Toron.Space
open Toron.Mapper
open Toron.MappingCsv (Table Numbers valuePosition)

/-! ### The rows of the table -/

/-- What is read from a row: its labels on both sides and its value. -/
def ReadsAs (N : Numbers) (d1 d2 : PyStr) (header : List PyStr) (v : Nat) (row : List PyStr) (r : SourceRow) : Prop :=
  r.node1 = sideOf ((saysOf d1 (header.take v) (row.take v)).map (·.2)) ∧
  r.node2 = sideOf ((saysOf d2 (header.drop (v + 1)) (row.drop (v + 1))).map (·.2)) ∧
  ∃ c, row[v]? = some c ∧ r.value = N.value c

theorem readRows_iff {N : Numbers} {d1 d2 : PyStr} {header : List PyStr} {v : Nat} (hv : v < header.length)
    {rows : List (List PyStr)} (hrect : ∀ row ∈ rows, row.length = header.length) {n : Nat} :
    (∀ out, readRows N (domainPositions header v d1 d2)
        (partErase d1 (header.take v) (header.take v)).length n rows = .ok out →
      out.map (·.run) = List.range' (n + 1) rows.length ∧ List.Forall₂ (ReadsAs N d1 d2 header v) rows out) ∧
    ((∃ out, readRows N (domainPositions header v d1 d2)
        (partErase d1 (header.take v) (header.take v)).length n rows = .ok out) ↔
      ∀ row ∈ rows, DomainOk d1 (header.take v) (row.take v) ∧
        DomainOk d2 (header.drop (v + 1)) (row.drop (v + 1))) := by
  induction rows generalizing n with
  | nil => simp [readRows]
  | cons row rows ih =>
    have hlen := hrect row (by simp)
    obtain ⟨ih1, ih2⟩ := ih (fun r hr => hrect r (by simp [hr])) (n := n + 1)
    have hl1 : (row.take v).length = (header.take v).length := by rw [List.length_take, List.length_take, hlen]
    have hl2 : (row.drop (v + 1)).length = (header.drop (v + 1)).length := by
      rw [List.length_drop, List.length_drop, hlen]
    have hcells := eraseAt_row (row := row) d1 d2 hv hlen
    have hpl : (partErase d1 (header.take v) (header.take v)).length =
        (partErase d1 (header.take v) (row.take v)).length := partErase_length hl1.symm
    have hdom := checkDomains_row (d1 := d1) (d2 := d2) hv hlen
    rw [List.forall_mem_cons, readRows]
    dsimp only
    rw [hcells, hpl]
    rw [hpl] at ih1 ih2
    rcases hc : checkDomains (domainPositions header v d1 d2) row with e | u
    · have : ¬ (DomainOk d1 (header.take v) (row.take v) ∧
        DomainOk d2 (header.drop (v + 1)) (row.drop (v + 1))) := by
        rw [← hdom, hc]; simp
      constructor
      · intro out h; cases h
      · constructor
        · rintro ⟨out, h⟩; cases h
        · exact fun h => absurd h.1 this
    · have hd := hdom.1 hc
      simp only [bind, Except.bind]
      rw [if_neg (by simp), List.getElem?_append_right (by omega), Nat.sub_self, List.getElem?_cons_zero]
      dsimp only
      rw [List.take_left' rfl, show List.drop ((partErase d1 (header.take v) (row.take v)).length + 1)
        (partErase d1 (header.take v) (row.take v) ++ row[v] :: partErase d2 (header.drop (v + 1)) (row.drop (v + 1)))
        = partErase d2 (header.drop (v + 1)) (row.drop (v + 1)) by
          rw [List.drop_append, Nat.add_sub_cancel_left, List.drop_eq_nil_of_le (by omega)]; rfl]
      rcases hrest : readRows N (domainPositions header v d1 d2)
          (partErase d1 (header.take v) (row.take v)).length (n + 1) rows with e | rs
      · rw [hrest] at ih2
        constructor
        · intro out h; cases h
        · constructor
          · rintro ⟨out, h⟩; cases h
          · rintro ⟨_, h⟩
            obtain ⟨_, h⟩ := ih2.2 h
            cases h
      · rw [hrest] at ih1 ih2
        obtain ⟨i1, i2⟩ := ih1 rs rfl
        constructor
        · intro out h
          cases h
          refine ⟨by rw [List.map_cons, i1, List.length_cons, List.range'_succ], .cons ⟨?_, ?_, ?_⟩ i2⟩
          · rw [(partErase_eq hl1).2.1]
          · rw [(partErase_eq hl2).2.1]
          · exact ⟨_, List.getElem?_eq_getElem (by omega), rfl⟩
        · exact ⟨fun _ => ⟨hd, ih2.1 ⟨_, rfl⟩⟩, fun _ => ⟨_, rfl⟩⟩

theorem valuePosition_erased {edge : PyStr → Option PyStr} {link : PyStr} {header : List PyStr} {v : Nat} (d1 d2 : PyStr)
    (hv : valuePosition edge link header = some v) : v < header.length ∧
    splitHeader edge link (domainPositions header v d1 d2) header =
      .ok (columnsOf d1 (header.take v), (partErase d1 (header.take v) (header.take v)).length,
        columnsOf d2 (header.drop (v + 1))) := by
  obtain ⟨hlt, hp, hbefore⟩ := List.findIdx?_eq_some_iff_getElem.1 hv
  refine ⟨hlt, ?_⟩
  unfold splitHeader
  rw [eraseAt_row d1 d2 hlt rfl]
  dsimp only
  have hno : ∀ c ∈ partErase d1 (header.take v) (header.take v), (c == link || edge c == some link) = false := by
    intro c hc
    have hm : c ∈ header.take v := by
      unfold partErase at hc
      split at hc
      · exact hc
      · split at hc
        · exact List.mem_of_mem_eraseIdx hc
        · exact hc
    obtain ⟨i, hi, rfl⟩ := List.mem_iff_getElem.1 hm
    rw [List.length_take] at hi
    rw [List.getElem_take]
    exact Bool.eq_false_iff.2 (hbefore i (by omega))
  have hpos : valuePosition edge link (partErase d1 (header.take v) (header.take v) ++ header[v] ::
      partErase d2 (header.drop (v + 1)) (header.drop (v + 1))) =
      some (partErase d1 (header.take v) (header.take v)).length := by
    unfold valuePosition
    rw [List.findIdx?_append, List.findIdx?_eq_none_iff.2 hno, List.findIdx?_cons, if_pos hp]
    simp
  rw [hpos]
  dsimp only
  rw [List.take_left' rfl, List.drop_append, Nat.add_sub_cancel_left, List.drop_eq_nil_of_le (by omega),
    (partErase_eq rfl).1]
  show Except.ok (_, _, partErase d2 (header.drop (v + 1)) (header.drop (v + 1))) = _
  rw [(partErase_eq rfl).1]

section

variable {edge : PyStr → Option PyStr} {N : Numbers} {s1 s2 : Store} {link : PyStr} {limit : Nat} {allow : Bool}
  {t : Table} {m : Matching}

/-- If a table is accepted it has a column for the link, the domain given in each of its rows is that of the
dataspace on its side, and the labels and values read are those in the rows: the cells on the left and on the right
of the value, without those of the domains. Rows are numbered from one on. -/
theorem C68_rows (hrect : Rectangular t) (h : matchData edge N s1 s2 link limit allow t = .ok m) :
    ∃ v, valuePosition edge link t.header = some v ∧
      (∀ row ∈ t.rows, DomainOk s1.getDomain (t.header.take v) (row.take v) ∧
        DomainOk s2.getDomain (t.header.drop (v + 1)) (row.drop (v + 1))) ∧
      m.rows.map (·.run) = List.range' 1 t.rows.length ∧
      List.Forall₂ (ReadsAs N s1.getDomain s2.getDomain t.header v) t.rows m.rows ∧
      matchOld s1 limit allow (columnsOf s1.getDomain (t.header.take v)) (m.rows.map fun r => (r.run, r.node1)) =
        .ok m.left ∧
      matchOld s2 limit allow (columnsOf s2.getDomain (t.header.drop (v + 1)))
        (m.rows.map fun r => (r.run, r.node2)) = .ok m.right := by
  unfold matchData at h
  rcases hv : valuePosition edge link t.header with _ | v
  · rw [hv] at h; cases h
  rw [hv] at h
  dsimp only at h
  obtain ⟨hlt, hsplit⟩ := valuePosition_erased s1.getDomain s2.getDomain hv
  rw [hsplit] at h
  simp only [bind, Except.bind] at h
  obtain ⟨hr1, hr2⟩ := readRows_iff (N := N) (d1 := s1.getDomain) (d2 := s2.getDomain) hlt hrect (n := 0)
  generalize partErase s1.getDomain (t.header.take v) (t.header.take v) = w at h hr1 hr2
  rcases hrows : readRows N (domainPositions t.header v s1.getDomain s2.getDomain) w.length 0 t.rows with e | rows
  · rw [hrows] at h; cases h
  rw [hrows] at h hr1 hr2
  dsimp only at h
  rcases hm1 : matchOld s1 limit allow (columnsOf s1.getDomain (t.header.take v))
    (rows.map fun r => (r.run, r.node1)) with e | m1
  · rw [hm1] at h; cases h
  rw [hm1] at h
  dsimp only at h
  rcases hm2 : matchOld s2 limit allow (columnsOf s2.getDomain (t.header.drop (v + 1)))
    (rows.map fun r => (r.run, r.node2)) with e | m2
  · rw [hm2] at h; cases h
  rw [hm2] at h
  cases h
  obtain ⟨i1, i2⟩ := hr1 rows rfl
  exact ⟨v, rfl, hr2.1 ⟨_, rfl⟩, i1, i2, hm1, hm2⟩

/-- A table with a row for another domain is refused, and nothing is changed. -/
theorem C68_domain (hrect : Rectangular t) {a : LinkArgs} {d : Direction} {hint1 hint2 : Option PyStr} {v : Nat}
    (hv : valuePosition edge a.name t.header = some v) {row : List PyStr} (hrow : row ∈ t.rows)
    (hbad : ¬ (DomainOk s1.getDomain (t.header.take v) (row.take v) ∧
      DomainOk s2.getDomain (t.header.drop (v + 1)) (row.drop (v + 1)))) :
    ∃ e, loadMapping edge N a d hint1 hint2 limit allow t s1 s2 = ⟨s1, s2, .error e⟩ := by
  unfold loadMapping
  rcases hm : matchData edge N s1 s2 a.name limit allow t with e | m
  · exact ⟨e, rfl⟩
  · obtain ⟨v', hv', hd, _⟩ := C68_rows hrect hm
    rw [hv] at hv'
    cases hv'
    exact absurd (hd row hrow) hbad

end

/-! ### Matching -/

theorem says_zip {domain : PyStr} {part x : List PyStr} (hlen : x.length = part.length) :
    (columnsOf domain part).zip ((saysOf domain part x).map (·.2)) = saysOf domain part x := by
  rw [← (partErase_eq hlen).2.1]
  exact (partErase_eq hlen).2.2

theorem hasWeight {s : Store} (hr : Reachable s) (g : WGroup) (i : Nat) : HasWeight s g i (s.weightOf g.id i) := by
  unfold Store.weightOf Store.findWeight
  constructor
  · intro w hw h1 h2
    rcases hf : s.weights.find? fun w => w.group == g.id && w.index == i with _ | w'
    · have := List.find?_eq_none.1 hf w hw
      simp [h1, h2] at this
    · have hm := List.mem_of_find?_eq_some hf
      have hp := List.find?_some hf
      rw [Bool.and_eq_true, beq_iff_eq, beq_iff_eq] at hp
      have he := List.inj_on_of_nodup_map hr.weightInv.pairs hm hw (by rw [hp.1, hp.2, h1, h2])
      rw [hf, he]
      rfl
  · intro hno
    rw [List.find?_eq_none.2 (by
      intro w hw
      rw [Bool.and_eq_true, beq_iff_eq, beq_iff_eq]
      rintro ⟨h1, h2⟩
      exact hno w hw h1 h2)]
    rfl

theorem hasWeight_none {s : Store} (hr : Reachable s) (g : WGroup) (i : Nat) :
    s.weightOf g.id i = none ↔ HasWeight s g i none := by
  have h := hasWeight hr g i
  refine ⟨fun he => he ▸ h, fun h' => ?_⟩
  by_cases hx : ∃ x ∈ s.weights, x.group = g.id ∧ x.index = i
  · obtain ⟨x, hx, h1, h2⟩ := hx
    have := h'.1 x hx h1 h2
    cases this
  · exact h.2 fun x hm h1 h2 => hx ⟨x, hm, h1, h2⟩

theorem weightOf_nonneg {s : Store} (hr : Reachable s) {g i : Nat} {w : ℚ} (h : s.weightOf g i = some w) : 0 ≤ w := by
  unfold Store.weightOf Store.findWeight at h
  rcases hf : s.weights.find? fun w => w.group == g && w.index == i with _ | w'
  · rw [hf] at h; cases h
  · rw [hf] at h
    cases h
    exact hr.weightInv.nonneg _ (List.mem_of_find?_eq_some hf)

theorem matched_refresh {ms : List Match} {run i : Nat} :
    Matched (Mapper.refreshProportions ms) run i ↔ i ∈ (ofRun ms run).map (·.index) := by
  unfold Matched Mapper.refreshProportions ofRun
  rw [List.mem_map]
  constructor
  · rintro ⟨m, hm, h1, h2⟩
    obtain ⟨m', hm', rfl⟩ := List.mem_map.1 hm
    exact ⟨m', List.mem_filter.2 ⟨hm', by simpa using h1⟩, h2⟩
  · rintro ⟨m, hm, h2⟩
    obtain ⟨h3, h4⟩ := List.mem_filter.1 hm
    exact ⟨_, List.mem_map_of_mem h3, by simpa using h4, h2⟩

theorem fair_new {weight : Nat → Option ℚ} (hw : ∀ i w, weight i = some w → 0 ≤ w) {t : Task} {ids : List Nat}
    (hne : newMatches weight t ids ≠ []) :
    FairShares ((newMatches weight t ids).map (setProp (newMatches weight t ids))) := by
  apply fairShares hne
  unfold newMatches at hne ⊢
  split at hne
  · exact absurd rfl hne
  rename_i hcond
  rw [if_neg hcond]
  rw [Bool.and_eq_true, decide_eq_true_eq, not_and_or] at hcond
  by_cases hall : ∀ i ∈ ids, (weight i).isSome
  · left
    intro m hm'
    obtain ⟨i, hi, rfl⟩ := List.mem_map.1 hm'
    obtain ⟨w, hw'⟩ := Option.isSome_iff_exists.1 (hall i hi)
    exact ⟨w, hw', hw i w hw'⟩
  · right
    push Not at hall
    obtain ⟨i, hi, hn⟩ := hall
    rcases hcond with hlen | hany
    · have : ids = [i] := by
        match ids, hi, hlen with
        | [x], hi, _ => rw [List.mem_singleton] at hi; rw [hi]
        | _ :: _ :: _, _, hlen => simp at hlen
      subst this
      intro m hm'
      obtain ⟨j, hj, rfl⟩ := List.mem_map.1 hm'
      rw [List.mem_singleton] at hj
      subst hj
      exact Option.not_isSome_iff_eq_none.1 hn
    · exact absurd (List.any_eq_true.2 ⟨i, hi, by simpa using hn⟩) hany

section

variable {limit : Nat} {allow : Bool} {s : Store} {cols : List PyStr} {rows : List (Nat × Side)} {ms : List Match}

/-- The rows are as read from a table. -/
def AsRead (rows : List (Nat × Side)) : Prop := (rows.map (·.1)).Nodup ∧ ∀ r ∈ rows, r.2 = sideOf r.2.labels

theorem AsRead.level {rows : List (Nat × Side)} (h : AsRead rows) {r : Nat × Side} (hr : r ∈ rows) :
    nodeLevel s cols r.2.level = levelOf s (cols.zip r.2.labels) := by
  rw [h.2 r hr]
  exact nodeLevel_sideOf s cols r.2.labels

/-- A row is only matched with records that have its labels, at the combination of columns for which it gives
labels, which the dataspace must have; and with none twice. -/
theorem C68_sound (hr : Reachable s) (hp : Plain s cols) (hrows : AsRead rows)
    (h : matchOld s limit allow cols rows = .ok ms) :
    (∀ m ∈ ms, ∃ r ∈ rows, m.run = r.1 ∧ Fits s (cols.zip r.2.labels) m.index ∧
      m.level = levelOf s (cols.zip r.2.labels) ∧ LevelKnown s m.level) ∧
    (ms.map fun m => (m.run, m.index)).Nodup := by
  obtain ⟨g, ps, hg, hps, rfl⟩ := matchOld_ok h
  constructor
  · intro m hm
    obtain ⟨m', hm', rfl⟩ := List.mem_map.1 hm
    obtain ⟨t, ht, hf, he⟩ := doTasks_mem hm'
    obtain ⟨r, hrm, hl, rfl⟩ := (mem_tasksOf hps).1 ht
    have hlev : m'.level = nodeLevel s cols r.2.level := by rw [he]; rfl
    refine ⟨r, hrm, ?_, ((taskOf_found hr hp).2 _).1 hf, ?_, ?_⟩
    · show m'.run = r.1
      rw [he]; rfl
    · exact hlev.trans (hrows.level hrm)
    · show LevelKnown s m'.level
      rw [hlev]
      exact hl
  · have hmap : (Mapper.refreshProportions (doTasks limit allow (s.weightOf g.id) [] (tasksOf s cols ps rows))).map
        (fun m => (m.run, m.index)) =
        (doTasks limit allow (s.weightOf g.id) [] (tasksOf s cols ps rows)).map fun m => (m.run, m.index) := by
      unfold Mapper.refreshProportions
      rw [List.map_map]
      rfl
    rw [hmap]
    refine doTasks_nodup List.nodup_nil (by simp) ?_ ?_
    · rw [((tasksOf_perm hps).map _).nodup_iff]
      exact rowTasks_nodup hrows.1
    · intro t ht
      obtain ⟨r, hrm, hl, rfl⟩ := (mem_tasksOf hps).1 ht
      exact (taskOf_found hr hp).1

/-- For each row that is matched the proportions of its matches are fair: they add up to one, and are proportional
to the weights of the records in the default group, or equal if these are all zero or missing. -/
theorem C68_shares (hr : Reachable s) (hrows : AsRead rows) (h : matchOld s limit allow cols rows = .ok ms) {run : Nat}
    (hne : ofRun ms run ≠ []) : FairShares (ofRun ms run) ∧
    ∃ g ∈ s.wgroups, s.defaultWG = some (some g.id) ∧ ∀ m ∈ ofRun ms run, HasWeight s g m.index m.weight := by
  obtain ⟨g, ps, hg, hps, rfl⟩ := matchOld_ok h
  obtain ⟨hgm, hgd⟩ := getDefaultWG_mem hg
  rw [refresh_run] at hne ⊢
  have hne : ofRun (doTasks limit allow (s.weightOf g.id) [] (tasksOf s cols ps rows)) run ≠ [] := by
    intro h0; rw [h0] at hne; exact hne rfl
  obtain ⟨r, hm, hl, rfl⟩ : ∃ r ∈ rows, LevelKnown s (nodeLevel s cols r.2.level) ∧ r.1 = run := by
    by_contra hc
    push Not at hc
    exact hne (ofRunOld_empty hps hc)
  obtain ⟨pre, post, hsplit, he⟩ := matchesOld_run (limit := limit) (allow := allow) hrows.1 hps hm hl (s.weightOf g.id)
  rw [he] at hne ⊢
  refine ⟨fair_new (fun i w hw => weightOf_nonneg hr hw) hne, g, hgm, hgd, ?_⟩
  intro m hm'
  obtain ⟨m', hm'', rfl⟩ := List.mem_map.1 hm'
  show HasWeight s g m'.index m'.weight
  rw [(mem_newMatches hm'').2]
  exact hasWeight hr g _

/-- A row with labels that more records have than the limit is not matched. -/
theorem C68_limit (hr : Reachable s) (hp : Plain s cols) (hrows : AsRead rows)
    (h : matchOld s limit allow cols rows = .ok ms) {r : Nat × Side} (hm : r ∈ rows) {n : Nat}
    (hn : FitCount s (cols.zip r.2.labels) n) (hlim : limit < n) (i : Nat) : ¬ Matched ms r.1 i := by
  obtain ⟨g, ps, hg, hps, rfl⟩ := matchOld_ok h
  rw [matched_refresh]
  by_cases hl : LevelKnown s (nodeLevel s cols r.2.level)
  · obtain ⟨pre, post, hsplit, he⟩ := matchesOld_run (limit := limit) (allow := allow) hrows.1 hps hm hl
      (s.weightOf g.id)
    have ht : ∀ done, takeFound limit allow done (taskOf s cols (nodeLevel s cols r.2.level) r) = [] := fun done => by
      unfold takeFound
      rw [if_neg (by simp [taskOf]), if_pos (by rw [hn.eq hr hp]; exact hlim)]
    rw [he, newMatches_index, ht]
    simp
  · rw [ofRunOld_empty hps]
    · simp
    · intro r' hr' hl' he
      exact hl (List.inj_on_of_nodup_map hrows.1 hr' hm he ▸ hl')

/-- A row with labels that one record has is matched with it, if the dataspace has the combination of columns. -/
theorem C68_single (hr : Reachable s) (hp : Plain s cols) (hrows : AsRead rows)
    (h : matchOld s limit allow cols rows = .ok ms) {r : Nat × Side} (hm : r ∈ rows)
    (hl : LevelKnown s (levelOf s (cols.zip r.2.labels))) (hn : FitCount s (cols.zip r.2.labels) 1) (hlim : 1 ≤ limit)
    (i : Nat) : Matched ms r.1 i ↔ Fits s (cols.zip r.2.labels) i := by
  obtain ⟨g, ps, hg, hps, rfl⟩ := matchOld_ok h
  rw [matched_refresh]
  rw [← hrows.level hm] at hl
  obtain ⟨pre, post, hsplit, he⟩ := matchesOld_run (limit := limit) (allow := allow) hrows.1 hps hm hl (s.weightOf g.id)
  have h1 := hn.eq hr hp (level := nodeLevel s cols r.2.level)
  rw [he, newMatches_index]
  have ht : ∀ done, takeFound limit allow done (taskOf s cols (nodeLevel s cols r.2.level) r) =
      (taskOf s cols (nodeLevel s cols r.2.level) r).found := by
    intro done
    unfold takeFound
    rw [if_neg (by simp [taskOf]), if_neg (by omega), if_neg (by simp [h1])]
  rw [ht, if_neg (by omega)]
  exact (taskOf_found hr hp).2 i

/-- If overlaps are allowed, a row with labels that several records have, but no more than the limit, is matched with
all of them, or with none if one of them has no weight. -/
theorem C68_overlapping (hr : Reachable s) (hp : Plain s cols) (hrows : AsRead rows)
    (h : matchOld s limit true cols rows = .ok ms) {r : Nat × Side} (hm : r ∈ rows)
    (hl : LevelKnown s (levelOf s (cols.zip r.2.labels))) {n : Nat} (hn : FitCount s (cols.zip r.2.labels) n)
    (h1 : 1 < n) (hlim : n ≤ limit) :
    ∃ g ∈ s.wgroups, s.defaultWG = some (some g.id) ∧ ∀ i, Matched ms r.1 i ↔
      Fits s (cols.zip r.2.labels) i ∧ ∀ j, Fits s (cols.zip r.2.labels) j → ¬ HasWeight s g j none := by
  obtain ⟨g, ps, hg, hps, rfl⟩ := matchOld_ok h
  obtain ⟨hgm, hgd⟩ := getDefaultWG_mem hg
  refine ⟨g, hgm, hgd, fun i => ?_⟩
  rw [matched_refresh]
  rw [← hrows.level hm] at hl
  obtain ⟨pre, post, hsplit, he⟩ := matchesOld_run (limit := limit) (allow := true) hrows.1 hps hm hl (s.weightOf g.id)
  have hc := hn.eq hr hp (level := nodeLevel s cols r.2.level)
  obtain ⟨hnd, hmean⟩ := taskOf_found hr hp (level := nodeLevel s cols r.2.level) (r := r)
  have ht : ∀ done, takeFound limit true done (taskOf s cols (nodeLevel s cols r.2.level) r) =
      (taskOf s cols (nodeLevel s cols r.2.level) r).found := by
    intro done
    unfold takeFound
    rw [if_neg (by simp [taskOf]), if_neg (by omega), if_neg (by simp)]
  rw [he, newMatches_index, ht]
  by_cases hx : ∃ j ∈ (taskOf s cols (nodeLevel s cols r.2.level) r).found, s.weightOf g.id j = none
  · rw [if_pos ⟨by omega, hx⟩]
    simp only [List.not_mem_nil, false_iff]
    rintro ⟨_, hall⟩
    obtain ⟨j, hj, hjn⟩ := hx
    exact hall j ((hmean j).1 hj) ((hasWeight_none hr g j).1 hjn)
  · rw [if_neg (fun hc => hx hc.2), hmean]
    constructor
    · intro hi
      exact ⟨hi, fun j hj hn => hx ⟨j, (hmean j).2 hj, (hasWeight_none hr g j).2 hn⟩⟩
    · exact fun h => h.1

theorem levelGran_struct {L : List Byte} (hk : LevelKnown s L) :
    ∃ st ∈ s.structs, (BitFlags.ofBits st.bits).bytes = L ∧ levelGran s L = some st.gran := by
  have h := levelGran_isSome.2 hk
  unfold levelGran at h ⊢
  rw [if_neg hk.1] at h ⊢
  rcases hf : s.structs.find? fun st => (BitFlags.ofBits st.bits).bytes == L with _ | st
  · rw [hf] at h; cases h
  · exact ⟨st, List.mem_of_find?_eq_some hf, by simpa using List.find?_some hf, by rw [hf]; rfl⟩

theorem tasksOf_pairwise (hr : Reachable s) {ps : List (List Byte × Option (List Byte))} {inputs : List (List Byte)}
    (h : orderedPairs s cols inputs = .ok ps) :
    (tasksOf s cols ps rows).Pairwise fun a b => AtLeastAsFine s a.level b.level := by
  have hknown : ∀ p ∈ ps, ∀ L, p.2 = some L → LevelKnown s L := by
    intro p hp L hL
    rw [orderedPairs_ok h, (sortedBy_perm _ _).mem_iff] at hp
    unfold levelPairs at hp
    obtain ⟨a, _, rfl⟩ := List.mem_map.1 hp
    dsimp only at hL
    split at hL
    · rename_i hk
      cases hL
      exact levelGran_isSome.1 hk
    · cases hL
  have hlev : ∀ (p : List Byte × Option (List Byte)) t, (t ∈ match p.2 with
      | none => []
      | some level => (rows.filter fun (r : Nat × Side) => r.2.level == p.1).map (taskOf s cols level)) → p.2 = some t.level := by
    intro p t ht
    rcases hp : p.2 with _ | L
    · rw [hp] at ht; cases ht
    · rw [hp] at ht
      obtain ⟨r, _, rfl⟩ := List.mem_map.1 ht
      rfl
  have hfine : ∀ p ∈ ps, ∀ q ∈ ps, granGe (pairKey s p) (pairKey s q) = true → ∀ a b, p.2 = some a → q.2 = some b →
      AtLeastAsFine s a b := by
    intro p hp q hq hge a b ha hb
    obtain ⟨x, hx, hx1, hx2⟩ := levelGran_struct (hknown p hp a ha)
    obtain ⟨y, hy, hy1, hy2⟩ := levelGran_struct (hknown q hq b hb)
    refine ⟨x, hx, y, hy, hx1, hy1, ?_⟩
    unfold pairKey at hge
    rw [ha, hb, Option.bind_some, Option.bind_some, hx2, hy2] at hge
    exact hge
  unfold tasksOf
  rw [List.pairwise_flatMap]
  constructor
  · intro p hp
    rw [List.pairwise_iff_getElem]
    intro i j hi hj _
    refine hfine p hp p hp ?_ _ _ (hlev p _ (List.getElem_mem hi)) (hlev p _ (List.getElem_mem hj))
    exact (granGe_iff (pairKey_pos hr p) (pairKey_pos hr p)).2 le_rfl
  · refine List.Pairwise.imp_of_mem ?_ (orderedPairs_pairwise hr h)
    intro p q hp hq hpq x hx y hy
    exact hfine p hp q hq hpq _ _ (hlev p x hx) (hlev q y hy)

/-- If overlaps are not allowed, a row with labels that several records have is matched with none of them that is
matched at a finer level. One of its records (these being no more than the limit) is only left out if it is matched
at another level that is at least as fine, or if one of the records has no weight. -/
theorem C68_exclusive (hr : Reachable s) (hp : Plain s cols) (hrows : AsRead rows)
    (h : matchOld s limit false cols rows = .ok ms) {r : Nat × Side} (hm : r ∈ rows)
    (hl : LevelKnown s (levelOf s (cols.zip r.2.labels))) {n : Nat} (hn : FitCount s (cols.zip r.2.labels) n)
    (h1 : 1 < n) (hlim : n ≤ limit) (i : Nat) :
    (Matched ms r.1 i → ∀ m ∈ ms, m.index = i → m.level ≠ levelOf s (cols.zip r.2.labels) →
      AtLeastAsFine s (levelOf s (cols.zip r.2.labels)) m.level) ∧
    (Fits s (cols.zip r.2.labels) i → ¬ Matched ms r.1 i →
      (∃ m ∈ ms, m.index = i ∧ m.level ≠ levelOf s (cols.zip r.2.labels) ∧
        AtLeastAsFine s m.level (levelOf s (cols.zip r.2.labels))) ∨
      ∃ g ∈ s.wgroups, s.defaultWG = some (some g.id) ∧
        ∃ j, Fits s (cols.zip r.2.labels) j ∧ HasWeight s g j none) := by
  obtain ⟨g, ps, hg, hps, rfl⟩ := matchOld_ok h
  obtain ⟨hgm, hgd⟩ := getDefaultWG_mem hg
  rw [matched_refresh]
  rw [← hrows.level hm] at hl ⊢
  obtain ⟨pre, post, hsplit, he⟩ := matchesOld_run (limit := limit) (allow := false) hrows.1 hps hm hl (s.weightOf g.id)
  have hpw := tasksOf_pairwise (rows := rows) hr hps
  rw [hsplit, List.pairwise_append, List.pairwise_cons] at hpw
  obtain ⟨_, ⟨hpost, _⟩, hpre⟩ := hpw
  have hc := hn.eq hr hp (level := nodeLevel s cols r.2.level)
  obtain ⟨hnd, hmean⟩ := taskOf_found hr hp (level := nodeLevel s cols r.2.level) (r := r)
  rw [he, newMatches_index]
  have hD : ∃ ext, doTasks limit false (s.weightOf g.id) [] (tasksOf s cols ps rows) =
      doTasks limit false (s.weightOf g.id) [] pre ++ newMatches (s.weightOf g.id)
        (taskOf s cols (nodeLevel s cols r.2.level) r) (takeFound limit false
          (doTasks limit false (s.weightOf g.id) [] pre) (taskOf s cols (nodeLevel s cols r.2.level) r)) ++ ext ∧
      ∀ m ∈ ext, ∃ t ∈ post, m.index ∈ t.found ∧ m = ⟨t.run, m.index, t.level, s.weightOf g.id m.index, none⟩ := by
    obtain ⟨ext, he', hm'⟩ := doTasks_ext (limit := limit) (allow := false) (weight := s.weightOf g.id)
      (doTasks limit false (s.weightOf g.id) [] pre ++ newMatches (s.weightOf g.id)
        (taskOf s cols (nodeLevel s cols r.2.level) r) (takeFound limit false
          (doTasks limit false (s.weightOf g.id) [] pre) (taskOf s cols (nodeLevel s cols r.2.level) r))) post
    exact ⟨ext, by rw [hsplit, doTasks_append, doTasks, he'], hm'⟩
  have htake : takeFound limit false (doTasks limit false (s.weightOf g.id) [] pre)
      (taskOf s cols (nodeLevel s cols r.2.level) r) = (taskOf s cols (nodeLevel s cols r.2.level) r).found.filter
        fun i => !((doTasks limit false (s.weightOf g.id) [] pre).any fun m =>
          m.index == i && m.level != nodeLevel s cols r.2.level) := by
    unfold takeFound
    rw [if_neg (by simp [taskOf]), if_neg (by omega), if_pos (by simp; omega)]
    rfl
  constructor
  · intro hi m hmm hmi hml
    obtain ⟨m', hm', rfl⟩ := List.mem_map.1 hmm
    have hi : i ∈ takeFound limit false (doTasks limit false (s.weightOf g.id) [] pre)
        (taskOf s cols (nodeLevel s cols r.2.level) r) := by
      split at hi
      · cases hi
      · exact hi
    change m'.index = i at hmi
    change m'.level ≠ _ at hml
    show AtLeastAsFine s _ m'.level
    obtain ⟨ext, hD, hext⟩ := hD
    rw [hD, List.append_assoc, List.mem_append, List.mem_append] at hm'
    rcases hm' with hm' | hm' | hm'
    · exfalso
      rw [htake, List.mem_filter, Bool.not_eq_true'] at hi
      have := List.any_eq_false.1 hi.2 m' hm'
      simp [hmi, hml] at this
    · exact absurd (by rw [(mem_newMatches hm').2]; rfl) hml
    · obtain ⟨t', ht', _, hm''⟩ := hext m' hm'
      rw [hm'']
      exact hpost t' ht'
  · intro hf hi
    by_cases hin : i ∈ takeFound limit false (doTasks limit false (s.weightOf g.id) [] pre)
        (taskOf s cols (nodeLevel s cols r.2.level) r)
    · right
      split at hi
      · rename_i hx
        obtain ⟨j, hj, hjn⟩ := hx.2
        exact ⟨g, hgm, hgd, j, (hmean j).1 ((takeFound_sublist _ _).subset hj), (hasWeight_none hr g j).1 hjn⟩
      · exact absurd hin hi
    · left
      rw [htake, List.mem_filter, not_and, Bool.not_eq_true', Bool.not_eq_false] at hin
      obtain ⟨m, hmm, hmc⟩ := List.any_eq_true.1 (hin ((hmean i).2 hf))
      rw [Bool.and_eq_true, beq_iff_eq, bne_iff_ne] at hmc
      obtain ⟨t', ht', _, hm''⟩ := doTasks_mem hmm
      obtain ⟨ext, hD, _⟩ := hD
      refine ⟨_, List.mem_map_of_mem (by rw [hD]; exact List.mem_append_left _ (List.mem_append_left _ hmm)),
        hmc.1, hmc.2, ?_⟩
      show AtLeastAsFine s m.level _
      rw [hm'']
      exact hpre t' ht' _ List.mem_cons_self

end

/-! ### The mappings -/

theorem hasPropsOld {s : Store} {limit : Nat} {allow : Bool} {cols : List PyStr} {rows : List (Nat × Side)}
    {ms : List Match} (h : matchOld s limit allow cols rows = .ok ms) : HasProps ms := by
  obtain ⟨g, ps, hg, hps, rfl⟩ := matchOld_ok h
  intro m hm
  obtain ⟨m', hm', rfl⟩ := List.mem_map.1 hm
  rfl

theorem asRead {N : Numbers} {d1 d2 : PyStr} {header : List PyStr} {v : Nat} {trows : List (List PyStr)}
    {rows : List SourceRow} (hruns : rows.map (·.run) = List.range' 1 trows.length)
    (hread : List.Forall₂ (ReadsAs N d1 d2 header v) trows rows) :
    AsRead (rows.map fun r => (r.run, r.node1)) ∧ AsRead (rows.map fun r => (r.run, r.node2)) := by
  have hn : (rows.map (·.run)).Nodup := by rw [hruns]; exact List.nodup_range'
  have hr : ∀ r ∈ rows, ∃ row, ReadsAs N d1 d2 header v row r := by
    intro r hr
    clear hruns hn
    induction hread with
    | nil => cases hr
    | cons h _ ih =>
      rcases List.mem_cons.1 hr with rfl | hr
      · exact ⟨_, h⟩
      · exact ih hr
  have hl : ∀ l, sideOf (sideOf l).labels = sideOf l := fun l => rfl
  constructor
  · refine ⟨by rw [List.map_map]; exact hn, ?_⟩
    intro x hx
    obtain ⟨r, hm, rfl⟩ := List.mem_map.1 hx
    obtain ⟨row, h1, _⟩ := hr r hm
    show r.node1 = sideOf r.node1.labels
    rw [h1]
    rfl
  · refine ⟨by rw [List.map_map]; exact hn, ?_⟩
    intro x hx
    obtain ⟨r, hm, rfl⟩ := List.mem_map.1 hx
    obtain ⟨row, _, h1, _⟩ := hr r hm
    show r.node2 = sideOf r.node2.labels
    rw [h1]
    rfl

section

variable {edge : PyStr → Option PyStr} {N : Numbers} {s1 s2 : Store} {link : PyStr} {limit : Nat} {allow : Bool}
  {t : Table} {m : Matching}

/-- Every pair of records appears at most once for each level, and exactly if some row is matched with both, at
this level on the target's side. Its value is what the rows give to it: each row its value, times its share on
both sides. The pair of the undefined records is left out. -/
theorem C68_pairs (hrect : Rectangular t) (h : matchData edge N s1 s2 link limit allow t = .ok m) :
    ((iterMappings m.rows m.left m.right).map fun x => (x.other, x.index, x.level)).Nodup ∧
    (∀ o i level, (∃ x ∈ iterMappings m.rows m.left m.right, x.other = o ∧ x.index = i ∧ x.level = level) ↔
      ¬ (o = 0 ∧ i = 0) ∧
        ∃ r ∈ m.rows, Matched m.left r.run o ∧ ∃ b ∈ m.right, b.run = r.run ∧ b.index = i ∧ b.level = level) ∧
    ∀ x ∈ iterMappings m.rows m.left m.right, x.value =
      some ((m.rows.map fun r => r.value * share m.left r.run x.other * shareAt m.right r.run x.index x.level).sum) := by
  obtain ⟨v, hv, hd, hruns, hread, h1, h2⟩ := C68_rows hrect h
  refine ⟨out_keys_nodup _, fun o i level => ?_, fun x hx => out_value (hasPropsOld h1) (hasPropsOld h2) hx⟩
  constructor
  · rintro ⟨x, hx, rfl, rfl, rfl⟩
    obtain ⟨h0, r, hr, a, ha, b, hb, e1, e2, e3, e4, e5⟩ := out_mem hx
    exact ⟨h0, r, hr, ⟨a, ha, e1, e3⟩, b, hb, e2, e4, e5⟩
  · rintro ⟨h0, r, hr, ⟨a, ha, e1, rfl⟩, b, hb, e2, rfl, rfl⟩
    exact out_mem' hr ha hb e1 e2 h0

open Classical in
/-- The values of the mappings add up to those of the rows that are matched on both sides, but for what the rows
give from the undefined record to the undefined record. -/
theorem C68_conserves (hr1 : Reachable s1) (hr2 : Reachable s2) (hrect : Rectangular t)
    (h : matchData edge N s1 s2 link limit allow t = .ok m) :
    ((iterMappings m.rows m.left m.right).map OutRow.amount).sum +
        (m.rows.map fun r => r.value * share m.left r.run 0 * share m.right r.run 0).sum =
      ((m.rows.filter fun r => (∃ i, Matched m.left r.run i) ∧ ∃ i, Matched m.right r.run i).map (·.value)).sum := by
  obtain ⟨v, hv, hd, hruns, hread, h1, h2⟩ := C68_rows hrect h
  obtain ⟨ha1, ha2⟩ := asRead hruns hread
  rw [out_total, sum_filter_ite, ← sum_map_add]
  apply sum_congr'
  intro r hr
  have key : ∀ {s : Store} {cols : List PyStr} {rows : List (Nat × Side)} {ms : List Match}, Reachable s →
      AsRead rows → matchOld s limit allow cols rows = .ok ms →
      ((ofRun ms r.run).map fun m => m.prop.getD 0).sum = if ∃ i, Matched ms r.run i then 1 else 0 := by
    intro s cols rows ms hs ha h
    by_cases hm : ∃ i, Matched ms r.run i
    · rw [if_pos hm]
      exact (C68_shares hs ha h (matched_ne.1 hm)).1.sum
    · rw [if_neg hm]
      rw [matched_ne, not_not] at hm
      rw [hm]
      rfl
  rw [key hr1 ha1 h1, key hr2 ha2 h2]
  by_cases e1 : ∃ i, Matched m.left r.run i <;> by_cases e2 : ∃ i, Matched m.right r.run i <;> simp [e1, e2] <;> ring

end

/-! ### Storing -/

theorem getLink_exact {links : List Link} {other name : PyStr} {l l' : Link} (hname : name ≠ []) (hl : l ∈ links)
    (ho : l.other = other) (hn : l.name = name)
    (huniq : ∀ x ∈ links, x.other = other → x.name = name → x = l)
    (h : getLink links other (some name) = .ok l') : l' = l := by
  unfold getLink at h
  rcases hf : getLinksByRef links other with e | found
  · rw [hf] at h; cases h
  rw [hf] at h
  have hex : found = links.filter fun l => l.other == other := by
    unfold getLinksByRef at hf
    by_cases h0 : other = []
    · rw [if_pos h0] at hf; cases hf
    rw [if_neg h0] at hf
    dsimp only at hf
    rw [if_pos] at hf
    · cases hf; rfl
    · intro hnil
      have : l ∈ links.filter fun l => l.other == other := List.mem_filter.2 ⟨hl, by simpa using ho⟩
      rw [hnil] at this
      cases this
  simp only [bind, Except.bind] at h
  rw [if_pos ⟨by simp, by simpa using hname⟩] at h
  rcases hfd : found.find? (fun l => some l.name == some name) with _ | x
  · rw [hfd] at h; cases h
  · rw [hfd] at h
    cases h
    have hm := List.mem_of_find?_eq_some hfd
    have hp := List.find?_some hfd
    rw [hex, List.mem_filter] at hm
    exact huniq _ hm.1 (by simpa using hm.2) (by simpa using hp)

theorem addLink_unused {other name : PyStr} {hint : Option PyStr} {selectors : List Selectors.Sel}
    {isDefault : Option Bool} {otherHash : Option (List Int)} {complete : Bool} {s s' : Store}
    (h : addLink other name hint selectors isDefault otherHash complete s = .ok ((), s')) :
    ∀ l ∈ s.links, l.other = other → l.name ≠ name := by
  unfold addLink at h
  rw [bind_ok] at h
  obtain ⟨_, _, he, h⟩ := h
  rw [get_ok] at he
  cases he
  dsimp only at h
  rw [ite_ok] at h
  obtain ⟨_, h⟩ | ⟨hno, _⟩ := h
  · cases h
  intro l hl ho hn
  exact hno (List.any_eq_true.2 ⟨l, List.mem_filter.2 ⟨hl, by simpa using ho⟩, by simpa using hn⟩)

theorem upd_keys {l l' : Link} {links : List Link} (hnd : (links.map (·.id)).Nodup) (hl : l ∈ links)
    (f : Link → α) (hid : l'.id = l.id) (hf : f l' = f l) : (upd Link.id l' links).map f = links.map f := by
  unfold upd
  rw [List.map_map]
  apply List.map_congr_left
  intro x hx
  dsimp only [Function.comp]
  split
  · rename_i he
    have : x = l := List.inj_on_of_nodup_map hnd hx hl (by rw [← hid]; exact he)
    rw [this, hf]
  · rfl

theorem with_rest {t u : Store} (h : u = { t with maps := u.maps }) (links : List Link) (maps : List Mapping) :
    ({ u with links := links, maps := maps } : Store) = { t with links := links, maps := maps } := by
  generalize u.maps = x at h
  subst h
  rfl

theorem storeLink_added {a : LinkArgs} {other : PyStr} {hint : Option PyStr} {out : List OutRow} {s : Store}
    (hr : ReachableTidy s) (hname : a.name ≠ [])
    (hlev : ∀ x ∈ out, LevelKnown s x.level) (h : (storeLink a other hint out s).2 = .ok ()) :
    LinkAdded a other hint ((out.filter fun x => !(x.other == 0 && x.index == 0)).map OutRow.entry) s
      (storeLink a other hint out s).1 := by
  have hR := hr.reachable
  unfold storeLink at h ⊢
  rcases h1 : step (.addLink other a.name hint a.selectors a.isDefault none false) s with ⟨t, e | ⟨⟩⟩
  · rw [h1] at h; cases h
  rw [h1] at h
  dsimp only at h ⊢
  have hadd : addLink other a.name hint a.selectors a.isDefault none false s = .ok ((), t) := by
    have := step_ok (op := .addLink other a.name hint a.selectors a.isDefault none false) rfl (s := s) (by rw [h1])
    rw [h1] at this
    exact this
  have hRt : Reachable t := by
    have := hR.step (.addLink other a.name hint a.selectors a.isDefault none false)
    rw [h1] at this
    exact this
  have hins := step_ok (op := .insertMappings2 other (some a.name) (out.map OutRow.toMapRow)) rfl h
  generalize (step (.insertMappings2 other (some a.name) (out.map OutRow.toMapRow)) t).1 = s' at hins ⊢
  have hunused := addLink_unused hadd
  have ht := addLink_ok hR.linkInv.ids hadd
  dsimp only at ht
  generalize hdf : a.isDefault.getD (s.links.all fun l => l.other != other) = dflt at ht
  obtain ⟨new, hnew⟩ : ∃ new : Link, new = ⟨nextId (s.links.map (·.id)), other, hint, a.name, a.selectors, dflt, none,
    false⟩ := ⟨_, rfl⟩
  have hids : (s.links.map fun l => if l.other = other ∧ dflt = true then { l with isDefault := false } else l).map
      (·.id) = s.links.map (·.id) := by
    rw [List.map_map]
    apply List.map_congr_left
    intro l _
    dsimp only [Function.comp]
    split <;> rfl
  have hlinks : t.links = (s.links.map fun l =>
      if l.other = other ∧ dflt = true then { l with isDefault := false } else l) ++ [new] := by
    rw [ht, hnew]
    unfold Store.withLink
    dsimp only
    rw [hids]
  have hrest : t = { s with links := t.links } := by
    rw [ht]
    rfl
  clear ht
  have hmem : new ∈ t.links := by rw [hlinks]; simp
  have hnewid : new.id ∉ s.links.map (·.id) := by rw [hnew]; exact nextId_not_mem _
  have hother : new.other = other := by rw [hnew]
  have hnn : new.name = a.name := by rw [hnew]
  have hlkeys : linkKeys t = linkKeys s ++ [(new.id, other, a.name, hint, a.selectors)] := by
    unfold linkKeys
    rw [hlinks, List.map_append, List.map_map, hnew]
    congr 1
    apply List.map_congr_left
    intro l _
    dsimp only [Function.comp]
    split <;> rfl
  obtain ⟨l, hl, hent, hk⟩ := C59_inserted hRt hins
  have hln : l = new := by
    refine getLink_exact hname hmem hother hnn ?_ hl
    intro x hx hxo hxn
    rw [hlinks, List.mem_append, List.mem_singleton] at hx
    rcases hx with hx | rfl
    · exfalso
      obtain ⟨y, hy, rfl⟩ := List.mem_map.1 hx
      refine hunused y hy ?_ ?_
      · split at hxo <;> exact hxo
      · split at hxn <;> exact hxn
    · rfl
  subst hln
  have hmaps : t.maps = s.maps := by rw [hrest]
  have hstructs : t.structs = s.structs := by rw [hrest]
  have hempty : entries t l.id = [] := by
    unfold entries
    rw [hmaps, List.filter_eq_nil_iff.2, List.map_nil]
    intro m hm hml
    have hin := hr.propInv.links m hm
    rw [show m.link = l.id by simpa using hml] at hin
    exact hnewid hin
  have hfilt : ((out.map OutRow.toMapRow).filter fun r => decide (r.level ∈ t.levels2 ∧ ¬ (r.other = 0 ∧ r.index = 0))).map
        (fun r => (r.other, r.index, r.level.getD [], r.value)) =
      (out.filter fun x => !(x.other == 0 && x.index == 0)).map OutRow.entry := by
    rw [List.filter_map, List.map_map]
    have : ∀ x ∈ out, ((fun r : MapRow => decide (r.level ∈ t.levels2 ∧ ¬ (r.other = 0 ∧ r.index = 0))) ∘
        OutRow.toMapRow) x = !(x.other == 0 && x.index == 0) := by
      intro x hx
      have hlv : some x.level ∈ t.levels2 := by
        have : t.levels2 = s.levels2 := by unfold Store.levels2; rw [hstructs]
        rw [this]
        exact level2_iff.2 (hlev x hx)
      rw [Bool.eq_iff_iff]
      simp only [Function.comp, OutRow.toMapRow, decide_eq_true_eq, Nat.cast_eq_zero, hlv, true_and]
      by_cases h1 : x.other = 0 <;> by_cases h2 : x.index = 0 <;> simp [h1, h2]
    rw [List.filter_congr this]
    rfl
  have hndt : (t.links.map (·.id)).Nodup := hRt.linkInv.ids
  have hshape : s' = { t with links := s'.links, maps := s'.maps } ∧
      ∃ l' l'' : Link, l' ∈ t.links ∧ l''.id = l'.id ∧ (l''.id, l''.other, l''.name, l''.hint, l''.selectors) =
        (l'.id, l'.other, l'.name, l'.hint, l'.selectors) ∧ l''.isDefault = l'.isDefault ∧
        s'.links = upd Link.id l'' t.links := by
    have hsame : t.links = upd Link.id l t.links := by
      have := upd_keys (f := id) hndt hmem (l' := l) rfl rfl
      simpa using this.symm
    cases insertMappings2_effect hRt.mapInv hins with
    | none => exact ⟨rfl, l, l, hmem, rfl, rfl, rfl, hsame⟩
    | link l' u hl' hu hi =>
      have hul : u.links = t.links := by rw [hu.rest]
      refine ⟨?_, l', { l' with otherHash := some (u.distinctOthers l'.id), complete := u.mappingIsComplete l'.id },
        hl', rfl, rfl, rfl, by rw [← hul]⟩
      exact with_rest hu.rest _ _
    | same l' u hl' hu hi _ =>
      refine ⟨?_, l, l, hmem, rfl, rfl, rfl, ?_⟩
      · exact with_rest hu.rest u.links _
      · show u.links = _
        rw [hu.rest]
        exact hsame
  obtain ⟨hrest', l', l'', hl', hid, hkeys', hdef, hlinks'⟩ := hshape
  refine ⟨⟨l.id, hnewid, ?_, ?_, ?_, ?_⟩, ?_⟩
  · rw [← hlkeys]
    unfold linkKeys
    rw [hlinks']
    exact upd_keys hndt hl' (fun l => (l.id, l.other, l.name, l.hint, l.selectors)) hid hkeys'
  · intro x hx hxi
    have hd : (l.id, l.isDefault) ∈ s'.links.map fun l => (l.id, l.isDefault) := by
      rw [hlinks', upd_keys hndt hl' (fun l => (l.id, l.isDefault)) hid (by rw [hid, hdef])]
      exact List.mem_map.2 ⟨l, hmem, rfl⟩
    obtain ⟨y, hy, hye⟩ := List.mem_map.1 hd
    have hnd' : (s'.links.map (·.id)).Nodup := by
      rw [hlinks', upd_keys hndt hl' (fun l => l.id) hid hid]
      exact hndt
    have hxy : x = y := List.inj_on_of_nodup_map hnd' hx hy (by rw [hxi]; exact (congrArg Prod.fst hye).symm)
    have h2 : y.isDefault = l.isDefault := congrArg Prod.snd hye
    rw [hxy, h2, hnew]
    exact hdf.symm
  · rw [hent, hempty, List.nil_append, hfilt]
  · intro k hk'
    rw [hk k hk', hmaps]
  · rw [hrest', hrest]

theorem storeLink_failed {a : LinkArgs} {other : PyStr} {hint : Option PyStr} {out : List OutRow} {s : Store}
    (hr : Reachable s) (h : (storeLink a other hint out s).2 ≠ .ok ()) :
    (storeLink a other hint out s).1 = { s with links := (storeLink a other hint out s).1.links } := by
  unfold storeLink at h ⊢
  rcases h1 : step (.addLink other a.name hint a.selectors a.isDefault none false) s with ⟨t, e | ⟨⟩⟩
  · dsimp only
    have : t = s := by
      have he := runTx_error (m := addLink other a.name hint a.selectors a.isDefault none false) (s := s) (e := e)
        (by rw [← step_of_body (op := .addLink other a.name hint a.selectors a.isDefault none false) rfl, h1])
      rw [← step_of_body (op := .addLink other a.name hint a.selectors a.isDefault none false) rfl, h1] at he
      exact he
    rw [this]
  · rw [h1] at h
    dsimp only at h ⊢
    have hadd : addLink other a.name hint a.selectors a.isDefault none false s = .ok ((), t) := by
      have := step_ok (op := .addLink other a.name hint a.selectors a.isDefault none false) rfl (s := s) (by rw [h1])
      rw [h1] at this
      exact this
    have ht := addLink_ok hr.linkInv.ids hadd
    have hsame : (step (.insertMappings2 other (some a.name) (out.map OutRow.toMapRow)) t).1 = t := by
      rw [step_of_body (op := .insertMappings2 other (some a.name) (out.map OutRow.toMapRow)) rfl] at h ⊢
      rcases he : (runTx (insertMappings2 other (some a.name) (out.map OutRow.toMapRow)) t).2 with e | ⟨⟩
      · exact runTx_error he
      · exact absurd he h
    rw [hsame, ht]
    rfl

section

variable {edge : PyStr → Option PyStr} {N : Numbers} {s1 s2 : Store} {limit : Nat} {allow : Bool}
  {t : Table} {a : LinkArgs} {d : Direction} {hint1 hint2 : Option PyStr}

theorem matchOld_known {s : Store} {cols : List PyStr} {rows : List (Nat × Side)} {ms : List Match}
    (h : matchOld s limit allow cols rows = .ok ms) : ∀ m ∈ ms, LevelKnown s m.level := by
  obtain ⟨g, ps, hg, hps, rfl⟩ := matchOld_ok h
  intro m hm
  obtain ⟨m', hm', rfl⟩ := List.mem_map.1 hm
  obtain ⟨t, ht, hf, he⟩ := doTasks_mem hm'
  obtain ⟨r, hrm, hl, rfl⟩ := (mem_tasksOf hps).1 ht
  show LevelKnown s m'.level
  rw [he]
  exact hl

theorem getMappings_level {rows : List SourceRow} {src trg : List Match} {x : OutRow}
    (hx : x ∈ getMappings rows src trg) : ∃ b ∈ trg, b.level = x.level := by
  unfold getMappings at hx
  have hk : (x.other, x.index, x.level) ∈ (aggregate (joined true (rows.map fun r => (r.run, r.value)) src trg)).map
      fun x => (x.other, x.index, x.level) := List.mem_map.2 ⟨x, hx, rfl⟩
  rw [out_keys, mem_keys] at hk
  obtain ⟨j, hj, he⟩ := hk
  unfold joined at hj
  simp only [List.mem_flatMap, List.mem_map, List.mem_filter] at hj
  obtain ⟨r, _, a, _, b, hb, rfl⟩ := hj
  exact ⟨b, hb.1, congrArg (fun p => p.2.2) he⟩

/-- If a table is loaded, each dataspace an arrow points to has one link more, to the other dataspace, with the
options given. Its mappings are those found for the rows of the table. Nothing else is changed in it, and a
dataspace no arrow points to is not changed at all. -/
theorem C68_stored (hr1 : ReachableTidy s1) (hr2 : ReachableTidy s2) (hrect : Rectangular t) (hname : a.name ≠ [])
    (h : (loadMapping edge N a d hint1 hint2 limit allow t s1 s2).result = .ok ()) :
    ∃ m, matchData edge N s1 s2 a.name limit allow t = .ok m ∧
      (d ≠ .left → LinkAdded a s1.uid hint1 ((iterMappings m.rows m.left m.right).map OutRow.entry) s2
        (loadMapping edge N a d hint1 hint2 limit allow t s1 s2).right) ∧
      (d = .left → (loadMapping edge N a d hint1 hint2 limit allow t s1 s2).right = s2) ∧
      (d ≠ .right → LinkAdded a s2.uid hint2 ((iterMappings m.rows m.right m.left).map OutRow.entry) s1
        (loadMapping edge N a d hint1 hint2 limit allow t s1 s2).left) ∧
      (d = .right → (loadMapping edge N a d hint1 hint2 limit allow t s1 s2).left = s1) := by
  unfold loadMapping at h ⊢
  rcases hm : matchData edge N s1 s2 a.name limit allow t with e | m
  · rw [hm] at h; cases h
  rw [hm] at h
  obtain ⟨v, hv, hd, hruns, hread, h1, h2⟩ := C68_rows hrect hm
  dsimp only at h ⊢
  refine ⟨m, rfl, ?_⟩
  unfold storeBoth at h ⊢
  dsimp only at h ⊢
  have k2 : (storeLink a s1.uid hint1 (getMappings m.rows m.left m.right) s2).2 = .ok () →
      LinkAdded a s1.uid hint1 ((iterMappings m.rows m.left m.right).map OutRow.entry) s2
        (storeLink a s1.uid hint1 (getMappings m.rows m.left m.right) s2).1 := by
    intro h
    rw [← getMappings_filter]
    refine storeLink_added hr2 hname ?_ h
    intro x hx
    obtain ⟨b, hb, he⟩ := getMappings_level hx
    exact he ▸ matchOld_known h2 b hb
  have k1 : (storeLink a s2.uid hint2 (getMappings m.rows m.right m.left) s1).2 = .ok () →
      LinkAdded a s2.uid hint2 ((iterMappings m.rows m.right m.left).map OutRow.entry) s1
        (storeLink a s2.uid hint2 (getMappings m.rows m.right m.left) s1).1 := by
    intro h
    rw [← getMappings_filter]
    refine storeLink_added hr1 hname ?_ h
    intro x hx
    obtain ⟨b, hb, he⟩ := getMappings_level hx
    exact he ▸ matchOld_known h1 b hb
  generalize storeLink a s1.uid hint1 (getMappings m.rows m.left m.right) s2 = r2 at h k2 ⊢
  generalize storeLink a s2.uid hint2 (getMappings m.rows m.right m.left) s1 = r1 at h k1 ⊢
  obtain ⟨t2, e2⟩ := r2
  obtain ⟨t1, e1⟩ := r1
  cases d
  · rw [if_neg (by decide)] at h ⊢
    rcases e2 with e2 | ⟨⟩
    · cases h
    · exact ⟨fun _ => k2 rfl, fun h => (nomatch h), fun h => absurd rfl h, fun _ => rfl⟩
  · rw [if_pos rfl] at h ⊢
    dsimp only at h ⊢
    rw [if_neg (by decide)] at h ⊢
    exact ⟨fun h => absurd rfl h, fun _ => rfl, fun _ => k1 h, fun h => (nomatch h)⟩
  · rw [if_neg (by decide)] at h ⊢
    rcases e2 with e2 | ⟨⟩
    · cases h
    · dsimp only at h ⊢
      rw [if_neg (by decide)] at h ⊢
      exact ⟨fun _ => k2 rfl, fun h => (nomatch h), fun _ => k1 h, fun h => (nomatch h)⟩

/-- If a call fails, no mapping was stored in the left dataspace, nor in the right one, unless both directions were
asked for; nothing was changed except links. (That nothing at all is changed does not hold, see below.) -/
theorem C68_failed_partial (hr1 : Reachable s1) (hr2 : Reachable s2)
    (h : (loadMapping edge N a d hint1 hint2 limit allow t s1 s2).result ≠ .ok ()) :
    (loadMapping edge N a d hint1 hint2 limit allow t s1 s2).left =
      { s1 with links := (loadMapping edge N a d hint1 hint2 limit allow t s1 s2).left.links } ∧
    (d ≠ .both → (loadMapping edge N a d hint1 hint2 limit allow t s1 s2).right =
      { s2 with links := (loadMapping edge N a d hint1 hint2 limit allow t s1 s2).right.links }) := by
  unfold loadMapping at h ⊢
  rcases hm : matchData edge N s1 s2 a.name limit allow t with e | m
  · exact ⟨rfl, fun _ => rfl⟩
  rw [hm] at h
  dsimp only at h ⊢
  unfold storeBoth at h ⊢
  dsimp only at h ⊢
  have k2 := storeLink_failed (a := a) (other := s1.uid) (hint := hint1)
    (out := getMappings m.rows m.left m.right) hr2
  have k1 := storeLink_failed (a := a) (other := s2.uid) (hint := hint2)
    (out := getMappings m.rows m.right m.left) hr1
  generalize storeLink a s1.uid hint1 (getMappings m.rows m.left m.right) s2 = r2 at h k2 ⊢
  generalize storeLink a s2.uid hint2 (getMappings m.rows m.right m.left) s1 = r1 at h k1 ⊢
  obtain ⟨t2, e2⟩ := r2
  obtain ⟨t1, e1⟩ := r1
  cases d
  · rw [if_neg (by decide)] at h ⊢
    rcases e2 with e2 | ⟨⟩
    · exact ⟨rfl, fun _ => k2 (fun h => (nomatch h))⟩
    · exact absurd rfl h
  · rw [if_pos rfl] at h ⊢
    dsimp only at h ⊢
    rw [if_neg (by decide)] at h ⊢
    exact ⟨k1 h, fun _ => rfl⟩
  · rw [if_neg (by decide)] at h ⊢
    rcases e2 with e2 | ⟨⟩
    · exact ⟨rfl, fun h => absurd rfl h⟩
    · dsimp only at h ⊢
      rw [if_neg (by decide)] at h ⊢
      exact ⟨k1 h, fun h => absurd rfl h⟩

end

/-! ### Examples -/

namespace Demo

/-- The dataspace on the left: as in `Verif.Demo`, with a link `used` to the dataspace `u`. -/
def left : Store :=
  run (Space.Demo.ops ++ [.addLink ['u'] ['u', 's', 'e', 'd'] none [] none none false]) (Store.new ['v'])

/-- A dataspace without records. -/
def empty : Store :=
  run [.addIndexColumns [Space.Demo.colA, Space.Demo.colB], .addPartitionDef {Space.Demo.colA},
    .addWeightGroup Space.Demo.wname [] false none] (Store.new ['e'])

/-- The dataspace `u` with a default link `old` to the one on the left. -/
def linked : Store := run (Space.Demo.ops ++ [.addLink ['v'] ['o', 'l', 'd'] none [] none none false]) (Store.new ['u'])

/-- Three rows at two levels. -/
def table (name value : PyStr) : Table :=
  ⟨[['A'], ['B'], name, ['A'], ['B']],
   [[['x'], ['1'], ['4', '/', '1'], ['x'], ['1']], [['x'], [], ['8', '/', '1'], ['x'], []],
    [['y'], ['1'], value, ['y'], ['1']]]⟩

/-- A table with a column that the dataspace on the right does not have. -/
def tableZ (label : PyStr) : Table :=
  ⟨[['A'], ['B'], ['n'], ['A'], ['B'], ['z']], [[['x'], ['1'], ['4', '/', '1'], ['x'], ['1'], label]]⟩

def five : PyStr := ['5', '/', '1']

def args (name : PyStr) (dflt : Option Bool) : LinkArgs := ⟨name, [], dflt⟩

def load (a : LinkArgs) (d : Direction) (t : Table) (s2 : Store) : Outcome :=
  loadMapping (fun _ => none) MappingCsv.Demo.numbers a d none none 10 false t left s2

theorem left_fk : ReachableFk left := ⟨['v'], _, by simp [Space.Demo.ops], rfl⟩

theorem left_tidy : ReachableTidy left := left_fk.tidy

end Demo

/-- The hypotheses of C68 can be met: the table is loaded in both directions. The second row is matched only with the
second record, since the first one is matched at a finer level. -/
example : (Demo.load (Demo.args ['n'] none) .both (Demo.table ['n'] Demo.five) Space.Demo.store).result.toBool = true ∧
    entries (Demo.load (Demo.args ['n'] none) .both (Demo.table ['n'] Demo.five) Space.Demo.store).right 2 =
      [(1, 1, [0xC0#8], 4), (2, 2, [0x80#8], 8), (3, 3, [0xC0#8], 5)] ∧
    entries (Demo.load (Demo.args ['n'] none) .both (Demo.table ['n'] Demo.five) Space.Demo.store).left 3 =
      [(1, 1, [0xC0#8], 4), (2, 2, [0x80#8], 8), (3, 3, [0xC0#8], 5)] :=
  ⟨by decide +kernel, by decide +kernel, by decide +kernel⟩

example : Rectangular (Demo.table ['n'] Demo.five) ∧ ReachableTidy Demo.left ∧ ReachableTidy Space.Demo.store ∧
    Plain Space.Demo.store [['A'], ['B']] :=
  ⟨by unfold Rectangular; decide, Demo.left_tidy, Space.Demo.reachableFk.tidy, by unfold Plain; decide +kernel⟩

/-- Loading in both directions is not atomic: if a link of that name exists on the left side, the call fails, but
the link and its mappings stay in the right dataspace. -/
theorem C68_violated_both : ∃ a t, a.name ≠ [] ∧ Rectangular t ∧ ReachableTidy Demo.left ∧
    ReachableTidy Space.Demo.store ∧ (Demo.load a .both t Space.Demo.store).result.toBool = false ∧
    entries (Demo.load a .both t Space.Demo.store).right 2 ≠ [] ∧
    (Demo.load a .both t Space.Demo.store).left = Demo.left := by
  refine ⟨Demo.args ['u', 's', 'e', 'd'] none, Demo.table ['u', 's', 'e', 'd'] Demo.five, by decide,
    by unfold Rectangular; decide, Demo.left_tidy, Space.Demo.reachableFk.tidy, by decide +kernel,
    by decide +kernel, ?_⟩
  have hm : (matchData (fun _ => none) MappingCsv.Demo.numbers Demo.left Space.Demo.store ['u', 's', 'e', 'd'] 10 false
      (Demo.table ['u', 's', 'e', 'd'] Demo.five)).toBool = true := by decide +kernel
  have hadd : (step (.addLink Space.Demo.store.uid ['u', 's', 'e', 'd'] none [] none none false) Demo.left).2.toBool =
      false := by decide +kernel
  have hright : ∀ out, (storeLink (Demo.args ['u', 's', 'e', 'd'] none) Space.Demo.store.uid none out Demo.left).1 =
      Demo.left := by
    intro out
    unfold storeLink
    rcases h1 : step (.addLink Space.Demo.store.uid ['u', 's', 'e', 'd'] none [] none none false) Demo.left with
      ⟨t, e | u⟩
    · dsimp only [Demo.args]
      rw [h1]
      have he := runTx_error (m := addLink Space.Demo.store.uid ['u', 's', 'e', 'd'] none [] none none false)
        (s := Demo.left) (e := e) (by rw [← step_of_body (op := .addLink ..) rfl, h1])
      rw [← step_of_body (op := .addLink ..) rfl, h1] at he
      exact he
    · rw [h1] at hadd
      cases hadd
  unfold Demo.load loadMapping
  generalize Demo.left = s1 at *
  generalize Space.Demo.store = s2 at *
  rcases hm' : matchData (fun _ => none) MappingCsv.Demo.numbers s1 s2 ['u', 's', 'e', 'd'] 10 false
      (Demo.table ['u', 's', 'e', 'd'] Demo.five) with e | m
  · rw [hm'] at hm; cases hm
  · dsimp only [Demo.args] at hright ⊢
    rw [hm']
    dsimp only
    unfold storeBoth
    dsimp only
    split
    · rfl
    · exact hright _

/-- If the mappings are refused (here for a negative value), the call fails, but a link without mappings stays in the
dataspace. -/
theorem C68_violated_negative : ∃ a t, a.name ≠ [] ∧ Rectangular t ∧ ReachableTidy Demo.left ∧
    ReachableTidy Space.Demo.store ∧ (Demo.load a .right t Space.Demo.store).result.toBool = false ∧
    (Demo.load a .right t Space.Demo.store).right.links.map (fun l => (l.id, l.other, l.name)) =
      Space.Demo.store.links.map (fun l => (l.id, l.other, l.name)) ++ [(2, Demo.left.uid, a.name)] :=
  ⟨Demo.args ['n'] none, Demo.table ['n'] ('-' :: Demo.five), by decide, by unfold Rectangular; decide,
    Demo.left_tidy, Space.Demo.reachableFk.tidy, by decide +kernel, by decide +kernel⟩

/-- A row that fits no record is left out, also if the dataspace has no records at all. But if the table then has rows at
two levels, the call fails. -/
theorem C68_violated_empty : ∃ a t1 t2, a.name ≠ [] ∧ Rectangular t2 ∧ t1.header = t2.header ∧ t1.rows = t2.rows.take 1 ∧
    ReachableTidy Demo.left ∧ ReachableTidy Demo.empty ∧ (Demo.load a .right t1 Demo.empty).result.toBool = true ∧
    (Demo.load a .right t2 Demo.empty).result.toBool = false :=
  ⟨Demo.args ['n'] none, ⟨(Demo.table ['n'] Demo.five).header, (Demo.table ['n'] Demo.five).rows.take 1⟩,
    Demo.table ['n'] Demo.five, by decide, by unfold Rectangular; decide, rfl, rfl, Demo.left_tidy,
    ReachableFk.tidy ⟨['e'], _, by simp, rfl⟩, by decide +kernel, by decide +kernel⟩

/-- A table with a column that the dataspace does not have is accepted. Its rows are not matched, but if a label is
the same as the name of the column, they are matched as if the column was not there. -/
theorem C68_violated_column : ∃ a t1 t2, a.name ≠ [] ∧ Rectangular t1 ∧ Rectangular t2 ∧ t1.header = t2.header ∧
    ['z'] ∈ t1.header ∧ ['z'] ∉ Demo.left.cols ∧ ['z'] ∉ Space.Demo.store.cols ∧
    (Demo.load a .right t1 Space.Demo.store).result.toBool = true ∧
    (Demo.load a .right t2 Space.Demo.store).result.toBool = true ∧
    entries (Demo.load a .right t1 Space.Demo.store).right 2 = [] ∧
    entries (Demo.load a .right t2 Space.Demo.store).right 2 = [(1, 1, [0xC0#8], 4)] :=
  ⟨Demo.args ['n'] none, Demo.tableZ ['q'], Demo.tableZ ['z'], by decide, by unfold Rectangular; decide,
    by unfold Rectangular; decide, rfl, by decide, by decide +kernel, by decide +kernel, by decide +kernel,
    by decide +kernel, by decide +kernel, by decide +kernel⟩

/-- With an empty name, which is accepted, the mappings may be added to another link than the new one. -/
theorem C68_violated_unnamed : ∃ a t, a.name = [] ∧ Rectangular t ∧ ReachableTidy Demo.left ∧
    ReachableTidy Demo.linked ∧ (Demo.load a .right t Demo.linked).result.toBool = true ∧
    (Demo.load a .right t Demo.linked).right.links.map (fun l => (l.id, l.name)) =
      Demo.linked.links.map (fun l => (l.id, l.name)) ++ [(3, [])] ∧
    entries (Demo.load a .right t Demo.linked).right 3 = [] ∧
    entries Demo.linked 2 = [] ∧ entries (Demo.load a .right t Demo.linked).right 2 ≠ [] :=
  ⟨Demo.args [] (some false), Demo.table [] Demo.five, rfl, by unfold Rectangular; decide, Demo.left_tidy,
    ReachableFk.tidy ⟨['u'], _, by simp [Space.Demo.ops], rfl⟩, by decide +kernel, by decide +kernel,
    by decide +kernel, by decide +kernel, by decide +kernel⟩

end Toron.LoadMapping
