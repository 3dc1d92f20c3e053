/-
C88: renaming label columns, and the helper functions for old versions of SQLite.
-/
import Verif.Spec.OldSqlite
import Verif.Props.StoreDropColumns
import Verif.Lemmas.Store.RelabelRun

namespace Toron.Space

open Toron.Selectors (PyStr)

/-! ### Lemmas -/

theorem validateNewColumns_run {names : List PyStr} {s : Store} :
    (validateNewColumns names s = .ok ((), s) ↔
      ∀ c ∈ names, c ∉ reservedNames ∧ c ∉ s.cols ∧ c ∉ s.regAttrs.getD []) ∧
    ∀ r, validateNewColumns names s = .ok r → r = ((), s) := by
  constructor
  · constructor
    · exact fun h => (validateNewColumns_ok h).2
    · intro h
      unfold validateNewColumns
      rw [get_bind]
      induction names with
      | nil => rfl
      | cons c t ih =>
        rw [forM_cons_ok]
        obtain ⟨h1, h2, h3⟩ := h c List.mem_cons_self
        refine ⟨s, ?_, ih fun d hd => h d (List.mem_cons_of_mem _ hd)⟩
        rw [if_neg h1, if_neg h2, if_neg h3]
        rfl
  · rintro ⟨u, s'⟩ h
    rw [(validateNewColumns_ok h).1]

theorem sqlNames_eq (s : Store) : s.sqlNames = takenNames s.cols := rfl

theorem renamed_cons (p : PyStr × PyStr) (pre : List (PyStr × PyStr)) (h : ∀ q ∈ pre, q.1 ≠ p.2) (c : PyStr) :
    renamed pre (if c = p.1 then p.2 else c) = renamed (p :: pre) c := by
  have hnk : pre.lookup p.2 = none := by
    rw [List.lookup_eq_none_iff]
    intro q hq
    simpa using (h q hq).symm
  by_cases hc : c = p.1
  · rw [if_pos hc, hc]
    simp [renamed, List.lookup, hnk]
  · have hb : (c == p.1) = false := by simpa using hc
    rw [if_neg hc]
    simp only [renamed, List.lookup, hb]

theorem renameColumns_run : ∀ {mapping : List (PyStr × PyStr)} {s : Store}, (mapping.map (·.1)).Nodup →
    (∀ p ∈ mapping, p.1 ∈ s.cols) →
    (∀ p ∈ mapping, ∀ q ∈ mapping, p.1 ≠ q.2) →
    ((∃ s', mapping.forM (fun p => renameColumn p.1 p.2) s = .ok ((), s')) ↔
      ∀ pre p post, mapping = pre ++ p :: post →
        asciiLower p.2 ∉ takenNames ((s.cols.map (renamed pre)).filter fun c => c ≠ p.1)) := by
  intro mapping
  induction mapping with
  | nil =>
    intro s _ _ _
    refine ⟨fun _ pre p post h => ?_, fun _ => ⟨s, rfl⟩⟩
    have := congrArg List.length h
    simp at this
  | cons p0 ps ih =>
    intro s hn hin hd
    have hn' := List.nodup_cons.1 hn
    let s1 : Store := { s with cols := s.cols.map fun c => if c = p0.1 then p0.2 else c }
    have hcols : ∀ pre, (∀ q ∈ pre, q ∈ ps) → s1.cols.map (renamed pre) = s.cols.map (renamed (p0 :: pre)) := by
      intro pre hpre
      change (s.cols.map fun c => if c = p0.1 then p0.2 else c).map (renamed pre) = _
      rw [List.map_map]
      apply List.map_congr_left
      intro c _
      exact renamed_cons p0 pre (fun q hq => hd q (List.mem_cons_of_mem _ (hpre q hq)) p0 List.mem_cons_self) c
    have hrec := ih (s := s1) hn'.2
      (by
        intro p hp
        refine List.mem_map.2 ⟨p.1, hin p (List.mem_cons_of_mem _ hp), if_neg fun e => ?_⟩
        exact hn'.1 (List.mem_map.2 ⟨p, hp, e⟩))
      (fun p hp q hq => hd p (List.mem_cons_of_mem _ hp) q (List.mem_cons_of_mem _ hq))
    have h0 : (∃ t, renameColumn p0.1 p0.2 s = .ok ((), t)) ↔
        asciiLower p0.2 ∉ takenNames (s.cols.filter fun c => c ≠ p0.1) := by
      unfold renameColumn
      rw [get_bind, if_neg (not_not.2 (hin p0 List.mem_cons_self))]
      by_cases hc : asciiLower p0.2 ∈ takenNames (s.cols.filter fun c => c ≠ p0.1)
      · rw [if_pos (by rw [sqlNames_eq]; exact hc)]
        constructor
        · rintro ⟨t, h⟩; cases h
        · intro h; exact absurd hc h
      · rw [if_neg (by rw [sqlNames_eq]; exact hc)]
        exact ⟨fun _ => hc, fun _ => ⟨_, rfl⟩⟩
    constructor
    · rintro ⟨s', h⟩ pre p post he
      rw [forM_cons_ok] at h
      obtain ⟨t, h1, h2⟩ := h
      cases pre with
      | nil =>
        injection he with e1 e2
        subst e1
        have : renamed [] = id := rfl
        rw [this, List.map_id]
        exact h0.1 ⟨t, h1⟩
      | cons q pre =>
        injection he with e1 e2
        subst e1
        obtain ⟨_, _, rfl⟩ := renameColumn_ok h1
        have := hrec.1 ⟨s', h2⟩ pre p post e2
        rwa [hcols pre fun q hq => by rw [e2]; exact List.mem_append_left _ hq] at this
    · intro h
      have hfirst := h [] p0 ps rfl
      have e : renamed [] = id := rfl
      rw [e, List.map_id] at hfirst
      obtain ⟨t, ht⟩ := h0.2 hfirst
      have ht' := (renameColumn_ok ht).2.2
      obtain ⟨s', hs'⟩ := hrec.2 fun pre p post he => by
        rw [hcols pre fun q hq => by rw [he]; exact List.mem_append_left _ hq]
        exact h (p0 :: pre) p post (by rw [he]; rfl)
      exact ⟨s', forM_cons_ok.2 ⟨t, ht, ht' ▸ hs'⟩⟩

/-- No column has the name of a fixed column, ignoring case. -/
theorem Reachable.colsFixed {s : Store} (h : Reachable s) : ∀ c ∈ s.cols, asciiLower c ∉ fixedNames.map asciiLower := by
  refine h.of_prim (P := fun s => ∀ c ∈ s.cols, asciiLower c ∉ fixedNames.map asciiLower)
    (fun uid => by simp [Store.new]) ?_
  intro k s s' hp hP
  have hfix : ∀ {t : Store} {c : PyStr}, asciiLower c ∉ t.sqlNames → asciiLower c ∉ fixedNames.map asciiLower := by
    intro t c h hc
    apply h
    rw [sqlNames_eq]
    unfold takenNames
    rw [List.map_append]
    exact List.mem_append_right _ hc
  cases hp with
  | colAdd _ c hres hattr hnew =>
    intro x hx
    rcases List.mem_append.1 hx with hx | hx
    · exact hP x hx
    · rw [List.mem_singleton] at hx; subst hx; exact hfix hnew
  | colRen _ old new hres hattr hold hnew =>
    intro x hx
    obtain ⟨y, hy, rfl⟩ := List.mem_map.1 hx
    split
    · exact hfix hnew
    · exact hP y hy
  | colDrop _ names hne hi hl hst => exact fun c hc => hP c (List.mem_of_mem_filter hc)
  | _ => exact hP

theorem taken_nodup {cols : List PyStr} :
    (takenNames cols).Nodup ↔
      (cols.map asciiLower).Nodup ∧ ∀ c ∈ cols, asciiLower c ∉ fixedNames.map asciiLower := by
  unfold takenNames
  rw [List.map_append, List.nodup_append]
  constructor
  · rintro ⟨h1, _, h2⟩
    refine ⟨h1, fun c hc hf => ?_⟩
    exact h2 _ (List.mem_map_of_mem hc) _ hf rfl
  · rintro ⟨h1, h2⟩
    refine ⟨h1, by decide +kernel, ?_⟩
    intro a ha b hb e
    obtain ⟨c, hc, rfl⟩ := List.mem_map.1 ha
    exact h2 c hc (e ▸ hb)

theorem Reachable.taken {s : Store} (h : Reachable s) : (takenNames s.cols).Nodup :=
  taken_nodup.2 ⟨h.colInv.cols, h.colsFixed⟩

theorem foreignKeyCheck_iff (s : Store) : s.foreignKeyCheck = true ↔ s.Referenced := by
  unfold Store.foreignKeyCheck Store.Referenced
  simp only [Bool.and_eq_true, List.all_eq_true, List.any_eq_true, beq_iff_eq, and_assoc]

theorem Reachable.referenced {s : Store} (h : Reachable s) (hfk : s.fk = true) : s.Referenced := by
  have h1 := h.refs hfk
  have h2 := h.fkOk
  unfold Space.fkOk at h2
  simp only [hfk, Bool.not_true, Bool.false_or, Bool.and_eq_true, List.all_eq_true, List.any_eq_true,
    beq_iff_eq] at h2
  exact ⟨fun w hw => ⟨h1.weights w hw, h2.1 w hw⟩, fun q hq => ⟨h1.locs q hq, h1.ags q hq⟩,
    fun m hm => ⟨h1.maps m hm, h2.2 m hm⟩⟩

/-! ### Renaming -/

/-- Renaming label columns succeeds exactly if the columns exist and the new names are free. Then the columns have the new
names, in the same order, in the partition definitions as well, and nothing else changes; otherwise nothing changes at
all. -/
theorem C88_rename (s : Store) (hs : Reachable s) (mapping : List (PyStr × PyStr)) (hn : (mapping.map (·.1)).Nodup) :
    ((step (.renameIndexColumns mapping) s).2 = .ok () ↔ s.Renamable mapping) ∧
    (s.Renamable mapping → (step (.renameIndexColumns mapping) s).1 =
      { s with
        cols := s.cols.map (renamed mapping),
        partDefs := s.partDefs.map fun ds => ds.map fun d => d.image (renamed mapping) }) ∧
    (¬ s.Renamable mapping → (step (.renameIndexColumns mapping) s).1 = s) := by
  have hstep : step (.renameIndexColumns mapping) s = runTx (renameIndexColumns mapping) s := rfl
  have hfwd : (step (.renameIndexColumns mapping) s).2 = .ok () → s.Renamable mapping := by
    intro h
    rw [hstep] at h
    have hb := (runTx_ok h).1
    obtain ⟨h1, h2, _⟩ := renameIndexColumns_ok hb
    unfold renameIndexColumns at hb
    rw [get_bind, if_neg (not_not.2 h1)] at hb
    obtain ⟨_, s1, hv, hb⟩ := bind_ok.1 hb
    obtain ⟨rfl, hall⟩ := validateNewColumns_ok hv
    obtain ⟨_, s2, hf, _⟩ := bind_ok.1 hb
    refine ⟨h1, fun p hp => hall p.2 (List.mem_map_of_mem hp), ?_⟩
    exact (renameColumns_run hn h1 fun p hp q hq e => h2 q hq (e ▸ h1 p hp)).1 ⟨s2, hf⟩
  have hbwd : s.Renamable mapping → ∃ s', renameIndexColumns mapping s = .ok ((), s') := by
    rintro ⟨h1, h2, h3⟩
    obtain ⟨s2, hf⟩ := (renameColumns_run hn h1 fun p hp q hq e => (h2 q hq).2.1 (e ▸ h1 p hp)).2 h3
    unfold renameIndexColumns
    rw [get_bind, if_neg (not_not.2 h1)]
    refine ⟨_, bind_ok.2 ⟨(), s, validateNewColumns_run.1.2 ?_, bind_ok.2 ⟨(), s2, hf, rfl⟩⟩⟩
    intro c hc
    obtain ⟨p, hp, rfl⟩ := List.mem_map.1 hc
    exact h2 p hp
  have heff : s.Renamable mapping → step (.renameIndexColumns mapping) s = (s.renameCols mapping, .ok ()) := by
    intro h
    obtain ⟨s', hs'⟩ := hbwd h
    obtain ⟨_, _, rfl⟩ := renameIndexColumns_ok hs'
    rw [hstep]
    unfold runTx
    rw [hs']
    have : fkOk (s.renameCols mapping) = true := hs.fkOk
    simp only [this, if_true]
  refine ⟨⟨hfwd, fun h => by rw [heff h]⟩, fun h => by rw [heff h]; rfl, fun h => ?_⟩
  rw [hstep]
  cases hr : (runTx (renameIndexColumns mapping) s).2 with
  | error e => exact runTx_error hr
  | ok u => exact absurd (hfwd (by rw [hstep]; exact hr)) h

example : Demo.store.Renamable [(Demo.colA, ['C'])] := by
  refine (C88_rename _ Demo.reachable _ (by decide)).1.1 ?_
  decide +kernel

theorem rebuilt_id {s : Store} (hs : Reachable s) (cols : List PyStr) (hl : cols.length = s.cols.length) :
    (∀ s', s.rebuilt cols id = .ok s' → s' = { s with cols := cols, seq := s.lastId }) ∧
    ((∃ s', s.rebuilt cols id = .ok s') ↔ cols ≠ [] ∧ (takenNames cols).Nodup ∧ s.Referenced) := by
  have he : ({ s with
      cols := cols,
      index := s.index.map (fun r => { r with labels := id r.labels }),
      seq := (s.index.map (·.id)).foldr max 0,
      locs := s.locs.map (fun r => { r with labels := id r.labels }),
      structs := s.structs.map (fun r => { r with bits := id r.bits }) } : Store) =
      { s with cols := cols, seq := s.lastId } := by
    simp only [id, List.map_id']
    rfl
  have hu : checkUnique ({ s with cols := cols, seq := s.lastId } : Store) =
      .ok ((), { s with cols := cols, seq := s.lastId }) := by
    unfold checkUnique
    rw [get_bind, if_neg]
    · rfl
    · rintro ⟨_, h⟩
      exact h ⟨hs.indexInv.labels, hs.quantInv.locLabels, hs.structNodup⟩
  unfold Store.rebuilt
  dsimp only
  rw [he, hu]
  have hr : (({ s with cols := cols, seq := s.lastId } : Store).foreignKeyCheck = true) ↔ s.Referenced :=
    foreignKeyCheck_iff s
  constructor
  · intro s' h
    split_ifs at h
    injection h with h
    exact h.symm
  · constructor
    · rintro ⟨s', h⟩
      split_ifs at h with h1 h2 h3
      exact ⟨h1, h2, hr.1 h3⟩
    · rintro ⟨h1, h2, h3⟩
      unfold takenNames at h2
      rw [if_neg h1, if_neg (not_not.2 h2), if_neg (not_not.2 (hr.2 h3))]
      exact ⟨_, rfl⟩

/-- The helper that renames columns with an old version of SQLite: when it succeeds, what it does then, and that otherwise
it changes nothing, except that foreign keys are switched on. -/
theorem C88_helper_rename (s : Store) (hs : Reachable s) (mapping : List (PyStr × PyStr)) :
    ((legacyRename mapping s).2 = .ok () ↔
      s.NewNames mapping ∧ (∀ p ∈ mapping, p.1 ∉ reservedNames) ∧ s.cols ≠ [] ∧
      (takenNames (s.cols.map (renamed mapping))).Nodup ∧ s.Referenced) ∧
    ((legacyRename mapping s).2 = .ok () → (legacyRename mapping s).1 =
      { s with
        cols := s.cols.map (renamed mapping),
        partDefs := s.partDefs.map fun ds => ds.map fun d => d.image (renamed mapping),
        seq := s.lastId,
        fk := true }) ∧
    ((legacyRename mapping s).2 ≠ .ok () → (legacyRename mapping s).1 = s ∨
      (legacyRename mapping s).1 = { s with fk := true }) := by
  obtain ⟨r1, r2⟩ := rebuilt_id hs (s.cols.map (renamed mapping)) (List.length_map _)
  have hmap : s.cols.map (renamed mapping) ≠ [] ↔ s.cols ≠ [] := by simp
  unfold legacyRename
  cases hv : validateNewColumns (mapping.map (·.2)) s with
  | error e =>
    dsimp only
    refine ⟨⟨fun h => (by cases h), fun h => ?_⟩, fun h => (by cases h), fun _ => .inl rfl⟩
    have := validateNewColumns_run (names := mapping.map (·.2)) (s := s) |>.1.2 (by
      intro c hc
      obtain ⟨p, hp, rfl⟩ := List.mem_map.1 hc
      exact h.1 p hp)
    rw [this] at hv
    cases hv
  | ok r =>
    dsimp only
    have hr := validateNewColumns_run.2 r hv
    subst hr
    have hnew : s.NewNames mapping := fun p hp => validateNewColumns_run.1.1 hv p.2 (List.mem_map_of_mem hp)
    by_cases h1 : ∃ p ∈ mapping, p.1 ∈ reservedNames
    · rw [if_pos h1]
      refine ⟨⟨fun h => (by cases h), fun h => ?_⟩, fun h => (by cases h), fun _ => .inl rfl⟩
      obtain ⟨p, hp, hpr⟩ := h1
      exact absurd hpr (h.2.1 p hp)
    rw [if_neg h1]
    by_cases h2 : ¬ (s.cols.map (renamed mapping)).Nodup
    · rw [if_pos h2]
      refine ⟨⟨fun h => (by cases h), fun h => ?_⟩, fun h => (by cases h), fun _ => .inl rfl⟩
      exact absurd ((taken_nodup.1 h.2.2.2.1).1.of_map _) h2
    rw [if_neg h2]
    push Not at h1
    cases hb : s.rebuilt (s.cols.map (renamed mapping)) id with
    | error e =>
      unfold withKeysOn
      refine ⟨⟨fun h => (by cases h), fun h => ?_⟩, fun h => (by cases h), fun _ => .inr rfl⟩
      obtain ⟨s', hs'⟩ := r2.2 ⟨hmap.2 h.2.2.1, h.2.2.2.1, h.2.2.2.2⟩
      rw [hs'] at hb
      cases hb
    | ok s' =>
      have := r1 s' hb
      subst this
      obtain ⟨a1, a2, a3⟩ := r2.1 ⟨_, hb⟩
      exact ⟨⟨fun _ => ⟨hnew, h1, hmap.1 a1, a2, a3⟩, fun _ => rfl⟩, fun _ => rfl, fun h => absurd rfl h⟩

example : (legacyRename [(Demo.colA, ['C'])] Demo.store).2 = .ok () := by decide +kernel

/-- While foreign keys are on, whatever the method can rename the helper renames in the same way: afterwards the two
dataspaces differ at most in the counter for new ids. -/
theorem C88_same_rename (s : Store) (hs : Reachable s) (hfk : s.fk = true) (mapping : List (PyStr × PyStr))
    (hne : mapping ≠ []) (hn : (mapping.map (·.1)).Nodup)
    (h : (step (.renameIndexColumns mapping) s).2 = .ok ()) :
    (legacyRename mapping s).2 = .ok () ∧
    (legacyRename mapping s).1 = { (step (.renameIndexColumns mapping) s).1 with seq := s.lastId } := by
  obtain ⟨c1, c2, _⟩ := C88_rename s hs mapping hn
  have hren := c1.1 h
  have heff := c2 hren
  have hs' := hs.step (.renameIndexColumns mapping)
  have htaken := hs'.taken
  rw [heff] at htaken
  obtain ⟨d1, d2, _⟩ := C88_helper_rename s hs mapping
  have hok : (legacyRename mapping s).2 = .ok () := by
    refine d1.2 ⟨hren.2.1, fun p hp => hs.colInv.colsRes _ (hren.1 p hp), ?_, htaken, hs.referenced hfk⟩
    obtain ⟨p, hp⟩ := List.exists_mem_of_ne_nil _ hne
    exact List.ne_nil_of_mem (hren.1 p hp)
  refine ⟨hok, ?_⟩
  rw [d2 hok, heff]
  simp only [hfk]

example : Demo.store.fk = true ∧ (step (.renameIndexColumns [(Demo.colA, ['C'])]) Demo.store).2 = .ok () := by
  decide +kernel

/-! ### Dropping -/

/-- The helper that drops columns with an old version of SQLite succeeds exactly if the method does and all references are
intact; it has the same effect, except for the counter for new ids and foreign keys being switched on. -/
theorem C88_same_drop (s : Store) (hs : Reachable s) (names : List PyStr) :
    ((legacyDrop names s).2 = .ok () ↔ (step (.dropIndexColumns names) s).2 = .ok () ∧ s.Referenced) ∧
    ((legacyDrop names s).2 = .ok () → (legacyDrop names s).1 =
      { (step (.dropIndexColumns names) s).1 with seq := s.lastId, fk := true }) ∧
    ((legacyDrop names s).2 ≠ .ok () → (legacyDrop names s).1 = s ∨ (legacyDrop names s).1 = { s with fk := true }) := by
  obtain ⟨m1, m2⟩ := drop_run hs names
  have hd := droppable_iff hs names
  have hiff : (step (.dropIndexColumns names) s).2 = .ok () ↔ s.Droppable names := (C85_success hs names).1
  have he : ({ s with
      cols := s.cols.filter fun c => decide (c ∉ names),
      index := s.index.map (fun r => { r with labels := keepCols s.cols names r.labels }),
      seq := (s.index.map (·.id)).foldr max 0,
      locs := s.locs.map (fun r => { r with labels := keepCols s.cols names r.labels }),
      structs := s.structs.map (fun r => { r with bits := keepCols s.cols names r.bits }) } : Store) =
      { s.dropCols names with seq := s.lastId } := rfl
  have hr : (({ s.dropCols names with seq := s.lastId } : Store).foreignKeyCheck = true) ↔ s.Referenced := by
    rw [← foreignKeyCheck_iff]
    unfold Store.foreignKeyCheck Store.dropCols
    simp only [List.any_map, Function.comp_def]
  have htaken : (takenNames (s.cols.filter fun c => decide (c ∉ names))).Nodup := by
    rw [taken_nodup]
    exact ⟨nodup_filter_map _ hs.colInv.cols, fun c hc => hs.colsFixed c (List.mem_of_mem_filter hc)⟩
  unfold legacyDrop
  by_cases h1 : ∃ c ∈ names, c ∈ reservedNames
  · rw [if_pos h1]
    refine ⟨⟨fun h => (by cases h), fun h => ?_⟩, fun h => (by cases h), fun _ => .inl rfl⟩
    obtain ⟨c, hc, hcr⟩ := h1
    exact absurd hcr ((hd.1 (hiff.1 h.1)).1 c hc)
  rw [if_neg h1]
  by_cases h2 : ∀ c ∈ s.cols, c ∈ names
  · rw [if_pos h2]
    refine ⟨⟨fun h => (by cases h), fun h => ?_⟩, fun h => (by cases h), fun _ => .inl rfl⟩
    obtain ⟨c, hc, hcr⟩ := (hd.1 (hiff.1 h.1)).2.1
    exact absurd (h2 c hc) hcr
  rw [if_neg h2]
  push Not at h1 h2
  have hne : (s.cols.filter fun c => decide (c ∉ names)) ≠ [] := by
    obtain ⟨c, hc, hcn⟩ := h2
    exact List.ne_nil_of_mem (List.mem_filter.2 ⟨hc, by simpa using hcn⟩)
  have hreb : s.rebuilt (s.cols.filter fun c => decide (c ∉ names)) (keepCols s.cols names) =
      if ¬ (({ s.dropCols names with seq := s.lastId } : Store).foreignKeyCheck = true) then
        .error (.runtimeError "foreign key violations")
      else (checkUnique ({ s.dropCols names with seq := s.lastId } : Store)).map (·.2) := by
    unfold Store.rebuilt
    have htaken' := htaken
    unfold takenNames at htaken'
    rw [if_neg hne, if_neg (not_not.2 htaken')]
    rfl
  rw [hreb]
  by_cases h3 : s.Referenced
  swap
  · rw [if_pos (fun h => h3 (hr.1 h))]
    exact ⟨⟨fun h => (by cases h), fun h => absurd h.2 h3⟩, fun h => (by cases h), fun _ => .inr rfl⟩
  rw [if_neg (not_not.2 (hr.2 h3))]
  unfold checkUnique
  rw [get_bind]
  by_cases h4 : s.Droppable names
  · have hu := (hd.1 h4).2.2
    rw [if_neg (fun h => h.2 hu), m1 h4]
    exact ⟨⟨fun _ => ⟨rfl, h3⟩, fun _ => rfl⟩, fun _ => rfl, fun h => absurd rfl h⟩
  · rw [if_pos ⟨hne, fun hu => h4 (hd.2 ⟨h1, h2, hu⟩)⟩]
    obtain ⟨e, he'⟩ := m2 h4
    rw [he']
    exact ⟨⟨fun h => (by cases h), fun h => (by cases h.1)⟩, fun h => (by cases h), fun _ => .inr rfl⟩

/-- While foreign keys are on all references are intact. -/
theorem C88_referenced (s : Store) (hs : Reachable s) (hfk : s.fk = true) : s.Referenced := hs.referenced hfk

example : Demo.store.fk = true ∧ Demo.store.quants ≠ [] ∧ Demo.store.weights ≠ [] ∧ Demo.store.maps ≠ [] := by
  decide +kernel

/-- A dataspace with one column, two records, of which the second one is deleted again. -/
def Demo.gapOps : List Op :=
  [.addIndexColumns [Demo.colA],
   .insertIndex none [] .abort .abort [⟨none, some [Demo.lx], []⟩, ⟨none, some [Demo.ly], []⟩],
   .deleteIndex (.rows [(2, [Demo.ly])])]

/-- The column of a new record in the examples. -/
def Demo.newRecord : Op := .insertIndex none [] .abort .abort [⟨none, some [Demo.l1], []⟩]

/-- C88 fails for the ids of records: ids are never used again, also after the method renamed a column, but after the
helper a new record gets the id of a deleted one. -/
theorem C88_violated_ids : ∃ (s0 s : Store) (mapping : List (PyStr × PyStr)) (op : Op) (i : Nat),
    Reachable s0 ∧ Reachable s ∧ i ∈ s0.index.map (·.id) ∧ i ∉ s.index.map (·.id) ∧ s.seq = s0.seq ∧ s.fk = true ∧
    (step (.renameIndexColumns mapping) s).2 = .ok () ∧ (legacyRename mapping s).2 = .ok () ∧
    (step op (step (.renameIndexColumns mapping) s).1).2 = .ok () ∧
    i ∉ (step op (step (.renameIndexColumns mapping) s).1).1.index.map (·.id) ∧
    (step op (legacyRename mapping s).1).2 = .ok () ∧
    i ∈ (step op (legacyRename mapping s).1).1.index.map (·.id) := by
  refine ⟨run (Demo.gapOps.take 2) (Store.new ['u']), run Demo.gapOps (Store.new ['u']), [(Demo.colA, Demo.colB)],
    Demo.newRecord, 2, ⟨_, _, rfl⟩, ⟨_, _, rfl⟩, ?_⟩
  decide +kernel

/-- C88 fails for names that are no columns: the method refuses them, the helper does nothing and reports success. -/
theorem C88_violated_unknown : ∃ (s : Store) (mapping : List (PyStr × PyStr)), Reachable s ∧
    (∀ p ∈ mapping, p.1 ∉ s.cols) ∧ mapping ≠ [] ∧
    (step (.renameIndexColumns mapping) s).2 ≠ .ok () ∧
    (legacyRename mapping s).2 = .ok () ∧ (legacyRename mapping s).1.cols = s.cols := by
  refine ⟨Demo.store, [(['C'], ['D'])], Demo.reachable, ?_⟩
  decide +kernel

/-- C88 fails for names that are free only after another column was renamed, ignoring case: whether the method accepts
them depends on the order in which they are given, for the helper it does not. -/
theorem C88_violated_order : ∃ (s : Store) (m1 m2 : List (PyStr × PyStr)), Reachable s ∧ m1.Perm m2 ∧
    (step (.renameIndexColumns m1) s).2 ≠ .ok () ∧ (step (.renameIndexColumns m2) s).2 = .ok () ∧
    (legacyRename m1 s).2 = .ok () ∧ (legacyRename m2 s).2 = .ok () ∧
    (legacyRename m1 s).1.cols = (step (.renameIndexColumns m2) s).1.cols := by
  refine ⟨Demo.store, [(Demo.colA, ['b']), (Demo.colB, ['d'])], [(Demo.colB, ['d']), (Demo.colA, ['b'])], Demo.reachable,
    List.Perm.swap _ _ _, ?_⟩
  decide +kernel

/-- C88 fails for a dataspace from which a link was dropped after it was opened from a file: its mappings are left over,
and the helpers refuse what the methods do. -/
theorem C88_violated_dangling : ∃ (s : Store) (mapping : List (PyStr × PyStr)) (names : List PyStr), Reachable s ∧
    ¬ s.Referenced ∧
    (step (.renameIndexColumns mapping) s).2 = .ok () ∧ (legacyRename mapping s).2 ≠ .ok () ∧
    (step (.dropIndexColumns names) s).2 = .ok () ∧ (legacyDrop names s).2 ≠ .ok () := by
  refine ⟨run [.addIndexColumns [Demo.colA, Demo.colB],
    .insertIndex none [] .abort .abort [⟨none, some [Demo.lx, Demo.l1], []⟩],
    .addLink Demo.other ['l'] none [] none none false,
    .insertMappings2 Demo.other none [⟨1, 10, 1, [], some [0xC0#8]⟩], .reopen, .dropLink Demo.other none]
    (Store.new ['u']), [(Demo.colA, ['C'])], [Demo.colB], ⟨_, _, rfl⟩, ?_, ?_⟩
  · rw [← foreignKeyCheck_iff]
    decide +kernel
  · decide +kernel

end Toron.Space
