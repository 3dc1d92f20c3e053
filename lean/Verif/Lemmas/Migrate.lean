/-
Helper lemmas about the migrations.
-/
import Verif.Spec.Migrate
import Verif.Lemmas.Py

namespace Toron.Migrate

open Toron.Selectors (PyStr)
open Toron.Space

/-- Statements one after the other. -/
def runStmts : List Stmt → FileDb → Except Err FileDb
  | [], d => .ok d
  | f :: fs, d => match f d with
    | .ok d' => runStmts fs d'
    | .error e => .error e

theorem runStmts_append (fs gs : List Stmt) (d : FileDb) :
    runStmts (fs ++ gs) d = (match runStmts fs d with
      | .ok d' => runStmts gs d'
      | .error e => .error e) := by
  induction fs generalizing d with
  | nil => rfl
  | cons f fs ih =>
    simp only [List.cons_append, runStmts]
    cases f d with
    | error e => rfl
    | ok d' => exact ih d'

theorem runStmts_cons_ok {f : Stmt} {fs : List Stmt} {d d' : FileDb} :
    runStmts (f :: fs) d = .ok d' ↔ ∃ d1, f d = .ok d1 ∧ runStmts fs d1 = .ok d' := by
  simp only [runStmts]
  cases f d with
  | error e => simp
  | ok d1 => simp

theorem runStmts_nil_ok {d d' : FileDb} : runStmts [] d = .ok d' ↔ d = d' := by
  simp [runStmts]

theorem runStmts_append_ok {fs gs : List Stmt} {d d' : FileDb} :
    runStmts (fs ++ gs) d = .ok d' ↔ ∃ d1, runStmts fs d = .ok d1 ∧ runStmts gs d1 = .ok d' := by
  rw [runStmts_append]
  cases runStmts fs d with
  | error e => simp
  | ok d1 => simp

/-- Statements inside a transaction do not touch the file. -/
theorem runCmds_stmts (fs : List Stmt) (rest : List Cmd) (c : Conn) (d : FileDb) (h : c.tx = some d) :
    (∃ d', runStmts fs d = .ok d' ∧
      runCmds (fs.map .stmt ++ rest) c = runCmds rest { c with tx := some d' }) ∨
    (∃ e c', runStmts fs d = .error e ∧ c'.disk = c.disk ∧
      runCmds (fs.map .stmt ++ rest) c = (c', some e)) := by
  induction fs generalizing c d with
  | nil =>
    refine .inl ⟨d, rfl, ?_⟩
    cases c
    simp only at h
    subst h
    rfl
  | cons f fs ih =>
    simp only [List.map_cons, List.cons_append, runCmds, runStmts, exec, h]
    cases hf : f d with
    | error e => exact .inr ⟨e, c, rfl, rfl, rfl⟩
    | ok d1 =>
      simp only [Except.map]
      exact ih { c with tx := some d1 } d1 rfl

/-- All statements of a migration. -/
def allStmts (v : Version) (whole : List Byte) (now : PyStr) : List Stmt :=
  dropConstraints :: (steps v whole now ++ [verifyRefs, createConstraints])

theorem cmds_eq (v : Version) (whole : List Byte) (now : PyStr) :
    cmds v whole now = .begin :: ((allStmts v whole now).map .stmt ++ [.commit]) := by
  simp [cmds, allStmts]

theorem runCmds_cmds (v : Version) (whole : List Byte) (now : PyStr) (d : FileDb) (fk : Bool) :
    (∃ d', runStmts (allStmts v whole now) d = .ok d' ∧
      runCmds (cmds v whole now) ⟨d, none, fk⟩ = (⟨d', none, fk⟩, none)) ∨
    (∃ e c', runStmts (allStmts v whole now) d = .error e ∧ c'.disk = d ∧
      runCmds (cmds v whole now) ⟨d, none, fk⟩ = (c', some e)) := by
  rw [cmds_eq]
  have h : runCmds (.begin :: ((allStmts v whole now).map Cmd.stmt ++ [.commit])) ⟨d, none, fk⟩ =
      runCmds ((allStmts v whole now).map Cmd.stmt ++ [.commit]) ⟨d, some d, fk⟩ := by
    simp [runCmds, exec]
  rw [h]
  rcases runCmds_stmts (allStmts v whole now) [.commit] ⟨d, some d, fk⟩ d rfl with
    ⟨d', h1, h2⟩ | ⟨e, c', h1, h2, h3⟩
  · refine .inl ⟨d', h1, ?_⟩
    rw [h2]
    simp [runCmds, exec]
  · exact .inr ⟨e, c', h1, h2, h3⟩

/-! ### Single statements -/

theorem if_error_ok {p : Prop} [Decidable p] {e : Err} {a d' : FileDb} :
    (if p then Except.error e else Except.ok a) = Except.ok d' ↔ ¬ p ∧ d' = a := by
  by_cases h : p
  · simp [h]
  · simp [h, eq_comm]

theorem if_ok_error {p : Prop} [Decidable p] {e : Err} {a d' : FileDb} :
    (if p then Except.ok a else Except.error e) = Except.ok d' ↔ p ∧ d' = a := by
  by_cases h : p
  · simp [h, eq_comm]
  · simp [h]

theorem createNewLink_ok {d d' : FileDb} :
    createNewLink d = .ok d' ↔ d.newLink = none ∧ d' = { d with newLink := some [] } := by
  unfold createNewLink
  rw [if_error_ok]
  simp

theorem copyLinks_ok {d d' : FileDb} :
    copyLinks d = .ok d' ↔ ∃ ls old, d.crosswalk = some ls ∧ d.newLink = some old ∧
      linkKeysOk (old ++ ls) = true ∧ d' = { d with newLink := some (old ++ ls) } := by
  unfold copyLinks
  cases d.crosswalk with
  | none => simp
  | some ls => cases d.newLink with
    | none => simp
    | some old => simp [if_ok_error]

theorem dropCrosswalk_ok {d d' : FileDb} :
    dropCrosswalk d = .ok d' ↔ d.crosswalk ≠ none ∧ d' = { d with crosswalk := none } := by
  unfold dropCrosswalk
  rw [if_error_ok]
  simp

theorem renameLink_ok {d d' : FileDb} :
    renameLink d = .ok d' ↔ ∃ ls, d.link = none ∧ d.newLink = some ls ∧
      d' = { d with newLink := none, link := some ls } := by
  unfold renameLink
  cases d.link with
  | some _ => simp
  | none => cases d.newLink with
    | none => simp
    | some ls => simp [eq_comm]

theorem createNewMapping_ok {d d' : FileDb} :
    createNewMapping d = .ok d' ↔ d.newMapping = none ∧ d' = { d with newMapping := some [] } := by
  unfold createNewMapping
  rw [if_error_ok]
  simp

theorem copyMappings_ok {whole : List Byte} {d d' : FileDb} :
    copyMappings whole d = .ok d' ↔ ∃ rs old ms, d.relation = some rs ∧ d.newMapping = some old ∧
      (rs.filter relKept).mapM (relRow whole) = some ms ∧ ms.all mappingCheck = true ∧
      mapKeysOk (old ++ ms) = true ∧ d' = { d with newMapping := some (old ++ ms) } := by
  unfold copyMappings
  cases d.relation with
  | none => simp
  | some rs => cases d.newMapping with
    | none => simp
    | some old =>
      cases h : (rs.filter relKept).mapM (relRow whole) with
      | none => simp [h]
      | some ms => simp [h, if_ok_error, and_assoc]

theorem dropRelation_ok {d d' : FileDb} :
    dropRelation d = .ok d' ↔ d.relation ≠ none ∧ d' = { d with relation := none } := by
  unfold dropRelation
  rw [if_error_ok]
  simp

theorem renameMapping_ok {d d' : FileDb} :
    renameMapping d = .ok d' ↔ ∃ ms, d.mapping = none ∧ d.newMapping = some ms ∧
      d' = { d with newMapping := none, mapping := some ms } := by
  unfold renameMapping
  cases d.mapping with
  | some _ => simp
  | none => cases d.newMapping with
    | none => simp
    | some ls => simp [eq_comm]

theorem createNewQuantity_ok {d d' : FileDb} :
    createNewQuantity d = .ok d' ↔ d.newQuantity = none ∧ d' = { d with newQuantity := some [] } := by
  unfold createNewQuantity
  rw [if_error_ok]
  simp

theorem copyQuantities_ok {d d' : FileDb} :
    copyQuantities d = .ok d' ↔ ∃ qs old rows, d.oldQuantity = some qs ∧ d.newQuantity = some old ∧
      (firsts [] qs).mapM (groupRow qs) = some rows ∧
      d' = { d with newQuantity := some (old ++ rows) } := by
  unfold copyQuantities
  cases d.oldQuantity with
  | none => simp
  | some qs => cases d.newQuantity with
    | none => simp
    | some old =>
      cases h : (firsts [] qs).mapM (groupRow qs) with
      | none => simp [h]
      | some rows => simp [h, eq_comm]

theorem dropQuantity_ok {d d' : FileDb} :
    dropQuantity d = .ok d' ↔ d.oldQuantity ≠ none ∧ d' = { d with oldQuantity := none } := by
  unfold dropQuantity
  rw [if_error_ok]
  simp

theorem renameQuantity_ok {d d' : FileDb} :
    renameQuantity d = .ok d' ↔ ∃ qs, d.quantity = none ∧ d.newQuantity = some qs ∧
      d' = { d with newQuantity := none, quantity := some qs } := by
  unfold renameQuantity
  cases d.quantity with
  | some _ => simp
  | none => cases d.newQuantity with
    | none => simp
    | some ls => simp [eq_comm]

theorem renameLabels_ok {d d' : FileDb} :
    renameLabels d = .ok d' ↔ ∃ t, d.labelIndex = none ∧ d.nodeIndex = some t ∧
      d' = { d with nodeIndex := none, labelIndex := some t } := by
  unfold renameLabels
  cases d.labelIndex with
  | some _ => simp
  | none => cases d.nodeIndex with
    | none => simp
    | some ls => simp [eq_comm]

/-- The domain after step 5. -/
def newDomain : Option Domain → Option Domain
  | some (.obj items) => some (.str (domainText items))
  | x => x

theorem updateDomain_ok {d d' : FileDb} :
    updateDomain d = .ok d' ↔ (∀ s, d.domain ≠ some (.str s)) ∧
      d' = { d with domain := newDomain d.domain } := by
  unfold updateDomain
  cases h : d.domain with
  | none =>
    have : ({ d with domain := newDomain none } : FileDb) = d := by
      cases d
      simp only at h
      subst h
      rfl
    simp only [this]
    simp [eq_comm]
  | some x => cases x with
    | obj items => simp [newDomain, eq_comm]
    | str s => simp

theorem addRegistered_ok {d d' : FileDb} :
    addRegistered d = .ok d' ↔ d.regAttrs = none ∧
      d' = { d with regAttrs := some (attributeKeys d.agroups) } := by
  unfold addRegistered
  rw [if_error_ok]
  simp

/-- The definitions after step 5. -/
def newDefs (categories partDefs : Option (List (Finset PyStr))) : Option (List (Finset PyStr)) :=
  match categories with
  | none => partDefs
  | some c => some c

theorem renameCategories_ok {d d' : FileDb} :
    renameCategories d = .ok d' ↔ (d.categories = none ∨ d.partDefs = none) ∧
      d' = { d with categories := none, partDefs := newDefs d.categories d.partDefs } := by
  unfold renameCategories
  cases h : d.categories with
  | none =>
    have : ({ d with categories := none, partDefs := newDefs none d.partDefs } : FileDb) = d := by
      cases d
      simp only at h
      subst h
      rfl
    simp only [this]
    simp [eq_comm]
  | some c => simp [newDefs, if_error_ok]

theorem setVersion_ok {v : Version} {d d' : FileDb} :
    setVersion v d = .ok d' ↔ d' = { d with version := some v } := by
  simp [setVersion, eq_comm]

theorem addUserProps_ok {d d' : FileDb} :
    addUserProps d = .ok d' ↔ d.userProps = none ∧ d' = { d with userProps := some ['{', '}'] } := by
  unfold addUserProps
  rw [if_error_ok]
  simp

theorem addCreated_ok {now : PyStr} {d d' : FileDb} :
    addCreated now d = .ok d' ↔ d.created = none ∧ d' = { d with created := some now } := by
  unfold addCreated
  rw [if_error_ok]
  simp

theorem dropConstraints_ok {d d' : FileDb} :
    dropConstraints d = .ok d' ↔ d' = { d with constraints := false } := by
  simp [dropConstraints, eq_comm]

theorem verifyRefs_ok {d d' : FileDb} : verifyRefs d = .ok d' ↔ refsOk d = true ∧ d' = d := by
  unfold verifyRefs
  rw [if_ok_error]

theorem createConstraints_ok {d d' : FileDb} :
    createConstraints d = .ok d' ↔ ∃ t, d.labelIndex = some t ∧ labelsUnique t = true ∧
      d' = { d with constraints := true } := by
  unfold createConstraints
  cases d.labelIndex with
  | none => simp
  | some t => simp [if_ok_error]

/-! ### All statements -/

/-- The tables after steps 1 to 5. -/
def after020 (d : FileDb) (t : Labels) (ls : List Link) (ms : List Mapping) (qs : List Quant)
    (now : PyStr) : FileDb :=
  { d with
    crosswalk := none, newLink := none, link := some ls,
    relation := none, newMapping := none, mapping := some ms,
    oldQuantity := none, newQuantity := none, quantity := some qs,
    nodeIndex := none, labelIndex := some t,
    domain := newDomain d.domain, regAttrs := some (attributeKeys d.agroups),
    categories := none, partDefs := newDefs d.categories d.partDefs,
    userProps := some ['{', '}'], created := some now, version := some .v031, constraints := true }

theorem all020_ok {whole : List Byte} {now : PyStr} {d d' : FileDb} :
    runStmts (allStmts .v020 whole now) d = .ok d' ↔
      ∃ t ls rs ms qs rows,
        d.nodeIndex = some t ∧ d.labelIndex = none ∧
        d.crosswalk = some ls ∧ d.newLink = none ∧ d.link = none ∧
        d.relation = some rs ∧ d.newMapping = none ∧ d.mapping = none ∧
        d.oldQuantity = some qs ∧ d.newQuantity = none ∧ d.quantity = none ∧
        (∀ s, d.domain ≠ some (.str s)) ∧ d.regAttrs = none ∧
        (d.categories = none ∨ d.partDefs = none) ∧ d.userProps = none ∧ d.created = none ∧
        linkKeysOk ls = true ∧
        (rs.filter relKept).mapM (relRow whole) = some ms ∧ ms.all mappingCheck = true ∧
        mapKeysOk ms = true ∧
        (firsts [] qs).mapM (groupRow qs) = some rows ∧
        refsOk (after020 d t ls ms rows now) = true ∧ labelsUnique t = true ∧
        d' = after020 d t ls ms rows now := by
  simp only [allStmts, steps, steps020, steps030, List.cons_append, List.nil_append, runStmts_cons_ok,
    runStmts_nil_ok, dropConstraints_ok, createNewLink_ok, copyLinks_ok, dropCrosswalk_ok,
    renameLink_ok, createNewMapping_ok, copyMappings_ok, dropRelation_ok, renameMapping_ok,
    createNewQuantity_ok, copyQuantities_ok, dropQuantity_ok, renameQuantity_ok, renameLabels_ok,
    updateDomain_ok, addRegistered_ok, renameCategories_ok, setVersion_ok, addUserProps_ok,
    addCreated_ok, verifyRefs_ok, createConstraints_ok]
  constructor
  · rintro ⟨_, rfl, _, ⟨h1, rfl⟩, _, ⟨ls, old, h2, h3, h4, rfl⟩, _, ⟨h5, rfl⟩, _, ⟨ls', h6, h7, rfl⟩,
      _, ⟨h8, rfl⟩, _, ⟨rs, old2, ms, h9, h10, h11, h12, h13, rfl⟩, _, ⟨h14, rfl⟩,
      _, ⟨ms', h15, h16, rfl⟩, _, ⟨h17, rfl⟩, _, ⟨qs, old3, rows, h18, h19, h20, rfl⟩, _, ⟨h21, rfl⟩,
      _, ⟨qs', h22, h23, rfl⟩, _, ⟨t, h24, h25, rfl⟩, _, ⟨h26, rfl⟩, _, ⟨h27, rfl⟩, _, ⟨h28, rfl⟩,
      _, rfl, _, ⟨h29, rfl⟩, _, ⟨h30, rfl⟩, _, rfl, _, ⟨h31, rfl⟩, _, ⟨t', h32, h33, rfl⟩, rfl⟩
    simp only [Option.some.injEq] at *
    subst h3 h7 h10 h16 h19 h23 h32
    simp only [List.nil_append] at *
    refine ⟨t, ls, rs, ms, qs, rows, h25, h24, h2, h1, h6, h9, h8, h15, h18, h17, h22, h26, h27, h28, h29,
      h30, h4, h11, h12, h13, h20, ?_, h33, rfl⟩
    exact h31
  · rintro ⟨t, ls, rs, ms, qs, rows, h25, h24, h2, h1, h6, h9, h8, h15, h18, h17, h22, h26, h27, h28, h29,
      h30, h4, h11, h12, h13, h20, h31, h33, rfl⟩
    refine ⟨_, rfl, _, ⟨h1, rfl⟩, _, ⟨ls, [], h2, rfl, h4, rfl⟩, _, ⟨?_, rfl⟩, _, ⟨ls, h6, rfl, rfl⟩,
      _, ⟨h8, rfl⟩, _, ⟨rs, [], ms, h9, rfl, h11, h12, h13, rfl⟩, _, ⟨?_, rfl⟩,
      _, ⟨ms, h15, rfl, rfl⟩, _, ⟨h17, rfl⟩, _, ⟨qs, [], rows, h18, rfl, h20, rfl⟩, _, ⟨?_, rfl⟩,
      _, ⟨rows, h22, rfl, rfl⟩, _, ⟨t, h24, h25, rfl⟩, _, ⟨h26, rfl⟩, _, ⟨h27, rfl⟩, _, ⟨h28, rfl⟩,
      _, rfl, _, ⟨h29, rfl⟩, _, ⟨h30, rfl⟩, _, rfl, _, ⟨h31, rfl⟩, _, ⟨t, rfl, h33, rfl⟩, rfl⟩
    · simp [h2]
    · simp [h9]
    · simp [h18]

/-- The tables after the step for 0.3.0. -/
def after030 (d : FileDb) (now : PyStr) : FileDb :=
  { d with userProps := some ['{', '}'], created := some now, version := some .v031, constraints := true }

theorem all030_ok {whole : List Byte} {now : PyStr} {d d' : FileDb} :
    runStmts (allStmts .v030 whole now) d = .ok d' ↔
      ∃ t, d.labelIndex = some t ∧ d.userProps = none ∧ d.created = none ∧ refsOk d = true ∧
        labelsUnique t = true ∧ d' = after030 d now := by
  simp only [allStmts, steps, steps030, List.cons_append, List.nil_append, runStmts_cons_ok,
    runStmts_nil_ok, dropConstraints_ok, setVersion_ok, addUserProps_ok,
    addCreated_ok, verifyRefs_ok, createConstraints_ok]
  constructor
  · rintro ⟨_, rfl, _, ⟨h1, rfl⟩, _, ⟨h2, rfl⟩, _, rfl, _, ⟨h3, rfl⟩, _, ⟨t, h4, h5, rfl⟩, rfl⟩
    exact ⟨t, h4, h1, h2, h3, h5, rfl⟩
  · rintro ⟨t, h4, h1, h2, h3, h5, rfl⟩
    exact ⟨_, rfl, _, ⟨h1, rfl⟩, _, ⟨h2, rfl⟩, _, rfl, _, ⟨h3, rfl⟩, _, ⟨t, h4, h5, rfl⟩, rfl⟩

theorem allOther_ok {x : PyStr} {whole : List Byte} {now : PyStr} {d d' : FileDb} :
    runStmts (allStmts (.other x) whole now) d = .ok d' ↔
      ∃ t, d.labelIndex = some t ∧ refsOk d = true ∧ labelsUnique t = true ∧
        d' = { d with constraints := true } := by
  simp only [allStmts, steps, List.nil_append, runStmts_cons_ok,
    runStmts_nil_ok, dropConstraints_ok, verifyRefs_ok, createConstraints_ok]
  constructor
  · rintro ⟨_, rfl, _, ⟨h3, rfl⟩, _, ⟨t, h4, h5, rfl⟩, rfl⟩
    exact ⟨t, h4, h3, h5, rfl⟩
  · rintro ⟨t, h4, h3, h5, rfl⟩
    exact ⟨_, rfl, _, ⟨h3, rfl⟩, _, ⟨t, h4, h5, rfl⟩, rfl⟩

/-! ### Lists -/

theorem mapM_some {α β : Type} {f : α → Option β} {l : List α} {l' : List β} (h : l.mapM f = some l') :
    l.map f = l'.map some := by
  induction l generalizing l' with
  | nil =>
    simp only [List.mapM_nil] at h
    cases h
    rfl
  | cons x xs ih =>
    rw [List.mapM_cons] at h
    cases hx : f x with
    | none => simp [hx] at h
    | some y => cases hxs : xs.mapM f with
      | none => simp [hx, hxs] at h
      | some ys =>
        simp [hx, hxs] at h
        subst h
        simp [hx, ih hxs]

theorem some_mapM {α β : Type} {f : α → Option β} {l : List α} (h : ∀ a ∈ l, f a ≠ none) :
    ∃ l', l.mapM f = some l' := by
  induction l with
  | nil => exact ⟨[], rfl⟩
  | cons x xs ih =>
    obtain ⟨ys, hys⟩ := ih fun a ha => h a (List.mem_cons_of_mem _ ha)
    obtain ⟨y, hy⟩ := Option.ne_none_iff_exists'.1 (h x List.mem_cons_self)
    exact ⟨y :: ys, by rw [List.mapM_cons]; simp [hy, hys]⟩

/-- The columns that make a group. -/
def OldQuant.key (q : OldQuant) : Option Nat × Option Nat := (q.loc, q.ag)

theorem key_beq (x q : OldQuant) : (x.loc == q.loc && x.ag == q.ag) = decide (x.key = q.key) := by
  rw [Bool.eq_iff_iff]
  simp [OldQuant.key]

theorem firsts_mem {seen qs : List OldQuant} {q : OldQuant} (h : q ∈ firsts seen qs) :
    q ∈ qs ∧ ∀ x ∈ seen, x.key ≠ q.key := by
  induction qs generalizing seen with
  | nil => simp [firsts] at h
  | cons y ys ih =>
    unfold firsts at h
    by_cases hs : (seen.any fun x => x.loc == y.loc && x.ag == y.ag) = true
    · rw [if_pos hs] at h
      obtain ⟨h1, h2⟩ := ih h
      exact ⟨List.mem_cons_of_mem _ h1, h2⟩
    · rw [if_neg hs] at h
      rcases List.mem_cons.1 h with rfl | h
      · refine ⟨List.mem_cons_self, fun x hx hk => hs ?_⟩
        rw [List.any_eq_true]
        exact ⟨x, hx, by rw [key_beq]; exact decide_eq_true hk⟩
      · obtain ⟨h1, h2⟩ := ih h
        exact ⟨List.mem_cons_of_mem _ h1, fun x hx => h2 x (List.mem_cons_of_mem _ hx)⟩

theorem firsts_nodup (seen qs : List OldQuant) : ((firsts seen qs).map OldQuant.key).Nodup := by
  induction qs generalizing seen with
  | nil => simp [firsts]
  | cons y ys ih =>
    unfold firsts
    by_cases hs : (seen.any fun x => x.loc == y.loc && x.ag == y.ag) = true
    · rw [if_pos hs]
      exact ih seen
    · rw [if_neg hs, List.map_cons, List.nodup_cons]
      refine ⟨?_, ih _⟩
      intro hm
      obtain ⟨x, hx, hk⟩ := List.mem_map.1 hm
      exact (firsts_mem hx).2 y List.mem_cons_self hk.symm

theorem firsts_cover {seen qs : List OldQuant} {q : OldQuant} (h : q ∈ qs) :
    (∃ x ∈ seen, x.key = q.key) ∨ ∃ x ∈ firsts seen qs, x.key = q.key := by
  induction qs generalizing seen with
  | nil => simp at h
  | cons y ys ih =>
    unfold firsts
    by_cases hs : (seen.any fun x => x.loc == y.loc && x.ag == y.ag) = true
    · rw [if_pos hs]
      rcases List.mem_cons.1 h with rfl | h
      · rw [List.any_eq_true] at hs
        obtain ⟨x, hx, hk⟩ := hs
        rw [key_beq] at hk
        exact .inl ⟨x, hx, of_decide_eq_true hk⟩
      · exact ih h
    · rw [if_neg hs]
      rcases List.mem_cons.1 h with rfl | h
      · exact .inr ⟨q, List.mem_cons_self, rfl⟩
      · rcases ih (seen := y :: seen) h with ⟨x, hx, hk⟩ | ⟨x, hx, hk⟩
        · rcases List.mem_cons.1 hx with rfl | hx
          · exact .inr ⟨x, List.mem_cons_self, hk⟩
          · exact .inl ⟨x, hx, hk⟩
        · exact .inr ⟨x, List.mem_cons_of_mem _ hx, hk⟩

theorem groupRow_some {qs : List OldQuant} {q : OldQuant} {r : Quant} (h : groupRow qs q = some r) :
    q.key = (some r.loc, some r.ag) ∧ r.value = Spec.oldTotal qs r.loc r.ag ∧
      r.id = minId q (sameGroup qs q) := by
  unfold groupRow at h
  cases hl : q.loc with
  | none => simp [hl] at h
  | some l => cases ha : q.ag with
    | none => simp [hl, ha] at h
    | some a =>
      simp only [hl, ha, Option.some.injEq] at h
      subst h
      refine ⟨by simp [OldQuant.key, hl, ha], ?_, rfl⟩
      simp only [Spec.oldTotal, sameGroup, hl, ha]
      congr 3
      funext x
      rw [Bool.eq_iff_iff]
      simp

theorem keys_of_rows {qs : List OldQuant} {L : List OldQuant} {rows : List Quant}
    (h : L.map (groupRow qs) = rows.map some) :
    L.map OldQuant.key = rows.map fun r => (some r.loc, some r.ag) := by
  induction L generalizing rows with
  | nil => cases rows with
    | nil => rfl
    | cons _ _ => simp at h
  | cons x L ih => cases rows with
    | nil => simp at h
    | cons r rows =>
      simp only [List.map_cons, List.cons.injEq] at h
      simp only [List.map_cons, (groupRow_some h.1).1, ih h.2]

theorem newTotal_rows {qs : List OldQuant} {L : List OldQuant} {rows : List Quant}
    (h : L.map (groupRow qs) = rows.map some) (hn : (L.map OldQuant.key).Nodup) (l a : Nat) :
    Spec.newTotal rows l a =
      if (some l, some a) ∈ L.map OldQuant.key then Spec.oldTotal qs l a else 0 := by
  induction L generalizing rows with
  | nil =>
    cases rows with
    | nil => simp [Spec.newTotal]
    | cons _ _ => simp at h
  | cons q L ih =>
    cases rows with
    | nil => simp at h
    | cons r rows =>
      simp only [List.map_cons, List.cons.injEq] at h
      rw [List.map_cons, List.nodup_cons] at hn
      obtain ⟨hk, hv, -⟩ := groupRow_some h.1
      have ih := ih h.2 hn.2
      have hcons : Spec.newTotal (r :: rows) l a =
          (if r.loc = l ∧ r.ag = a then r.value else 0) + Spec.newTotal rows l a := by
        unfold Spec.newTotal
        by_cases hc : r.loc = l ∧ r.ag = a
        · simp [hc]
        · rw [if_neg hc, List.filter_cons_of_neg (by simpa using hc), zero_add]
      rw [hcons, ih]
      by_cases hc : r.loc = l ∧ r.ag = a
      · obtain ⟨rfl, rfl⟩ := hc
        have hnot : (some r.loc, some r.ag) ∉ L.map OldQuant.key := by rw [← hk]; exact hn.1
        rw [if_pos ⟨rfl, rfl⟩, if_neg hnot, if_pos (by rw [List.map_cons, hk]; exact List.mem_cons_self), hv,
          add_zero]
      · rw [if_neg hc, zero_add]
        have : (some l, some a) ≠ q.key := by
          rw [hk]
          intro he
          simp only [Prod.mk.injEq, Option.some.injEq] at he
          exact hc ⟨he.1.symm, he.2.symm⟩
        simp only [List.map_cons, List.mem_cons, this, false_or]

theorem oldTotal_zero {qs : List OldQuant} {l a : Nat} (h : ∀ q ∈ qs, q.key ≠ (some l, some a)) :
    Spec.oldTotal qs l a = 0 := by
  unfold Spec.oldTotal
  rw [List.filter_eq_nil_iff.2]
  · rfl
  · intro q hq
    have := h q hq
    simp only [OldQuant.key, ne_eq, Prod.mk.injEq] at this
    simpa using this

theorem minId_le (q : OldQuant) (g : List OldQuant) :
    minId q g ≤ q.id ∧ (∀ x ∈ g, minId q g ≤ x.id) ∧ (minId q g = q.id ∨ ∃ x ∈ g, minId q g = x.id) := by
  unfold minId
  suffices H : ∀ n : Nat, g.foldl (fun n x => min n x.id) n ≤ n ∧
      (∀ x ∈ g, g.foldl (fun n x => min n x.id) n ≤ x.id) ∧
      (g.foldl (fun n x => min n x.id) n = n ∨ ∃ x ∈ g, g.foldl (fun n x => min n x.id) n = x.id) from H q.id
  intro n
  induction g generalizing n with
  | nil => simp
  | cons y ys ih =>
    obtain ⟨h1, h2, h3⟩ := ih (min n y.id)
    simp only [List.foldl_cons]
    refine ⟨h1.trans (min_le_left _ _), ?_, ?_⟩
    · intro x hx
      rcases List.mem_cons.1 hx with rfl | hx
      · exact h1.trans (min_le_right _ _)
      · exact h2 x hx
    · rcases h3 with h3 | ⟨x, hx, h3⟩
      · rcases le_total n y.id with hle | hle
        · left; rw [h3, min_eq_left hle]
        · right; exact ⟨y, List.mem_cons_self, by rw [h3, min_eq_right hle]⟩
      · exact .inr ⟨x, List.mem_cons_of_mem _ hx, h3⟩

theorem mem_sameGroup {qs : List OldQuant} {q x : OldQuant} :
    x ∈ sameGroup qs q ↔ x ∈ qs ∧ x.key = q.key := by
  unfold sameGroup
  rw [List.mem_filter, key_beq, decide_eq_true_iff]

theorem relKept_iff (r : OldRel) : relKept r = decide (¬ Spec.MapsNothing r) := by
  rw [Bool.eq_iff_iff, decide_eq_true_iff]
  unfold relKept Spec.MapsNothing
  cases hi : r.index with
  | none => by_cases h : r.other = 0 <;> simp [h]
  | some i => by_cases h : r.other = 0 <;> by_cases h' : i = 0 <;> simp [h, h']

theorem relRow_some {whole : List Byte} {r : OldRel} {m : Mapping} (h : relRow whole r = some m) :
    Spec.asOld m = Spec.filled whole r := by
  unfold relRow at h
  cases hl : r.link with
  | none => simp [hl] at h
  | some l => cases hi : r.index with
    | none => simp [hl, hi] at h
    | some i =>
      simp only [hl, hi, Option.some.injEq] at h
      subst h
      simp [Spec.asOld, Spec.filled, hl, hi]

theorem relRows_some {whole : List Byte} {rs : List OldRel} {ms : List Mapping}
    (h : rs.map (relRow whole) = ms.map some) : ms.map Spec.asOld = rs.map (Spec.filled whole) := by
  induction rs generalizing ms with
  | nil => cases ms with
    | nil => rfl
    | cons _ _ => simp at h
  | cons r rs ih => cases ms with
    | nil => simp at h
    | cons m ms =>
      simp only [List.map_cons, List.cons.injEq] at h
      simp only [List.map_cons, relRow_some h.1, ih h.2]

end Toron.Migrate
