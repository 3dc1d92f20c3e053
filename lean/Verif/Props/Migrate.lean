/-
C45: opening a file of an older version keeps what is stored in it.
-/
import Verif.Lemmas.Migrate

namespace Toron.Migrate

open Toron.Selectors (PyStr)
open Toron.Space

/-- A migration that succeeds outside a transaction ran all its statements. -/
theorem applied {c c' : Conn} {ro : Bool} {now : PyStr} {v : Version} (hv : c.disk.version = some v)
    (h31 : v ≠ .v031) (htx : c.tx = none) (h : applyMigrations c ro now = (c', .ok ())) :
    ro = false ∧ c'.tx = none ∧ c'.fk = true ∧
      runStmts (allStmts v (wholeLevel c.disk) now) c.disk = .ok c'.disk := by
  obtain ⟨disk, tx, fk⟩ := c
  simp only at hv htx
  subst htx
  unfold applyMigrations at h
  simp only [Option.getD_none, hv] at h
  cases v with
  | v031 => exact absurd rfl h31
  | v020 =>
    cases ro with
    | true => simp at h
    | false =>
      rcases runCmds_cmds .v020 (wholeLevel disk) now disk false with ⟨d', h1, h2⟩ | ⟨e, c2, h1, h2, h3⟩
      · simp [h2] at h
        subst h
        exact ⟨rfl, rfl, rfl, h1⟩
      · simp [h3] at h
  | v030 =>
    cases ro with
    | true => simp at h
    | false =>
      rcases runCmds_cmds .v030 (wholeLevel disk) now disk false with ⟨d', h1, h2⟩ | ⟨e, c2, h1, h2, h3⟩
      · simp [h2] at h
        subst h
        exact ⟨rfl, rfl, rfl, h1⟩
      · simp [h3] at h
  | other x =>
    cases ro with
    | true => simp at h
    | false =>
      rcases runCmds_cmds (.other x) (wholeLevel disk) now disk false with
        ⟨d', h1, h2⟩ | ⟨e, c2, h1, h2, h3⟩
      · simp [h2] at h
        subst h
        exact ⟨rfl, rfl, rfl, h1⟩
      · simp [h3] at h

/-- A migration whose statements all succeed. -/
theorem apply_of_ok {d d' : FileDb} {fk : Bool} {now : PyStr} {v : Version} (hv : d.version = some v)
    (h31 : v ≠ .v031) (h : runStmts (allStmts v (wholeLevel d) now) d = .ok d') :
    applyMigrations ⟨d, none, fk⟩ false now = (⟨d', none, true⟩, .ok ()) := by
  have hr : runCmds (cmds v (wholeLevel d) now) ⟨d, none, false⟩ = (⟨d', none, false⟩, none) := by
    rcases runCmds_cmds v (wholeLevel d) now d false with ⟨d2, h1, h2⟩ | ⟨e, c2, h1, h2, h3⟩
    · rw [h] at h1
      cases h1
      exact h2
    · rw [h] at h1
      cases h1
  unfold applyMigrations
  simp only [Option.getD_none, hv]
  cases v with
  | v031 => exact absurd rfl h31
  | v020 => simp [hr]
  | v030 => simp [hr]
  | other x => simp [hr]

/-! ### What is kept -/

/-- **C45, totals.** Opening a file of schema 0.2.0 keeps the total of every pair of a location and an
attribute group; afterwards every pair that had a value has exactly one row, and no other pair has one. The row
has the smallest of the old row numbers. (A text in the old value column counts as the number that
SQLite makes of it, see `C45_text_values_are_lost`.) -/
theorem C45_totals (c c' : Conn) (ro : Bool) (now : PyStr) (qs : List OldQuant)
    (hv : c.disk.version = some .v020) (htx : c.tx = none) (hq : c.disk.oldQuantity = some qs)
    (h : applyMigrations c ro now = (c', .ok ())) :
    ∃ qs', c'.disk.quantity = some qs' ∧
      (∀ loc ag, Spec.newTotal qs' loc ag = Spec.oldTotal qs loc ag) ∧
      (qs'.map fun q => (q.loc, q.ag)).Nodup ∧
      (∀ loc ag, (∃ q ∈ qs', q.loc = loc ∧ q.ag = ag) ↔ ∃ q ∈ qs, q.loc = some loc ∧ q.ag = some ag) ∧
      (∀ q ∈ qs', ∃ x ∈ qs, x.id = q.id ∧ x.loc = some q.loc ∧ x.ag = some q.ag ∧
        ∀ y ∈ qs, y.loc = some q.loc → y.ag = some q.ag → q.id ≤ y.id) ∧
      (∀ q ∈ qs, q.loc ≠ none ∧ q.ag ≠ none) := by
  obtain ⟨-, -, -, hr⟩ := applied hv (by simp) htx h
  obtain ⟨t, ls, rs, ms, qs2, rows, -, -, -, -, -, -, -, -, hq2, -, -, -, -, -, -, -, -, -, -, -, hrows, -, -, hd⟩ :=
    all020_ok.1 hr
  rw [hq] at hq2
  cases hq2
  have hmap := mapM_some hrows
  have hnd := firsts_nodup [] qs
  have hcov : ∀ q ∈ qs, ∃ x ∈ firsts [] qs, x.key = q.key := fun q hq => by
    rcases firsts_cover (seen := []) hq with ⟨x, hx, -⟩ | hx
    · simp at hx
    · exact hx
  -- every first row gives a row, and every row comes from one
  have hrow : ∀ x ∈ firsts [] qs, ∃ r ∈ rows, groupRow qs x = some r := fun x hx => by
    have : groupRow qs x ∈ (firsts [] qs).map (groupRow qs) := List.mem_map_of_mem hx
    rw [hmap] at this
    obtain ⟨r, hr, he⟩ := List.mem_map.1 this
    exact ⟨r, hr, he.symm⟩
  have hfirst : ∀ r ∈ rows, ∃ x ∈ firsts [] qs, groupRow qs x = some r := fun r hr => by
    have : some r ∈ rows.map some := List.mem_map_of_mem hr
    rw [← hmap] at this
    obtain ⟨x, hx, he⟩ := List.mem_map.1 this
    exact ⟨x, hx, he⟩
  have hkeys : (firsts [] qs).map OldQuant.key = rows.map fun r => (some r.loc, some r.ag) :=
    keys_of_rows hmap
  refine ⟨rows, by rw [hd]; rfl, ?_, ?_, ?_, ?_, ?_⟩
  · intro l a
    rw [newTotal_rows hmap hnd]
    by_cases hm : (some l, some a) ∈ (firsts [] qs).map OldQuant.key
    · rw [if_pos hm]
    · rw [if_neg hm, oldTotal_zero]
      intro q hq hk
      obtain ⟨x, hx, hxk⟩ := hcov q hq
      exact hm (List.mem_map.2 ⟨x, hx, hxk.trans hk⟩)
  · rw [hkeys] at hnd
    have : (rows.map fun r => (some r.loc, some r.ag)) =
        (rows.map fun q => (q.loc, q.ag)).map fun p => (some p.1, some p.2) := by
      rw [List.map_map]; rfl
    rw [this] at hnd
    exact hnd.of_map _
  · intro l a
    constructor
    · rintro ⟨r, hr, rfl, rfl⟩
      obtain ⟨x, hx, he⟩ := hfirst r hr
      have hk := (groupRow_some he).1
      simp only [OldQuant.key, Prod.mk.injEq] at hk
      exact ⟨x, (firsts_mem hx).1, hk⟩
    · rintro ⟨q, hq, hl, ha⟩
      obtain ⟨x, hx, hk⟩ := hcov q hq
      obtain ⟨r, hr, he⟩ := hrow x hx
      have hk2 := (groupRow_some he).1
      rw [hk] at hk2
      simp only [OldQuant.key, hl, ha, Prod.mk.injEq, Option.some.injEq] at hk2
      exact ⟨r, hr, hk2.1.symm, hk2.2.symm⟩
  · intro r hr
    obtain ⟨x, hx, he⟩ := hfirst r hr
    obtain ⟨hk, -, hid⟩ := groupRow_some he
    obtain ⟨h1, h2, h3⟩ := minId_le x (sameGroup qs x)
    rw [← hid] at h1 h2 h3
    obtain ⟨y, hy, hyid, hyk⟩ : ∃ y ∈ qs, y.id = r.id ∧ y.key = x.key := by
      rcases h3 with h3 | ⟨y, hy, h3⟩
      · exact ⟨x, (firsts_mem hx).1, h3.symm, rfl⟩
      · exact ⟨y, (mem_sameGroup.1 hy).1, h3.symm, (mem_sameGroup.1 hy).2⟩
    rw [hk] at hyk
    simp only [OldQuant.key, Prod.mk.injEq] at hyk
    refine ⟨y, hy, hyid, hyk.1, hyk.2, fun z hz hl ha => h2 z (mem_sameGroup.2 ⟨hz, ?_⟩)⟩
    rw [hk, OldQuant.key, hl, ha]
  · intro q hq
    obtain ⟨x, hx, hk⟩ := hcov q hq
    obtain ⟨r, hr, he⟩ := hrow x hx
    have hk2 := (groupRow_some he).1
    rw [hk] at hk2
    simp only [OldQuant.key, Prod.mk.injEq] at hk2
    simp [hk2]

/-- **C45, mappings.** Opening a file of schema 0.2.0 keeps, in the same order and with the same row
numbers, links, values and proportions, all mappings except those from nothing to nothing; a missing level becomes the
level with one flag for every label column. -/
theorem C45_mappings (c c' : Conn) (ro : Bool) (now : PyStr) (t : Labels) (rels : List OldRel)
    (hv : c.disk.version = some .v020) (htx : c.tx = none) (ht : c.disk.nodeIndex = some t)
    (hr : c.disk.relation = some rels) (h : applyMigrations c ro now = (c', .ok ())) :
    ∃ ms, c'.disk.mapping = some ms ∧
      ms.map Spec.asOld = (rels.filter fun r => ¬ Spec.MapsNothing r).map
        (Spec.filled (BitFlags.ofBits (List.replicate t.cols.length true)).bytes) := by
  obtain ⟨-, -, -, hrun⟩ := applied hv (by simp) htx h
  obtain ⟨t', ls, rs, ms, qs2, rows, ht', -, -, -, -, hrs, -, -, -, -, -, -, -, -, -, -, -, hms, -, -, -, -, -, hd⟩ :=
    all020_ok.1 hrun
  rw [hr] at hrs
  cases hrs
  rw [ht] at ht'
  cases ht'
  refine ⟨ms, by rw [hd]; rfl, ?_⟩
  have hw : wholeLevel c.disk = (BitFlags.ofBits (List.replicate t.cols.length true)).bytes := by
    simp [wholeLevel, ht, fullLevel]
  have hk : (fun r : OldRel => decide (¬ Spec.MapsNothing r)) = relKept := by
    funext r
    exact (relKept_iff r).symm
  rw [← hw, hk]
  exact relRows_some (mapM_some hms)

/-- **C45, everything else.** Opening a file of schema 0.2.0 keeps all index records, locations and
structures, all links, weight groups, weights and attribute groups, the fingerprint, the identity and the other
properties; the partition definitions are the former discrete categories; the old tables are gone. -/
theorem C45_tables (c c' : Conn) (ro : Bool) (now : PyStr)
    (hv : c.disk.version = some .v020) (htx : c.tx = none)
    (h : applyMigrations c ro now = (c', .ok ())) :
    c'.disk.version = some .v031 ∧ c'.disk.constraints = true ∧
    c'.disk.labelIndex = c.disk.nodeIndex ∧ c'.disk.labelIndex ≠ none ∧
    c'.disk.link = c.disk.crosswalk ∧ c'.disk.link ≠ none ∧
    Spec.SameRest c.disk c'.disk ∧
    (∀ defs, c.disk.categories = some defs → c'.disk.partDefs = some defs) ∧
    (c.disk.categories = none → c'.disk.partDefs = c.disk.partDefs) ∧
    (c'.disk.nodeIndex = none ∧ c'.disk.crosswalk = none ∧ c'.disk.newLink = none ∧
      c'.disk.relation = none ∧ c'.disk.newMapping = none ∧ c'.disk.oldQuantity = none ∧
      c'.disk.newQuantity = none ∧ c'.disk.categories = none) := by
  obtain ⟨-, -, -, hrun⟩ := applied hv (by simp) htx h
  obtain ⟨t', ls, rs, ms, qs2, rows, ht', -, hls, -, -, -, -, -, -, -, -, -, -, -, -, -, -, -, -, -, -, -, -, hd⟩ :=
    all020_ok.1 hrun
  rw [hd]
  refine ⟨rfl, rfl, ht'.symm, by simp [after020], hls.symm, by simp [after020], ⟨rfl, rfl, rfl, rfl, rfl, rfl, rfl⟩,
    ?_, ?_, rfl, rfl, rfl, rfl, rfl, rfl, rfl, rfl⟩
  · intro defs hdefs
    simp [after020, newDefs, hdefs]
  · intro hn
    simp [after020, newDefs, hn]

/-- **C45, attributes.** Afterwards the registered attributes are the attribute names in use, in
dictionary order, each one once. -/
theorem C45_attributes (c c' : Conn) (ro : Bool) (now : PyStr)
    (hv : c.disk.version = some .v020) (htx : c.tx = none)
    (h : applyMigrations c ro now = (c', .ok ())) :
    ∃ names, c'.disk.regAttrs = some names ∧ Spec.SortedOnce names ∧
      ∀ n, n ∈ names ↔ ∃ g ∈ c.disk.agroups, ∃ v, (n, v) ∈ g.attrs := by
  obtain ⟨-, -, -, hrun⟩ := applied hv (by simp) htx h
  obtain ⟨t', ls, rs, ms, qs2, rows, -, -, -, -, -, -, -, -, -, -, -, -, -, -, -, -, -, -, -, -, -, -, -, hd⟩ :=
    all020_ok.1 hrun
  refine ⟨attributeKeys c.disk.agroups, by rw [hd]; rfl, ?_, ?_⟩
  · unfold Spec.SortedOnce attributeKeys
    have hle := sortedBy_pairwise (fun x y : PyStr => decide (x.map Char.toNat ≤ y.map Char.toNat))
      (fun a b c hab hbc => by
        simp only [decide_eq_true_eq] at *
        exact List.le_trans hab hbc)
      (fun a b => by
        simp only [decide_eq_true_eq]
        exact List.le_total _ _)
      ((c.disk.agroups.flatMap fun g => g.attrs.map (·.1)).dedup)
    have hnd : (sortedBy (fun x y : PyStr => decide (x.map Char.toNat ≤ y.map Char.toNat))
        ((c.disk.agroups.flatMap fun g => g.attrs.map (·.1)).dedup)).Nodup :=
      (sortedBy_perm _ _).nodup_iff.2 (List.nodup_dedup _)
    refine (hle.and hnd).imp ?_
    rintro a b ⟨h1, h2⟩
    by_contra hn
    refine h2 (List.map_injective_iff.2 (fun x y hxy => Char.toNat_inj.1 hxy) ?_)
    exact List.le_antisymm (of_decide_eq_true h1) (List.not_lt.1 hn)
  · intro n
    unfold attributeKeys
    rw [(sortedBy_perm _ _).mem_iff, List.mem_dedup, List.mem_flatMap]
    constructor
    · rintro ⟨g, hg, hn⟩
      obtain ⟨kv, hkv, rfl⟩ := List.mem_map.1 hn
      exact ⟨g, hg, kv.2, hkv⟩
    · rintro ⟨g, hg, v, hv⟩
      exact ⟨g, hg, List.mem_map.2 ⟨(n, v), hv, rfl⟩⟩

/-- **C45, domain.** A domain that consists of the single entry `domain` keeps its text, a file without
domain stays without one, and a file whose domain is not an object is not migrated. -/
theorem C45_domain (c c' : Conn) (ro : Bool) (now : PyStr)
    (hv : c.disk.version = some .v020) (htx : c.tx = none)
    (h : applyMigrations c ro now = (c', .ok ())) :
    (∀ text, c.disk.domain = some (.obj [("domain".toList, text)]) → c'.disk.domain = some (.str text)) ∧
    (∀ k text, k ≠ "domain".toList → c.disk.domain = some (.obj [(k, text)]) →
      c'.disk.domain = some (.str (k ++ "_".toList ++ text))) ∧
    (c.disk.domain = none → c'.disk.domain = none) ∧
    (∀ text, c.disk.domain ≠ some (.str text)) := by
  obtain ⟨-, -, -, hrun⟩ := applied hv (by simp) htx h
  obtain ⟨t', ls, rs, ms, qs2, rows, -, -, -, -, -, -, -, -, -, -, -, hdom, -, -, -, -, -, -, -, -, -, -, -, hd⟩ :=
    all020_ok.1 hrun
  have hkey : "domain".toList = domainKey := by decide
  rw [hd]
  refine ⟨fun text ht => ?_, fun k text hk ht => ?_, fun hn => ?_, hdom⟩
  · simp [after020, ht, newDomain, domainText, hkey]
  · rw [hkey] at hk
    simp [after020, ht, newDomain, domainText, hk]
  · simp [after020, hn, newDomain]

/-- **C45, schema 0.3.0.** Opening a file of schema 0.3.0 keeps all its tables and properties; it only adds
empty user properties and the date, and sets the version. -/
theorem C45_v030 (c c' : Conn) (ro : Bool) (now : PyStr)
    (hv : c.disk.version = some .v030) (htx : c.tx = none)
    (h : applyMigrations c ro now = (c', .ok ())) :
    c'.disk = { c.disk with userProps := some "{}".toList, created := some now, version := some .v031,
                            constraints := true } := by
  obtain ⟨-, -, -, hrun⟩ := applied hv (by simp) htx h
  obtain ⟨t, -, -, -, -, -, hd⟩ := all030_ok.1 hrun
  have : "{}".toList = ['{', '}'] := by decide
  rw [hd, this]
  rfl

/-! ### All or nothing -/

/-- **C45, failure.** If opening an older file fails, whatever the reason, nothing in the file has changed
and no transaction is left open. -/
theorem C45_failed (c c' : Conn) (ro : Bool) (now : PyStr) (e : Err)
    (h : applyMigrations c ro now = (c', .error e)) : c'.disk = c.disk ∧ c'.tx = c.tx := by
  obtain ⟨disk, tx, fk⟩ := c
  have main : ∀ v, tx = none → (match runCmds (cmds v (wholeLevel disk) now) ⟨disk, tx, false⟩ with
      | (c', none) => (({ c' with fk := true } : Conn), (Except.ok () : Except Err Unit))
      | (c', some e) => ({ c' with tx := none, fk := true }, .error e)) = (c', .error e) →
      c'.disk = disk ∧ c'.tx = tx := by
    rintro v rfl hm
    rcases runCmds_cmds v (wholeLevel disk) now disk false with ⟨d', h1, h2⟩ | ⟨e, c2, h1, h2, h3⟩
    · simp [h2] at hm
    · simp [h3] at hm
      rw [← hm.1]
      exact ⟨h2, rfl⟩
  unfold applyMigrations at h
  split at h
  · cases h; exact ⟨rfl, rfl⟩
  · cases h
  · split at h
    · cases h; exact ⟨rfl, rfl⟩
    · split at h
      · cases h; exact ⟨rfl, rfl⟩
      · rename_i htx
        exact main _ (by simpa using htx) h

/-- **C45, crashes.** At whatever command of the migration the program or the machine stops, the file is
either the old one or the completely migrated one. -/
theorem C45_crash (d : FileDb) (fk ro : Bool) (now : PyStr) (k : Nat) :
    diskAfterCrash d fk ro now k = d ∨
      ∃ c', applyMigrations ⟨d, none, fk⟩ ro now = (c', .ok ()) ∧
        diskAfterCrash d fk ro now k = c'.disk := by
  have main : ∀ v, v ≠ .v031 → d.version = some v →
      (runCmds ((cmds v (wholeLevel d) now).take k) ⟨d, none, fk⟩).1.disk = d ∨
      ∃ c', applyMigrations ⟨d, none, fk⟩ false now = (c', .ok ()) ∧
        (runCmds ((cmds v (wholeLevel d) now).take k) ⟨d, none, fk⟩).1.disk = c'.disk := by
    intro v h31 hv
    rw [cmds_eq]
    generalize hA : allStmts v (wholeLevel d) now = A
    cases k with
    | zero => left; rfl
    | succ k =>
      rw [List.take_succ_cons]
      have hb : ∀ rest, runCmds (.begin :: rest) ⟨d, none, fk⟩ = runCmds rest ⟨d, some d, fk⟩ := by
        intro rest
        simp [runCmds, exec]
      rw [hb]
      by_cases hk : k ≤ A.length
      · -- the commit is not reached
        left
        rw [List.take_append_of_le_length (by simpa using hk), ← List.map_take]
        have := runCmds_stmts (A.take k) [] ⟨d, some d, fk⟩ d rfl
        simp only [List.append_nil] at this
        rcases this with ⟨d', -, h2⟩ | ⟨e, c', -, h2, h3⟩
        · rw [h2]; rfl
        · rw [h3]; exact h2
      · rw [List.take_of_length_le (by simp; omega)]
        rcases runCmds_stmts A [.commit] ⟨d, some d, fk⟩ d rfl with ⟨d', h1, h2⟩ | ⟨e, c', h1, h2, h3⟩
        · right
          rw [← hA] at h1
          refine ⟨_, apply_of_ok hv h31 h1, ?_⟩
          rw [h2]
          rfl
        · left
          rw [h3]
          exact h2
  unfold diskAfterCrash plan
  cases hv : d.version with
  | none => left; simp [runCmds]
  | some v =>
    cases ro with
    | true => left; cases v <;> simp [runCmds]
    | false => cases v with
      | v031 => left; simp [runCmds]
      | v020 => exact main _ (by simp) hv
      | v030 => exact main _ (by simp) hv
      | other x => exact main _ (by simp) hv

/-- **C45, read-only.** Opening a file read-only never changes it, and fails for every outdated file. -/
theorem C45_readonly (d : FileDb) (fk : Bool) (now : PyStr) :
    (applyMigrations ⟨d, none, fk⟩ true now).1.disk = d ∧
      ((applyMigrations ⟨d, none, fk⟩ true now).2 = .ok () ↔ d.version = some .v031) := by
  unfold applyMigrations
  simp only [Option.getD_none]
  cases hv : d.version with
  | none => simp
  | some v => cases v <;> simp

/-- **C45, twice.** Opening a file a second time changes nothing more and does not fail. -/
theorem C45_twice (c c' : Conn) (ro : Bool) (now later : PyStr) (htx : c.tx = none)
    (h : applyMigrations c ro now = (c', .ok ())) :
    (applyMigrations c' ro later).1.disk = c'.disk ∧ (applyMigrations c' ro later).2 = .ok () := by
  have done : c'.disk.version = some .v031 → c'.tx = none →
      (applyMigrations c' ro later).1.disk = c'.disk ∧ (applyMigrations c' ro later).2 = .ok () := by
    intro h1 h2
    unfold applyMigrations
    simp [h1, h2]
  cases hv : c.disk.version with
  | none =>
    unfold applyMigrations at h
    simp [htx, hv] at h
  | some v => cases v with
    | v031 =>
      unfold applyMigrations at h
      simp [htx, hv] at h
      subst h
      exact done hv htx
    | v020 =>
      obtain ⟨-, h2, -, hrun⟩ := applied hv (by simp) htx h
      obtain ⟨t', ls, rs, ms, qs2, rows, -, -, -, -, -, -, -, -, -, -, -, -, -, -, -, -, -, -, -, -, -, -, -, hd⟩ :=
        all020_ok.1 hrun
      exact done (by rw [hd]; rfl) h2
    | v030 =>
      obtain ⟨-, h2, -, hrun⟩ := applied hv (by simp) htx h
      obtain ⟨t, -, -, -, -, -, hd⟩ := all030_ok.1 hrun
      exact done (by rw [hd]; rfl) h2
    | other x =>
      obtain ⟨h0, h2, h3, hrun⟩ := applied hv (by simp) htx h
      obtain ⟨t, ht, hrefs, hl, hd⟩ := allOther_ok.1 hrun
      have hagain : runStmts (allStmts (.other x) (wholeLevel c'.disk) later) c'.disk = .ok c'.disk := by
        refine allOther_ok.2 ⟨t, by rw [hd]; exact ht, by rw [hd]; exact hrefs, hl, ?_⟩
        rw [hd]
      obtain ⟨disk', tx', fk'⟩ := c'
      simp only at h2 hd hagain
      subst h2 h0
      rw [apply_of_ok (by rw [hd]; exact hv) (by simp) hagain]
      exact ⟨rfl, rfl⟩

/-! ### Conforming files can be opened -/

/-- **C45, success.** Every file whose contents obey schema 0.2.0 and whose references are all to
existing rows is migrated when it is opened in a writable mode. -/
theorem C45_succeeds (d : FileDb) (t : Labels) (links : List Link) (rels : List OldRel)
    (quants : List OldQuant) (fk : Bool) (now : PyStr) (h : Spec.Conforming d t links rels quants) :
    (applyMigrations ⟨d, none, fk⟩ false now).2 = .ok () := by
  obtain ⟨ms, hms⟩ : ∃ ms, (rels.filter relKept).mapM (relRow (wholeLevel d)) = some ms := by
    refine some_mapM fun r hr => ?_
    obtain ⟨l, -, i, -, hl, hi⟩ := h.relRefs r (List.mem_filter.1 hr).1
    simp [relRow, hl, hi]
  obtain ⟨rows, hrows⟩ : ∃ rows, (firsts [] quants).mapM (groupRow quants) = some rows := by
    refine some_mapM fun q hq => ?_
    obtain ⟨l, -, a, -, hl, ha⟩ := h.quantRefs q (firsts_mem hq).1
    simp [groupRow, hl, ha]
  have hold := relRows_some (mapM_some hms)
  -- where a mapping comes from
  have hfrom : ∀ m ∈ ms, ∃ r ∈ rels, relKept r = true ∧ Spec.asOld m = Spec.filled (wholeLevel d) r := by
    intro m hm
    have : Spec.asOld m ∈ ms.map Spec.asOld := List.mem_map_of_mem hm
    rw [hold] at this
    obtain ⟨r, hr, he⟩ := List.mem_map.1 this
    exact ⟨r, (List.mem_filter.1 hr).1, (List.mem_filter.1 hr).2, he.symm⟩
  have hcheck : ms.all mappingCheck = true := by
    rw [List.all_eq_true]
    intro m hm
    obtain ⟨r, hr, hk, he⟩ := hfrom m hm
    have hval : m.value = r.value := congrArg OldRel.value he
    have hprop : m.prop = r.prop := congrArg OldRel.prop he
    have hother : m.other = r.other := congrArg OldRel.other he
    have hindex : some m.index = r.index := congrArg OldRel.index he
    unfold mappingCheck
    rw [Bool.and_eq_true, Bool.and_eq_true]
    refine ⟨⟨?_, ?_⟩, ?_⟩
    · rw [hval]; exact decide_eq_true (h.relValue r hr)
    · cases hp : m.prop with
      | none => rfl
      | some p => exact decide_eq_true (h.relProp r hr p (by rw [← hprop, hp]))
    · unfold relKept at hk
      rw [← hindex, ← hother] at hk
      by_cases h0 : m.other = 0
      · simpa [h0] using hk
      · simp [h0]
  have hkeys : mapKeysOk ms = true := by
    unfold mapKeysOk
    rw [Bool.and_eq_true, decide_eq_true_iff, decide_eq_true_iff]
    constructor
    · have : ms.map (·.id) = (rels.filter relKept).map (·.id) := by
        have := congrArg (List.map OldRel.id) hold
        simpa [List.map_map, Function.comp_def, Spec.asOld, Spec.filled] using this
      rw [this]
      exact h.relIds.sublist ((List.filter_sublist).map _)
    · have h3 : ms.map (fun m => (some m.link, m.other, some m.index)) =
          (rels.filter relKept).map fun r => (r.link, r.other, r.index) := by
        have := congrArg (List.map fun r : OldRel => (r.link, r.other, r.index)) hold
        simpa [List.map_map, Function.comp_def, Spec.asOld, Spec.filled] using this
      have hn : (ms.map (fun m => (some m.link, m.other, some m.index))).Nodup := by
        rw [h3]
        exact h.relPairs.sublist ((List.filter_sublist).map _)
      have : ms.map (fun m => (some m.link, m.other, some m.index)) =
          (ms.map fun m => (m.link, m.other, m.index, m.level)).map
            fun p => (some p.1, p.2.1, some p.2.2.1) := by
        rw [List.map_map]; rfl
      rw [this] at hn
      exact hn.of_map _
  have hlinks : linkKeysOk links = true := by
    simp [linkKeysOk, h.linkIds, h.linkNames, h.linkDefaults]
  have hlabels : labelsUnique t = true := by
    unfold labelsUnique
    by_cases hc : t.cols = []
    · simp [hc]
    · obtain ⟨h1, h2, h3⟩ := h.labelsOnce hc
      simp [h1, h2, h3]
  have hrefs : refsOk (after020 d t links ms rows now) = true := by
    unfold refsOk
    simp only [after020, Option.getD_some]
    rw [Bool.and_eq_true, Bool.and_eq_true, List.all_eq_true, List.all_eq_true, List.all_eq_true]
    refine ⟨⟨?_, ?_⟩, ?_⟩
    · intro w hw
      obtain ⟨⟨g, hg, hg2⟩, i, hi, hi2⟩ := h.weightRefs w hw
      rw [Bool.and_eq_true, List.any_eq_true, List.any_eq_true]
      exact ⟨⟨g, hg, by simpa using hg2⟩, i, hi, by simpa using hi2⟩
    · intro r hr
      have : some r ∈ rows.map some := List.mem_map_of_mem hr
      rw [← mapM_some hrows] at this
      obtain ⟨q, hq, he⟩ := List.mem_map.1 this
      obtain ⟨l, hl, a, ha, hl2, ha2⟩ := h.quantRefs q (firsts_mem hq).1
      have hk := (groupRow_some he).1
      simp only [OldQuant.key, hl2, ha2, Prod.mk.injEq, Option.some.injEq] at hk
      rw [Bool.and_eq_true, List.any_eq_true, List.any_eq_true]
      exact ⟨⟨a, ha, by simpa using hk.2⟩, l, hl, by simpa using hk.1⟩
    · intro m hm
      obtain ⟨r, hr, -, he⟩ := hfrom m hm
      obtain ⟨l, hl, i, hi, hl2, hi2⟩ := h.relRefs r hr
      have hlink : some m.link = r.link := congrArg OldRel.link he
      have hindex : some m.index = r.index := congrArg OldRel.index he
      rw [hl2, Option.some.injEq] at hlink
      rw [hi2, Option.some.injEq] at hindex
      rw [Bool.and_eq_true, List.any_eq_true, List.any_eq_true]
      exact ⟨⟨l, hl, by simpa using hlink.symm⟩, i, hi, by simpa using hindex.symm⟩
  have hrun : runStmts (allStmts .v020 (wholeLevel d) now) d = .ok (after020 d t links ms rows now) :=
    all020_ok.2 ⟨t, links, rels, ms, quants, rows, h.hasLabels.1, h.hasLabels.2, h.hasLinks.1, h.hasLinks.2.1,
      h.hasLinks.2.2, h.hasRels.1, h.hasRels.2.1, h.hasRels.2.2, h.hasQuants.1, h.hasQuants.2.1, h.hasQuants.2.2,
      h.domain, h.keys.1, .inr h.keys.2.1, h.keys.2.2.1, h.keys.2.2.2, hlinks, hms, hcheck, hkeys, hrows, hrefs,
      hlabels, rfl⟩
  rw [apply_of_ok h.version (by simp) hrun]

/-! ### A concrete file (after `tests/dal1/test_migrations.py`) -/

namespace Example

def str (s : String) : PyStr := s.toList

def labels : Labels where
  cols := [str "a", str "b", str "c"]
  index := [⟨0, [str "-", str "-", str "-"]⟩, ⟨1, [str "1A", str "1B", str "1C"]⟩,
    ⟨2, [str "2A", str "2B", str "2C"]⟩]
  seq := 2
  locs := [⟨1, [str "1A", str "1B", str "1C"]⟩, ⟨2, [str "2A", str "2B", str "2C"]⟩]
  structs := [⟨1, none, [false, false, false]⟩, ⟨2, none, [true, true, true]⟩]

def links : List Link :=
  [⟨1, str "uid2", some (str "node2.toron"), str "weight", [], true, none, true⟩]

def rels : List OldRel :=
  [⟨1, some 1, 0, some 0, none, 0, some 1⟩, ⟨2, some 1, 1, some 1, some [0xE0#8], 10, some 1⟩,
   ⟨3, some 1, 2, some 1, none, 70, some 1⟩, ⟨4, some 1, 4, some 2, some [0xC0#8], 60, some 1⟩]

def quants (extra : OldVal) : List OldQuant :=
  [⟨1, some 1, some 1, .num 15⟩, ⟨2, some 2, some 1, .num 10⟩, ⟨3, some 2, some 2, extra⟩,
   ⟨4, some 2, some 1, .num 35⟩]

/-- A file with two values for one location and attribute group, a mapping from nothing to nothing and a
mapping without level. -/
def file (extra : OldVal) (domain : List (PyStr × PyStr)) : FileDb where
  version := some .v020
  nodeIndex := some labels
  labelIndex := none
  crosswalk := some links
  newLink := none
  link := none
  relation := some rels
  newMapping := none
  mapping := none
  oldQuantity := some (quants extra)
  newQuantity := none
  quantity := none
  wgroups := [⟨1, str "weight", [], true⟩]
  weights := [⟨1, 1, 1, 10⟩, ⟨2, 1, 2, 20⟩]
  agroups := [⟨1, [(str "category", str "one")]⟩, ⟨2, [(str "category", str "two")]⟩]
  indexHash := [0, 1, 2]
  domain := some (.obj domain)
  regAttrs := none
  categories := some [{str "a", str "b", str "c"}]
  partDefs := none
  display := none
  defaultWG := some (some 1)
  uid := str "uid1"
  userProps := none
  created := none
  constraints := true

theorem conforming (extra : OldVal) (domain : List (PyStr × PyStr)) :
    Spec.Conforming (file extra domain) labels links rels (quants extra) where
  version := rfl
  hasLabels := ⟨rfl, rfl⟩
  hasLinks := ⟨rfl, rfl, rfl⟩
  hasRels := ⟨rfl, rfl, rfl⟩
  hasQuants := ⟨rfl, rfl, rfl⟩
  domain := by simp [file]
  keys := ⟨rfl, rfl, rfl, rfl⟩
  linkIds := by decide
  linkNames := by decide
  linkDefaults := by decide
  relIds := by decide
  relPairs := by decide
  relValue := by decide
  relProp := by simp [rels]
  relRefs := by simp [rels, links, labels]
  quantRefs := by simp [quants, labels, file]
  weightRefs := by simp [file, labels]
  labelsOnce := by decide

/-- The hypotheses of the theorems above are met. -/
example : ∃ c', applyMigrations ⟨file (.num 20) [(str "foo", str "bar")], none, true⟩ false (str "today") =
      (c', .ok ()) ∧
    c'.disk.quantity = some [⟨1, 1, 1, 15⟩, ⟨2, 2, 1, 45⟩, ⟨3, 2, 2, 20⟩] ∧
    c'.disk.mapping = some [⟨2, 1, 1, 1, [0xE0#8], 10, some 1⟩, ⟨3, 1, 2, 1, [0xE0#8], 70, some 1⟩,
      ⟨4, 1, 4, 2, [0xC0#8], 60, some 1⟩] ∧
    c'.disk.domain = some (.str (str "foo_bar")) ∧ c'.disk.regAttrs = some [str "category"] := by
  have h := C45_succeeds _ _ _ _ _ true (str "today") (conforming (.num 20) [(str "foo", str "bar")])
  refine ⟨_, Prod.ext rfl h, ?_, ?_, ?_, ?_⟩ <;> decide +kernel

/-- A file that cannot be migrated: the domain is not an object. -/
example : (applyMigrations ⟨{ file (.num 20) [] with domain := some (.str []) }, none, true⟩ false []).2.toOption =
    none := by decide +kernel

end Example

/-- A text in the value column of an old file is silently replaced by a number: opening the file succeeds,
and two files that differ in that text become the same file. -/
theorem C45_text_values_are_lost :
    let a := Example.file (.text "many".toList 0) []
    let b := Example.file (.num 0) []
    a.oldQuantity ≠ b.oldQuantity ∧
    (applyMigrations ⟨a, none, true⟩ false []).2 = .ok () ∧
    (applyMigrations ⟨a, none, true⟩ false []).1.disk = (applyMigrations ⟨b, none, true⟩ false []).1.disk := by
  refine ⟨by decide, C45_succeeds _ _ _ _ _ _ _ (Example.conforming _ _), ?_⟩
  rfl

/-- Different domains of old files can become the same domain. -/
theorem C45_domains_may_coincide :
    let a := Example.file (.num 0) [("x".toList, "y".toList), ("z".toList, "w".toList)]
    let b := Example.file (.num 0) [("x".toList, "y_z_w".toList)]
    a.domain ≠ b.domain ∧
    (applyMigrations ⟨a, none, true⟩ false []).2 = .ok () ∧
    (applyMigrations ⟨b, none, true⟩ false []).2 = .ok () ∧
    (applyMigrations ⟨a, none, true⟩ false []).1.disk.domain =
      (applyMigrations ⟨b, none, true⟩ false []).1.disk.domain := by
  refine ⟨by decide, C45_succeeds _ _ _ _ _ _ _ (Example.conforming _ _),
    C45_succeeds _ _ _ _ _ _ _ (Example.conforming _ _), ?_⟩
  decide +kernel

end Toron.Migrate
