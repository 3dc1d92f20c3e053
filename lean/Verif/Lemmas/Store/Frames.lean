/-
Which tables a sequence of changes leaves alone.
-/
import Verif.Lemmas.Store.Links

namespace Toron.Space

open Toron.Selectors (PyStr Sel)

section
variable {K : List Kind} {s s' : Store}

private theorem frame {β : Type} (f : Store → β) (bad : List Kind)
    (hf : ∀ k, k ∉ bad → ∀ s s', Prim k s s' → f s' = f s) (hK : ∀ k ∈ K, k ∉ bad) (h : Steps K s s') :
    f s' = f s :=
  Steps.relation (R := fun a b => f b = f a) (fun _ => rfl) (fun _ _ _ h1 h2 => h2.trans h1)
    (fun k hk a b hp => hf k (hK k hk) a b hp) h

macro "frame_tac" : tactic =>
  `(tactic| (intro k hk s s' hp; cases hp <;> first | rfl | (exfalso; revert hk; decide)))

theorem Steps.ids_eq (h : Steps K s s') (hK : ∀ k ∈ K, k ∉ [Kind.idxAdd, .idxDel]) :
    s'.index.map (·.id) = s.index.map (·.id) := by
  refine frame (fun s => s.index.map (·.id)) [Kind.idxAdd, .idxDel] ?_ hK h
  intro k hk s s' hp
  cases hp with
  | idxUpd _ r => exact map_update_id
  | colAdd _ c => simp [Store.addCol]
  | colDrop _ n => simp [Store.dropCols]
  | idxAdd => exact absurd (by simp) hk
  | idxDel => exact absurd (by simp) hk
  | _ => rfl

theorem Steps.index_eq (h : Steps K s s')
    (hK : ∀ k ∈ K, k ∉ [Kind.idxAdd, .idxUpd, .idxDel, .colAdd, .colDrop]) : s'.index = s.index :=
  frame (fun s => s.index) _ (by frame_tac) hK h

theorem Steps.cols_eq (h : Steps K s s') (hK : ∀ k ∈ K, k ∉ [Kind.colAdd, .colRen, .colDrop]) :
    s'.cols = s.cols := frame (fun s => s.cols) _ (by frame_tac) hK h

theorem Steps.weights_eq (h : Steps K s s') (hK : ∀ k ∈ K, k ∉ [Kind.wAdd, .wSet, .wDel, .wgDel]) :
    s'.weights = s.weights := frame (fun s => s.weights) _ (by frame_tac) hK h

theorem Steps.wgroups_eq (h : Steps K s s') (hK : ∀ k ∈ K, k ∉ [Kind.wgAdd, .wgUpd, .wgDel]) :
    s'.wgroups = s.wgroups := frame (fun s => s.wgroups) _ (by frame_tac) hK h

theorem Steps.maps_eq (h : Steps K s s') (hK : ∀ k ∈ K, k ∉ [Kind.mAdd, .mUpd, .mDel, .lDel]) :
    s'.maps = s.maps := frame (fun s => s.maps) _ (by frame_tac) hK h

theorem Steps.links_eq (h : Steps K s s') (hK : ∀ k ∈ K, k ∉ [Kind.lAdd, .lUpd, .lDel]) :
    s'.links = s.links := frame (fun s => s.links) _ (by frame_tac) hK h

theorem Steps.structs_eq (h : Steps K s s') (hK : ∀ k ∈ K, k ∉ [Kind.structs, .colAdd, .colDrop]) :
    s'.structs = s.structs := frame (fun s => s.structs) _ (by frame_tac) hK h

theorem Steps.partDefs_eq (h : Steps K s s') (hK : ∀ k ∈ K, k ∉ [Kind.pdefs]) :
    s'.partDefs = s.partDefs := frame (fun s => s.partDefs) _ (by frame_tac) hK h

theorem Steps.quants_eq (h : Steps K s s') (hK : ∀ k ∈ K, k ∉ [Kind.qAdd, .qSet, .qDel, .locDel, .agDel]) :
    s'.quants = s.quants := frame (fun s => s.quants) _ (by frame_tac) hK h

theorem Steps.locs_eq (h : Steps K s s') (hK : ∀ k ∈ K, k ∉ [Kind.locAdd, .locDel, .colAdd, .colDrop]) :
    s'.locs = s.locs := frame (fun s => s.locs) _ (by frame_tac) hK h

theorem Steps.agroups_eq (h : Steps K s s') (hK : ∀ k ∈ K, k ∉ [Kind.agAdd, .agDel]) :
    s'.agroups = s.agroups := frame (fun s => s.agroups) _ (by frame_tac) hK h

theorem Steps.hash_eq (h : Steps K s s') (hK : ∀ k ∈ K, k ∉ [Kind.hash]) :
    s'.indexHash = s.indexHash := frame (fun s => s.indexHash) _ (by frame_tac) hK h

theorem Steps.fk_eq (h : Steps K s s') (hK : ∀ k ∈ K, k ∉ [Kind.fkOff]) :
    s'.fk = s.fk := frame (fun s => s.fk) _ (by frame_tac) hK h

theorem Steps.display_eq (h : Steps K s s') (hK : ∀ k ∈ K, k ∉ [Kind.display]) :
    s'.display = s.display := frame (fun s => s.display) _ (by frame_tac) hK h

theorem Steps.regAttrs_eq (h : Steps K s s') (hK : ∀ k ∈ K, k ∉ [Kind.attrs]) :
    s'.regAttrs = s.regAttrs := frame (fun s => s.regAttrs) _ (by frame_tac) hK h

theorem Steps.domain_eq (h : Steps K s s') (hK : ∀ k ∈ K, k ∉ [Kind.domain]) :
    s'.domain = s.domain := frame (fun s => s.domain) _ (by frame_tac) hK h

end

/-! ### The stored fingerprint -/

/-- The stored fingerprint is current. -/
def HashOk (s : Store) : Prop := s.indexHash = s.indexIds

theorem HashOk.steps {K : List Kind} {s s' : Store} (h : Steps K s s')
    (hK : ∀ k ∈ K, k ∉ [Kind.idxAdd, .idxDel]) (hs : HashOk s) : HashOk s' := by
  refine h.invariant (P := HashOk) ?_ hs
  intro k hk s s' hp hs
  have hids : s'.index.map (·.id) = s.index.map (·.id) :=
    (Steps.single hp (K := [k]) (by simp)).ids_eq (by simpa using hK k hk)
  have hi : s'.indexIds = s.indexIds := by unfold Store.indexIds; rw [hids]
  cases hp <;> first
    | exact rfl
    | (unfold HashOk; rw [hi]; exact hs)

theorem refreshIndexHash_ok {s s' : Store} {u : Unit} (h : refreshIndexHash s = .ok (u, s')) :
    s' = { s with indexHash := s.indexIds } := (Prod.mk.inj (modify_ok.1 h)).2

/-- The cases of `insertIndexRecord`: a new record, or an existing one whose labels may be changed. -/
theorem insertIndexRecord_ok {p : Policy} {c c' : Counts} {row : IndexRow} {i : Nat} {s s' : Store}
    (h : insertIndexRecord p c row s = .ok ((i, c'), s')) :
    (c' = { c with labels := true } ∧ ∃ labels, indexAdd labels s = .ok (i, s')) ∨
      (c' = c ∧ Steps [.idxUpd] s s') := by
  unfold insertIndexRecord at h
  rcases hi : row.idv with _ | j <;> simp only [hi] at h
  · split at h
    · rename_i heq
      cases h
      exact .inl ⟨rfl, _, heq⟩
    · split at h
      · cases h; exact .inr ⟨rfl, Steps.refl _⟩
      · cases h
    · cases h
  · right
    rw [bind_ok] at h
    obtain ⟨r, t, h1, h⟩ := h
    have hr := (indexGet_does ..).steps _ _ _ h1
    rcases hl : row.labels with _ | labels <;> simp only [hl] at h
    · rw [pure_ok] at h
      cases h
      exact ⟨rfl, hr.mono (by decide)⟩
    · rw [ite_ok] at h
      obtain ⟨_, h⟩ | ⟨_, h⟩ := h
      · rw [pure_ok] at h
        cases h
        exact ⟨rfl, hr.mono (by decide)⟩
      · cases p with
        | ignore =>
          simp only [pure_ok] at h
          cases h
          exact ⟨rfl, hr.mono (by decide)⟩
        | replace =>
          simp only [bind_ok, pure_ok] at h
          obtain ⟨_, t', h2, h⟩ := h
          cases h
          exact ⟨rfl, (hr.mono (by decide)).trans ((indexUpdate_does ..).steps _ _ _ h2)⟩
        | _ => exact absurd h (by simp [throw_ok])

/-- Adding weights does not touch the flag for new records. -/
theorem insertIndexWeight_labels {i : Nat} {p : Policy} {c c' : Counts} {gw : WGroup × Option ℚ} {s s' : Store}
    (h : insertIndexWeight i p c gw s = .ok (c', s')) : c'.labels = c.labels := by
  unfold insertIndexWeight at h
  rcases hv : gw.2 with _ | v <;> simp only [hv] at h
  · rw [pure_ok] at h; cases h; rfl
  · rw [bind_ok] at h
    obtain ⟨_, _, he, h⟩ := h
    rw [get_ok] at he
    cases he
    rcases hw : s.findWeight gw.1.id i with _ | w <;> simp only [hw] at h
    · rw [bind_ok] at h
      obtain ⟨_, _, _, h⟩ := h
      rw [pure_ok] at h; cases h; rfl
    · cases p with
      | ignore => simp only [pure_ok] at h; cases h; rfl
      | replace =>
        simp only [bind_ok, pure_ok] at h
        obtain ⟨_, _, _, h⟩ := h
        cases h; rfl
      | _ => exact absurd h (by simp [throw_ok])

/-- The rows of `insert_index`: nothing but a new record changes the set of ids. -/
theorem insertIndexRow_ok {groups : List WGroup} {pl pw : Policy} {c c' : Counts} {row : IndexRow}
    {s s' : Store} (h : insertIndexRow groups pl pw c row s = .ok (c', s')) (hc : c'.labels = false) :
    c.labels = false ∧ Steps [.idxUpd, .wAdd, .wSet] s s' := by
  unfold insertIndexRow at h
  rw [ite_ok] at h
  obtain ⟨_, h⟩ | ⟨_, h⟩ := h
  · rw [pure_ok] at h; cases h; exact ⟨hc, Steps.refl _⟩
  · rw [bind_ok] at h
    obtain ⟨⟨i, c1⟩, t, h1, h⟩ := h
    have hl : c'.labels = c1.labels :=
      foldlM_inv (P := fun (c : Counts) _ => c.labels = c1.labels)
        (fun gw _ b s0 c0 s0' hb hgw => (insertIndexWeight_labels hgw).trans hb) rfl h
    have hs : Steps [.wAdd, .wSet] t s' :=
      Does.steps (K := [.wAdd, .wSet]) (Does.foldlM fun c gw _ => insertIndexWeight_does _ _ _ _) _ _ _ h
    obtain ⟨rfl, _⟩ | ⟨rfl, hst⟩ := insertIndexRecord_ok h1
    · rw [hl] at hc; cases hc
    · exact ⟨hl.symm.trans hc, (hst.mono (by decide)).trans (hs.mono (by decide))⟩

theorem insertIndexRows_ok {groups : List WGroup} {pl pw : Policy} {c c' : Counts} {rows : List IndexRow}
    {s s' : Store} (h : rows.foldlM (insertIndexRow groups pl pw) c s = .ok (c', s'))
    (hc : c'.labels = false) : c.labels = false ∧ Steps [.idxUpd, .wAdd, .wSet] s s' := by
  induction rows generalizing c s with
  | nil => cases h; exact ⟨hc, Steps.refl _⟩
  | cons r rs ih =>
    obtain ⟨d, t, h1, h2⟩ := foldlM_cons_ok.1 h
    obtain ⟨hd, hs⟩ := ih h2
    obtain ⟨hc', hs'⟩ := insertIndexRow_ok h1 hd
    exact ⟨hc', hs'.trans hs⟩

theorem insertIndex_parts {weights : Option (List PyStr)} {wcols : List PyStr} {pl pw : Policy}
    {rows : List IndexRow} {s s' : Store} (h : insertIndex weights wcols pl pw rows s = .ok ((), s')) :
    ∃ groups c t u, rows.foldlM (insertIndexRow groups pl pw) ⟨false, false⟩ s = .ok (c, t) ∧
      whenM c.labels afterNewRecords t = .ok ((), u) ∧
      whenM (c.labels || c.weights) recomputeComplete u = .ok ((), s') ∧ s.cols ≠ [] ∧
      insertIndexGroups weights wcols s = .ok (groups, s) := by
  unfold insertIndex at h
  simp only [bind_ok, get_ok, ite_ok, throw_ok] at h
  obtain ⟨_, _, he, h⟩ := h
  cases he
  obtain ⟨_, h⟩ | ⟨_, h⟩ := h
  · exact h.elim
  obtain ⟨_, h⟩ | ⟨hcols, h⟩ := h
  · exact h.elim
  obtain ⟨groups, s1, h1, c, s2, h2, _, s3, h3, h4⟩ := h
  have hs1 : s1 = s := by
    have := (insertIndexGroups_does ..).steps _ _ _ h1
    cases this with
    | refl => rfl
    | tail _ h => obtain ⟨_, hk, _⟩ := h; cases hk
  subst hs1
  exact ⟨groups, c, s2, s3, h2, h3, h4, hcols, h1⟩

theorem afterNewRecords_hash {s s' : Store} (h : afterNewRecords s = .ok ((), s')) : HashOk s' := by
  unfold afterNewRecords at h
  rw [bind_ok] at h
  obtain ⟨_, t, h1, h⟩ := h
  have ht := refreshIndexHash_ok h1
  refine HashOk.steps (K := [.structs, .pdefs, .lUpd]) (Does.steps ?_ _ _ _ h) (by decide) ?_
  · does
  · subst ht
    rfl

theorem insertIndex_hash {weights : Option (List PyStr)} {wcols : List PyStr} {pl pw : Policy}
    {rows : List IndexRow} {s s' : Store} (hs : HashOk s)
    (h : insertIndex weights wcols pl pw rows s = .ok ((), s')) : HashOk s' := by
  obtain ⟨groups, c, t, u, h1, h2, h3, _⟩ := insertIndex_parts h
  refine HashOk.steps (K := [.wgUpd]) (Does.steps (by does) _ _ _ h3) (by decide) ?_
  rw [whenM_ok] at h2
  obtain ⟨_, h2⟩ | ⟨hc, rfl⟩ := h2
  · exact afterNewRecords_hash h2
  · exact HashOk.steps (insertIndexRows_ok h1 hc).2 (by decide) hs

theorem updateIndexRow_ok {merge : Bool} {acc acc' : UpdateAcc} {row : Nat × List PyStr} {s s' : Store}
    (h : updateIndexRow merge acc row s = .ok (acc', s')) :
    (acc'.merged = acc.merged ∧ Steps [.idxUpd] s s') ∨ acc'.merged ≠ [] := by
  unfold updateIndexRow at h
  rw [ite_ok] at h
  obtain ⟨_, h⟩ | ⟨_, h⟩ := h
  · rw [pure_ok] at h; cases h; exact .inl ⟨rfl, Steps.refl _⟩
  rw [bind_ok] at h
  obtain ⟨_, _, he, h⟩ := h
  rw [get_ok] at he
  cases he
  rcases hr : s.index.find? (fun r => r.id == row.1) with _ | r <;> simp only [hr] at h
  · rw [ite_ok] at h
    obtain ⟨_, h⟩ | ⟨_, h⟩ := h
    · exact absurd h (by simp [throw_ok])
    · rw [pure_ok] at h; cases h; exact .inl ⟨rfl, Steps.refl _⟩
  · rw [bind_ok] at h
    obtain ⟨acc1, t, h1, h⟩ := h
    rw [bind_ok] at h
    obtain ⟨_, t', h2, h⟩ := h
    rw [pure_ok] at h
    cases h
    cases hf : s.findByLabels row.2 with
    | none =>
      rw [hf] at h1
      cases h1
      exact .inl ⟨rfl, (indexUpdate_does ..).steps _ _ _ h2⟩
    | some o =>
      rw [hf] at h1
      unfold mergeConflict at h1
      rw [ite_ok] at h1
      obtain ⟨_, h1⟩ | ⟨_, h1⟩ := h1
      · exact absurd h1 (by simp [throw_ok])
      simp only [bind_ok, pure_ok] at h1
      obtain ⟨_, _, _, _, _, _, _, _, _, h1⟩ := h1
      cases h1
      right
      simp

/-- Records only disappear if `merged` is not empty. -/
theorem updateIndexRows_ok {merge : Bool} {acc acc' : UpdateAcc} {rows : List (Nat × List PyStr)} {s s' : Store}
    (h : rows.foldlM (updateIndexRow merge) acc s = .ok (acc', s')) (hm : acc'.merged = []) :
    acc.merged = [] ∧ Steps [.idxUpd] s s' := by
  induction rows generalizing acc s with
  | nil => cases h; exact ⟨hm, Steps.refl _⟩
  | cons r rs ih =>
    obtain ⟨d, t, h1, h2⟩ := foldlM_cons_ok.1 h
    obtain ⟨hd, hs⟩ := ih h2
    obtain ⟨he, hs'⟩ | hne := updateIndexRow_ok h1
    · exact ⟨he ▸ hd, hs'.trans hs⟩
    · exact absurd hd hne

theorem updateIndex_parts {merge : Bool} {rows : List (Nat × List PyStr)} {s s' : Store}
    (h : updateIndex merge rows s = .ok ((), s')) :
    ∃ acc t u, rows.foldlM (updateIndexRow merge) ⟨[], false⟩ s = .ok (acc, t) ∧
      whenM (acc.merged ≠ [] ∨ acc.updated) refreshGranularity t = .ok ((), u) ∧
      whenM (acc.merged ≠ []) afterMerge u = .ok ((), s') := by
  unfold updateIndex at h
  simp only [bind_ok] at h
  obtain ⟨acc, t, h1, _, u, h2, h3⟩ := h
  exact ⟨acc, t, u, h1, h2, h3⟩

theorem updateIndex_hash {merge : Bool} {rows : List (Nat × List PyStr)} {s s' : Store} (hs : HashOk s)
    (h : updateIndex merge rows s = .ok ((), s')) : HashOk s' := by
  obtain ⟨acc, t, u, h1, h2, h3⟩ := updateIndex_parts h
  rw [whenM_ok] at h3
  obtain ⟨_, h3⟩ | ⟨hm, rfl⟩ := h3
  · unfold afterMerge at h3
    rw [bind_ok] at h3
    obtain ⟨_, v, h4, h5⟩ := h3
    have hv := refreshIndexHash_ok h4
    refine HashOk.steps (K := [.wgUpd, .lUpd]) (Does.steps (by does) _ _ _ h5) (by decide) ?_
    subst hv
    rfl
  · refine HashOk.steps (K := [.structs]) (Does.steps (by does) _ _ _ h2) (by decide) ?_
    exact HashOk.steps (updateIndexRows_ok h1 (by simpa using hm)).2 (by decide) hs

theorem afterDeleteIndex_hash {s s' : Store} (h : afterDeleteIndex s = .ok ((), s')) : HashOk s' := by
  unfold afterDeleteIndex at h
  rw [bind_ok] at h
  obtain ⟨_, t, h1, h⟩ := h
  have ht := refreshIndexHash_ok h1
  refine HashOk.steps (K := [.structs, .wgUpd, .lUpd]) (Does.steps ?_ _ _ _ h) (by decide) ?_
  · does
  · subst ht
    rfl

theorem deleteIndexRow_ok {d d' : Bool} {row : Nat × List PyStr} {s s' : Store}
    (h : deleteIndexRow d row s = .ok (d', s')) :
    (d' = d ∧ s' = s) ∨ (d' = true ∧ ∃ r ∈ s.index, r.id = row.1 ∧ r.labels = row.2 ∧
      deleteIndexRecord r.id s = .ok ((), s')) := by
  unfold deleteIndexRow at h
  rw [bind_ok] at h
  obtain ⟨_, _, he, h⟩ := h
  rw [get_ok] at he
  cases he
  rcases hr : s.index.find? (fun r => r.id == row.1) with _ | r <;> simp only [hr] at h
  · rw [pure_ok] at h; cases h; exact .inl ⟨rfl, rfl⟩
  · rw [ite_ok] at h
    obtain ⟨_, h⟩ | ⟨hl, h⟩ := h
    · rw [pure_ok] at h; cases h; exact .inl ⟨rfl, rfl⟩
    · rw [bind_ok] at h
      obtain ⟨_, t, h1, h⟩ := h
      rw [pure_ok] at h
      cases h
      refine .inr ⟨rfl, r, List.mem_of_find?_eq_some hr, ?_, not_not.1 hl, h1⟩
      simpa using List.find?_some hr

theorem deleteIndexTarget_false {t : Target (Nat × List PyStr)} {s s' : Store}
    (h : deleteIndexTarget t s = .ok (false, s')) : s' = s := by
  unfold deleteIndexTarget at h
  cases t with
  | rows rs =>
    have key : ∀ (rs : List (Nat × List PyStr)) (d : Bool) (s : Store),
        rs.foldlM deleteIndexRow d s = .ok (false, s') → d = false ∧ s' = s := by
      intro rs
      induction rs with
      | nil => intro d s h; cases h; exact ⟨rfl, rfl⟩
      | cons r rs ih =>
        intro d s h
        obtain ⟨d1, t, h1, h2⟩ := foldlM_cons_ok.1 h
        obtain ⟨rfl, rfl⟩ := ih d1 t h2
        obtain ⟨hd, hs⟩ | ⟨hd, _⟩ := deleteIndexRow_ok h1
        · exact ⟨hd.symm, hs⟩
        · cases hd
    exact (key rs false s h).2
  | criteria cs =>
    simp only [bind_ok, get_ok, pure_ok] at h
    obtain ⟨_, _, he, _, t, h1, h2⟩ := h
    cases he
    have h3 := Prod.mk.inj h2
    have : s.filterByLabel cs = [] := by simpa using h3.1.symm
    rw [this] at h1
    cases h1
    exact h3.2

theorem deleteIndex_parts {t : Target (Nat × List PyStr)} {s s' : Store}
    (h : deleteIndex t s = .ok ((), s')) :
    ∃ d u, deleteIndexTarget t s = .ok (d, u) ∧ whenM d afterDeleteIndex u = .ok ((), s') := by
  unfold deleteIndex at h
  rw [ite_ok] at h
  obtain ⟨_, h⟩ | ⟨_, h⟩ := h
  · exact absurd h (by simp [throw_ok])
  rw [bind_ok] at h
  exact h

theorem deleteIndex_hash {t : Target (Nat × List PyStr)} {s s' : Store} (hs : HashOk s)
    (h : deleteIndex t s = .ok ((), s')) : HashOk s' := by
  obtain ⟨d, u, h1, h2⟩ := deleteIndex_parts h
  rw [whenM_ok] at h2
  obtain ⟨_, h2⟩ | ⟨rfl, rfl⟩ := h2
  · exact afterDeleteIndex_hash h2
  · exact deleteIndexTarget_false h1 ▸ hs

/-- Kinds of changes of the operations other than the three that add or delete records. -/
def restKinds : List Kind :=
  [.idxUpd, .locAdd, .locDel, .agAdd, .agDel, .qAdd, .qSet, .qDel,
   .wgAdd, .wgUpd, .wgDel, .wAdd, .wSet, .wDel, .lAdd, .lUpd, .lDel, .mAdd, .mUpd, .mDel,
   .hash, .structs, .pdefs, .attrs, .display, .domain, .defwg, .colAdd, .colRen, .colDrop]

theorem runTx_inv {α : Type} {m : M α} {P : Store → Prop} {s : Store} (hs : P s)
    (hm : ∀ a s', m s = .ok (a, s') → P s') : P (runTx m s).1 := by
  unfold runTx
  split
  · rename_i heq
    split
    · exact hm _ _ heq
    · exact hs
  · exact hs

theorem HashOk.step {s : Store} (op : Op) (hs : HashOk s) : HashOk (step op s).1 := by
  have rest : ∀ {m : M Unit}, op.body = some m → Does restKinds m → HashOk (Space.step op s).1 := by
    intro m hb hm
    rw [step_of_body hb]
    exact HashOk.steps (runTx_steps hm s) (by decide) hs
  cases op with
  | insertIndex => exact runTx_inv hs fun _ _ h => insertIndex_hash hs h
  | updateIndex => exact runTx_inv hs fun _ _ h => updateIndex_hash hs h
  | deleteIndex => exact runTx_inv hs fun _ _ h => deleteIndex_hash hs h
  | reifyMappings => exact HashOk.steps (reifyMappings_steps _ _ _ s) (by decide) hs
  | deleteUnmatchedQuantities => exact HashOk.steps (deleteUnmatchedQuantities_steps s) (by decide) hs
  | reopen => exact hs
  | _ => exact rest rfl (by unfold restKinds; does)

theorem Reachable.hashOk {s : Store} (h : Reachable s) : HashOk s :=
  h.induction (P := HashOk) (fun _ => rfl) fun _ op _ hP => HashOk.step op hP

end Toron.Space
