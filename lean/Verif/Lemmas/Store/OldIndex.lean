/-
The older method for loading index records, next to the newer one.
-/
import Verif.Lemmas.Store.IndexLoadRun
import Verif.Lemmas.Store.WeightEdit
import Verif.Model.Store.OldIndex

namespace Toron.Space

open Toron.Selectors (PyStr)

/-- The row of the newer method with the same labels. -/
def plainRow (labels : List PyStr) : IndexRow := ⟨none, some labels, []⟩

/-- A result with the counters of the newer method. -/
def asCounts : Except Err (Bool × Store) → Except Err (Counts × Store)
  | .ok (b, s) => .ok (⟨b, false⟩, s)
  | .error e => .error e

theorem plainRow_eq {pl pw : Policy} {labels : List PyStr} {b : Bool} {s : Store} (hi : IndexInv s)
    (hl : labels.length = s.cols.length) (hc : s.cols ≠ []) :
    insertIndexRow [] pl pw ⟨b, false⟩ (plainRow labels) s = asCounts (insertIndexOldRow b labels s) := by
  have hne : labels ≠ [] := by
    rintro rfl
    exact hc (List.length_eq_zero_iff.1 hl.symm)
  have h0 : ¬ (labels.length ≠ s.cols.length ∨ labels = []) := by
    rintro (h | h)
    · exact h hl
    · exact hne h
  unfold insertIndexRow insertIndexOldRow plainRow
  by_cases he : [] ∈ labels
  · have ha : indexAdd labels s = .error (.valueError "label_index: CHECK") := by
      unfold indexAdd
      rw [get_bind, if_neg h0, if_pos he]; rfl
    rw [ha]
    simp only [Option.getD_some, he, if_true]
    rfl
  · simp only [Option.getD_some, he, if_false]
    by_cases hm : labels ∈ s.index.map (·.labels)
    · have ha : indexAdd labels s = .error (.valueError "label_index: UNIQUE") := by
        unfold indexAdd
        rw [get_bind, if_neg h0, if_neg he, if_pos hm]; rfl
      obtain ⟨r, hr, hrl⟩ := List.mem_map.1 hm
      have hf : ∃ r, s.findByLabels labels = some r := by
        rcases hfe : s.findByLabels labels with _ | r'
        · unfold Store.findByLabels at hfe
          exact absurd hrl (by simpa using List.find?_eq_none.1 hfe r hr)
        · exact ⟨r', rfl⟩
      obtain ⟨r', hf⟩ := hf
      rw [ha]
      have : insertIndexRecord pl ⟨b, false⟩ ⟨none, some labels, []⟩ s = .ok ((r'.id, ⟨b, false⟩), s) := by
        unfold insertIndexRecord
        simp only [Option.getD_some, ha, hf]
      exact bind_ok.2 ⟨_, _, this, rfl⟩
    · have ha : ∃ i t, indexAdd labels s = .ok (i, t) := by
        unfold indexAdd
        rw [get_bind, if_neg h0, if_neg he, if_neg hm]
        exact ⟨_, _, rfl⟩
      obtain ⟨i, t, ha⟩ := ha
      rw [ha]
      have : insertIndexRecord pl ⟨b, false⟩ ⟨none, some labels, []⟩ s = .ok ((i, ⟨true, false⟩), t) := by
        unfold insertIndexRecord
        simp only [Option.getD_some, ha]
      exact bind_ok.2 ⟨_, _, this, rfl⟩

/-- What a row of the older method does to the state. -/
theorem oldRow_cases {b b' : Bool} {labels : List PyStr} {s t : Store} (h : insertIndexOldRow b labels s = .ok (b', t)) :
    (b' = b ∧ t = s) ∨ b' = true ∧ t = { s with index := s.index ++ [⟨s.seq + 1, labels⟩], seq := s.seq + 1 } ∧
      labels.length = s.cols.length ∧ [] ∉ labels ∧ labels ∉ s.index.map (·.labels) := by
  unfold insertIndexOldRow at h
  by_cases h0 : labels.length ≠ s.cols.length ∨ labels = []
  · have ha : indexAdd labels s = .error (.operationalError "label_index: wrong number of values") := by
      unfold indexAdd
      rw [get_bind, if_pos h0]; rfl
    rw [ha] at h; cases h
  by_cases he : [] ∈ labels
  · have ha : indexAdd labels s = .error (.valueError "label_index: CHECK") := by
      unfold indexAdd
      rw [get_bind, if_neg h0, if_pos he]; rfl
    rw [ha] at h; cases h; exact .inl ⟨rfl, rfl⟩
  by_cases hm : labels ∈ s.index.map (·.labels)
  · have ha : indexAdd labels s = .error (.valueError "label_index: UNIQUE") := by
      unfold indexAdd
      rw [get_bind, if_neg h0, if_neg he, if_pos hm]; rfl
    rw [ha] at h; cases h; exact .inl ⟨rfl, rfl⟩
  · have ha : indexAdd labels s =
        .ok (s.seq + 1, { s with index := s.index ++ [⟨s.seq + 1, labels⟩], seq := s.seq + 1 }) := by
      unfold indexAdd
      rw [get_bind, if_neg h0, if_neg he, if_neg hm]; rfl
    rw [ha] at h; cases h
    rw [not_or, not_not] at h0
    exact .inr ⟨rfl, rfl, h0.1, he, hm⟩

theorem oldRow_inv {b b' : Bool} {labels : List PyStr} {s t : Store} (hi : IndexInv s)
    (h : insertIndexOldRow b labels s = .ok (b', t)) : IndexInv t := by
  obtain ⟨-, rfl⟩ | ⟨-, rfl, h1, h2, h3⟩ := oldRow_cases h
  · exact hi
  · obtain ⟨a1, a2, a3, a4, a5, a6⟩ := hi
    refine ⟨?_, ?_, ?_, ?_, ?_, ?_⟩
    · refine nodup_append_one a1 fun y hy he => ?_
      have := a2 y hy
      have he : y.id = s.seq + 1 := he
      omega
    · intro r hr
      rcases List.mem_append.1 hr with hr | hr
      · exact (a2 r hr).trans (Nat.le_succ _)
      · rw [List.mem_singleton.1 hr]
    · exact List.mem_append_left _ a3
    · intro r hr
      rcases List.mem_append.1 hr with hr | hr
      · exact a4 r hr
      · rw [List.mem_singleton.1 hr]; exact h1
    · intro r hr
      rcases List.mem_append.1 hr with hr | hr
      · exact a5 r hr
      · rw [List.mem_singleton.1 hr]; exact h2
    · exact nodup_append_one a6 fun y hy he => h3 (List.mem_map.2 ⟨y, hy, he⟩)

theorem plainRows_eq {pl pw : Policy} {rows : List (List PyStr)} : ∀ {b : Bool} {s : Store} (_ : IndexInv s)
    (_ : ∀ l ∈ rows, l.length = s.cols.length) (_ : s.cols ≠ []),
    (rows.map plainRow).foldlM (insertIndexRow [] pl pw) ⟨b, false⟩ s = asCounts (rows.foldlM insertIndexOldRow b s) := by
  induction rows with
  | nil => intro b s _ _ _; rfl
  | cons l ls ih =>
    intro b s hi hl hc
    have h1 := plainRow_eq (pl := pl) (pw := pw) (b := b) hi (hl l List.mem_cons_self) hc
    rw [List.map_cons, List.foldlM_cons, List.foldlM_cons]
    show (insertIndexRow [] pl pw ⟨b, false⟩ (plainRow l) >>= _) s = asCounts ((insertIndexOldRow b l >>= _) s)
    rcases h : insertIndexOldRow b l s with e | ⟨b', t⟩
    · rw [h] at h1
      have e1 : ∀ (f : Counts → M Counts), (insertIndexRow [] pl pw ⟨b, false⟩ (plainRow l) >>= f) s = .error e := by
        intro f
        show (insertIndexRow [] pl pw ⟨b, false⟩ (plainRow l) s).bind _ = _
        rw [h1]; rfl
      have e2 : ∀ (f : Bool → M Bool), (insertIndexOldRow b l >>= f) s = .error e := by
        intro f
        show (insertIndexOldRow b l s).bind _ = _
        rw [h]; rfl
      rw [e1, e2]; rfl
    · rw [h] at h1
      have e1 : ∀ (f : Counts → M Counts), (insertIndexRow [] pl pw ⟨b, false⟩ (plainRow l) >>= f) s = f ⟨b', false⟩ t := by
        intro f
        show (insertIndexRow [] pl pw ⟨b, false⟩ (plainRow l) s).bind _ = _
        rw [h1]; rfl
      have e2 : ∀ (f : Bool → M Bool), (insertIndexOldRow b l >>= f) s = f b' t := by
        intro f
        show (insertIndexOldRow b l s).bind _ = _
        rw [h]; rfl
      rw [e1, e2]
      have hcols : t.cols = s.cols := by
        obtain ⟨-, rfl⟩ | ⟨-, rfl, -⟩ := oldRow_cases h <;> rfl
      exact ih (oldRow_inv hi h) (fun l' hl' => by rw [hcols]; exact hl l' (List.mem_cons_of_mem _ hl')) (by rw [hcols]; exact hc)

theorem oldRows_keep {rows : List (List PyStr)} : ∀ {b b' : Bool} {s t : Store}
    (_ : rows.foldlM insertIndexOldRow b s = .ok (b', t)) {r : IndexRec} (_ : r ∈ s.index), r ∈ t.index := by
  induction rows with
  | nil => intro b b' s t h r hr; cases h; exact hr
  | cons l ls ih =>
    intro b b' s t h r hr
    obtain ⟨c, u, h1, h2⟩ := foldlM_cons_ok.1 h
    refine ih h2 ?_
    obtain ⟨rfl, rfl⟩ | ⟨rfl, rfl, -⟩ := oldRow_cases h1
    · exact hr
    · exact List.mem_append_left _ hr

/-- After the rows of the older method: only records and the last id differ; if one was added, there is a new record. -/
theorem oldRows_result {rows : List (List PyStr)} : ∀ {b b' : Bool} {s t : Store}
    (_ : rows.foldlM insertIndexOldRow b s = .ok (b', t)) (_ : IndexInv s),
    IndexInv t ∧ (∃ index seq, t = { s with index := index, seq := seq } ∧ s.seq ≤ seq) ∧
      (b' = true → b = true ∨ ∃ r ∈ t.index, s.seq < r.id) := by
  induction rows with
  | nil => intro b b' s t h hi; cases h; exact ⟨hi, ⟨_, _, rfl, le_refl _⟩, .inl⟩
  | cons l ls ih =>
    intro b b' s t h hi
    obtain ⟨c, u, h1, h2⟩ := foldlM_cons_ok.1 h
    obtain ⟨a1, ⟨idx, sq, rfl, hle⟩, a3⟩ := ih h2 (oldRow_inv hi h1)
    obtain ⟨rfl, rfl⟩ | ⟨rfl, rfl, -⟩ := oldRow_cases h1
    · exact ⟨a1, ⟨_, _, rfl, hle⟩, a3⟩
    · refine ⟨a1, ⟨_, _, rfl, (Nat.le_succ _).trans hle⟩, fun _ => .inr ?_⟩
      have hk := oldRows_keep h2 (r := ⟨s.seq + 1, l⟩) (List.mem_append_right _ List.mem_cons_self)
      exact ⟨_, hk, Nat.lt_succ_self _⟩

/-- The dataspace in which no group, or no link, counts as complete. -/
def Store.groupsOpen (s : Store) : Store := { s with wgroups := s.wgroups.map fun g => { g with complete := false } }

def Store.linksOpen (s : Store) : Store := { s with links := s.links.map fun l => { l with complete := false } }

theorem upd_middle {α : Type} {key : α → Nat} {f : α → α} (hf : ∀ a, key (f a) = key a) {pre rest : List α} {g : α}
    (hn : ((pre ++ g :: rest).map key).Nodup) :
    ((pre.map f ++ g :: rest).map fun x => if key x = key g then f g else x) = (pre ++ [g]).map f ++ rest := by
  rw [List.map_append, List.map_cons, List.nodup_append] at hn
  obtain ⟨-, h2, h3⟩ := hn
  rw [List.map_append, List.map_cons, if_pos rfl, List.map_append, List.append_assoc]
  congr 1
  · rw [List.map_map]
    apply List.map_congr_left
    intro x hx
    rw [Function.comp_apply, if_neg]
    rw [hf]
    exact h3 (key x) (List.mem_map_of_mem hx) (key g) List.mem_cons_self
  · show f g :: _ = f g :: _
    congr 1
    apply (List.map_congr_left ?_).trans (List.map_id _)
    intro x hx
    rw [if_neg]
    · rfl
    · intro he
      exact (List.nodup_cons.1 h2).1 (by rw [← he]; exact List.mem_map_of_mem hx)

theorem wgroupOpen_run {t : Store} {pre rest : List WGroup} {g : WGroup}
    (hids : ((pre ++ g :: rest).map (·.id)).Nodup) (hnames : ((pre ++ g :: rest).map (·.name)).Nodup)
    (ht : t.wgroups = (pre.map fun g => { g with complete := false }) ++ g :: rest) :
    wgroupUpdate { g with complete := false } t =
      .ok ((), { t with wgroups := ((pre ++ [g]).map fun g => { g with complete := false }) ++ rest }) := by
  unfold wgroupUpdate
  refine bind_ok.2 ⟨t, t, rfl, ?_⟩
  have hm : ∀ x ∈ t.wgroups, ∃ y ∈ pre ++ g :: rest, y.id = x.id ∧ y.name = x.name := by
    intro x hx
    rw [ht] at hx
    rcases List.mem_append.1 hx with hx | hx
    · obtain ⟨y, hy, rfl⟩ := List.mem_map.1 hx
      exact ⟨y, List.mem_append_left _ hy, rfl, rfl⟩
    · exact ⟨x, List.mem_append_right _ hx, rfl, rfl⟩
  rw [if_neg, if_neg]
  · show Except.ok ((), _) = _
    have h := upd_middle (key := WGroup.id) (f := fun g : WGroup => { g with complete := false }) (fun _ => rfl) hids
    rw [← ht] at h
    show Except.ok ((), { t with wgroups := t.wgroups.map fun x : WGroup => if x.id = g.id then { g with complete := false } else x }) = _
    rw [h]
  · intro h
    obtain ⟨x, hx, h⟩ := List.any_eq_true.1 h
    rw [Bool.and_eq_true, bne_iff_ne, beq_iff_eq] at h
    obtain ⟨y, hy, h1, h2⟩ := hm x hx
    have := List.inj_on_of_nodup_map hnames hy (List.mem_append_right _ List.mem_cons_self) (h2.trans h.2)
    exact h.1 (by rw [← h1, this])
  · rw [not_not]
    exact List.any_eq_true.2 ⟨g, by rw [ht]; exact List.mem_append_right _ List.mem_cons_self, by simp⟩

theorem wgroups_same {t : Store} {w : List WGroup} (h : t.wgroups = w) : { t with wgroups := w } = t := by
  subst h; rfl

theorem groupsLoop_old {rest : List WGroup} : ∀ {t : Store} {pre : List WGroup}
    (_ : ((pre ++ rest).map (·.id)).Nodup) (_ : ((pre ++ rest).map (·.name)).Nodup)
    (_ : t.wgroups = (pre.map fun g => { g with complete := false }) ++ rest),
    rest.forM (fun g => whenM g.complete (wgroupUpdate { g with complete := false })) t =
      .ok ((), { t with wgroups := (pre ++ rest).map fun g => { g with complete := false } }) := by
  induction rest with
  | nil =>
    intro t pre _ _ ht
    rw [wgroups_same (by rw [ht, List.append_nil, List.append_nil])]; rfl
  | cons g gs ih =>
    intro t pre h1 h2 ht
    have e : pre ++ g :: gs = (pre ++ [g]) ++ gs := by simp
    have hstep : whenM g.complete (wgroupUpdate { g with complete := false }) t =
        .ok ((), { t with wgroups := ((pre ++ [g]).map fun g => { g with complete := false }) ++ gs }) := by
      by_cases hg : g.complete = true
      · exact whenM_ok.2 (.inl ⟨hg, wgroupOpen_run h1 h2 ht⟩)
      · refine whenM_ok.2 (.inr ⟨by simpa using hg, ?_⟩)
        refine wgroups_same ?_
        rw [ht, List.map_append, List.append_assoc]
        have : ({ g with complete := false } : WGroup) = g := by
          cases g; simp only [Bool.not_eq_true] at hg; simp [hg]
        simp [this]
    refine forM_cons_ok.2 ⟨_, hstep, ?_⟩
    rw [e] at h1 h2 ⊢
    exact ih h1 h2 rfl

theorem groupsLoop_new {rest : List WGroup} : ∀ {t : Store} {pre : List WGroup}
    (_ : ((pre ++ rest).map (·.id)).Nodup) (_ : ((pre ++ rest).map (·.name)).Nodup)
    (_ : ∀ g, t.wgroupIsComplete g = false)
    (_ : t.wgroups = (pre.map fun g => { g with complete := false }) ++ rest),
    rest.forM (fun g => (do wgroupUpdate { g with complete := (← get).wgroupIsComplete g.id } : M Unit)) t =
      .ok ((), { t with wgroups := (pre ++ rest).map fun g => { g with complete := false } }) := by
  induction rest with
  | nil =>
    intro t pre _ _ _ ht
    rw [wgroups_same (by rw [ht, List.append_nil, List.append_nil])]; rfl
  | cons g gs ih =>
    intro t pre h1 h2 hc ht
    have e : pre ++ g :: gs = (pre ++ [g]) ++ gs := by simp
    refine forM_cons_ok.2 ⟨{ t with wgroups := ((pre ++ [g]).map fun g => { g with complete := false }) ++ gs },
      bind_ok.2 ⟨t, t, rfl, ?_⟩, ?_⟩
    · rw [hc]
      exact wgroupOpen_run h1 h2 ht
    · rw [e] at h1 h2 ⊢
      exact ih h1 h2 hc rfl

theorem linkOpen_run {t : Store} {pre rest : List Link} {g : Link} (hl : LinkInv { t with links := pre ++ g :: rest })
    (ht : t.links = (pre.map fun g => { g with complete := false }) ++ g :: rest) :
    linkUpdate { g with complete := false } t =
      .ok ((), { t with links := ((pre ++ [g]).map fun g => { g with complete := false }) ++ rest }) := by
  unfold linkUpdate
  refine bind_ok.2 ⟨t, t, rfl, ?_⟩
  have hm : ∀ x ∈ t.links, ∃ y ∈ pre ++ g :: rest, y.id = x.id ∧ y.other = x.other ∧ y.name = x.name ∧
      y.isDefault = x.isDefault := by
    intro x hx
    rw [ht] at hx
    rcases List.mem_append.1 hx with hx | hx
    · obtain ⟨y, hy, rfl⟩ := List.mem_map.1 hx
      exact ⟨y, List.mem_append_left _ hy, rfl, rfl, rfl, rfl⟩
    · exact ⟨x, List.mem_append_right _ hx, rfl, rfl, rfl, rfl⟩
  have hg : g ∈ pre ++ g :: rest := List.mem_append_right _ List.mem_cons_self
  rw [if_neg, if_neg]
  · have h := upd_middle (key := Link.id) (f := fun g : Link => { g with complete := false }) (fun _ => rfl) hl.ids
    rw [← ht] at h
    show Except.ok ((), { t with links := t.links.map fun x : Link => if x.id = g.id then { g with complete := false } else x }) = _
    rw [h]
  · intro h
    obtain ⟨x, hx, h⟩ := List.any_eq_true.1 h
    simp only [Bool.and_eq_true, bne_iff_ne, beq_iff_eq, Bool.or_eq_true] at h
    obtain ⟨y, hy, h1, h2, h3, h4⟩ := hm x hx
    obtain ⟨⟨k1, k2⟩, k3⟩ := h
    have hne : y ≠ g := fun he => k1 (by rw [← h1, he])
    rcases k3 with k3 | ⟨k3, k4⟩
    · exact hne (List.inj_on_of_nodup_map hl.names hy hg (by rw [h2, h3, k2, k3]))
    · have : Std.Symm fun a b : Link => a.other = b.other → ¬ (a.isDefault = true ∧ b.isDefault = true) :=
        ⟨fun a b hab ho hd => hab ho.symm hd.symm⟩
      have := hl.defaults.forall hy hg hne
      exact this (h2.trans k2) ⟨h4.trans k3, k4⟩
  · rw [not_not]
    exact List.any_eq_true.2 ⟨g, by rw [ht]; exact List.mem_append_right _ List.mem_cons_self, by simp⟩

theorem links_same {t : Store} {w : List Link} (h : t.links = w) : { t with links := w } = t := by
  subst h; rfl

theorem linksLoop {rest : List Link} : ∀ {t : Store} {pre : List Link} (_ : LinkInv { t with links := pre ++ rest })
    (_ : t.links = (pre.map fun g => { g with complete := false }) ++ rest),
    rest.forM (fun g => whenM g.complete (linkUpdate { g with complete := false })) t =
      .ok ((), { t with links := (pre ++ rest).map fun g => { g with complete := false } }) := by
  induction rest with
  | nil =>
    intro t pre _ ht
    rw [links_same (by rw [ht, List.append_nil, List.append_nil])]; rfl
  | cons g gs ih =>
    intro t pre h1 ht
    have e : pre ++ g :: gs = (pre ++ [g]) ++ gs := by simp
    have hstep : whenM g.complete (linkUpdate { g with complete := false }) t =
        .ok ((), { t with links := ((pre ++ [g]).map fun g => { g with complete := false }) ++ gs }) := by
      by_cases hg : g.complete = true
      · exact whenM_ok.2 (.inl ⟨hg, linkOpen_run h1 ht⟩)
      · refine whenM_ok.2 (.inr ⟨by simpa using hg, ?_⟩)
        refine links_same ?_
        rw [ht, List.map_append, List.append_assoc]
        have : ({ g with complete := false } : Link) = g := by
          cases g; simp only [Bool.not_eq_true] at hg; simp [hg]
        simp [this]
    refine forM_cons_ok.2 ⟨_, hstep, ?_⟩
    rw [e] at h1 ⊢
    exact ih h1 rfl

/-- The two ways to finish a load that added a record. -/
theorem after_eq {t : Store} (hw : WeightInv t) (hl : LinkInv t) (hc : ∀ g, t.wgroupIsComplete g = false) :
    (afterNewRecords >>= fun _ => recomputeComplete) t = afterOldRecords t := by
  have hu : ∀ u, (refreshIndexHash >>= fun _ => refreshOrRebuild) t = .ok ((), u) →
      WeightInv u ∧ LinkInv u ∧ ∀ g, u.wgroupIsComplete g = false := by
    intro u h
    have hs : Steps [.hash, .structs, .pdefs] t u := Does.steps (by does) _ _ _ h
    refine ⟨WeightInv.steps hs hw, ⟨by rw [hs.links_eq (by decide)]; exact hl.ids, by rw [hs.links_eq (by decide)]; exact hl.names,
      by rw [hs.links_eq (by decide)]; exact hl.defaults⟩, fun g => ?_⟩
    rw [← hc g]
    unfold Store.wgroupIsComplete
    rw [hs.index_eq (by decide), hs.weights_eq (by decide)]
  have e1 : (afterNewRecords >>= fun _ => recomputeComplete) t =
      ((refreshIndexHash >>= fun _ => refreshOrRebuild) >>= fun _ => do
        (← get).links.forM (fun l => whenM l.complete (linkUpdate { l with complete := false }))
        recomputeComplete) t := by
    unfold afterNewRecords
    simp only [bind_assoc]
  have e2 : afterOldRecords t =
      ((refreshIndexHash >>= fun _ => refreshOrRebuild) >>= fun _ => do
        (← get).wgroups.forM (fun g => whenM g.complete (wgroupUpdate { g with complete := false }))
        (← get).links.forM (fun l => whenM l.complete (linkUpdate { l with complete := false }))) t := by
    unfold afterOldRecords
    simp only [bind_assoc]
  rw [e1, e2]
  rcases h : (refreshIndexHash >>= fun _ => refreshOrRebuild) t with e | ⟨⟨⟩, u⟩
  · have e3 : ∀ f : Unit → M Unit, ((refreshIndexHash >>= fun _ => refreshOrRebuild) >>= f) t = .error e := by
      intro f
      show ((refreshIndexHash >>= fun _ => refreshOrRebuild) t).bind _ = _
      rw [h]; rfl
    rw [e3, e3]
  · have e3 : ∀ f : Unit → M Unit, ((refreshIndexHash >>= fun _ => refreshOrRebuild) >>= f) t = f () u := by
      intro f
      show ((refreshIndexHash >>= fun _ => refreshOrRebuild) t).bind _ = _
      rw [h]; rfl
    rw [e3, e3]
    obtain ⟨hw', hl', hc'⟩ := hu u h
    have r1 : u.links.forM (fun l => whenM l.complete (linkUpdate { l with complete := false })) u = .ok ((), u.linksOpen) :=
      linksLoop (pre := []) hl' rfl
    have r2 : recomputeComplete u.linksOpen = .ok ((), u.linksOpen.groupsOpen) :=
      bind_ok.2 ⟨u.linksOpen, u.linksOpen, rfl, groupsLoop_new (pre := []) hw'.gids hw'.names hc' rfl⟩
    have r3 : u.wgroups.forM (fun g => whenM g.complete (wgroupUpdate { g with complete := false })) u =
        .ok ((), u.groupsOpen) := groupsLoop_old (pre := []) hw'.gids hw'.names rfl
    have r4 : u.groupsOpen.links.forM (fun l => whenM l.complete (linkUpdate { l with complete := false })) u.groupsOpen =
        .ok ((), u.groupsOpen.linksOpen) := linksLoop (pre := []) (t := u.groupsOpen) ⟨hl'.ids, hl'.names, hl'.defaults⟩ rfl
    refine Eq.trans (b := .ok ((), u.groupsOpen.linksOpen)) ?_ (Eq.symm ?_)
    · exact bind_ok.2 ⟨u, u, rfl, bind_ok.2 ⟨(), u.linksOpen, r1, r2⟩⟩
    · exact bind_ok.2 ⟨u, u, rfl, bind_ok.2 ⟨(), u.groupsOpen, r3, bind_ok.2 ⟨u.groupsOpen, u.groupsOpen, rfl, r4⟩⟩⟩

theorem insertIndexOld_eq {pl pw : Policy} {rows : List (List PyStr)} {s : Store} (hi : IndexInv s) (hw : WeightInv s)
    (hl : LinkInv s) (href : ∀ w ∈ s.weights, w.index ∈ s.ids) (hlen : ∀ l ∈ rows, l.length = s.cols.length)
    (hc : s.cols ≠ []) : insertIndex none [] pl pw (rows.map plainRow) s = insertIndexOld rows s := by
  unfold insertIndex insertIndexOld
  rw [get_bind, get_bind, if_neg (by simp), if_neg hc, if_neg (fun h => hc h.1)]
  have e0 : ∀ f : List WGroup → M Unit, (insertIndexGroups none [] >>= f) s = f [] s := fun f => rfl
  rw [e0]
  have hp := plainRows_eq (pl := pl) (pw := pw) (rows := rows) (b := false) hi hlen hc
  rcases h : rows.foldlM insertIndexOldRow false s with e | ⟨b, t⟩
  · rw [h] at hp
    have e1 : ∀ f : Counts → M Unit,
        ((rows.map plainRow).foldlM (insertIndexRow [] pl pw) ⟨false, false⟩ >>= f) s = .error e := by
      intro f
      show ((rows.map plainRow).foldlM (insertIndexRow [] pl pw) ⟨false, false⟩ s).bind _ = _
      rw [hp]; rfl
    have e2 : ∀ f : Bool → M Unit, (rows.foldlM insertIndexOldRow false >>= f) s = .error e := by
      intro f
      show (rows.foldlM insertIndexOldRow false s).bind _ = _
      rw [h]; rfl
    rw [e1, e2]
  · rw [h] at hp
    have e1 : ∀ f : Counts → M Unit,
        ((rows.map plainRow).foldlM (insertIndexRow [] pl pw) ⟨false, false⟩ >>= f) s = f ⟨b, false⟩ t := by
      intro f
      show ((rows.map plainRow).foldlM (insertIndexRow [] pl pw) ⟨false, false⟩ s).bind _ = _
      rw [hp]; rfl
    have e2 : ∀ f : Bool → M Unit, (rows.foldlM insertIndexOldRow false >>= f) s = f b t := by
      intro f
      show (rows.foldlM insertIndexOldRow false s).bind _ = _
      rw [h]; rfl
    rw [e1, e2]
    obtain ⟨-, ⟨idx, sq, rfl, -⟩, h3⟩ := oldRows_result h hi
    cases b with
    | false => rfl
    | true =>
      obtain h3 | ⟨r, hr, hgt⟩ := h3 rfl
      · cases h3
      · refine (after_eq ⟨hw.ids, hw.pairs, hw.defined, hw.nonneg, hw.gids, hw.names, hw.gpos⟩
          ⟨hl.ids, hl.names, hl.defaults⟩ fun g => ?_)
        unfold Store.wgroupIsComplete
        rw [List.all_eq_false]
        refine ⟨r, hr, ?_⟩
        rw [Bool.or_eq_true, beq_iff_eq, List.any_eq_true]
        rintro (h0 | ⟨w, hw', he⟩)
        · omega
        · rw [Bool.and_eq_true, beq_iff_eq, beq_iff_eq] at he
          obtain ⟨r', hr', hid⟩ := List.mem_map.1 (href w hw')
          have := hi.idsLe r' hr'
          omega

end Toron.Space
