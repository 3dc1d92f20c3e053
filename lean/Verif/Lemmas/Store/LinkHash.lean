/-
The fingerprint recorded in a link is that of the source records its mappings cover.
-/
import Verif.Lemmas.Store.Complete
import Verif.Spec.LinkHash

set_option linter.unusedSimpArgs false

namespace Toron.Space

open Toron.Selectors (PyStr Sel)

theorem ReachableHashed.reachable {s : Store} (h : ReachableHashed s) : Reachable s := by
  obtain ⟨uid, ops, _, rfl⟩ := h
  exact ⟨uid, ops, rfl⟩

theorem ReachableHashed.induction {P : Store → Prop} (h0 : ∀ uid, P (Store.new uid))
    (hs : ∀ s op, Reachable s → op.setsHash = false → P s → P (Space.step op s).1)
    {s : Store} (h : ReachableHashed s) : P s := by
  obtain ⟨uid, ops, hops, rfl⟩ := h
  induction ops using List.reverseRecOn with
  | nil => exact h0 uid
  | append_singleton ops op ih =>
    rw [run, List.foldl_append, List.foldl_cons, List.foldl_nil]
    simp only [List.mem_append, List.mem_singleton] at hops
    exact hs _ _ ⟨uid, ops, rfl⟩ (hops op (.inr rfl)) (ih fun o ho => hops o (.inl ho))

theorem mem_distinctOthers {s : Store} {lk : Nat} {o : Int} :
    o ∈ s.distinctOthers lk ↔ o = 0 ∨ 0 < o ∧ s.mapsFromSource lk o := by
  unfold Store.distinctOthers Store.mapsFromSource
  simp only [List.mem_cons, mem_sortedBy, mem_distinct, List.mem_map, List.mem_filter,
    Bool.and_eq_true, beq_iff_eq, decide_eq_true_eq]
  constructor
  · rintro (h | ⟨x, ⟨hx, hl, h0⟩, he⟩)
    · exact .inl h
    · exact .inr ⟨he ▸ h0, x, hx, hl, he⟩
  · rintro (h | ⟨h0, x, hx, hl, he⟩)
    · exact .inl h
    · exact .inr ⟨x, ⟨hx, hl, he ▸ h0⟩, he⟩

theorem distinctOthers_covered (s : Store) (lk : Nat) : s.coveredIds lk (s.distinctOthers lk) := by
  refine ⟨?_, fun o => mem_distinctOthers⟩
  unfold Store.distinctOthers
  refine List.pairwise_cons.2 ⟨fun o ho => ?_, ?_⟩
  · rw [mem_sortedBy, mem_distinct, List.mem_map] at ho
    obtain ⟨m, hm, rfl⟩ := ho
    have := (List.mem_filter.1 hm).2
    simp only [Bool.and_eq_true, decide_eq_true_eq] at this
    exact this.2
  · refine List.Pairwise.imp_of_mem ?_ (List.Pairwise.and (sortedBy_pairwise _ ?_ ?_ _)
      ((sortedBy_perm _ _).nodup_iff.2 (nodup_distinct _)))
    · intro a b _ _ h
      exact lt_of_le_of_ne (by simpa using h.1) h.2
    · intro a b c h1 h2
      simp only [decide_eq_true_eq] at *
      exact le_trans h1 h2
    · intro a b
      simpa using le_total a b

/-- Links with a fingerprint list the records they cover. -/
def HashTrue (s : Store) : Prop := ∀ l ∈ s.links, ∀ h, l.otherHash = some h → s.coveredIds l.id h

theorem coveredIds_of {s s' : Store} {lk : Nat} {h : List Int} (hs : s.coveredIds lk h)
    (h1 : ∀ m ∈ s'.maps, m.link = lk → s.mapsFromSource lk m.other)
    (h2 : ∀ m ∈ s.maps, m.link = lk → s'.mapsFromSource lk m.other) : s'.coveredIds lk h := by
  refine ⟨hs.1, fun o => ?_⟩
  rw [hs.2 o]
  refine or_congr_right (and_congr_right fun _ => ⟨?_, ?_⟩)
  · rintro ⟨m, hm, hl, rfl⟩
    exact h2 m hm hl
  · rintro ⟨m, hm, hl, rfl⟩
    exact h1 m hm hl

theorem HashTrue.steps {K : List Kind} {s s' : Store} (h : Steps K s s')
    (hK : ∀ k ∈ K, k ∉ [Kind.mAdd, .mDel, .mUpd, .lAdd, .lUpd]) (hs : HashTrue s) : HashTrue s' := by
  refine h.invariant (P := HashTrue) ?_ hs
  intro k hk s s' hp hs
  have hb := hK k hk
  cases hp with
  | mAdd => exact absurd (by simp) hb
  | mDel => exact absurd (by simp) hb
  | mUpd => exact absurd (by simp) hb
  | lAdd => exact absurd (by simp) hb
  | lUpd => exact absurd (by simp) hb
  | lDel _ id =>
    intro g hg c hc
    obtain ⟨hg, hne⟩ := List.mem_filter.1 hg
    refine coveredIds_of (hs g hg c hc) ?_ ?_
    · intro m hm hl
      dsimp only at hm
      split at hm
      · exact ⟨m, List.mem_of_mem_filter hm, hl, rfl⟩
      · exact ⟨m, hm, hl, rfl⟩
    · intro m hm hl
      refine ⟨m, ?_, hl, rfl⟩
      dsimp only
      split
      · exact List.mem_filter.2 ⟨hm, by rw [hl]; exact hne⟩
      · exact hm
  | _ => exact hs

/-- The state of a loop that only updates links. -/
def HashLoop (s t : Store) : Prop := t.maps = s.maps ∧ HashTrue t

theorem HashLoop.covered {s t : Store} (h : HashLoop s t) {lk : Nat} {c : List Int} :
    t.coveredIds lk c ↔ s.coveredIds lk c := by
  unfold Store.coveredIds Store.mapsFromSource
  rw [h.1]

theorem HashLoop.upd {l : Link} {s t t' : Store} {u : Unit} (h : HashLoop s t)
    (hl : ∀ c, l.otherHash = some c → s.coveredIds l.id c) (hu : linkUpdate l t = .ok (u, t')) : HashLoop s t' := by
  rw [linkUpdate_ok hu]
  refine ⟨h.1, ?_⟩
  intro x hx c hc
  show t.coveredIds x.id c
  unfold Space.upd at hx
  obtain ⟨y, hy, rfl⟩ := List.mem_map.1 hx
  split at hc
  · rename_i he
    rw [if_pos he]
    exact h.covered.2 (hl c hc)
  · rename_i he
    rw [if_neg he]
    exact h.2 y hy c hc

theorem promoteLinks_others {s s' : Store} (hs : HashTrue s) (h : promoteLinks s = .ok ((), s')) : HashTrue s' := by
  unfold promoteLinks at h
  simp only [bind_ok, get_ok] at h
  obtain ⟨_, _, he, h⟩ := h
  cases he
  refine (forM_keep (P := HashLoop s) ?_ ⟨rfl, hs⟩ h).2
  intro l hl t t' ht h
  rw [bind_ok] at h
  obtain ⟨_, _, he, h⟩ := h
  rw [get_ok] at he
  cases he
  rw [whenM_ok] at h
  obtain ⟨hc, h⟩ | ⟨_, rfl⟩ := h
  · exact ht.upd (l := { l with complete := true }) (fun c hc => hs l hl c hc) h
  · exact ht

theorem insertIndex_others {weights : Option (List PyStr)} {wcols : List PyStr} {pl pw : Policy}
    {rows : List IndexRow} {s s' : Store} (hs : HashTrue s)
    (h : insertIndex weights wcols pl pw rows s = .ok ((), s')) : HashTrue s' := by
  obtain ⟨groups, c, t, u, h1, h2, h3, _⟩ := insertIndex_parts h
  have ht : HashTrue t :=
    hs.steps (Does.steps (Does.foldlM fun b r _ => insertIndexRow_does groups pl pw b r) _ _ _ h1) (by decide)
  have hu : HashTrue u := by
    rw [whenM_ok] at h2
    obtain ⟨_, h2⟩ | ⟨hc, rfl⟩ := h2
    · unfold afterNewRecords at h2
      simp only [bind_ok, get_ok] at h2
      obtain ⟨_, v1, h5, _, v, h6, _, _, he, h4⟩ := h2
      cases he
      have hv : HashTrue v := (ht.steps (K := [.hash]) (Does.steps (by does) _ _ _ h5) (by decide)).steps
        (K := [.structs, .pdefs]) (Does.steps (by does) _ _ _ h6) (by decide)
      refine (forM_keep (P := HashLoop v) ?_ ⟨rfl, hv⟩ h4).2
      intro l hl t t' ht h
      rw [whenM_ok] at h
      obtain ⟨_, h⟩ | ⟨_, rfl⟩ := h
      · exact ht.upd (l := { l with complete := false }) (fun c hc => hv l hl c hc) h
      · exact ht
    · exact ht
  exact hu.steps (K := [.wgUpd]) (Does.steps (by does) _ _ _ h3) (by decide)

theorem mergeMappings_sources {o target : Nat} {s s' : Store} (hnd : (s.maps.map (·.id)).Nodup)
    (h : mergeMappings [o] target s = .ok ((), s')) {lk : Nat} {x : Int} :
    s'.mapsFromSource lk x ↔ s.mapsFromSource lk x := by
  obtain ⟨old, new, hp, rfl, hn⟩ := mergeMappings_ok hnd h
  have hkeys : new.map Mapping.key = distinct (old.map Mapping.key) := by
    have := congrArg (List.map Prod.fst) hn
    rw [List.map_map, List.map_map] at this
    simpa [Function.comp_def] using this
  have hkey : ∀ k, (∃ m ∈ new, m.key = k) ↔ ∃ m ∈ old, m.key = k := by
    intro k
    rw [← List.mem_map, hkeys, mem_distinct, List.mem_map]
  constructor
  · rintro ⟨m, hm, hl, he⟩
    rcases List.mem_append.1 hm with hm | hm
    · exact ⟨m, List.mem_of_mem_filter hm, hl, he⟩
    · obtain ⟨y, hy, hk⟩ := (hkey m.key).1 ⟨m, hm, rfl⟩
      have hy := List.mem_of_mem_filter (hp.mem_iff.1 hy)
      exact ⟨y, hy, (congrArg (fun k => k.1) hk).trans hl, (congrArg (fun k => k.2.1) hk).trans he⟩
  · rintro ⟨m, hm, hl, he⟩
    by_cases hi : m.index ∈ target :: [o]
    · have hmo : m ∈ old := hp.mem_iff.2 (List.mem_filter.2 ⟨hm, by simpa using hi⟩)
      obtain ⟨y, hy, hk⟩ := (hkey m.key).2 ⟨m, hmo, rfl⟩
      exact ⟨y, List.mem_append_right _ hy, (congrArg (fun k => k.1) hk).trans hl,
        (congrArg (fun k => k.2.1) hk).trans he⟩
    · exact ⟨m, List.mem_append_left _ (List.mem_filter.2 ⟨hm, by simpa using hi⟩), hl, he⟩

theorem updateIndexRow_hash {merge : Bool} {acc acc' : UpdateAcc} {row : Nat × List PyStr} {s s' : Store}
    (hi : MapInv s) (hs : HashTrue s) (h : updateIndexRow merge acc row s = .ok (acc', s')) : HashTrue s' := by
  obtain ⟨_, rfl⟩ | ⟨r, hr, _, _, ⟨_, _, rfl⟩ | ⟨o, t1, t2, _, _, _, _, hw, hm, _, _, rfl⟩⟩ := updateIndexRow_cases h
  · exact hs
  · exact hs
  · have e3 : t2.links = t1.links := ((mergeMappings_does ..).steps _ _ _ hm).links_eq (by decide)
    have hsw := (mergeWeights_does ..).steps _ _ _ hw
    have f2 : t1.maps = s.maps := hsw.maps_eq (by decide)
    have f3 : t1.links = s.links := hsw.links_eq (by decide)
    intro g hg c hc
    have hg : g ∈ s.links := by rw [← f3, ← e3]; exact hg
    have hsrc : ∀ lk x, t2.mapsFromSource lk x ↔ s.mapsFromSource lk x := by
      intro lk x
      rw [mergeMappings_sources (by rw [f2]; exact hi.ids) hm]
      unfold Store.mapsFromSource
      rw [f2]
    exact coveredIds_of (hs g hg c hc) (fun m hm hl => (hsrc _ _).1 ⟨m, hm, hl, rfl⟩)
      fun m hm hl => (hsrc _ _).2 ⟨m, hm, hl, rfl⟩

theorem updateIndex_others {merge : Bool} {rows : List (Nat × List PyStr)} {s s' : Store} (hi : MapInv s)
    (hs : HashTrue s) (h : updateIndex merge rows s = .ok ((), s')) : HashTrue s' := by
  obtain ⟨acc, t, u, h1, h2, h3⟩ := updateIndex_parts h
  have ht : HashTrue t := by
    clear h h2 h3
    generalize (⟨[], false⟩ : UpdateAcc) = acc0 at h1
    induction rows generalizing s acc0 with
    | nil => cases h1; exact hs
    | cons r rs ih =>
      obtain ⟨d, t', h1, h2⟩ := foldlM_cons_ok.1 h1
      exact ih (hi.steps ((updateIndexRow_does merge _ r).steps _ _ _ h1)) (updateIndexRow_hash hi hs h1) _ h2
  have hu : HashTrue u := ht.steps (K := [.structs]) (Does.steps (by does) _ _ _ h2) (by decide)
  rw [whenM_ok] at h3
  obtain ⟨_, h3⟩ | ⟨_, rfl⟩ := h3
  · unfold afterMerge at h3
    simp only [bind_ok] at h3
    obtain ⟨_, v, h4, _, v2, h5, h6⟩ := h3
    have hv : HashTrue v := hu.steps (K := [.hash]) (Does.steps (by does) _ _ _ h4) (by decide)
    exact promoteLinks_others (hv.steps (K := [.wgUpd]) (Does.steps (by does) _ _ _ h5) (by decide)) h6
  · exact hu

theorem deleteIndex_others {t : Target (Nat × List PyStr)} {s s' : Store} (hs : HashTrue s)
    (h : deleteIndex t s = .ok ((), s')) : HashTrue s' := by
  obtain ⟨d, u, h1, h2⟩ := deleteIndex_parts h
  rw [whenM_ok] at h2
  obtain ⟨_, h2⟩ | ⟨hd, rfl⟩ := h2
  · unfold afterDeleteIndex at h2
    simp only [bind_ok, get_ok] at h2
    obtain ⟨_, v, h3, _, v2, h4, _, v3, h5, _, _, he, h6⟩ := h2
    cases he
    have main : ∀ (ls : List Link) (t : Store),
        (∀ x ∈ t.links, (∀ c, x.otherHash = some c → t.coveredIds x.id c) ∨ ∃ l ∈ ls, l.id = x.id) →
        ls.forM (fun l => (do
          let s ← get
          linkUpdate { l with
            otherHash := some (s.distinctOthers l.id),
            complete := l.complete || s.mappingIsComplete l.id } : M Unit)) t = .ok ((), s') → HashTrue s' := by
      intro ls
      induction ls with
      | nil =>
        intro t h1 h x hx c hc
        cases h
        obtain h | ⟨_, hn, _⟩ := h1 x hx
        · exact h c hc
        · cases hn
      | cons l ls ih =>
        intro t h1 h
        obtain ⟨w, h2, h3⟩ := forM_cons_ok.1 h
        refine ih w ?_ h3
        rw [bind_ok] at h2
        obtain ⟨_, _, he, h2⟩ := h2
        rw [get_ok] at he
        cases he
        rw [linkUpdate_ok h2]
        intro x hx
        unfold upd at hx
        obtain ⟨y, hy, rfl⟩ := List.mem_map.1 hx
        split
        · refine .inl fun c hc => ?_
          cases hc
          exact distinctOthers_covered t l.id
        · rename_i hne
          obtain h | ⟨z, hz, hz1⟩ := h1 y hy
          · exact .inl h
          · rcases List.mem_cons.1 hz with rfl | hz
            · exact absurd hz1.symm hne
            · exact .inr ⟨z, hz, hz1⟩
    exact main v3.links v3 (fun x hx => .inr ⟨x, hx, rfl⟩) h6
  · rw [hd] at h1
    rw [deleteIndexTarget_false h1]
    exact hs

theorem addLink_others {other name : PyStr} {hint : Option PyStr} {selectors : List Sel}
    {isDefault : Option Bool} {complete : Bool} {s s' : Store} (hs : HashTrue s)
    (h : addLink other name hint selectors isDefault none complete s = .ok ((), s')) : HashTrue s' := by
  unfold addLink at h
  rw [bind_ok] at h
  obtain ⟨_, _, he, h⟩ := h
  rw [get_ok] at he
  cases he
  rw [ite_ok] at h
  obtain ⟨_, h⟩ | ⟨_, h⟩ := h
  · exact absurd h (by simp [throw_ok])
  have add : ∀ {d : Bool} {t : Store}, HashTrue t →
      linkAdd ⟨0, other, hint, name, selectors, d, none, complete⟩ t = .ok ((), s') → HashTrue s' := by
    intro d t ht h
    rw [linkAdd_ok h]
    intro l hl c hc
    rcases List.mem_append.1 hl with hl | hl
    · exact ht l hl c hc
    · rw [List.mem_singleton] at hl
      subst hl
      cases hc
  dsimp only at h
  rw [ite_ok] at h
  obtain ⟨_, h⟩ | ⟨_, h⟩ := h
  · rw [bind_ok] at h
    obtain ⟨_, t, h1, h⟩ := h
    refine add (forM_keep (P := HashLoop s) ?_ ⟨rfl, hs⟩ h1).2 h
    intro l hl t t' ht h
    rw [ite_ok] at h
    obtain ⟨_, h⟩ | ⟨_, h⟩ := h
    · exact ht.upd (l := { l with isDefault := false }) (fun c hc => hs l (List.mem_of_mem_filter hl) c hc) h
    · rw [pure_ok] at h; cases h; exact ht
  · exact add hs h

theorem editLink_others {ref : PyStr} {name : Option PyStr} {c : LinkChanges} {s s' : Store} (hc : c.otherHash = none)
    (hs : HashTrue s) (h : editLink ref name c s = .ok ((), s')) : HashTrue s' := by
  unfold editLink at h
  simp only [bind_ok, get_ok, liftE_ok] at h
  obtain ⟨_, _, he, l, _, ⟨l, hl, he2⟩, h⟩ := h
  cases he
  cases he2
  have last : ∀ x, (c.apply l).otherHash = some x → s.coveredIds (c.apply l).id x := by
    intro x h
    apply hs l (getLink_mem hl)
    unfold LinkChanges.apply at h
    simpa [hc] using h
  rw [ite_ok] at h
  obtain ⟨_, h⟩ | ⟨_, h⟩ := h
  · simp only [bind_ok, get_ok] at h
    obtain ⟨_, _, he, _, t, h1, h2⟩ := h
    cases he
    have ht : HashLoop s t := by
      refine forM_keep (P := HashLoop s) ?_ ⟨rfl, hs⟩ h1
      intro l hl t t' ht h
      exact ht.upd (l := { l with isDefault := false }) (fun c hc => hs l (List.mem_of_mem_filter hl) c hc) h
    exact (ht.upd last h2).2
  · exact (HashLoop.upd ⟨rfl, hs⟩ last h).2

theorem refreshMaps_source {t : Store} {p : Nat → Int → Bool} {ls : List Link} {lk : Nat} {o : Int} :
    ({ t with maps := refreshMaps t.maps p, links := ls } : Store).mapsFromSource lk o ↔ t.mapsFromSource lk o := by
  unfold Store.mapsFromSource refreshMaps
  constructor
  · rintro ⟨m, hm, hl, he⟩
    obtain ⟨y, hy, rfl⟩ := List.mem_map.1 hm
    refine ⟨y, hy, ?_, ?_⟩
    · split at hl <;> exact hl
    · split at he <;> exact he
  · rintro ⟨m, hm, hl, he⟩
    refine ⟨_, List.mem_map.2 ⟨m, hm, rfl⟩, ?_, ?_⟩
    · split <;> exact hl
    · split <;> exact he

theorem coveredIds_refresh {t : Store} {p : Nat → Int → Bool} {ls : List Link} {lk : Nat} {c : List Int} :
    ({ t with maps := refreshMaps t.maps p, links := ls } : Store).coveredIds lk c ↔ t.coveredIds lk c := by
  unfold Store.coveredIds
  simp only [refreshMaps_source]

theorem MapEffect.hashTrue {s s' : Store} (h : MapEffect s s') (hs : HashTrue s) : HashTrue s' := by
  cases h with
  | none => exact hs
  | link l t hl ht _ =>
    intro x hx c hc
    refine coveredIds_refresh.2 ?_
    have hlk : t.links = s.links := by rw [ht.rest]
    unfold upd at hx
    obtain ⟨y, hy, rfl⟩ := List.mem_map.1 hx
    split at hc
    · rename_i he
      rw [if_pos he]
      cases hc
      exact distinctOthers_covered t l.id
    · rename_i he
      rw [if_neg he]
      have hm : ∀ m : Mapping, m.link = y.id → (m ∈ t.maps ↔ m ∈ s.maps) :=
        fun m hm => ht.mem_iff (by rw [hm]; exact he)
      exact coveredIds_of (hs y (hlk ▸ hy) c hc) (fun m h1 h2 => ⟨m, (hm m h2).1 h1, h2, rfl⟩)
        fun m h1 h2 => ⟨m, (hm m h2).2 h1, h2, rfl⟩
  | same l t hl ht _ hr =>
    intro x hx c hc
    refine (coveredIds_refresh (ls := t.links)).2 ?_
    have hlk : t.links = s.links := by rw [ht.rest]
    have key : ∀ a b : Store, a.reach = b.reach → ∀ m ∈ a.maps, m.link = x.id → b.mapsFromSource x.id m.other := by
      intro a b hab m hm hl
      have : (m.id, m.link, m.index, m.other) ∈ b.reach := by
        rw [← hab]
        exact List.mem_map.2 ⟨m, hm, rfl⟩
      obtain ⟨y, hy, he⟩ := List.mem_map.1 this
      exact ⟨y, hy, (congrArg (fun z => z.2.1) he).trans hl, congrArg (fun z => z.2.2.2) he⟩
    exact coveredIds_of (hs x (hlk ▸ hx) c hc) (key _ _ hr) (key _ _ hr.symm)

/-- Kinds of changes that keep the fingerprints truthful. -/
def noHashKinds : List Kind :=
  [.idxAdd, .idxUpd, .idxDel, .locAdd, .locDel, .agAdd, .agDel, .qAdd, .qSet, .qDel,
   .wgAdd, .wgUpd, .wgDel, .wAdd, .wSet, .wDel, .lDel,
   .hash, .structs, .pdefs, .attrs, .display, .domain, .defwg, .colAdd, .colRen, .colDrop]

theorem HashTrue.step {s : Store} (h : Reachable s) (op : Op) (hop : op.setsHash = false) (hs : HashTrue s) :
    HashTrue (step op s).1 := by
  have rest : ∀ {m : M Unit}, op.body = some m → Does noHashKinds m → HashTrue (Space.step op s).1 := by
    intro m hb hm
    rw [step_of_body hb]
    exact hs.steps (runTx_steps hm s) (by decide)
  cases op with
  | insertIndex => exact runTx_inv hs fun _ _ h => insertIndex_others hs h
  | updateIndex => exact runTx_inv hs fun _ _ h' => updateIndex_others h.mapInv hs h'
  | deleteIndex => exact runTx_inv hs fun _ _ h' => deleteIndex_others hs h'
  | addLink o n hint sel d oh c =>
    have : oh = none := by simpa [Op.setsHash] using hop
    subst this
    exact runTx_inv hs fun _ _ h => addLink_others hs h
  | editLink ref n c =>
    have : c.otherHash = none := by simpa [Op.setsHash] using hop
    exact runTx_inv hs fun _ _ h => editLink_others this hs h
  | insertMappings2 => exact runTx_inv hs fun _ _ h' => (insertMappings2_effect h.mapInv h').hashTrue hs
  | insertMappings => exact runTx_inv hs fun _ _ h' => (insertMappings_effect h.mapInv h').hashTrue hs
  | updateMappings => exact runTx_inv hs fun _ _ h' => (updateMappings_effect h.mapInv h').hashTrue hs
  | deleteMappings => exact runTx_inv hs fun _ _ h' => (deleteMappings_effect h.mapInv h').hashTrue hs
  | reifyMappings ref name cs =>
    have hst := reifyMappings_steps ref name cs s
    have hm := reify_core ref name cs s h.mapInv.ids
    intro l hl c hc
    rw [show (Space.step (.reifyMappings ref name cs) s).1 = (Space.reifyMappings ref name cs s).1 from rfl] at hl ⊢
    rw [hst.links_eq (by decide)] at hl
    have key : ∀ a b : Store, a.maps.map (fun m : Mapping => (m.id, m.link, m.other, m.index, m.value, m.prop)) =
        b.maps.map (fun m : Mapping => (m.id, m.link, m.other, m.index, m.value, m.prop)) →
        ∀ m ∈ a.maps, m.link = l.id → b.mapsFromSource l.id m.other := by
      intro a b hab m hm hl
      have hm' := List.mem_map_of_mem (f := fun m : Mapping => (m.id, m.link, m.other, m.index, m.value, m.prop)) hm
      rw [hab, List.mem_map] at hm'
      obtain ⟨x, hx, he⟩ := hm'
      exact ⟨x, hx, (congrArg (fun y => y.2.1) he).trans hl, congrArg (fun y => y.2.2.1) he⟩
    exact coveredIds_of (hs l hl c hc) (key _ _ hm) (key _ _ hm.symm)
  | deleteUnmatchedQuantities => exact hs.steps (deleteUnmatchedQuantities_steps s) (by decide)
  | reopen => exact hs
  | _ => exact rest rfl (by unfold noHashKinds; does)

theorem ReachableHashed.hashTrue {s : Store} (h : ReachableHashed s) : HashTrue s :=
  h.induction (P := HashTrue) (fun _ g hg => by simp [Store.new] at hg) fun _ op h hop hs => HashTrue.step h op hop hs

end Toron.Space
