/-
Calls commute with the change of spelling.
-/
import Verif.Spec.Spelling
import Verif.Lemmas.Store.Units

namespace Toron.Space.Spell

open Toron.Selectors (PyStr Sel CaseMap)
open Toron.Partitions

/-- On the dataspace in another spelling `m'` does what `m` does on the dataspace. -/
def SimAt {α β : Type} (w : Spelling) (s : Store) (f : α → β) (m : M α) (m' : M β) : Prop :=
  m' (s.respell w) = (m s).map fun r => (f r.1, r.2.respell w)

section
variable {α β γ δ : Type} {w : Spelling} {s : Store}

theorem SimAt.pure {f : α → β} {a : α} {b : β} (h : b = f a) : SimAt w s f (pure a) (pure b) := by
  subst h; rfl

theorem SimAt.throw {f : α → β} (e : Err) : SimAt w s f (throw e) (throw e) := rfl

theorem SimAt.bind {f : α → β} {g : γ → δ} {m : M α} {m' : M β} {k : α → M γ} {k' : β → M δ}
    (h : SimAt w s f m m') (hk : ∀ a s1, m s = .ok (a, s1) → SimAt w s1 g (k a) (k' (f a))) :
    SimAt w s g (m >>= k) (m' >>= k') := by
  unfold SimAt at *
  show (m' (s.respell w) >>= fun p => k' p.1 p.2) = Except.map _ (m s >>= fun p => k p.1 p.2)
  rw [h]
  cases hm : m s with
  | error e => rfl
  | ok r => exact hk r.1 r.2 hm

theorem SimAt.get {g : γ → δ} {k : Store → M γ} {k' : Store → M δ}
    (h : SimAt w s g (k s) (k' (s.respell w))) : SimAt w s g (get >>= k) (get >>= k') := h

theorem SimAt.put {s2 s2' : Store} {f : PUnit → PUnit} (h : s2' = s2.respell w) :
    SimAt w s f (put s2) (put s2') := by
  subst h; rfl

theorem SimAt.modify {f : PUnit → PUnit} {k k' : Store → Store} (h : k' (s.respell w) = (k s).respell w) :
    SimAt w s f (modify k) (modify k') := by
  show Except.ok ((), k' (s.respell w)) = _
  rw [h]; rfl

theorem SimAt.ite {f : α → β} {c c' : Prop} [Decidable c] [Decidable c'] {m1 m2 : M α} {m1' m2' : M β} (hc : c' ↔ c)
    (h1 : c → SimAt w s f m1 m1') (h2 : ¬ c → SimAt w s f m2 m2') :
    SimAt w s f (if c then m1 else m2) (if c' then m1' else m2') := by
  by_cases h : c
  · rw [if_pos h, if_pos (hc.2 h)]; exact h1 h
  · rw [if_neg h, if_neg (fun h' => h (hc.1 h'))]; exact h2 h

theorem SimAt.whenM {f : PUnit → PUnit} {b b' : Bool} {m m' : M Unit} (hb : b' = b) (h : b = true → SimAt w s f m m') :
    SimAt w s f (whenM b m) (whenM b' m') := by
  subst hb
  unfold Space.whenM
  exact SimAt.ite Iff.rfl h fun _ => SimAt.pure rfl

theorem SimAt.forM {ε ε' : Type} {h : ε → ε'} {k : ε → M PUnit} {k' : ε' → M PUnit} :
    ∀ (l : List ε) (s : Store), (∀ a ∈ l, ∀ s, SimAt w s id (k a) (k' (h a))) →
      SimAt w s id (l.forM k) ((l.map h).forM k')
  | [], _, _ => SimAt.pure rfl
  | a :: l, s, hk => SimAt.bind (hk a List.mem_cons_self s) fun _ s1 _ =>
      SimAt.forM l s1 fun b hb => hk b (List.mem_cons_of_mem _ hb)

theorem SimAt.forM' {ε : Type} {k k' : ε → M PUnit} (l : List ε) (s : Store)
    (hk : ∀ a ∈ l, ∀ s, SimAt w s id (k a) (k' a)) : SimAt w s id (l.forM k) (l.forM k') := by
  have := SimAt.forM (w := w) (h := id) l s hk
  rwa [List.map_id] at this

theorem SimAt.foldlM {ε ε' : Type} {h : ε → ε'} {k : α → ε → M α} {k' : α → ε' → M α} :
    ∀ (l : List ε) (a : α) (s : Store), (∀ e ∈ l, ∀ a s, SimAt w s id (k a e) (k' a (h e))) →
      SimAt w s id (l.foldlM k a) ((l.map h).foldlM k' a)
  | [], _, _, _ => SimAt.pure rfl
  | e :: l, a, s, hk => by
    rw [List.map_cons, List.foldlM_cons, List.foldlM_cons]
    exact SimAt.bind (hk e List.mem_cons_self a s) fun b s1 _ =>
      SimAt.foldlM l b s1 fun e' he => hk e' (List.mem_cons_of_mem _ he)

theorem SimAt.foldlM' {ε : Type} {k k' : α → ε → M α} (l : List ε) (a : α) (s : Store)
    (hk : ∀ e ∈ l, ∀ a s, SimAt w s id (k a e) (k' a e)) : SimAt w s id (l.foldlM k a) (l.foldlM k' a) := by
  have := SimAt.foldlM (w := w) (h := id) l a s hk
  rwa [List.map_id] at this

theorem SimAt.mapM' {ε : Type} {k k' : ε → M α} : ∀ (l : List ε) (s : Store),
    (∀ e ∈ l, ∀ s, SimAt w s id (k e) (k' e)) → SimAt w s id (l.mapM k) (l.mapM k')
  | [], _, _ => SimAt.pure rfl
  | e :: l, s, hk => by
    rw [List.mapM_cons, List.mapM_cons]
    exact SimAt.bind (hk e List.mem_cons_self s) fun b s1 _ =>
      SimAt.bind (SimAt.mapM' l s1 fun e' he => hk e' (List.mem_cons_of_mem _ he)) fun _ _ _ => SimAt.pure rfl

theorem SimAt.liftE {e : Except Err α} : SimAt w s id (liftE e) (liftE e) := by
  unfold SimAt Space.liftE
  cases e <;> rfl

/-- The same program on both sides, without labels in its result. -/
theorem SimAt.bind' {g : γ → δ} {m m' : M α} {k : α → M γ} {k' : α → M δ}
    (h : SimAt w s id m m') (hk : ∀ a s1, m s = .ok (a, s1) → SimAt w s1 g (k a) (k' a)) :
    SimAt w s g (m >>= k) (m' >>= k') := SimAt.bind h hk

end

/-! ### The tables -/

section
variable {w : Spelling} (s : Store)

theorem map_of_inj : Function.Injective (List.map w.of) := List.map_injective_iff.2 w.inj

theorem map_of_eq {a b : List PyStr} : a.map w.of = b.map w.of ↔ a = b := map_of_inj.eq_iff

theorem of_nil (a : PyStr) : w.of a = [] ↔ a = [] := by
  constructor
  · intro h; exact w.inj (h.trans w.empty.symm)
  · rintro rfl; exact w.empty

theorem of_isEmpty (a : PyStr) : (w.of a).isEmpty = a.isEmpty := by
  rw [Bool.eq_iff_iff, List.isEmpty_iff, List.isEmpty_iff, of_nil]

theorem nil_mem_map (l : List PyStr) : [] ∈ l.map w.of ↔ [] ∈ l := by
  rw [List.mem_map]
  constructor
  · rintro ⟨a, ha, h⟩
    rwa [(of_nil a).1 h] at ha
  · intro h; exact ⟨[], h, w.empty⟩

theorem any_index (p p' : IndexRec → Bool) (hp : ∀ r, p' (r.respell w) = p r) :
    (s.respell w).index.any p' = s.index.any p := by
  show (s.index.map (·.respell w)).any p' = _
  rw [List.any_map]
  congr 1
  exact funext hp

theorem filter_respell {ε ε' : Type} {h : ε → ε'} (l : List ε) (p : ε → Bool) (p' : ε' → Bool) (hp : ∀ a ∈ l, p' (h a) = p a) :
    (l.map h).filter p' = (l.filter p).map h := by
  rw [List.filter_map]
  congr 1
  exact List.filter_congr hp

theorem find_respell {ε ε' : Type} {h : ε → ε'} (l : List ε) (p : ε → Bool) (p' : ε' → Bool) (hp : ∀ a, p' (h a) = p a) :
    (l.map h).find? p' = (l.find? p).map h := by
  rw [List.find?_map]
  congr 2
  exact funext hp

theorem mem_index_labels (labels : List PyStr) :
    labels.map w.of ∈ (s.respell w).index.map (·.labels) ↔ labels ∈ s.index.map (·.labels) := by
  show labels.map w.of ∈ (s.index.map (·.respell w)).map (·.labels) ↔ _
  rw [List.map_map]
  constructor
  · intro h
    obtain ⟨r, hr, e⟩ := List.mem_map.1 h
    exact List.mem_map.2 ⟨r, hr, map_of_inj e⟩
  · intro h
    obtain ⟨r, hr, e⟩ := List.mem_map.1 h
    exact List.mem_map.2 ⟨r, hr, congrArg (List.map w.of) e⟩

theorem mem_locs_labels (labels : List PyStr) :
    labels.map w.of ∈ (s.respell w).locs.map (·.labels) ↔ labels ∈ s.locs.map (·.labels) := by
  show labels.map w.of ∈ (s.locs.map (·.respell w)).map (·.labels) ↔ _
  rw [List.map_map]
  constructor
  · intro h
    obtain ⟨r, hr, e⟩ := List.mem_map.1 h
    exact List.mem_map.2 ⟨r, hr, map_of_inj e⟩
  · intro h
    obtain ⟨r, hr, e⟩ := List.mem_map.1 h
    exact List.mem_map.2 ⟨r, hr, congrArg (List.map w.of) e⟩

theorem wrongNumber (labels : List PyStr) :
    ((labels.map w.of).length ≠ (s.respell w).cols.length ∨ labels.map w.of = []) ↔
      (labels.length ≠ s.cols.length ∨ labels = []) := by
  rw [List.length_map, List.map_eq_nil_iff]
  exact Iff.rfl

theorem index_find (i : Nat) : (s.respell w).index.find? (fun r => r.id == i) =
    (s.index.find? (fun r => r.id == i)).map (·.respell w) := find_respell _ _ _ fun _ => rfl

theorem beq_labels (a b : List PyStr) : (a.map w.of == b.map w.of) = (a == b) := by
  rw [Bool.eq_iff_iff, beq_iff_eq, beq_iff_eq, map_of_eq]

theorem findByLabels_respell (labels : List PyStr) : (s.respell w).findByLabels (labels.map w.of) =
    (s.findByLabels labels).map (·.respell w) := find_respell _ _ _ fun _ => beq_labels _ _

theorem findLoc_respell (labels : List PyStr) : (s.respell w).findLoc (labels.map w.of) =
    (s.findLoc labels).map (·.respell w) := find_respell _ _ _ fun _ => beq_labels _ _

theorem indexIds_eq : (s.respell w).index.map (·.id) = s.index.map (·.id) := map_units _ _ fun _ => rfl

theorem locsIds_eq : (s.respell w).locs.map (·.id) = s.locs.map (·.id) := map_units _ _ fun _ => rfl

theorem mappingIsComplete_respell (l : Nat) : (s.respell w).mappingIsComplete l = s.mappingIsComplete l := by
  unfold Store.mappingIsComplete
  show (s.index.map (·.respell w)).all _ = _
  rw [List.all_map]
  rfl

theorem wgroupIsComplete_respell (l : Nat) : (s.respell w).wgroupIsComplete l = s.wgroupIsComplete l := by
  unfold Store.wgroupIsComplete
  show (s.index.map (·.respell w)).all _ = _
  rw [List.all_map]
  rfl

theorem fkOk_respell : fkOk (s.respell w) = fkOk s := by
  unfold fkOk
  have : ∀ i, ((s.respell w).index.any fun r => r.id == i) = s.index.any fun r => r.id == i :=
    fun i => any_index s _ _ fun _ => rfl
  simp only [this]
  rfl

theorem nonemptyBits_respell (l : List PyStr) : nonemptyBits (l.map w.of) = nonemptyBits l := by
  unfold nonemptyBits
  rw [List.map_map]
  exact List.map_congr_left fun a _ => by rw [Function.comp_apply, of_isEmpty]

theorem structOk_respell (l : List PyStr) : (s.respell w).structOk (l.map w.of) = s.structOk l := by
  unfold Store.structOk
  rw [nonemptyBits_respell]
  rfl

/-! ### Criteria -/

theorem zip_find (cols labels : List PyStr) (k : PyStr) :
    (cols.zip (labels.map w.of)).find? (fun cl => asciiLower cl.1 == asciiLower k) =
      ((cols.zip labels).find? (fun cl => asciiLower cl.1 == asciiLower k)).map fun cl => (cl.1, w.of cl.2) := by
  rw [List.zip_map_right]
  exact find_respell _ _ _ fun _ => rfl

theorem beq_of (a b : PyStr) : (w.of a == w.of b) = (a == b) := by
  rw [Bool.eq_iff_iff, beq_iff_eq, beq_iff_eq, w.inj.eq_iff]

theorem criterionHolds_respell (cols labels : List PyStr) (kv : PyStr × PyStr)
    (h : (kv.1 = w.of kv.2 ↔ kv.1 = kv.2) ∨ (kv.1 ∈ cols ∧ labels.length = cols.length)) :
    criterionHolds cols (labels.map w.of) (kv.1, w.of kv.2) = criterionHolds cols labels kv := by
  unfold criterionHolds
  dsimp only
  rw [zip_find]
  cases hf : (cols.zip labels).find? (fun cl => asciiLower cl.1 == asciiLower kv.1) with
  | some cl => exact beq_of _ _
  | none =>
    rcases h with h | ⟨hm, hl⟩
    · show (kv.1 == w.of kv.2) = (kv.1 == kv.2)
      rw [Bool.eq_iff_iff, beq_iff_eq, beq_iff_eq, h]
    · exfalso
      rw [List.find?_eq_none] at hf
      obtain ⟨i, hi, e⟩ := List.getElem_of_mem hm
      have hz : (cols[i], labels[i]'(by omega)) ∈ cols.zip labels := by
        have : (cols.zip labels)[i]'(by rw [List.length_zip]; omega) = (cols[i], labels[i]'(by omega)) := List.getElem_zip
        rw [← this]
        exact List.getElem_mem _
      exact hf _ hz (by simp [e])

theorem matchesCriteria_respell (cols labels : List PyStr) (cs : List (PyStr × PyStr))
    (h : ∀ kv ∈ cs, (kv.1 = w.of kv.2 ↔ kv.1 = kv.2) ∨ (kv.1 ∈ cols ∧ labels.length = cols.length)) :
    matchesCriteria cols (respellCriteria w cs) (labels.map w.of) = matchesCriteria cols cs labels := by
  unfold matchesCriteria respellCriteria
  rw [List.all_map]
  induction cs with
  | nil => rfl
  | cons a l ih =>
    rw [List.all_cons, List.all_cons, ih fun kv hkv => h kv (List.mem_cons_of_mem _ hkv), Function.comp_apply,
      criterionHolds_respell _ _ _ (h a List.mem_cons_self)]

theorem filterByLabel_respell (cs : List (PyStr × PyStr)) (b : Bool)
    (h : ∀ r ∈ s.index, ∀ kv ∈ cs, (kv.1 = w.of kv.2 ↔ kv.1 = kv.2) ∨ (kv.1 ∈ s.cols ∧ r.labels.length = s.cols.length)) :
    (s.respell w).filterByLabel (respellCriteria w cs) b = (s.filterByLabel cs b).map (·.respell w) := by
  unfold Store.filterByLabel
  refine filter_respell _ _ _ fun r hr => ?_
  show (matchesCriteria s.cols (respellCriteria w cs) (r.labels.map w.of) && _) = _
  rw [matchesCriteria_respell _ _ _ (h r hr)]
  rfl

theorem labelCriteria_respell (cols labels : List PyStr) :
    labelCriteria cols (labels.map w.of) = respellCriteria w (labelCriteria cols labels) := by
  unfold labelCriteria respellCriteria
  rw [List.zip_map_right]
  exact filter_respell _ _ _ fun a _ => by
    show (!(w.of a.2).isEmpty) = _
    rw [of_isEmpty]

theorem filterLabels_respell (hs : ∀ r ∈ s.index, r.labels.length = s.cols.length) (labels : List PyStr) (b : Bool) :
    (s.respell w).filterByLabel (labelCriteria (s.respell w).cols (labels.map w.of)) b =
      (s.filterByLabel (labelCriteria s.cols labels) b).map (·.respell w) := by
  rw [labelCriteria_respell]
  refine filterByLabel_respell s _ b fun r hr kv hkv => .inr ⟨?_, hs r hr⟩
  exact (List.of_mem_zip (List.mem_filter.1 hkv).1).1

theorem anyIndex_respell (hs : ∀ r ∈ s.index, r.labels.length = s.cols.length) (labels : List PyStr) :
    (s.respell w).anyIndex (labels.map w.of) = s.anyIndex labels := by
  unfold Store.anyIndex
  rw [filterLabels_respell s hs, List.any_map]
  rfl

theorem matchingIds_respell (hs : ∀ r ∈ s.index, r.labels.length = s.cols.length) (labels : List PyStr) :
    (s.respell w).matchingIds (labels.map w.of) = s.matchingIds labels := by
  unfold Store.matchingIds
  rw [filterLabels_respell s hs, List.map_map]
  rfl

/-! ### Granularity -/

theorem distinct_map {α β : Type} [DecidableEq α] [DecidableEq β] {f : α → β} (hf : Function.Injective f) (l : List α) :
    distinct (l.map f) = (distinct l).map f := by
  induction l with
  | nil => rfl
  | cons a l ih =>
    rw [List.map_cons, distinct, distinct, ih, List.map_cons]
    congr 1
    exact filter_respell _ _ _ fun x _ => decide_eq_decide.2 (not_congr hf.eq_iff)

theorem blockSizes_map {α β : Type} [DecidableEq α] [DecidableEq β] {f : α → β} (hf : Function.Injective f) (l : List α) :
    blockSizes (l.map f) = blockSizes l := by
  unfold blockSizes
  rw [distinct_map hf, List.map_map]
  refine List.map_congr_left fun a _ => ?_
  rw [Function.comp_apply, filter_respell l (fun x => decide (x = a)) (fun x => decide (x = f a))
    fun x _ => decide_eq_decide.2 hf.eq_iff, List.length_map]

theorem groupInsert_map {α β : Type} [DecidableEq α] [DecidableEq β] {f : α → β} (hf : Function.Injective f) (x : α)
    (l : List (α × Nat)) : groupInsert (f x) (l.map fun p => (f p.1, p.2)) = (groupInsert x l).map fun p => (f p.1, p.2) := by
  induction l with
  | nil => rfl
  | cons a l ih =>
    obtain ⟨y, n⟩ := a
    rw [List.map_cons, groupInsert, groupInsert]
    by_cases h : x = y
    · rw [if_pos h, if_pos (congrArg f h)]; rfl
    · rw [if_neg h, if_neg fun h' => h (hf h'), ih]; rfl

theorem groupByCounts_map {α β : Type} [DecidableEq α] [DecidableEq β] {f : α → β} (hf : Function.Injective f) (l : List α) :
    groupByCounts (l.map f) = groupByCounts l := by
  unfold groupByCounts
  have : ∀ (l : List α) (acc : List (α × Nat)), (l.map f).foldl (fun acc x => groupInsert x acc) (acc.map fun p => (f p.1, p.2)) =
      (l.foldl (fun acc x => groupInsert x acc) acc).map fun p => (f p.1, p.2) := by
    intro l
    induction l with
    | nil => intro acc; rfl
    | cons a l ih =>
      intro acc
      rw [List.map_cons, List.foldl_cons, List.foldl_cons, groupInsert_map hf, ih]
  have h := this l []
  rw [List.map_nil] at h
  rw [h, List.map_map]
  rfl

theorem projected_respell (d : Finset PyStr) : (s.respell w).projected d = (s.projected d).map (List.map w.of) := by
  unfold Store.projected
  rw [show ((s.respell w).index.filter fun r => r.id != 0) = (s.index.filter fun r => r.id != 0).map (·.respell w) from
    filter_respell _ _ _ fun _ _ => rfl, List.map_map, List.map_map]
  refine List.map_congr_left fun r _ => ?_
  show ((s.cols.zip (r.labels.map w.of)).filter _).map _ = (((s.cols.zip r.labels).filter _).map _).map w.of
  rw [List.zip_map_right, filter_respell _ (fun cl => decide (cl.1 ∈ d)) _ fun _ _ => rfl, List.map_map, List.map_map]
  rfl

theorem granSql_respell (d : Finset PyStr) : (s.respell w).granSql d = s.granSql d := by
  unfold Store.granSql calculateGranularitySql
  rw [projected_respell, List.length_map, groupByCounts_map map_of_inj]

theorem granPy_respell (d : Finset PyStr) : (s.respell w).granPy d = s.granPy d := by
  unfold Store.granPy calculateGranularity
  rw [projected_respell, List.length_map, blockSizes_map map_of_inj]

end

end Toron.Space.Spell
