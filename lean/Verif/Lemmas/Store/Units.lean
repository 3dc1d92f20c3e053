/-
Calls commute with the change of units.
-/
import Verif.Spec.Units

namespace Toron.Space

open Toron.Selectors (PyStr Sel CaseMap)
open Toron.Partitions

/-- On the dataspace in other units `m'` does what `m` does on the dataspace. -/
def SimAt {α β : Type} (u : Units) (s : Store) (f : α → β) (m : M α) (m' : M β) : Prop :=
  m' (s.inUnits u) = (m s).map fun r => (f r.1, r.2.inUnits u)

section
variable {α β γ δ : Type} {u : Units} {s : Store}

theorem SimAt.pure {f : α → β} {a : α} {b : β} (h : b = f a) : SimAt u s f (pure a) (pure b) := by
  subst h; rfl

theorem SimAt.throw {f : α → β} (e : Err) : SimAt u s f (throw e) (throw e) := rfl

theorem SimAt.bind {f : α → β} {g : γ → δ} {m : M α} {m' : M β} {k : α → M γ} {k' : β → M δ}
    (h : SimAt u s f m m') (hk : ∀ a s1, m s = .ok (a, s1) → SimAt u s1 g (k a) (k' (f a))) :
    SimAt u s g (m >>= k) (m' >>= k') := by
  unfold SimAt at *
  show (m' (s.inUnits u) >>= fun p => k' p.1 p.2) = Except.map _ (m s >>= fun p => k p.1 p.2)
  rw [h]
  cases hm : m s with
  | error e => rfl
  | ok r => exact hk r.1 r.2 hm

theorem SimAt.get {g : γ → δ} {k : Store → M γ} {k' : Store → M δ}
    (h : SimAt u s g (k s) (k' (s.inUnits u))) : SimAt u s g (get >>= k) (get >>= k') := h

theorem SimAt.put {s2 s2' : Store} {f : PUnit → PUnit} (h : s2' = s2.inUnits u) :
    SimAt u s f (put s2) (put s2') := by
  subst h; rfl

theorem SimAt.modify {f : PUnit → PUnit} {k k' : Store → Store} (h : k' (s.inUnits u) = (k s).inUnits u) :
    SimAt u s f (modify k) (modify k') := by
  show Except.ok ((), k' (s.inUnits u)) = _
  rw [h]; rfl

theorem SimAt.ite {f : α → β} {c c' : Prop} [Decidable c] [Decidable c'] {m1 m2 : M α} {m1' m2' : M β} (hc : c' ↔ c)
    (h1 : c → SimAt u s f m1 m1') (h2 : ¬ c → SimAt u s f m2 m2') :
    SimAt u s f (if c then m1 else m2) (if c' then m1' else m2') := by
  by_cases h : c
  · rw [if_pos h, if_pos (hc.2 h)]; exact h1 h
  · rw [if_neg h, if_neg (fun h' => h (hc.1 h'))]; exact h2 h

theorem SimAt.whenM {f : PUnit → PUnit} {b b' : Bool} {m m' : M Unit} (hb : b' = b) (h : b = true → SimAt u s f m m') :
    SimAt u s f (whenM b m) (whenM b' m') := by
  subst hb
  unfold Space.whenM
  exact SimAt.ite Iff.rfl h fun _ => SimAt.pure rfl

theorem SimAt.forM {ε ε' : Type} {h : ε → ε'} {k : ε → M PUnit} {k' : ε' → M PUnit} :
    ∀ (l : List ε) (s : Store), (∀ a ∈ l, ∀ s, SimAt u s id (k a) (k' (h a))) →
      SimAt u s id (l.forM k) ((l.map h).forM k')
  | [], _, _ => SimAt.pure rfl
  | a :: l, s, hk => SimAt.bind (hk a List.mem_cons_self s) fun _ s1 _ =>
      SimAt.forM l s1 fun b hb => hk b (List.mem_cons_of_mem _ hb)

theorem SimAt.forM' {ε : Type} {k k' : ε → M PUnit} (l : List ε) (s : Store)
    (hk : ∀ a ∈ l, ∀ s, SimAt u s id (k a) (k' a)) : SimAt u s id (l.forM k) (l.forM k') := by
  have := SimAt.forM (u := u) (h := id) l s hk
  rwa [List.map_id] at this

theorem SimAt.foldlM {ε ε' : Type} {h : ε → ε'} {k : α → ε → M α} {k' : α → ε' → M α} :
    ∀ (l : List ε) (a : α) (s : Store), (∀ e ∈ l, ∀ a s, SimAt u s id (k a e) (k' a (h e))) →
      SimAt u s id (l.foldlM k a) ((l.map h).foldlM k' a)
  | [], _, _, _ => SimAt.pure rfl
  | e :: l, a, s, hk => by
    rw [List.map_cons, List.foldlM_cons, List.foldlM_cons]
    exact SimAt.bind (hk e List.mem_cons_self a s) fun b s1 _ =>
      SimAt.foldlM l b s1 fun e' he => hk e' (List.mem_cons_of_mem _ he)

theorem SimAt.foldlM' {ε : Type} {k k' : α → ε → M α} (l : List ε) (a : α) (s : Store)
    (hk : ∀ e ∈ l, ∀ a s, SimAt u s id (k a e) (k' a e)) : SimAt u s id (l.foldlM k a) (l.foldlM k' a) := by
  have := SimAt.foldlM (u := u) (h := id) l a s hk
  rwa [List.map_id] at this

theorem SimAt.mapM' {ε : Type} {k k' : ε → M α} : ∀ (l : List ε) (s : Store),
    (∀ e ∈ l, ∀ s, SimAt u s id (k e) (k' e)) → SimAt u s id (l.mapM k) (l.mapM k')
  | [], _, _ => SimAt.pure rfl
  | e :: l, s, hk => by
    rw [List.mapM_cons, List.mapM_cons]
    exact SimAt.bind (hk e List.mem_cons_self s) fun b s1 _ =>
      SimAt.bind (SimAt.mapM' l s1 fun e' he => hk e' (List.mem_cons_of_mem _ he)) fun _ _ _ => SimAt.pure rfl

theorem SimAt.liftE {e : Except Err α} : SimAt u s id (liftE e) (liftE e) := by
  unfold SimAt Space.liftE
  cases e <;> rfl

/-- The same program on both sides, without numbers in its result. -/
theorem SimAt.bind' {g : γ → δ} {m m' : M α} {k : α → M γ} {k' : α → M δ}
    (h : SimAt u s id m m') (hk : ∀ a s1, m s = .ok (a, s1) → SimAt u s1 g (k a) (k' a)) :
    SimAt u s g (m >>= k) (m' >>= k') := SimAt.bind h hk

end

/-! ### The tables -/

section
variable {u : Units} (s : Store)

theorem any_weights (p : Weight → Bool) (hp : ∀ w, p (w.inUnits u) = p w) :
    (s.inUnits u).weights.any p = s.weights.any p := by
  show (s.weights.map (·.inUnits u)).any p = _
  rw [List.any_map]
  congr 1
  exact funext hp

theorem any_maps (p : Mapping → Bool) (hp : ∀ w, p (w.inUnits u) = p w) :
    (s.inUnits u).maps.any p = s.maps.any p := by
  show (s.maps.map (·.inUnits u)).any p = _
  rw [List.any_map]
  congr 1
  exact funext hp

theorem any_quants (p : Quant → Bool) (hp : ∀ w, p (w.inUnits u) = p w) :
    (s.inUnits u).quants.any p = s.quants.any p := by
  show (s.quants.map (·.inUnits u)).any p = _
  rw [List.any_map]
  congr 1
  exact funext hp

theorem filter_units {ε : Type} {h : ε → ε} (l : List ε) (p : ε → Bool) (hp : ∀ w, p (h w) = p w) :
    (l.map h).filter p = (l.filter p).map h := by
  rw [List.filter_map]
  congr 2
  exact funext hp

theorem find_units {ε : Type} {h : ε → ε} (l : List ε) (p : ε → Bool) (hp : ∀ w, p (h w) = p w) :
    (l.map h).find? p = (l.find? p).map h := by
  rw [List.find?_map]
  congr 2
  exact funext hp

theorem map_units {ε κ : Type} {h : ε → ε} (l : List ε) (p : ε → κ) (hp : ∀ w, p (h w) = p w) :
    (l.map h).map p = l.map p := by
  rw [List.map_map]
  congr 1
  exact funext hp

theorem weightsIds : (s.inUnits u).weights.map (·.id) = s.weights.map (·.id) := map_units _ _ fun _ => rfl
theorem mapsIds : (s.inUnits u).maps.map (·.id) = s.maps.map (·.id) := map_units _ _ fun _ => rfl
theorem quantsIds : (s.inUnits u).quants.map (·.id) = s.quants.map (·.id) := map_units _ _ fun _ => rfl

theorem findWeight_units (g i : Nat) : (s.inUnits u).findWeight g i = (s.findWeight g i).map (·.inUnits u) :=
  find_units _ _ fun _ => rfl

theorem findMap_units (l : Nat) (o : Int) (i : Nat) : (s.inUnits u).findMap l o i = (s.findMap l o i).map (·.inUnits u) :=
  find_units _ _ fun _ => rfl

theorem findMaps_units (l : Nat) (o : Int) : (s.inUnits u).findMaps l o = (s.findMaps l o).map (·.inUnits u) :=
  filter_units _ _ fun _ => rfl

theorem findQuant_units (l a : Nat) : (s.inUnits u).findQuant l a = (s.findQuant l a).map (·.inUnits u) :=
  find_units _ _ fun _ => rfl

theorem distinctOthers_units (l : Nat) : (s.inUnits u).distinctOthers l = s.distinctOthers l := by
  unfold Store.distinctOthers
  show 0 :: sortedBy _ (distinct (((s.maps.map (·.inUnits u)).filter _).map _)) = _
  rw [filter_units _ _ (by intro w; rfl), map_units _ _ (by intro w; rfl)]

theorem mappingIsComplete_units (l : Nat) : (s.inUnits u).mappingIsComplete l = s.mappingIsComplete l := by
  unfold Store.mappingIsComplete
  congr 1
  funext r
  rw [any_maps s _ (by intro w; rfl)]

theorem wgroupIsComplete_units (g : Nat) : (s.inUnits u).wgroupIsComplete g = s.wgroupIsComplete g := by
  unfold Store.wgroupIsComplete
  congr 1
  funext r
  rw [any_weights s _ (by intro w; rfl)]

theorem fkOk_units : fkOk (s.inUnits u) = fkOk s := by
  unfold fkOk
  show (!s.fk || ((s.weights.map (·.inUnits u)).all _ && (s.maps.map (·.inUnits u)).all _)) = _
  rw [List.all_map, List.all_map]
  rfl

theorem neg_units (v : ℚ) : u.weight * v < 0 ↔ v < 0 := by
  constructor
  · intro h
    by_contra hv
    exact absurd h (not_lt.2 (mul_nonneg u.weight_pos.le (not_lt.1 hv)))
  · exact mul_neg_of_pos_of_neg u.weight_pos

theorem mappingCheck_units (m : Mapping) : mappingCheck (m.inUnits u) = mappingCheck m := by
  unfold mappingCheck
  have : decide (0 ≤ (m.inUnits u).value) = decide (0 ≤ m.value) := by
    apply decide_eq_decide.2
    exact mul_nonneg_iff_of_pos_left u.mapping_pos
  rw [this]
  rfl

end

/-! ### Repositories -/

section
variable {u : Units} {s : Store}

theorem indexAdd_sim (labels : List PyStr) : SimAt u s id (indexAdd labels) (indexAdd labels) := by
  unfold indexAdd
  refine .get (.ite Iff.rfl (fun _ => .throw _) fun _ => .ite Iff.rfl (fun _ => .throw _) fun _ =>
    .ite Iff.rfl (fun _ => .throw _) fun _ => .bind' (.put rfl) fun _ _ _ => .pure rfl)

theorem indexGet_sim (i : Nat) : SimAt u s id (indexGet i) (indexGet i) := by
  unfold indexGet
  refine .get ?_
  rw [show (s.inUnits u).index.find? (fun r => r.id == i) = s.index.find? (fun r => r.id == i) from rfl]
  cases s.index.find? (fun r => r.id == i)
  · exact .throw _
  · exact .pure rfl

theorem indexUpdate_sim (r : IndexRec) : SimAt u s id (indexUpdate r) (indexUpdate r) := by
  unfold indexUpdate
  refine .get (.ite Iff.rfl (fun _ => .throw _) fun _ => .ite Iff.rfl (fun _ => .throw _) fun _ =>
    .ite Iff.rfl (fun _ => .pure rfl) fun _ => .ite Iff.rfl (fun _ => .throw _) fun _ =>
    .ite Iff.rfl (fun _ => .throw _) fun _ => .ite Iff.rfl (fun _ => .throw _) fun _ => .put rfl)

theorem indexDelete_sim (i : Nat) : SimAt u s id (indexDelete i) (indexDelete i) := by
  unfold indexDelete
  exact .get (.ite Iff.rfl (fun _ => .throw _) fun _ => .put rfl)

theorem locAdd_sim (labels : List PyStr) : SimAt u s id (locAdd labels) (locAdd labels) := by
  unfold locAdd
  exact .get (.ite Iff.rfl (fun _ => .throw _) fun _ => .ite Iff.rfl (fun _ => .throw _) fun _ => .put rfl)

theorem locDelete_sim (i : Nat) : SimAt u s id (locDelete i) (locDelete i) := by
  unfold locDelete
  refine .modify ?_
  unfold Store.inUnits
  dsimp only
  congr 1
  split
  · exact filter_units _ _ fun _ => rfl
  · rfl

theorem locGetOrAdd_sim (labels : List PyStr) : SimAt u s id (locGetOrAdd labels) (locGetOrAdd labels) := by
  unfold locGetOrAdd
  refine .get (.ite Iff.rfl (fun _ => .throw _) fun _ => .ite Iff.rfl (fun _ => .throw _) fun _ => ?_)
  rw [show (s.inUnits u).findLoc labels = s.findLoc labels from rfl]
  cases s.findLoc labels
  · refine .bind' (locAdd_sim _) fun _ s1 _ => .get ?_
    rw [show (s1.inUnits u).findLoc labels = s1.findLoc labels from rfl]
    cases s1.findLoc labels
    · exact .throw _
    · exact .pure rfl
  · exact .pure rfl

theorem agAdd_sim (a : Attrs) : SimAt u s id (agAdd a) (agAdd a) := by
  unfold agAdd
  exact .get (.ite Iff.rfl (fun _ => .throw _) fun _ => .ite Iff.rfl (fun _ => .throw _) fun _ => .put rfl)

theorem agGetOrAdd_sim (a : Attrs) : SimAt u s id (agGetOrAdd a) (agGetOrAdd a) := by
  unfold agGetOrAdd
  refine .get ?_
  rw [show (s.inUnits u).findAg a = s.findAg a from rfl]
  cases s.findAg a
  · refine .bind' (agAdd_sim _) fun _ s1 _ => .get ?_
    rw [show (s1.inUnits u).findAg a = s1.findAg a from rfl]
    cases s1.findAg a
    · exact .throw _
    · exact .pure rfl
  · exact .pure rfl

theorem agDelete_sim (i : Nat) : SimAt u s id (agDelete i) (agDelete i) := by
  unfold agDelete
  refine .modify ?_
  unfold Store.inUnits
  dsimp only
  congr 1
  split
  · exact filter_units _ _ fun _ => rfl
  · rfl

theorem quantAdd_sim (l a : Nat) (v : ℚ) : SimAt u s id (quantAdd l a v) (quantAdd l a (u.amount * v)) := by
  unfold quantAdd
  refine .get (.ite Iff.rfl (fun _ => .throw _) fun _ => .ite ?_ (fun _ => .throw _) fun _ => .put ?_)
  · rw [any_quants s _ (by intro w; rfl)]
  · rw [quantsIds]
    unfold Store.inUnits
    dsimp only
    rw [List.map_append]
    rfl

theorem quantSetValue_sim (i : Nat) (v : ℚ) : SimAt u s id (quantSetValue i v) (quantSetValue i (u.amount * v)) := by
  unfold quantSetValue
  refine .modify ?_
  unfold Store.inUnits
  dsimp only
  congr 1
  rw [List.map_map, List.map_map]
  refine List.map_congr_left fun q _ => ?_
  simp only [Function.comp_apply, Quant.inUnits]
  split <;> rfl

theorem quantDelete_sim (i : Nat) : SimAt u s id (quantDelete i) (quantDelete i) := by
  unfold quantDelete
  refine .modify ?_
  unfold Store.inUnits
  dsimp only
  congr 1
  exact filter_units _ _ fun _ => rfl

theorem wgroupGetByName_sim (n : PyStr) : SimAt u s id (wgroupGetByName n) (wgroupGetByName n) := by
  unfold wgroupGetByName
  refine .get ?_
  rw [show (s.inUnits u).findWGroup n = s.findWGroup n from rfl]
  cases s.findWGroup n
  · exact .throw _
  · exact .pure rfl

theorem wgroupAdd_sim (n : PyStr) (sel : List Sel) (c : Bool) : SimAt u s id (wgroupAdd n sel c) (wgroupAdd n sel c) := by
  unfold wgroupAdd
  exact .get (.ite Iff.rfl (fun _ => .throw _) fun _ => .put rfl)

theorem wgroupUpdate_sim (g : WGroup) : SimAt u s id (wgroupUpdate g) (wgroupUpdate g) := by
  unfold wgroupUpdate
  exact .get (.ite Iff.rfl (fun _ => .pure rfl) fun _ => .ite Iff.rfl (fun _ => .throw _) fun _ => .put rfl)

theorem wgroupDelete_sim (i : Nat) : SimAt u s id (wgroupDelete i) (wgroupDelete i) := by
  unfold wgroupDelete
  refine .modify ?_
  unfold Store.inUnits
  dsimp only
  congr 1
  split
  · exact filter_units _ _ fun _ => rfl
  · rfl

theorem weightAdd_sim (g i : Nat) (v : ℚ) : SimAt u s id (weightAdd g i v) (weightAdd g i (u.weight * v)) := by
  unfold weightAdd
  refine .get (.ite Iff.rfl (fun _ => .throw _) fun _ => .ite (neg_units v) (fun _ => .throw _) fun _ =>
    .ite ?_ (fun _ => .throw _) fun _ => .ite Iff.rfl (fun _ => .throw _) fun _ => .put ?_)
  · rw [any_weights s _ (by intro w; rfl)]
  · rw [weightsIds]
    unfold Store.inUnits
    dsimp only
    rw [List.map_append]
    rfl

theorem weightSetValue_sim (i : Nat) (v : ℚ) : SimAt u s id (weightSetValue i v) (weightSetValue i (u.weight * v)) := by
  unfold weightSetValue
  refine .get (.ite (neg_units v) (fun _ => .throw _) fun _ => .put ?_)
  unfold Store.inUnits
  dsimp only
  congr 1
  rw [List.map_map, List.map_map]
  refine List.map_congr_left fun q _ => ?_
  simp only [Function.comp_apply, Weight.inUnits]
  split <;> rfl

theorem weightDelete_sim (i : Nat) : SimAt u s id (weightDelete i) (weightDelete i) := by
  unfold weightDelete
  refine .modify ?_
  unfold Store.inUnits
  dsimp only
  congr 1
  exact filter_units _ _ fun _ => rfl

theorem linkAdd_sim (l : Link) : SimAt u s id (linkAdd l) (linkAdd l) := by
  unfold linkAdd
  exact .get (.ite Iff.rfl (fun _ => .throw _) fun _ => .put rfl)

theorem linkUpdate_sim (l : Link) : SimAt u s id (linkUpdate l) (linkUpdate l) := by
  unfold linkUpdate
  exact .get (.ite Iff.rfl (fun _ => .pure rfl) fun _ => .ite Iff.rfl (fun _ => .throw _) fun _ => .put rfl)

theorem linkDelete_sim (i : Nat) : SimAt u s id (linkDelete i) (linkDelete i) := by
  unfold linkDelete
  refine .modify ?_
  unfold Store.inUnits
  dsimp only
  congr 1
  split
  · exact filter_units _ _ fun _ => rfl
  · rfl

theorem mappingAdd_sim (l : Nat) (o : Int) (i : Nat) (lv : Option (List Byte)) (v : ℚ) (p : Option ℚ) :
    SimAt u s id (mappingAdd l o i lv v p) (mappingAdd l o i lv (u.mapping * v) p) := by
  unfold mappingAdd
  refine .get (.ite Iff.rfl (fun _ => .throw _) fun _ => ?_)
  cases lv with
  | none => exact .throw _
  | some lv =>
    dsimp only
    rw [mapsIds]
    refine .ite ?_ (fun _ => .throw _) fun _ => .ite ?_ (fun _ => .throw _) fun _ =>
      .ite Iff.rfl (fun _ => .throw _) fun _ => .put ?_
    · have := mappingCheck_units (u := u) ⟨nextId (s.maps.map (·.id)), l, o, i, lv, v, p⟩
      rw [← this]
      exact Iff.rfl
    · rw [any_maps s _ (by intro w; rfl)]
    · unfold Store.inUnits
      dsimp only
      rw [List.map_append]
      rfl

theorem mappingUpdate_sim (m : Mapping) : SimAt u s id (mappingUpdate m) (mappingUpdate (m.inUnits u)) := by
  unfold mappingUpdate
  refine .get (.ite ?_ (fun _ => .pure rfl) fun _ => .ite ?_ (fun _ => .throw _) fun _ => .ite ?_ (fun _ => .throw _) fun _ =>
    .ite Iff.rfl (fun _ => .throw _) fun _ => .put ?_)
  · rw [any_maps s _ (by intro w; rfl)]
    rfl
  · rw [mappingCheck_units]
  · rw [any_maps s _ (by intro w; rfl)]
    rfl
  · unfold Store.inUnits
    dsimp only
    congr 1
    rw [List.map_map, List.map_map]
    refine List.map_congr_left fun q _ => ?_
    simp only [Function.comp_apply]
    by_cases h : q.id = m.id
    · rw [if_pos h, if_pos (show (q.inUnits u).id = (m.inUnits u).id from h)]
    · rw [if_neg h, if_neg (show ¬ (q.inUnits u).id = (m.inUnits u).id from h)]

theorem mappingDelete_sim (i : Nat) : SimAt u s id (mappingDelete i) (mappingDelete i) := by
  unfold mappingDelete
  refine .modify ?_
  unfold Store.inUnits
  dsimp only
  congr 1
  exact filter_units _ _ fun _ => rfl

end

end Toron.Space
