/-
The effect of the operations on mappings.
-/
import Verif.Lemmas.Store.Delete
import Verif.Lemmas.Store.Links

set_option linter.unusedSimpArgs false

namespace Toron.Space

open Toron.Selectors (PyStr Sel)

/-- Only mappings of the link `lk` differ. -/
structure OnLink (lk : Nat) (s s' : Store) : Prop where
  rest : s' = { s with maps := s'.maps }
  maps : (s'.maps.filter fun m => m.link != lk) = s.maps.filter fun m => m.link != lk

theorem OnLink.refl (lk : Nat) (s : Store) : OnLink lk s s := ⟨rfl, rfl⟩

theorem OnLink.trans {lk : Nat} {a b c : Store} (h1 : OnLink lk a b) (h2 : OnLink lk b c) : OnLink lk a c :=
  ⟨by rw [h2.rest, h1.rest], h2.maps.trans h1.maps⟩

theorem OnLink.mapsAt_eq {lk : Nat} {s s' : Store} (h : OnLink lk s s') {lk' : Nat} (hne : lk' ≠ lk) (o : Int) :
    mapsAt s'.maps lk' o = mapsAt s.maps lk' o := by
  have key : ∀ ms : List Mapping, mapsAt ms lk' o = mapsAt (ms.filter fun m => m.link != lk) lk' o := by
    intro ms
    unfold mapsAt
    rw [List.filter_filter]
    apply List.filter_congr
    intro m _
    rw [Bool.eq_iff_iff]
    simp only [Bool.and_eq_true, beq_iff_eq, bne_iff_ne]
    constructor
    · rintro ⟨rfl, h⟩; exact ⟨⟨rfl, h⟩, hne⟩
    · rintro ⟨h, _⟩; exact h
  rw [key, key s.maps, h.maps]

theorem OnLink.mem_iff {lk : Nat} {s s' : Store} (h : OnLink lk s s') {m : Mapping} (hne : m.link ≠ lk) :
    m ∈ s'.maps ↔ m ∈ s.maps := by
  have key : ∀ ms : List Mapping, m ∈ ms ↔ m ∈ ms.filter fun m => m.link != lk := by
    intro ms
    simp [List.mem_filter, hne]
  rw [key, key s.maps, h.maps]

theorem OnLink.add {link : Nat} {other : Int} {index : Nat} {level : Option (List Byte)} {value : ℚ}
    {prop : Option ℚ} {s s' : Store} {u : Unit}
    (h : mappingAdd link other index level value prop s = .ok (u, s')) : OnLink link s s' := by
  obtain ⟨lv, _, _, rfl⟩ := mappingAdd_ok h
  refine ⟨rfl, ?_⟩
  simp [List.filter_append]

theorem OnLink.del {m : Mapping} {s : Store} (hnd : (s.maps.map (·.id)).Nodup) (hm : m ∈ s.maps) :
    OnLink m.link s { s with maps := s.maps.filter fun x => x.id != m.id } := by
  refine ⟨rfl, ?_⟩
  dsimp only
  rw [List.filter_filter]
  apply List.filter_congr
  intro x hx
  rw [Bool.eq_iff_iff]
  simp only [Bool.and_eq_true, bne_iff_ne]
  constructor
  · exact fun h => h.1
  · intro h
    exact ⟨h, fun he => h (by rw [eq_of_id hnd hx hm he])⟩

theorem OnLink.upd {m m' : Mapping} {s : Store} (hnd : (s.maps.map (·.id)).Nodup) (hm : m ∈ s.maps)
    (hid : m'.id = m.id) (hl : m'.link = m.link) :
    OnLink m.link s { s with maps := Space.upd Mapping.id m' s.maps } := by
  refine ⟨rfl, ?_⟩
  show (Space.upd Mapping.id m' s.maps).filter _ = _
  unfold Space.upd
  rw [List.filter_map]
  have : (s.maps.filter ((fun x : Mapping => x.link != m.link) ∘ fun x => if x.id = m'.id then m' else x)) =
      s.maps.filter fun x => x.link != m.link := by
    apply List.filter_congr
    intro x hx
    simp only [Function.comp]
    split
    · rename_i he
      rw [hl, eq_of_id hnd hx hm (he.trans hid)]
    · rfl
  rw [this]
  conv_rhs => rw [← List.map_id (s.maps.filter fun x => x.link != m.link)]
  apply List.map_congr_left
  intro x hx
  rw [List.mem_filter] at hx
  rw [if_neg]
  · rfl
  · intro he
    have hx2 := hx.2
    rw [eq_of_id hnd hx.1 hm (he.trans hid)] at hx2
    simp at hx2

/-! ### Rows -/

theorem insertMapping2Row_ok {levels : List (Option (List Byte))} {link : Nat} {b b' : Bool} {row : MapRow}
    {s s' : Store} (h : insertMapping2Row levels link b row s = .ok (b', s')) :
    (b' = b ∧ s' = s) ∨ (b' = true ∧ OnLink link s s') := by
  unfold insertMapping2Row at h
  rw [ite_ok] at h
  obtain ⟨_, h⟩ | ⟨_, h⟩ := h
  · rw [pure_ok] at h; cases h; exact .inl ⟨rfl, rfl⟩
  rw [ite_ok] at h
  obtain ⟨_, h⟩ | ⟨_, h⟩ := h
  · rw [pure_ok] at h; cases h; exact .inl ⟨rfl, rfl⟩
  rw [bind_ok] at h
  obtain ⟨_, t, h1, h⟩ := h
  rw [pure_ok] at h
  cases h
  exact .inr ⟨rfl, OnLink.add h1⟩

theorem insertMappingRow_ok {link : Nat} {b b' : Bool} {row : MapRow} {s s' : Store}
    (h : insertMappingRow link b row s = .ok (b', s')) :
    (b' = b ∧ s' = s) ∨ (b' = true ∧ OnLink link s s') := by
  unfold insertMappingRow at h
  rw [bind_ok] at h
  obtain ⟨_, _, he, h⟩ := h
  rw [get_ok] at he
  cases he
  rw [ite_ok] at h
  obtain ⟨_, h⟩ | ⟨_, h⟩ := h
  · rw [pure_ok] at h; cases h; exact .inl ⟨rfl, rfl⟩
  split at h
  · rename_i u t heq
    cases h
    exact .inr ⟨rfl, OnLink.add heq⟩
  · cases h

/-- The rows of an operation that sets a flag whenever it changes something. -/
theorem rows_onLink {ρ : Type} {link : Nat} {f : Bool → ρ → M Bool} {rows : List ρ} {K : List Kind}
    (hdoes : ∀ b row, Does K (f b row))
    (hf : ∀ b row s b' s', MapInv s → f b row s = .ok (b', s') → (b' = b ∧ s' = s) ∨ (b' = true ∧ OnLink link s s'))
    {b b' : Bool} {s s' : Store} (hi : MapInv s) (h : rows.foldlM f b s = .ok (b', s')) :
    (b' = b ∧ s' = s) ∨ (b' = true ∧ OnLink link s s') := by
  induction rows generalizing b s with
  | nil => cases h; exact .inl ⟨rfl, rfl⟩
  | cons row rows ih =>
    obtain ⟨c, t, h1, h2⟩ := foldlM_cons_ok.1 h
    have hi' : MapInv t := hi.steps ((hdoes b row).steps _ _ _ h1)
    obtain ⟨rfl, rfl⟩ | ⟨rfl, ho⟩ := hf _ _ _ _ _ hi h1
    · exact ih hi h2
    · obtain ⟨rfl, rfl⟩ | ⟨rfl, ho2⟩ := ih hi' h2
      · exact .inr ⟨rfl, ho⟩
      · exact .inr ⟨rfl, ho.trans ho2⟩

theorem deleteMappingRow_ok {link : Nat} {b b' : Bool} {row : MapRow} {s s' : Store} (hi : MapInv s)
    (h : deleteMappingRow link b row s = .ok (b', s')) :
    (b' = b ∧ s' = s) ∨ (b' = true ∧ OnLink link s s') := by
  unfold deleteMappingRow at h
  rw [bind_ok] at h
  obtain ⟨_, _, he, h⟩ := h
  rw [get_ok] at he
  cases he
  rcases hr : s.index.find? (fun r => r.id == row.index) with _ | r <;> simp only [hr] at h
  · rw [pure_ok] at h; cases h; exact .inl ⟨rfl, rfl⟩
  rw [ite_ok] at h
  obtain ⟨_, h⟩ | ⟨_, h⟩ := h
  · rw [pure_ok] at h; cases h; exact .inl ⟨rfl, rfl⟩
  rcases hm : s.findMap link row.other row.index with _ | m <;> simp only [hm] at h
  · rw [pure_ok] at h; cases h; exact .inl ⟨rfl, rfl⟩
  rw [ite_ok] at h
  obtain ⟨_, h⟩ | ⟨_, h⟩ := h
  · rw [pure_ok] at h; cases h; exact .inl ⟨rfl, rfl⟩
  rw [ite_ok] at h
  obtain ⟨_, h⟩ | ⟨_, h⟩ := h
  · rw [pure_ok] at h; cases h; exact .inl ⟨rfl, rfl⟩
  rw [bind_ok] at h
  obtain ⟨_, t, h1, h⟩ := h
  rw [pure_ok] at h
  cases h
  cases modify_ok.1 h1
  have hl : m.link = link := by
    have := List.find?_some hm
    simp only [Bool.and_eq_true, beq_iff_eq] at this
    exact this.1.1
  subst hl
  exact .inr ⟨rfl, OnLink.del hi.ids (List.mem_of_find?_eq_some hm)⟩

theorem deleteMaps_onLink {link : Nat} {ms : List Mapping} {s s' : Store} (hi : MapInv s)
    (hsub : ∀ m ∈ ms, m ∈ s.maps ∧ m.link = link)
    (h : ms.forM (fun m => mappingDelete m.id) s = .ok ((), s')) : OnLink link s s' := by
  rw [forM_mappingDelete h]
  refine ⟨rfl, ?_⟩
  dsimp only
  rw [List.filter_filter]
  apply List.filter_congr
  intro x hx
  rw [Bool.eq_iff_iff]
  simp only [Bool.and_eq_true, bne_iff_ne, decide_eq_true_eq]
  constructor
  · exact fun h => h.1
  · intro h
    refine ⟨h, fun he => ?_⟩
    obtain ⟨m, hm, he⟩ := List.mem_map.1 he
    exact h (by rw [← eq_of_id hi.ids (hsub m hm).1 hx he]; exact (hsub m hm).2)

theorem deleteMappingTarget_ok {link : Nat} {colsOk : Bool} {t : Target MapRow} {b : Bool} {s s' : Store}
    (hi : MapInv s) (h : deleteMappingTarget link colsOk t s = .ok (b, s')) :
    (b = false ∧ s' = s) ∨ (b = true ∧ OnLink link s s') := by
  unfold deleteMappingTarget at h
  cases t with
  | rows rs =>
    dsimp only at h
    rw [ite_ok] at h
    obtain ⟨_, h⟩ | ⟨_, h⟩ := h
    · exact absurd h (by simp [throw_ok])
    · exact rows_onLink (fun b row => deleteMappingRow_does link b row)
        (fun b row s b' s' hi h => deleteMappingRow_ok hi h) hi h
  | criteria cs =>
    simp only [bind_ok, get_ok, pure_ok] at h
    obtain ⟨_, _, he, _, t, h1, h⟩ := h
    cases he
    cases h
    set ms := (s.filterByLabel cs).flatMap fun r =>
      s.maps.filter fun m => m.link == link && m.index == r.id && coveredBy s.cols cs m.level with hms
    cases hemp : ms with
    | nil =>
      rw [hemp] at h1
      cases h1
      exact .inl ⟨by simp, rfl⟩
    | cons x xs =>
      refine .inr ⟨by simp, deleteMaps_onLink hi ?_ h1⟩
      intro m hm
      rw [hms, List.mem_flatMap] at hm
      obtain ⟨r, _, hm⟩ := hm
      rw [List.mem_filter] at hm
      refine ⟨hm.1, ?_⟩
      have := hm.2
      simp only [Bool.and_eq_true, beq_iff_eq] at this
      exact this.1.1

/-- Which records are reached from which by which link, with the ids of the mappings. -/
def Store.reach (s : Store) : List (Nat × Nat × Nat × Int) := s.maps.map fun m => (m.id, m.link, m.index, m.other)

theorem reach_upd {m m' : Mapping} {s : Store} (hnd : (s.maps.map (·.id)).Nodup) (hm : m ∈ s.maps)
    (hid : m'.id = m.id) (hl : m'.link = m.link) (hx : m'.index = m.index) (ho : m'.other = m.other) :
    ({ s with maps := upd Mapping.id m' s.maps } : Store).reach = s.reach := by
  unfold Store.reach upd
  rw [List.map_map]
  apply List.map_congr_left
  intro x hx'
  simp only [Function.comp]
  split
  · rename_i he
    rw [eq_of_id hnd hx' hm (he.trans hid), hid, hl, hx, ho]
  · rfl

theorem updateMappingRow_ok {link : Nat} {c c' : Bool × Bool} {row : MapRow} {s s' : Store} (hi : MapInv s)
    (h : updateMappingRow link c row s = .ok (c', s')) :
    OnLink link s s' ∧ ((c' = c ∧ s' = s) ∨ c' = (c.1, true) ∧ s'.reach = s.reach ∨ c' = (true, c.2)) := by
  unfold updateMappingRow at h
  rw [bind_ok] at h
  obtain ⟨_, _, he, h⟩ := h
  rw [get_ok] at he
  cases he
  rw [ite_ok] at h
  obtain ⟨_, h⟩ | ⟨_, h⟩ := h
  · rw [pure_ok] at h; cases h; exact ⟨OnLink.refl _ _, .inl ⟨rfl, rfl⟩⟩
  rcases hm : s.findMap link row.other row.index with _ | m <;> simp only [hm] at h
  · rw [bind_ok] at h
    obtain ⟨_, t, h1, h⟩ := h
    rw [pure_ok] at h
    cases h
    exact ⟨OnLink.add h1, .inr (.inr rfl)⟩
  · rcases hl : row.level with _ | lv <;> simp only [hl] at h
    · exact absurd h (by simp [throw_ok])
    · rw [bind_ok] at h
      obtain ⟨_, t, h1, h⟩ := h
      rw [pure_ok] at h
      cases h
      have hl : m.link = link := by
        have := List.find?_some hm
        simp only [Bool.and_eq_true, beq_iff_eq] at this
        exact this.1.1
      subst hl
      have ht := mappingUpdate_ok h1
      have hmem := List.mem_of_find?_eq_some hm
      subst ht
      exact ⟨OnLink.upd hi.ids hmem rfl rfl, .inr (.inl ⟨rfl, reach_upd hi.ids hmem rfl rfl rfl rfl⟩)⟩

theorem updateMappingRows_ok {link : Nat} {c c' : Bool × Bool} {rows : List MapRow} {s s' : Store} (hi : MapInv s)
    (h : rows.foldlM (updateMappingRow link) c s = .ok (c', s')) :
    OnLink link s s' ∧ (c.1 = true → c'.1 = true) ∧ (c.2 = true → c'.2 = true) ∧
      (c'.1 = false → s'.reach = s.reach) ∧ (c'.1 = false → c'.2 = false → s' = s) := by
  induction rows generalizing c s with
  | nil => cases h; exact ⟨OnLink.refl _ _, fun h => h, fun h => h, fun _ => rfl, fun _ _ => rfl⟩
  | cons row rows ih =>
    obtain ⟨d, t, h1, h2⟩ := foldlM_cons_ok.1 h
    have hi' : MapInv t := hi.steps ((updateMappingRow_does link c row).steps _ _ _ h1)
    obtain ⟨ho, hc⟩ := updateMappingRow_ok hi h1
    obtain ⟨ho2, i1, i2, i3, i4⟩ := ih hi' h2
    refine ⟨ho.trans ho2, ?_, ?_, ?_, ?_⟩
    · intro hc1
      apply i1
      obtain ⟨rfl, _⟩ | ⟨rfl, _⟩ | rfl := hc <;> simp [hc1]
    · intro hc2
      apply i2
      obtain ⟨rfl, _⟩ | ⟨rfl, _⟩ | rfl := hc <;> simp [hc2]
    · intro hf
      rw [i3 hf]
      obtain ⟨_, rfl⟩ | ⟨_, hr⟩ | rfl := hc
      · rfl
      · exact hr
      · exact absurd (i1 rfl) (by simp [hf])
    · intro hf hf2
      rw [i4 hf hf2]
      obtain ⟨_, rfl⟩ | ⟨rfl, hr⟩ | rfl := hc
      · rfl
      · exact absurd (i2 rfl) (by simp [hf2])
      · exact absurd (i1 rfl) (by simp [hf])

/-! ### Operations -/

/-- The maps of link `lk` refreshed. -/
def refreshedLink (s : Store) (lk : Nat) : List Mapping :=
  refreshMaps s.maps fun k o => k == lk && decide (0 ≤ o)

/-- What an operation on mappings does: nothing; or it changes the mappings of one link and refreshes all
its proportions. In the first case of `link` it also updates the link record, in the second it has not
changed which records the link reaches. -/
inductive MapEffect (s : Store) : Store → Prop
  | none : MapEffect s s
  | link (l : Link) (t : Store) (hl : l ∈ s.links) (ht : OnLink l.id s t) (hi : MapInv t) :
      MapEffect s { t with
        maps := refreshedLink t l.id,
        links := upd Link.id { l with
          otherHash := some (t.distinctOthers l.id), complete := t.mappingIsComplete l.id } t.links }
  | same (l : Link) (t : Store) (hl : l ∈ s.links) (ht : OnLink l.id s t) (hi : MapInv t)
      (hr : t.reach = s.reach) : MapEffect s { t with maps := refreshedLink t l.id }

theorem insertMappings2_effect {ref : PyStr} {name : Option PyStr} {rows : List MapRow} {s s' : Store}
    (hi : MapInv s) (h : insertMappings2 ref name rows s = .ok ((), s')) : MapEffect s s' := by
  unfold insertMappings2 at h
  simp only [bind_ok, get_ok, liftE_ok] at h
  obtain ⟨_, _, he, l, _, ⟨l, hl, he2⟩, b, t, h1, h2⟩ := h
  cases he
  cases he2
  have hK := Does.steps (Does.foldlM (fun b row _ => insertMapping2Row_does s.levels2 l.id b row)) _ _ _ h1
  rw [whenM_ok] at h2
  obtain ⟨rfl, rfl⟩ | ⟨rfl, ho⟩ := rows_onLink (fun b row => insertMapping2Row_does s.levels2 l.id b row)
    (fun b row s b' s' _ h => insertMapping2Row_ok h) hi h1
  · obtain ⟨h, _⟩ | ⟨_, rfl⟩ := h2
    · exact absurd h (by simp)
    · exact .none
  · obtain ⟨_, h2⟩ | ⟨h, _⟩ := h2
    · rw [refreshLink_ok (hi.steps hK).ids h2]
      exact .link l t (getLink_mem hl) ho (hi.steps hK)
    · exact absurd h (by simp)

theorem insertMappings_effect {ref : PyStr} {name : Option PyStr} {colsOk : Bool} {rows : List MapRow}
    {s s' : Store} (hi : MapInv s) (h : insertMappings ref name colsOk rows s = .ok ((), s')) :
    MapEffect s s' := by
  unfold insertMappings at h
  rw [ite_ok] at h
  obtain ⟨_, h⟩ | ⟨_, h⟩ := h
  · exact absurd h (by simp [throw_ok])
  simp only [bind_ok, get_ok, liftE_ok] at h
  obtain ⟨_, _, he, l, _, ⟨l, hl, he2⟩, b, t, h1, h2⟩ := h
  cases he
  cases he2
  have hK := Does.steps (Does.foldlM (fun b row _ => insertMappingRow_does l.id b row)) _ _ _ h1
  rw [whenM_ok] at h2
  obtain ⟨rfl, rfl⟩ | ⟨rfl, ho⟩ := rows_onLink (fun b row => insertMappingRow_does l.id b row)
    (fun b row s b' s' _ h => insertMappingRow_ok h) hi h1
  · obtain ⟨h, _⟩ | ⟨_, rfl⟩ := h2
    · exact absurd h (by simp)
    · exact .none
  · obtain ⟨_, h2⟩ | ⟨h, _⟩ := h2
    · rw [refreshLink_ok (hi.steps hK).ids h2]
      exact .link l t (getLink_mem hl) ho (hi.steps hK)
    · exact absurd h (by simp)

theorem deleteMappings_effect {ref : PyStr} {name : Option PyStr} {colsOk : Bool} {tg : Target MapRow}
    {s s' : Store} (hi : MapInv s) (h : deleteMappings ref name colsOk tg s = .ok ((), s')) :
    MapEffect s s' := by
  unfold deleteMappings at h
  simp only [bind_ok, get_ok, liftE_ok] at h
  obtain ⟨_, _, he, l, _, ⟨l, hl, he2⟩, h⟩ := h
  cases he
  cases he2
  rw [ite_ok] at h
  obtain ⟨_, h⟩ | ⟨_, h⟩ := h
  · exact absurd h (by simp [throw_ok])
  rw [bind_ok] at h
  obtain ⟨b, t, h1, h2⟩ := h
  have hK := (deleteMappingTarget_does l.id colsOk tg).steps _ _ _ h1
  rw [whenM_ok] at h2
  obtain ⟨rfl, rfl⟩ | ⟨rfl, ho⟩ := deleteMappingTarget_ok hi h1
  · obtain ⟨h, _⟩ | ⟨_, rfl⟩ := h2
    · exact absurd h (by simp)
    · exact .none
  · obtain ⟨_, h2⟩ | ⟨h, _⟩ := h2
    · rw [refreshLink_ok (hi.steps hK).ids h2]
      exact .link l t (getLink_mem hl) ho (hi.steps hK)
    · exact absurd h (by simp)

theorem refreshMaps_distinctOthers (s : Store) (lk : Nat) :
    (refreshMaps s.maps fun k o => k == lk && decide (o ∈ s.distinctOthers lk)) = refreshedLink s lk := by
  apply refreshMaps_congr
  intro m hm
  by_cases hl : m.link = lk
  · have : m.other ∈ s.distinctOthers lk ↔ 0 ≤ m.other := by
      unfold Store.distinctOthers
      simp only [List.mem_cons, mem_sortedBy, mem_distinct, List.mem_map, List.mem_filter,
        Bool.and_eq_true, beq_iff_eq, decide_eq_true_eq]
      constructor
      · rintro (h | ⟨x, ⟨_, _, hx⟩, he⟩)
        · rw [h]
        · rw [← he]; exact le_of_lt hx
      · intro h
        rcases h.lt_or_eq with h | h
        · exact .inr ⟨m, ⟨hm, hl, h⟩, rfl⟩
        · exact .inl h.symm
    show (m.link == lk && decide (m.other ∈ s.distinctOthers lk)) = (m.link == lk && decide (0 ≤ m.other))
    rw [decide_eq_decide.2 this]
  · show (m.link == lk && decide (m.other ∈ s.distinctOthers lk)) = (m.link == lk && decide (0 ≤ m.other))
    rw [beq_eq_false_iff_ne.2 hl]
    rfl

theorem updateMappings_effect {ref : PyStr} {name : Option PyStr} {colsOk : Bool} {rows : List MapRow}
    {s s' : Store} (hi : MapInv s) (h : updateMappings ref name colsOk rows s = .ok ((), s')) :
    MapEffect s s' := by
  unfold updateMappings at h
  rw [ite_ok] at h
  obtain ⟨_, h⟩ | ⟨_, h⟩ := h
  · exact absurd h (by simp [throw_ok])
  simp only [bind_ok, get_ok, liftE_ok] at h
  obtain ⟨_, _, he, l, _, ⟨l, hl, he2⟩, c, t, h1, h2⟩ := h
  cases he
  cases he2
  have hK := Does.steps (Does.foldlM (fun b row _ => updateMappingRow_does l.id b row)) _ _ _ h1
  obtain ⟨ho, _, _, hr, hn⟩ := updateMappingRows_ok hi h1
  rw [ite_ok] at h2
  obtain ⟨_, h2⟩ | ⟨hc, h2⟩ := h2
  · rw [refreshLink_ok (hi.steps hK).ids h2]
    exact .link l t (getLink_mem hl) ho (hi.steps hK)
  rw [ite_ok] at h2
  obtain ⟨_, h2⟩ | ⟨hc2, h2⟩ := h2
  · simp only [bind_ok, get_ok] at h2
    obtain ⟨_, _, he, h2⟩ := h2
    cases he
    rw [forM_refresh (hi.steps hK).ids h2, refreshMaps_distinctOthers]
    exact .same l t (getLink_mem hl) ho (hi.steps hK) (hr (by simpa using hc))
  · rw [pure_ok] at h2
    cases h2
    rw [hn (by simpa using hc) (by simpa using hc2)]
    exact .none

end Toron.Space
