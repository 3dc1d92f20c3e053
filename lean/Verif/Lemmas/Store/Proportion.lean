/-
The proportions of the mappings of a source record.
-/
import Verif.Lemmas.Store.MapOps

set_option linter.unusedSimpArgs false

namespace Toron.Space

open Toron.Selectors (PyStr Sel)

/-- The proportions of a source record are as they should be (nothing is known about negative ids). -/
def OkProps (o : Int) (ps : List (Option ℚ)) : Prop :=
  (0 < o → ps ≠ [] → propSum ps = some 1) ∧ (o = 0 → ∀ p ∈ ps, p = some 0)

def OkAt (ms : List Mapping) (lk : Nat) (o : Int) : Prop := OkProps o ((mapsAt ms lk o).map (·.prop))

/-- All proportions are as they should be. -/
def PropOk (ms : List Mapping) : Prop := ∀ lk o, OkAt ms lk o

theorem OkProps.nil (o : Int) : OkProps o [] := ⟨fun _ h => absurd rfl h, fun _ _ h => by simp at h⟩

theorem OkAt.of_neg {ms : List Mapping} {lk : Nat} {o : Int} (h : o < 0) : OkAt ms lk o :=
  ⟨fun h' => absurd h' (by omega), fun h' => absurd h' (by omega)⟩

theorem propSum_some (ps : List ℚ) : propSum (ps.map some) = some ps.sum := by
  induction ps with
  | nil => rfl
  | cons p ps ih => rw [List.map_cons, propSum_cons, ih]; rfl

theorem sum_map_div (l : List ℚ) (t : ℚ) : (l.map fun x => x / t).sum = l.sum / t := by
  induction l with
  | nil => simp
  | cons x xs ih => rw [List.map_cons, List.sum_cons, List.sum_cons, ih]; ring

theorem mapsAt_refresh_pos {ms : List Mapping} {p : Nat → Int → Bool} {lk : Nat} {o : Int} (h : p lk o = true) :
    mapsAt (refreshMaps ms p) lk o = (mapsAt ms lk o).map fun m => { m with prop := fresh ms m } := by
  unfold mapsAt
  rw [refreshMaps_filter ms p _ (fun _ _ => rfl)]
  apply List.map_congr_left
  intro m hm
  have := (List.mem_filter.1 hm).2
  simp only [Bool.and_eq_true, beq_iff_eq] at this
  rw [if_pos (by rw [this.1, this.2, h])]

theorem mapsAt_refresh_neg {ms : List Mapping} {p : Nat → Int → Bool} {lk : Nat} {o : Int} (h : p lk o = false) :
    mapsAt (refreshMaps ms p) lk o = mapsAt ms lk o := by
  unfold mapsAt
  rw [refreshMaps_filter ms p _ (fun _ _ => rfl)]
  conv_rhs => rw [← List.map_id (ms.filter _)]
  apply List.map_congr_left
  intro m hm
  have := (List.mem_filter.1 hm).2
  simp only [Bool.and_eq_true, beq_iff_eq] at this
  rw [if_neg (by rw [this.1, this.2, h]; simp)]
  rfl

theorem OkAt.refresh_pos {ms : List Mapping} {p : Nat → Int → Bool} {lk : Nat} {o : Int} (h : p lk o = true) :
    OkAt (refreshMaps ms p) lk o := by
  unfold OkAt
  rw [mapsAt_refresh_pos h, List.map_map]
  have key : ∀ m ∈ mapsAt ms lk o, m.link = lk ∧ m.other = o := by
    intro m hm
    have := (List.mem_filter.1 hm).2
    simpa using this
  constructor
  · intro ho hne
    have hne' : mapsAt ms lk o ≠ [] := fun h => hne (by rw [h]; rfl)
    have hlen : ((mapsAt ms lk o).length : ℚ) ≠ 0 := by
      rw [Nat.cast_ne_zero]
      exact fun h => hne' (List.length_eq_zero_iff.1 h)
    have he : ((mapsAt ms lk o).map ((fun m => m.prop) ∘ fun m => { m with prop := fresh ms m })) =
        ((mapsAt ms lk o).map fun m => if ((mapsAt ms lk o).map (·.value)).sum = 0
          then 1 / ((mapsAt ms lk o).length : ℚ) else m.value / ((mapsAt ms lk o).map (·.value)).sum).map some := by
      rw [List.map_map]
      apply List.map_congr_left
      intro m hm
      obtain ⟨h1, h2⟩ := key m hm
      simp only [Function.comp, fresh, h1, h2, if_neg (by omega : ¬ o = 0)]
    rw [he, propSum_some]
    congr 1
    by_cases ht : ((mapsAt ms lk o).map (·.value)).sum = 0
    · simp only [ht, if_true]
      rw [List.map_const', List.sum_replicate, nsmul_eq_mul]
      field_simp
    · simp only [ht, if_false]
      have := sum_map_div ((mapsAt ms lk o).map (·.value)) ((mapsAt ms lk o).map (·.value)).sum
      rw [List.map_map] at this
      show ((mapsAt ms lk o).map fun m => m.value / ((mapsAt ms lk o).map (·.value)).sum).sum = 1
      rw [div_self ht] at this
      exact this
  · intro ho q hq
    obtain ⟨m, hm, rfl⟩ := List.mem_map.1 hq
    obtain ⟨h1, h2⟩ := key m hm
    simp [fresh, h2, ho]

theorem OkAt.refresh_neg {ms : List Mapping} {p : Nat → Int → Bool} {lk : Nat} {o : Int} (h : p lk o = false)
    (hok : OkAt ms lk o) : OkAt (refreshMaps ms p) lk o := by
  unfold OkAt at *
  rw [mapsAt_refresh_neg h]
  exact hok

/-- Only link, source record and proportion matter. -/
theorem PropOk.congr {ms ms' : List Mapping}
    (h : (ms'.map fun m => (m.link, m.other, m.prop)) = ms.map fun m => (m.link, m.other, m.prop))
    (hok : PropOk ms) : PropOk ms' := by
  have key : ∀ (ms : List Mapping) lk o, (mapsAt ms lk o).map (·.prop) =
      ((ms.map fun m => (m.link, m.other, m.prop)).filter fun x => x.1 == lk && x.2.1 == o).map (·.2.2) := by
    intro ms lk o
    rw [List.filter_map, List.map_map]
    rfl
  intro lk o
  unfold OkAt
  rw [key, h, ← key]
  exact hok lk o

theorem PropOk.effect {s s' : Store} (h : MapEffect s s') (hok : PropOk s.maps) : PropOk s'.maps := by
  have main : ∀ (l : Link) (t : Store), OnLink l.id s t → PropOk (refreshedLink t l.id) := by
    intro l t ht lk o
    unfold refreshedLink
    by_cases hl : lk = l.id
    · by_cases ho : 0 ≤ o
      · exact OkAt.refresh_pos (by simp [hl, ho])
      · exact OkAt.of_neg (by omega)
    · refine OkAt.refresh_neg (by simp [hl]) ?_
      unfold OkAt
      rw [ht.mapsAt_eq hl]
      exact hok lk o
  cases h with
  | none => exact hok
  | link l t hl ht _ => exact main l t ht
  | same l t hl ht _ _ => exact main l t ht

theorem PropOk.filter_link {ms : List Mapping} (lk : Nat) (hok : PropOk ms) :
    PropOk (ms.filter fun m => m.link != lk) := by
  intro lk' o
  unfold OkAt
  by_cases hl : lk' = lk
  · have : mapsAt (ms.filter fun m => m.link != lk) lk' o = [] := by
      unfold mapsAt
      rw [List.filter_filter, List.filter_eq_nil_iff]
      intro m _
      simp only [Bool.and_eq_true, beq_iff_eq, bne_iff_ne]
      rintro ⟨⟨h1, _⟩, h2⟩
      exact h2 (h1.trans hl)
    rw [this]
    exact OkProps.nil o
  · have : mapsAt (ms.filter fun m => m.link != lk) lk' o = mapsAt ms lk' o := by
      unfold mapsAt
      rw [List.filter_filter]
      apply List.filter_congr
      intro m _
      rw [Bool.eq_iff_iff]
      simp only [Bool.and_eq_true, beq_iff_eq, bne_iff_ne]
      constructor
      · exact fun h => h.1
      · exact fun h => ⟨h, fun h' => hl (h.1.symm.trans h')⟩
    rw [this]
    exact hok lk' o

theorem PropOk.without {ms : List Mapping} {links : List Nat} (id : Nat) (hl : ∀ m ∈ ms, m.link ∈ links)
    (hok : PropOk ms) : PropOk (mapsWithout links ms id) := by
  intro lk o
  unfold mapsWithout
  by_cases hp : (decide (lk ∈ links) && decide (o ∈ (ms.filter fun m => m.index == id).map (·.other))) = true
  · exact OkAt.refresh_pos hp
  · refine OkAt.refresh_neg (by simpa using hp) ?_
    have : mapsAt (ms.filter fun m => m.index != id) lk o = mapsAt ms lk o := by
      unfold mapsAt
      rw [List.filter_filter]
      apply List.filter_congr
      intro m hm
      rw [Bool.eq_iff_iff]
      simp only [Bool.and_eq_true, beq_iff_eq, bne_iff_ne]
      constructor
      · exact fun h => h.1
      · rintro ⟨h1, h2⟩
        refine ⟨⟨h1, h2⟩, fun hi => hp ?_⟩
        simp only [Bool.and_eq_true, decide_eq_true_eq]
        exact ⟨h1 ▸ hl m hm, List.mem_map.2 ⟨m, List.mem_filter.2 ⟨hm, by simpa using hi⟩, h2⟩⟩
    unfold OkAt
    rw [this]
    exact hok lk o

theorem propSum_by_key {κ : Type} [DecidableEq κ] (key : Mapping → κ) (l : List Mapping) {ks : List κ}
    (hnd : ks.Nodup) :
    propSum (ks.map fun k => propSum ((l.filter fun x => decide (key x = k)).map (·.prop))) =
      propSum ((l.filter fun x => decide (key x ∈ ks)).map (·.prop)) := by
  rw [← propSum_perm ((flatMap_filter_perm hnd (l := l) (key := key)).map (·.prop))]
  clear hnd
  induction ks with
  | nil => rfl
  | cons k ks ih => rw [List.map_cons, propSum_cons, ih, List.flatMap_cons, List.map_append, propSum_append]

/-- Merging records keeps the proportions of each source record. -/
theorem PropOk.merge {ids : List Nat} {target : Nat} {s s' : Store} (hnd : (s.maps.map (·.id)).Nodup)
    (h : mergeMappings ids target s = .ok ((), s')) (hok : PropOk s.maps) : PropOk s'.maps := by
  obtain ⟨old, new, hp, rfl, hn⟩ := mergeMappings_ok hnd h
  intro lk o
  set ks := (distinct (old.map Mapping.key)).filter (fun k => k.1 == lk && k.2.1 == o) with hks
  have hksn : ks.Nodup := (nodup_distinct _).filter _
  have hnew : (mapsAt new lk o).map (·.prop) =
      ks.map fun k => propSum ((old.filter fun x => decide (x.key = k)).map (·.prop)) := by
    have h1 : (mapsAt new lk o).map (·.prop) =
        ((new.map fun m => (m.key, m.index, m.value, m.prop)).filter
          fun x => x.1.1 == lk && x.1.2.1 == o).map (·.2.2.2) := by
      rw [List.filter_map, List.map_map]
      rfl
    rw [h1, hn, List.filter_map, List.map_map, hks]
    apply List.map_congr_left
    intro k _
    show propSum ((old.filter fun m => m.key == k).map _) = _
    congr 2
    apply List.filter_congr
    intro m _
    rw [Bool.eq_iff_iff, beq_iff_eq]
    simp
  have hold : (old.filter fun x => decide (x.key ∈ ks)) = mapsAt old lk o := by
    unfold mapsAt
    apply List.filter_congr
    intro m hm
    rw [Bool.eq_iff_iff]
    simp only [hks, decide_eq_true_eq, List.mem_filter, mem_distinct, Bool.and_eq_true, beq_iff_eq]
    constructor
    · rintro ⟨_, h⟩; exact h
    · intro h; exact ⟨List.mem_map_of_mem hm, h⟩
  have hsum : propSum ((mapsAt new lk o).map (·.prop)) = propSum ((mapsAt old lk o).map (·.prop)) := by
    rw [hnew, propSum_by_key Mapping.key old hksn]
    convert congrArg (fun l : List Mapping => propSum (l.map (·.prop))) hold
  have hall : ((s.maps.filter fun m => decide (m.index ∉ target :: ids)) ++ old).Perm s.maps := by
    have := List.filter_append_perm (fun m : Mapping => decide (m.index ∈ target :: ids)) s.maps
    refine List.Perm.trans ?_ this
    refine List.perm_append_comm.trans ?_
    refine (hp.append_right _).trans ?_
    apply List.Perm.append_left
    rw [List.filter_congr]
    intro w _
    simp
  have happ : ∀ a b : List Mapping, mapsAt (a ++ b) lk o = mapsAt a lk o ++ mapsAt b lk o := by
    intro a b
    exact List.filter_append _ _
  obtain ⟨hok1, hok2⟩ := hok lk o
  show OkProps o _
  dsimp only
  rw [happ]
  have hmemold : ∀ m ∈ mapsAt old lk o, m ∈ mapsAt s.maps lk o := by
    intro m hm
    rw [mapsAt, List.mem_filter] at hm ⊢
    exact ⟨hall.subset (List.mem_append.2 (.inr hm.1)), hm.2⟩
  constructor
  · intro ho hne
    rw [List.map_append, propSum_append, hsum, ← propSum_append, ← List.map_append, ← happ]
    have hperm : (mapsAt ((s.maps.filter fun m => decide (m.index ∉ target :: ids)) ++ old) lk o).Perm
        (mapsAt s.maps lk o) := hall.filter _
    rw [propSum_perm (hperm.map _)]
    apply hok1 ho
    intro hnil
    apply hne
    have hnil' : mapsAt s.maps lk o = [] := List.map_eq_nil_iff.1 hnil
    rw [hnil', happ] at hperm
    obtain ⟨h1, h2⟩ := List.append_eq_nil_iff.1 hperm.eq_nil
    rw [List.map_append, h1, hnew]
    have : ks = [] := by
      rw [List.eq_nil_iff_forall_not_mem]
      intro k hk
      rw [hks, List.mem_filter, mem_distinct, List.mem_map] at hk
      obtain ⟨⟨m, hm, rfl⟩, hk⟩ := hk
      have : m ∈ mapsAt old lk o := List.mem_filter.2 ⟨hm, hk⟩
      rw [h2] at this
      simp at this
    rw [this]
    rfl
  · intro ho q hq
    rw [List.map_append, List.mem_append] at hq
    rcases hq with hq | hq
    · obtain ⟨m, hm, rfl⟩ := List.mem_map.1 hq
      refine hok2 ho _ (List.mem_map_of_mem ?_)
      rw [mapsAt, List.mem_filter] at hm ⊢
      exact ⟨List.mem_of_mem_filter hm.1, hm.2⟩
    · rw [hnew, List.mem_map] at hq
      obtain ⟨k, hk, rfl⟩ := hq
      have hz : ∀ l : List Mapping, (∀ m ∈ l, m.prop = some 0) → propSum (l.map (·.prop)) = some 0 := by
        intro l
        induction l with
        | nil => intro _; rfl
        | cons m l ih =>
          intro h
          rw [List.map_cons, propSum_cons, h m (by simp), ih fun x hx => h x (by simp [hx])]
          simp [addProp]
      apply hz
      intro m hm
      rw [List.mem_filter] at hm
      have hmk : m.key = k := by simpa using hm.2
      have hin : m ∈ mapsAt old lk o := by
        refine List.mem_filter.2 ⟨hm.1, ?_⟩
        have := (List.mem_filter.1 hk).2
        rw [← hmk] at this
        exact this
      exact hok2 ho _ (List.mem_map_of_mem (hmemold m hin))

/-! ### Histories -/

theorem updateIndexRow_maps {merge : Bool} {acc acc' : UpdateAcc} {row : Nat × List PyStr} {s s' : Store}
    (hi : MapInv s) (hok : PropOk s.maps) (h : updateIndexRow merge acc row s = .ok (acc', s')) :
    PropOk s'.maps := by
  obtain ⟨_, rfl⟩ | ⟨r, _, _, _, ⟨_, _, rfl⟩ | ⟨o, t1, t2, _, _, _, _, hw, hm, _, _, rfl⟩⟩ := updateIndexRow_cases h
  · exact hok
  · exact hok
  · have h1 : t1.maps = s.maps := ((mergeWeights_does ..).steps _ _ _ hw).maps_eq (by decide)
    show PropOk t2.maps
    exact PropOk.merge (by rw [h1]; exact hi.ids) hm (by rw [h1]; exact hok)

theorem updateIndexRows_maps {merge : Bool} {acc acc' : UpdateAcc} {rows : List (Nat × List PyStr)} {s s' : Store}
    (hi : MapInv s) (hok : PropOk s.maps) (h : rows.foldlM (updateIndexRow merge) acc s = .ok (acc', s')) :
    PropOk s'.maps := by
  induction rows generalizing acc s with
  | nil => cases h; exact hok
  | cons r rs ih =>
    obtain ⟨d, t, h1, h2⟩ := foldlM_cons_ok.1 h
    exact ih (hi.steps ((updateIndexRow_does merge acc r).steps _ _ _ h1)) (updateIndexRow_maps hi hok h1) h2

theorem updateIndex_propOk {merge : Bool} {rows : List (Nat × List PyStr)} {s s' : Store} (hi : MapInv s)
    (hok : PropOk s.maps) (h : updateIndex merge rows s = .ok ((), s')) : PropOk s'.maps := by
  obtain ⟨acc, t, u, h1, h2, h3⟩ := updateIndex_parts h
  have e1 : u.maps = t.maps := Steps.maps_eq (K := [.structs]) (Does.steps (by does) _ _ _ h2) (by decide)
  have e2 : s'.maps = u.maps :=
    Steps.maps_eq (K := [.hash, .wgUpd, .lUpd]) (Does.steps (by does) _ _ _ h3) (by decide)
  rw [e2, e1]
  exact updateIndexRows_maps hi hok h1

/-- What is needed of a state to delete a record. -/
structure DelOk (s : Store) : Prop where
  weights : WeightInv s
  maps : MapInv s
  links : ∀ m ∈ s.maps, m.link ∈ s.links.map (·.id)
  ok : PropOk s.maps

theorem DelOk.step {id : Nat} {s s' : Store} (hi : DelOk s) (h : deleteIndexRecord id s = .ok ((), s')) :
    DelOk s' := by
  have hst := (deleteIndexRecord_does id).steps _ _ _ h
  obtain ⟨_, _, rfl⟩ := deleteIndexRecord_ok hi.weights.ids hi.maps.ids h
  refine ⟨hi.weights.steps hst, hi.maps.steps hst, ?_, PropOk.without id hi.links hi.ok⟩
  intro m hm
  have : (m.link, 0) ∈ (mapsWithout (s.links.map (·.id)) s.maps id).map fun m => (m.link, 0) :=
    List.mem_map_of_mem hm
  unfold mapsWithout at this
  rw [refreshMaps_map _ (fun _ _ => rfl), List.mem_map] at this
  obtain ⟨x, hx, he⟩ := this
  rw [← (Prod.mk.inj he).1]
  exact hi.links x (List.mem_of_mem_filter hx)

theorem deleteRecords_delOk {ids : List Nat} {s s' : Store} (hi : DelOk s)
    (h : ids.forM deleteIndexRecord s = .ok ((), s')) : DelOk s' := by
  induction ids generalizing s with
  | nil => cases h; exact hi
  | cons x xs ih =>
    obtain ⟨t, h1, h2⟩ := forM_cons_ok.1 h
    exact ih (hi.step h1) h2

theorem deleteRows_delOk {rows : List (Nat × List PyStr)} {b b' : Bool} {s s' : Store} (hi : DelOk s)
    (h : rows.foldlM deleteIndexRow b s = .ok (b', s')) : DelOk s' := by
  induction rows generalizing b s with
  | nil => cases h; exact hi
  | cons r rs ih =>
    obtain ⟨d, t, h1, h2⟩ := foldlM_cons_ok.1 h
    refine ih ?_ h2
    obtain ⟨_, rfl⟩ | ⟨_, r', _, _, _, h1⟩ := deleteIndexRow_ok h1
    · exact hi
    · exact hi.step h1

/-- Reifying only changes levels. -/
theorem reify_core (ref : PyStr) (name : Option PyStr) (cs : List (PyStr × PyStr)) (s : Store)
    (hnd : (s.maps.map (·.id)).Nodup) :
    (reifyMappings ref name cs s).1.maps.map (fun m => (m.id, m.link, m.other, m.index, m.value, m.prop)) =
      s.maps.map (fun m => (m.id, m.link, m.other, m.index, m.value, m.prop)) := by
  set g : Mapping → Nat × Nat × Int × Nat × ℚ × Option ℚ :=
    fun m => (m.id, m.link, m.other, m.index, m.value, m.prop) with hg
  have main : ∀ (ms : List Mapping) (lv : List Byte) (t : Store), (∀ m ∈ ms, m ∈ s.maps) →
      t.maps.map g = s.maps.map g →
      (runAuto (ms.map fun m => mappingUpdate { m with level := lv }) t).1.maps.map g = s.maps.map g := by
    intro ms lv
    induction ms with
    | nil => intro t _ ht; exact ht
    | cons m ms ih =>
      intro t hsub ht
      have hone : (runTx (mappingUpdate { m with level := lv }) t).1.maps.map g = s.maps.map g := by
        refine runTx_inv (P := fun x => x.maps.map g = s.maps.map g) ht ?_
        intro _ t' h
        rw [mappingUpdate_ok h]
        show (upd Mapping.id { m with level := lv } t.maps).map g = _
        rw [← ht]
        unfold upd
        rw [List.map_map]
        apply List.map_congr_left
        intro x hx
        simp only [Function.comp]
        split
        · rename_i he
          have : g x ∈ s.maps.map g := ht ▸ List.mem_map_of_mem hx
          obtain ⟨y, hy, hyx⟩ := List.mem_map.1 this
          have hid : y.id = m.id := by
            have := congrArg Prod.fst hyx
            exact this.trans he
          rw [eq_of_id hnd hy (hsub m (by simp)) hid] at hyx
          rw [← hyx]
        · rfl
      rw [List.map_cons, runAuto]
      have hsub' : ∀ x ∈ ms, x ∈ s.maps := fun x hx => hsub x (by simp [hx])
      rcases hr : runTx (mappingUpdate { m with level := lv }) t with ⟨t', r⟩
      rw [hr] at hone
      rcases r with e | u
      · exact hone
      · exact ih t' hsub' hone
  unfold reifyMappings
  rcases getLink s.links ref name with e | l
  · rfl
  · refine main _ _ s ?_ rfl
    intro m hm
    have hm := List.mem_of_mem_filter hm
    split at hm
    · exact List.mem_of_mem_filter hm
    · rw [List.mem_flatMap] at hm
      obtain ⟨_, _, hm⟩ := hm
      exact List.mem_of_mem_filter hm

/-- Kinds of changes that keep all mappings. -/
def noMapKinds : List Kind :=
  [.idxAdd, .idxUpd, .idxDel, .locAdd, .locDel, .agAdd, .agDel, .qAdd, .qSet, .qDel,
   .wgAdd, .wgUpd, .wgDel, .wAdd, .wSet, .wDel, .lAdd, .lUpd,
   .hash, .structs, .pdefs, .attrs, .display, .domain, .defwg, .colAdd, .colRen, .colDrop]

/-- All mappings belong to links. -/
def LinksOk (s : Store) : Prop := ∀ m ∈ s.maps, m.link ∈ s.links.map (·.id)

theorem LinksOk.steps {K : List Kind} {s s' : Store} (h : Steps K s s')
    (hK : ∀ k ∈ K, k ∉ [Kind.mAdd, .mUpd, .mDel, .lDel]) (hs : LinksOk s) : LinksOk s' := by
  refine h.invariant (P := LinksOk) ?_ hs
  intro k hk s s' hp hs
  have hb := hK k hk
  cases hp with
  | lAdd _ l hl =>
    intro m hm
    obtain ⟨x, hx, he⟩ := List.mem_map.1 (hs m hm)
    exact List.mem_map.2 ⟨x, List.mem_append_left _ hx, he⟩
  | lUpd _ l hl =>
    intro m hm
    show m.link ∈ (upd Link.id l s.links).map (·.id)
    unfold upd
    rw [map_update_id]
    exact hs m hm
  | mAdd => exact absurd (by simp) hb
  | mUpd => exact absurd (by simp) hb
  | mDel => exact absurd (by simp) hb
  | lDel => exact absurd (by simp) hb
  | _ => exact hs

theorem LinksOk.of_links {s s' : Store} (h : LinksOk s) (hl : s'.links.map (·.id) = s.links.map (·.id))
    (hm : ∀ m ∈ s'.maps, ∃ x ∈ s.maps, x.link = m.link) : LinksOk s' := by
  intro m hm'
  obtain ⟨x, hx, he⟩ := hm m hm'
  rw [hl, ← he]
  exact h x hx

theorem mem_refreshMaps {ms : List Mapping} {p : Nat → Int → Bool} {m : Mapping} (h : m ∈ refreshMaps ms p) :
    ∃ x ∈ ms, x.id = m.id ∧ x.link = m.link ∧ x.other = m.other ∧ x.index = m.index ∧ x.level = m.level ∧
      x.value = m.value := by
  unfold refreshMaps at h
  obtain ⟨x, hx, rfl⟩ := List.mem_map.1 h
  refine ⟨x, hx, ?_⟩
  split <;> simp

theorem LinksOk.effect {s s' : Store} (h : MapEffect s s') (hok : LinksOk s) : LinksOk s' := by
  have main : ∀ (l : Link) (t : Store), l ∈ s.links → OnLink l.id s t →
      ∀ m ∈ refreshedLink t l.id, m.link ∈ s.links.map (·.id) := by
    intro l t hl ht m hm
    obtain ⟨x, hx, _, he, _⟩ := mem_refreshMaps hm
    rw [← he]
    by_cases hxl : x.link = l.id
    · rw [hxl]
      exact List.mem_map_of_mem hl
    · exact hok x ((ht.mem_iff hxl).1 hx)
  cases h with
  | none => exact hok
  | link l t hl ht _ =>
    intro m hm
    have := main l t hl ht m hm
    show m.link ∈ (upd Link.id _ t.links).map (·.id)
    unfold upd
    rw [map_update_id, ht.rest]
    exact this
  | same l t hl ht _ _ =>
    intro m hm
    have := main l t hl ht m hm
    show m.link ∈ t.links.map (·.id)
    rw [ht.rest]
    exact this

theorem LinksOk.merge {ids : List Nat} {target : Nat} {s s' : Store} (hnd : (s.maps.map (·.id)).Nodup)
    (h : mergeMappings ids target s = .ok ((), s')) (hok : LinksOk s) : LinksOk s' := by
  obtain ⟨old, new, hp, rfl, hn⟩ := mergeMappings_ok hnd h
  refine hok.of_links rfl ?_
  intro m hm
  rcases List.mem_append.1 hm with hm | hm
  · exact ⟨m, List.mem_of_mem_filter hm, rfl⟩
  · have : (m.key, m.index, m.value, m.prop) ∈ new.map (fun m => (m.key, m.index, m.value, m.prop)) :=
      List.mem_map_of_mem hm
    rw [hn, List.mem_map] at this
    obtain ⟨k, hk, he⟩ := this
    rw [mem_distinct, List.mem_map] at hk
    obtain ⟨x, hx, rfl⟩ := hk
    have := congrArg Prod.fst (Prod.mk.inj he).1
    exact ⟨x, List.mem_of_mem_filter (hp.subset hx), this⟩

theorem updateIndex_linksOk {merge : Bool} {rows : List (Nat × List PyStr)} {s s' : Store} (hi : MapInv s)
    (hok : LinksOk s) (h : updateIndex merge rows s = .ok ((), s')) : LinksOk s' := by
  obtain ⟨acc, t, u, h1, h2, h3⟩ := updateIndex_parts h
  refine LinksOk.steps (K := [.hash, .wgUpd, .lUpd]) (Does.steps (by does) _ _ _ h3) (by decide) ?_
  refine LinksOk.steps (K := [.structs]) (Does.steps (by does) _ _ _ h2) (by decide) ?_
  clear h h2 h3
  generalize (⟨[], false⟩ : UpdateAcc) = acc0 at h1
  induction rows generalizing s acc0 with
  | nil => cases h1; exact hok
  | cons r rs ih =>
    obtain ⟨d, t', h1, h2⟩ := foldlM_cons_ok.1 h1
    refine ih (hi.steps ((updateIndexRow_does merge _ r).steps _ _ _ h1)) ?_ _ h2
    obtain ⟨_, rfl⟩ | ⟨r, _, _, _, ⟨_, _, rfl⟩ | ⟨o, t1, t2, _, _, _, _, hw, hm, _, _, rfl⟩⟩ := updateIndexRow_cases h1
    · exact hok
    · exact hok
    · have hst := (mergeWeights_does ..).steps _ _ _ hw
      have e1 : t1.maps = s.maps := hst.maps_eq (by decide)
      exact LinksOk.merge (s := t1) (s' := t2) (by rw [e1]; exact hi.ids) hm (LinksOk.steps hst (by decide) hok)

theorem deleteIndex_delOk {t : Target (Nat × List PyStr)} {s s' : Store} (hi : DelOk s)
    (h : deleteIndex t s = .ok ((), s')) : LinksOk s' ∧ PropOk s'.maps := by
  obtain ⟨d, u, h1, h2⟩ := deleteIndex_parts h
  have hs : Steps [.hash, .structs, .wgUpd, .lUpd] u s' := Does.steps (by does) _ _ _ h2
  have hu : DelOk u := by
    unfold deleteIndexTarget at h1
    cases t with
    | rows rs => exact deleteRows_delOk hi h1
    | criteria cs =>
      simp only [bind_ok, get_ok, pure_ok] at h1
      obtain ⟨_, _, he, _, t, h1, h⟩ := h1
      cases he
      cases h
      exact deleteRecords_delOk hi
        ((congrFun (forM_map (s.filterByLabel cs) (·.id) fun i => deleteIndexRecord i) s).trans h1)
  exact ⟨LinksOk.steps hs (by decide) hu.links, by rw [hs.maps_eq (by decide)]; exact hu.ok⟩

/-- The invariant of histories. -/
structure PropInv (s : Store) : Prop where
  links : LinksOk s
  ok : PropOk s.maps

theorem PropInv.step {s : Store} (h : Reachable s) (op : Op) (hop : s.fk = true ∨ op.dropsOwner = false)
    (hok : PropInv s) : PropInv (step op s).1 := by
  have hi := h.mapInv
  have rest : ∀ {m : M Unit}, op.body = some m → Does noMapKinds m → PropInv (Space.step op s).1 := by
    intro m hb hm
    have hst := runTx_steps hm s
    rw [step_of_body hb]
    exact ⟨LinksOk.steps hst (by decide) hok.links, by rw [hst.maps_eq (by decide)]; exact hok.ok⟩
  have eff : ∀ s', MapEffect s s' → PropInv s' := fun s' he => ⟨hok.links.effect he, hok.ok.effect he⟩
  cases op with
  | updateIndex =>
    exact runTx_inv hok fun _ _ h => ⟨updateIndex_linksOk hi hok.links h, updateIndex_propOk hi hok.ok h⟩
  | deleteIndex =>
    refine runTx_inv hok fun _ _ h' => ?_
    obtain ⟨h1, h2⟩ := deleteIndex_delOk ⟨h.weightInv, hi, hok.links, hok.ok⟩ h'
    exact ⟨h1, h2⟩
  | dropLink =>
    refine runTx_inv hok fun _ _ h' => ?_
    obtain ⟨l, _, rfl⟩ := dropLink_ok h'
    rcases hop with hfk | hop
    · rw [hfk]
      refine ⟨?_, hok.ok.filter_link l.id⟩
      intro m hm
      rw [if_pos rfl, List.mem_filter] at hm
      obtain ⟨x, hx, he⟩ := List.mem_map.1 (hok.links m hm.1)
      refine List.mem_map.2 ⟨x, List.mem_filter.2 ⟨hx, ?_⟩, he⟩
      rw [he]
      exact hm.2
    · cases hop
  | insertMappings2 => exact runTx_inv hok fun _ _ h => eff _ (insertMappings2_effect hi h)
  | insertMappings => exact runTx_inv hok fun _ _ h => eff _ (insertMappings_effect hi h)
  | updateMappings => exact runTx_inv hok fun _ _ h => eff _ (updateMappings_effect hi h)
  | deleteMappings => exact runTx_inv hok fun _ _ h => eff _ (deleteMappings_effect hi h)
  | reifyMappings ref name cs =>
    have hc := reify_core ref name cs s hi.ids
    refine ⟨hok.links.of_links ?_ ?_, PropOk.congr ?_ hok.ok⟩
    · exact congrArg (List.map Link.id) (Steps.links_eq (reifyMappings_steps ref name cs s) (by decide))
    · intro m hm
      have hm' := List.mem_map_of_mem (f := fun m : Mapping => (m.id, m.link, m.other, m.index, m.value, m.prop)) hm
      rw [show (Space.step (.reifyMappings ref name cs) s).1 = (Space.reifyMappings ref name cs s).1 from rfl,
        hc, List.mem_map] at hm'
      obtain ⟨x, hx, he⟩ := hm'
      exact ⟨x, hx, congrArg (fun y => y.2.1) he⟩
    · have := congrArg (List.map fun x => (x.2.1, x.2.2.1, x.2.2.2.2.2)) hc
      rw [List.map_map, List.map_map] at this
      exact this
  | deleteUnmatchedQuantities =>
    have hst := deleteUnmatchedQuantities_steps s
    exact ⟨LinksOk.steps hst (by decide) hok.links,
      (Steps.maps_eq hst (by decide)).symm ▸ hok.ok⟩
  | reopen => exact ⟨hok.links, hok.ok⟩
  | _ => exact rest rfl (by unfold noMapKinds; does)

theorem ReachableTidy.propInv {s : Store} (h : ReachableTidy s) : PropInv s :=
  h.induction (P := PropInv) (fun _ => ⟨fun _ h => by simp [Store.new] at h, fun _ _ => OkProps.nil _⟩)
    fun _ op h hop hok => PropInv.step h.reachable op hop hok

end Toron.Space
