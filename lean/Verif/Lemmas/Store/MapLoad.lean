/-
Adding, correcting and deleting mappings row by row.
-/
import Verif.Spec.MapLoad
import Verif.Spec.MapEdit
import Verif.Lemmas.Store.RelabelRun
import Verif.Lemmas.Store.WeightEdit
import Verif.Lemmas.Store.MapOps
import Verif.Lemmas.Store.LinkHash
import Verif.Props.BitFlags

namespace Toron.Space

open Toron.Selectors (PyStr)
open Toron.Spec

/-! ### Rows that are for a record -/

theorem levelOk_iff {s : Store} {lv : Option (List Byte)} : s.levelOk lv = true ↔ s.LevelFits lv := by
  cases lv with
  | none => simp [Store.levelOk, Store.LevelFits]
  | some lv =>
    unfold Store.levelOk Store.LevelFits
    dsimp only
    rw [Bool.or_eq_true, List.isEmpty_iff, List.any_eq_true]
    apply or_congr_right
    apply exists_congr
    intro st
    apply and_congr_right
    intro _
    have h := BitFlags.C07_eqBits_iff_same_bits (BitFlags.ofBytes lv) (.bytes lv) st.bits
    have he : ((BitFlags.ofBytes lv).bytes == (BitFlags.ofBits st.bits).bytes) = true ↔
        (BitFlags.ofBytes lv).eqBits st.bits = true := Iff.rfl
    rw [he, h]
    unfold SameBits
    apply forall_congr'
    intro i
    have h1 : bitAt (BitFlags.ofBytes lv).toBits i = bitAt (bytesToBitstream lv) i := by
      simp [BitFlags.toBits, BitFlags.ofBytes, bitAt_bytesToBitstream, byteBit_rstrip]
    rw [h1]

theorem mapRowOk_iff {s : Store} (hi : IndexInv s) {row : MapRow} : s.mapRowOk row = true ↔ s.Takes row := by
  unfold Store.mapRowOk Store.Takes
  rw [Bool.and_eq_true, levelOk_iff, ← find_id_iff hi]
  apply and_congr_left
  intro _
  generalize s.index.find? (fun r => r.id == row.index) = f
  cases f <;> simp

/-! ### Refreshing always works -/

/-- Everything but the proportions is the same. -/
def SameButProp (s t : Store) : Prop :=
  (∃ ms, t = { s with maps := ms }) ∧
    t.maps.map (fun m => (m.id, m.link, m.other, m.index, m.level, m.value)) =
      s.maps.map fun m => (m.id, m.link, m.other, m.index, m.level, m.value)

theorem SameButProp.refl (s : Store) : SameButProp s s := ⟨⟨s.maps, rfl⟩, rfl⟩

theorem SameButProp.trans {a b c : Store} (h1 : SameButProp a b) (h2 : SameButProp b c) : SameButProp a c := by
  obtain ⟨⟨ms, rfl⟩, h1⟩ := h1
  obtain ⟨⟨ns, rfl⟩, h2⟩ := h2
  exact ⟨⟨ns, rfl⟩, h2.trans h1⟩

theorem mappingUpdate_prop_run {s t : Store} (hi : MapInv s) (ht : SameButProp s t) {m : Mapping} (hm : m ∈ s.maps)
    (hfk : s.fk = true → ∃ l ∈ s.links, l.id = m.link) {p : ℚ} (hp : 0 ≤ p ∧ p ≤ 1) :
    ∃ t', mappingUpdate { m with prop := some p } t = .ok ((), t') ∧ SameButProp s t' := by
  obtain ⟨⟨ns, rfl⟩, ht⟩ := ht
  have key : ∀ x ∈ ns, ∃ y ∈ s.maps, y.id = x.id ∧ y.link = x.link ∧ y.other = x.other ∧ y.index = x.index ∧
      y.level = x.level ∧ y.value = x.value := by
    intro x hx
    have hm : (x.id, x.link, x.other, x.index, x.level, x.value) ∈
        s.maps.map fun m => (m.id, m.link, m.other, m.index, m.level, m.value) := by
      rw [← ht]
      exact List.mem_map_of_mem (f := fun m : Mapping => (m.id, m.link, m.other, m.index, m.level, m.value)) hx
    obtain ⟨y, hy, he⟩ := List.mem_map.1 hm
    simp only [Prod.mk.injEq] at he
    exact ⟨y, hy, he⟩
  have hc := hi.checks m hm
  simp only [mappingCheck, Bool.and_eq_true, decide_eq_true_eq] at hc
  refine ⟨{ s with maps := ns.map fun x => if x.id = m.id then { m with prop := some p } else x }, ?_,
    ⟨_, rfl⟩, ?_⟩
  · unfold mappingUpdate
    rw [get_bind, if_neg, if_neg, if_neg, if_neg]
    · rfl
    · rintro ⟨h, hn⟩
      obtain ⟨x, hx, he⟩ := hfk h
      exact hn (List.any_eq_true.2 ⟨x, hx, by simpa using he⟩)
    · intro h
      obtain ⟨x, hx, h⟩ := List.any_eq_true.1 h
      simp only [Bool.and_eq_true, bne_iff_ne, beq_iff_eq] at h
      obtain ⟨y, hy, h1, h2, h3, h4, h5, -⟩ := key x hx
      have : y = m := List.inj_on_of_nodup_map hi.keys hy hm (by
        rw [h2, h3, h4, h5, h.1.1.1.2, h.1.1.2, h.1.2, h.2])
      exact h.1.1.1.1 (by rw [← h1, this])
    · simp only [mappingCheck, Bool.not_eq_true', Bool.not_eq_false, Bool.and_eq_true, decide_eq_true_eq]
      exact ⟨⟨hc.1.1, hp⟩, by have h := hc.2; rwa [Bool.not_eq_true'] at h⟩
    · rw [not_not]
      have hm' : m.id ∈ (ns.map fun m => (m.id, m.link, m.other, m.index, m.level, m.value)).map (·.1) := by
        rw [ht, List.map_map]
        exact List.mem_map_of_mem (f := fun m : Mapping => m.id) hm
      rw [List.map_map] at hm'
      obtain ⟨y, hy, he⟩ := List.mem_map.1 hm'
      exact List.any_eq_true.2 ⟨y, hy, by simpa using he⟩
  · rw [← ht]
    show (ns.map _).map _ = _
    rw [List.map_map]
    apply List.map_congr_left
    intro x hx
    rw [Function.comp_apply]
    split
    · rename_i he
      obtain ⟨y, hy, h1, h2, h3, h4, h5, h6⟩ := key x hx
      have := eq_of_id hi.ids hy hm (h1.trans he)
      subst this
      simp only [Prod.mk.injEq]
      exact ⟨h1, h2, h3, h4, h5, h6⟩
    · rfl

theorem le_sum_of_mem {l : List ℚ} (hl : ∀ x ∈ l, 0 ≤ x) {a : ℚ} (ha : a ∈ l) : a ≤ l.sum :=
  List.single_le_sum hl a ha

theorem findMaps_sameButProp {s t : Store} (ht : SameButProp s t) (lk : Nat) (o : Int) :
    (t.findMaps lk o).map (fun m => (m.id, m.link, m.other, m.index, m.level, m.value)) =
      (s.findMaps lk o).map fun m => (m.id, m.link, m.other, m.index, m.level, m.value) := by
  have key : ∀ ms : List Mapping, (ms.filter fun m => m.link == lk && m.other == o).map
      (fun m => (m.id, m.link, m.other, m.index, m.level, m.value)) =
      (ms.map fun m => (m.id, m.link, m.other, m.index, m.level, m.value)).filter fun x => x.2.1 == lk && x.2.2.1 == o := by
    intro ms
    rw [List.filter_map]
    rfl
  unfold Store.findMaps
  rw [key, key, ht.2]

theorem MapInv.sameButProp {s t : Store} (hi : MapInv s) (ht : SameButProp s t)
    (hp : ∀ m ∈ t.maps, mappingCheck m = true) : MapInv t := by
  refine ⟨?_, ?_, hp⟩
  · have h1 := hi.ids
    have e : ∀ ms : List Mapping, ms.map (·.id) =
        (ms.map fun m => (m.id, m.link, m.other, m.index, m.level, m.value)).map (·.1) := by
      intro ms; rw [List.map_map]; rfl
    rw [e, ht.2, ← e]; exact h1
  · have h1 := hi.keys
    have e : ∀ ms : List Mapping, ms.map (fun m => (m.link, m.other, m.index, m.level)) =
        (ms.map fun m => (m.id, m.link, m.other, m.index, m.level, m.value)).map
          fun x => (x.2.1, x.2.2.1, x.2.2.2.1, x.2.2.2.2.1) := by
      intro ms; rw [List.map_map]; rfl
    rw [e, ht.2, ← e]; exact h1

theorem refreshProportions_run {s : Store} (hi : MapInv s) {lk : Nat}
    (hfk : s.fk = true → ∃ l ∈ s.links, l.id = lk) (o : Int) :
    ∃ s', refreshProportions lk o s = .ok ((), s') ∧ SameButProp s s' := by
  have hmem : ∀ m ∈ s.findMaps lk o, m ∈ s.maps ∧ m.link = lk ∧ m.other = o := by
    intro m hm
    unfold Store.findMaps at hm
    simpa [List.mem_filter] using hm
  unfold refreshProportions
  rw [get_bind]
  dsimp only
  by_cases h0 : o = 0
  · rw [if_pos h0]
    refine forM_run (P := SameButProp s) (fun m hm t ht => ?_) (SameButProp.refl s)
    obtain ⟨h1, h2, h3⟩ := hmem m hm
    have hc := hi.checks m h1
    simp only [mappingCheck, Bool.and_eq_true, decide_eq_true_eq] at hc
    rw [if_neg]
    · exact mappingUpdate_prop_run hi ht h1 (h2.symm ▸ hfk) ⟨le_refl _, by norm_num⟩
    · intro hz
      have := hc.2
      rw [h3, h0, hz] at this
      exact absurd this (by decide)
  · rw [if_neg h0]
    refine forM_run (P := SameButProp s) (fun m hm t ht => ?_) (SameButProp.refl s)
    obtain ⟨h1, h2, h3⟩ := hmem m hm
    refine mappingUpdate_prop_run hi ht h1 (h2.symm ▸ hfk) ?_
    have hnn : ∀ x ∈ (s.findMaps lk o).map (·.value), (0 : ℚ) ≤ x := by
      intro x hx
      obtain ⟨y, hy, rfl⟩ := List.mem_map.1 hx
      have hc := hi.checks y (hmem y hy).1
      simp only [mappingCheck, Bool.and_eq_true, decide_eq_true_eq] at hc
      exact hc.1.1
    have hle : m.value ≤ ((s.findMaps lk o).map (·.value)).sum :=
      le_sum_of_mem hnn (List.mem_map_of_mem (f := Mapping.value) hm)
    have hv : 0 ≤ m.value := hnn _ (List.mem_map_of_mem (f := Mapping.value) hm)
    split
    · have : (1 : ℚ) ≤ ((s.findMaps lk o).length : ℚ) := by
        exact_mod_cast List.length_pos_of_mem hm
      constructor
      · positivity
      · rw [div_le_one (by linarith)]; exact this
    · rename_i ht0
      have hpos : 0 < ((s.findMaps lk o).map (·.value)).sum :=
        lt_of_le_of_ne (le_trans hv hle) (Ne.symm ht0)
      exact ⟨div_nonneg hv hpos.le, (div_le_one hpos).2 hle⟩

theorem forM_refresh_run {s : Store} (hi : MapInv s) {lk : Nat}
    (hfk : s.fk = true → ∃ l ∈ s.links, l.id = lk) (os : List Int) :
    ∃ s', os.forM (fun o => refreshProportions lk o) s = .ok ((), s') ∧ SameButProp s s' := by
  obtain ⟨s', h, h1, -⟩ := forM_run (l := os) (f := fun o => refreshProportions lk o)
    (P := fun t => SameButProp s t ∧ MapInv t) (s := s) (fun o _ t ht => by
      obtain ⟨ht, hti⟩ := ht
      have hfk' : t.fk = true → ∃ l ∈ t.links, l.id = lk := by
        obtain ⟨⟨ms, rfl⟩, -⟩ := ht; exact hfk
      obtain ⟨t', h1, h2⟩ := refreshProportions_run hti hfk' o
      refine ⟨t', h1, ht.trans h2, ?_⟩
      exact ((refreshProportions_does lk o).steps _ _ _ h1).invariant (fun _ _ _ _ hp h => h.prim hp) hti)
    ⟨SameButProp.refl s, hi⟩
  exact ⟨s', h, h1⟩

theorem linkUpdate_same_run {t : Store} (hl : LinkInv t) {l : Link} (hm : l ∈ t.links) (h : Option (List Int)) (b : Bool) :
    ∃ t', linkUpdate { l with otherHash := h, complete := b } t = .ok ((), t') := by
  refine ⟨{ t with links := t.links.map fun x => if x.id = l.id then { l with otherHash := h, complete := b } else x }, ?_⟩
  unfold linkUpdate
  rw [get_bind, if_neg, if_neg]
  · rfl
  · intro h
    obtain ⟨x, hx, h⟩ := List.any_eq_true.1 h
    simp only [Bool.and_eq_true, bne_iff_ne, beq_iff_eq, Bool.or_eq_true] at h
    obtain ⟨⟨k1, k2⟩, k3⟩ := h
    have hne : x ≠ l := fun he => k1 (by rw [he])
    rcases k3 with k3 | ⟨k3, k4⟩
    · exact hne (List.inj_on_of_nodup_map hl.names hx hm (by rw [k2, k3]))
    · have : Std.Symm fun a b : Link => a.other = b.other → ¬ (a.isDefault = true ∧ b.isDefault = true) :=
        ⟨fun a b hab ho hd => hab ho.symm hd.symm⟩
      exact hl.defaults.forall hx hm hne k2 ⟨k3, k4⟩
  · rw [not_not]
    exact List.any_eq_true.2 ⟨l, hm, by simp⟩

theorem refreshLink_run {s : Store} (hi : MapInv s) (hl : LinkInv s) {l : Link} (hm : l ∈ s.links) :
    ∃ s', refreshLink l s = .ok ((), s') := by
  obtain ⟨t, h1, ⟨ms, rfl⟩, -⟩ := forM_refresh_run hi (lk := l.id) (fun _ => ⟨l, hm, rfl⟩) (s.distinctOthers l.id)
  obtain ⟨t', h2⟩ := linkUpdate_same_run (t := { s with maps := ms }) ⟨hl.ids, hl.names, hl.defaults⟩ hm (some (s.distinctOthers l.id))
    (Store.mappingIsComplete { s with maps := ms } l.id)
  refine ⟨t', ?_⟩
  unfold refreshLink
  rw [get_bind]
  refine bind_ok.2 ⟨(), _, h1, ?_⟩
  rw [get_bind]
  exact h2

theorem IndexInv.maps {s : Store} (hx : IndexInv s) {ms : List Mapping} : IndexInv { s with maps := ms } :=
  ⟨hx.1, hx.2, hx.3, hx.4, hx.5, hx.6⟩

/-! ### Adding -/

/-- Nothing is there yet for the rows, and they are for different things. -/
def Free (s : Store) (link : Nat) (rows : List MapRow) : Prop :=
  (rows.map MapRow.key).Nodup ∧
    ∀ row ∈ rows, ∀ m ∈ s.maps, m.link = link → (m.other, m.index, m.level) ≠ row.key

theorem mappingAdd_run {s : Store} {link : Nat} {o : Int} {i : Nat} {lv : List Byte} {v : ℚ} (hv : 0 ≤ v)
    (h0 : ¬ (o = 0 ∧ i = 0)) (hfree : ∀ m ∈ s.maps, m.link = link → (m.other, m.index, m.level) ≠ (o, i, lv))
    (hfk : s.fk = true → ∃ l ∈ s.links, l.id = link) :
    mappingAdd link o i (some lv) v none s = .ok ((), { s with
      maps := s.maps ++ [⟨nextId (s.maps.map (·.id)), link, o, i, lv, v, none⟩] }) := by
  unfold mappingAdd
  rw [get_bind, if_neg h0]
  dsimp only
  rw [if_neg, if_neg, if_neg]
  · rfl
  · rintro ⟨h, hn⟩
    obtain ⟨x, hx, he⟩ := hfk h
    exact hn (List.any_eq_true.2 ⟨x, hx, by simpa using he⟩)
  · intro h
    obtain ⟨m, hm, h⟩ := List.any_eq_true.1 h
    simp only [Bool.and_eq_true, beq_iff_eq] at h
    exact hfree m hm h.1.1.1 (by rw [h.1.1.2, h.1.2, h.2])
  · simp only [mappingCheck, Bool.not_eq_true', Bool.not_eq_false, Bool.and_eq_true, decide_eq_true_eq]
    exact ⟨⟨hv, trivial⟩, by
      rw [← Bool.not_eq_true, Bool.and_eq_true, beq_iff_eq, beq_iff_eq]; exact h0⟩

theorem mappingAdd_fails {s : Store} {link : Nat} {row : MapRow} (h : ¬ (row.Sound ∧
      ∀ m ∈ s.maps, m.link = link → (m.other, m.index, m.level) ≠ row.key)) :
    ∃ e, mappingAdd link row.other row.index row.level row.value none s = .error e := by
  rcases hm : mappingAdd link row.other row.index row.level row.value none s with e | ⟨u, s'⟩
  · exact ⟨e, rfl⟩
  · exfalso
    apply h
    have hstep := (mappingAdd_does _ _ _ _ _ _).steps _ _ _ hm
    obtain ⟨lv, hlv, h0, rfl⟩ := mappingAdd_ok hm
    unfold mappingAdd at hm
    rw [get_bind, if_neg h0, hlv] at hm
    dsimp only at hm
    rw [ite_ok] at hm
    obtain ⟨_, hm⟩ | ⟨hc, hm⟩ := hm
    · exact (throw_ok.1 hm).elim
    rw [ite_ok] at hm
    obtain ⟨_, hm⟩ | ⟨hu, hm⟩ := hm
    · exact (throw_ok.1 hm).elim
    simp only [mappingCheck, Bool.not_eq_true', Bool.not_eq_false, Bool.and_eq_true, decide_eq_true_eq] at hc
    refine ⟨⟨by rw [hlv]; simp, hc.1.1, h0⟩, fun m hmem hl he => hu (List.any_eq_true.2 ⟨m, hmem, ?_⟩)⟩
    unfold MapRow.key at he
    rw [hlv] at he
    simp only [Prod.mk.injEq, Option.getD_some] at he
    simp [hl, he.1, he.2.1, he.2.2]

/-- The mapping a row becomes. -/
def MapRow.toMapping (link : Nat) (id : Nat) (row : MapRow) : Mapping :=
  ⟨id, link, row.other, row.index, row.level.getD [], row.value, none⟩

theorem free_cons {s : Store} {link : Nat} {row : MapRow} {rows : List MapRow} :
    Free s link (row :: rows) ↔ (∀ m ∈ s.maps, m.link = link → (m.other, m.index, m.level) ≠ row.key) ∧
      Free { s with maps := s.maps ++ [row.toMapping link (nextId (s.maps.map (·.id)))] } link rows := by
  unfold Free
  rw [List.map_cons, List.nodup_cons, List.forall_mem_cons]
  constructor
  · rintro ⟨⟨h1, h2⟩, h3, h4⟩
    refine ⟨h3, h2, fun x hx m hm hl => ?_⟩
    rcases List.mem_append.1 hm with hm | hm
    · exact h4 x hx m hm hl
    · rw [List.mem_singleton] at hm
      subst hm
      intro he
      exact h1 (List.mem_map.2 ⟨x, hx, he.symm⟩)
  · rintro ⟨h3, h2, h4⟩
    refine ⟨⟨fun h => ?_, h2⟩, h3, fun x hx m hm hl => h4 x hx m (List.mem_append_left _ hm) hl⟩
    obtain ⟨x, hx, he⟩ := List.mem_map.1 h
    exact h4 x hx _ (List.mem_append_right _ (List.mem_singleton.2 rfl)) rfl he.symm

theorem insertMappingRows_spec {link : Nat} : ∀ (rows : List MapRow) {s : Store} (_ : MapInv s) (_ : IndexInv s)
    (_ : s.fk = true → ∃ l ∈ s.links, l.id = link) (b : Bool),
    (((∀ row ∈ s.taken rows, row.Sound) ∧ Free s link (s.taken rows)) ∧
      ∃ ms, rows.foldlM (insertMappingRow link) b s =
        .ok (b || !(s.taken rows).isEmpty, { s with maps := s.maps ++ ms }) ∧
        MapInv { s with maps := s.maps ++ ms } ∧
        (∀ m ∈ ms, m.link = link ∧ ∃ r ∈ s.index, r.id = m.index) ∧
        ms.map (fun m => (m.other, m.index, m.level, m.value)) = (s.taken rows).map MapRow.content) ∨
    (¬ ((∀ row ∈ s.taken rows, row.Sound) ∧ Free s link (s.taken rows)) ∧
      ∃ e, rows.foldlM (insertMappingRow link) b s = .error e) := by
  intro rows
  induction rows with
  | nil =>
    intro s hi hx hfk b
    refine .inl ⟨⟨by simp [Store.taken], by simp [Store.taken, Free]⟩, [], ?_, ?_, by simp, rfl⟩
    · rw [List.append_nil]
      simp [Store.taken]
      rfl
    · rw [List.append_nil]; exact hi
  | cons row rows ih =>
    intro s hi hx hfk b
    by_cases ha : s.Takes row
    · have htk : s.taken (row :: rows) = row :: s.taken rows := by
        unfold Store.taken
        rw [List.filter_cons_of_pos (by simpa using ha)]
      rw [htk]
      have hrow : insertMappingRow link b row s =
          match mappingAdd link row.other row.index row.level row.value none s with
          | .ok (_, s') => .ok (true, s')
          | .error _ => .error (.exception "mapping could not be added") := by
        unfold insertMappingRow
        rw [get_bind, if_neg (by rw [(mapRowOk_iff hx).2 ha]; simp)]
        rfl
      by_cases hg : row.Sound ∧ ∀ m ∈ s.maps, m.link = link → (m.other, m.index, m.level) ≠ row.key
      · obtain ⟨hs, hfree⟩ := hg
        obtain ⟨lv, hlv⟩ := Option.ne_none_iff_exists'.1 hs.1
        have hadd := mappingAdd_run (s := s) (link := link) (lv := lv) hs.2.1 hs.2.2 (by
          intro m hm hl
          have := hfree m hm hl
          unfold MapRow.key at this
          rwa [hlv] at this) hfk
        have hmk : (⟨nextId (s.maps.map (·.id)), link, row.other, row.index, lv, row.value, none⟩ : Mapping) =
            row.toMapping link (nextId (s.maps.map (·.id))) := by
          unfold MapRow.toMapping; rw [hlv]; rfl
        rw [hmk] at hadd
        rw [← hlv] at hadd
        rw [hadd] at hrow
        have hi' : MapInv { s with maps := s.maps ++ [row.toMapping link (nextId (s.maps.map (·.id)))] } :=
          ((mappingAdd_does _ _ _ _ _ _).steps _ _ _ hadd).invariant (fun _ _ _ _ hp h => h.prim hp) hi
        have hfold : (row :: rows).foldlM (insertMappingRow link) b s =
            rows.foldlM (insertMappingRow link) true
              { s with maps := s.maps ++ [row.toMapping link (nextId (s.maps.map (·.id)))] } := by
          rw [List.foldlM_cons]
          simp only [bind, StateT.bind, Except.bind]
          rw [hrow]
        rw [hfold]
        rw [free_cons, List.forall_mem_cons]
        rcases ih (s := { s with maps := s.maps ++ [row.toMapping link (nextId (s.maps.map (·.id)))] })
          hi' hx.maps hfk true with ⟨⟨h1, h2⟩, ms, h3, h4, h5, h6⟩ | ⟨h1, h2⟩
        · refine .inl ⟨⟨⟨hs, h1⟩, hfree, h2⟩, row.toMapping link (nextId (s.maps.map (·.id))) :: ms, ?_, ?_, ?_, ?_⟩
          · rw [h3]
            simp
          · have : s.maps ++ row.toMapping link (nextId (s.maps.map (·.id))) :: ms =
              s.maps ++ [row.toMapping link (nextId (s.maps.map (·.id)))] ++ ms := by simp
            rw [this]; exact h4
          · rw [List.forall_mem_cons]
            exact ⟨⟨rfl, _, ha.1, rfl⟩, h5⟩
          · rw [List.map_cons, List.map_cons, h6]
            rfl
        · exact .inr ⟨fun h => h1 ⟨h.1.2, h.2.2⟩, h2⟩
      · refine .inr ⟨fun h => hg ⟨h.1 row List.mem_cons_self, (free_cons.1 h.2).1⟩, ?_⟩
        obtain ⟨e, he⟩ := mappingAdd_fails hg
        rw [he] at hrow
        rw [List.foldlM_cons]
        simp only [bind, StateT.bind, Except.bind]
        rw [hrow]
        exact ⟨_, rfl⟩
    · have htk : s.taken (row :: rows) = s.taken rows := by
        unfold Store.taken
        rw [List.filter_cons_of_neg (by simpa using ha)]
      rw [htk]
      have hfold : (row :: rows).foldlM (insertMappingRow link) b s = rows.foldlM (insertMappingRow link) b s := by
        rw [List.foldlM_cons]
        have : insertMappingRow link b row s = .ok (b, s) := by
          unfold insertMappingRow
          rw [get_bind, if_pos]
          · rfl
          · rw [Bool.not_eq_true', ← Bool.not_eq_true, mapRowOk_iff hx]; exact ha
        simp only [bind, StateT.bind, Except.bind]
        rw [this]
      rw [hfold]
      exact ih hi hx hfk b

/-! ### Correcting -/

theorem upd_filter {ms : List Mapping} (hnd : (ms.map (·.id)).Nodup) {m m' : Mapping} (hm : m ∈ ms)
    (q : Mapping → Bool) (hq : q m' = q m) :
    (ms.map fun x => if x.id = m.id then m' else x).filter q =
      (ms.filter q).map fun x => if x.id = m.id then m' else x := by
  rw [List.filter_map]
  congr 1
  apply List.filter_congr
  intro x hx
  rw [Function.comp_apply]
  split
  · rename_i he
    rw [eq_of_id hnd hx hm he, hq]
  · rfl

theorem map_upd_of_not_mem {ms : List Mapping} {m m' : Mapping} (h : ∀ x ∈ ms, x.id ≠ m.id) :
    (ms.map fun x => if x.id = m.id then m' else x) = ms := by
  conv_rhs => rw [← List.map_id ms]
  apply List.map_congr_left
  intro x hx
  rw [if_neg (h x hx)]
  rfl

theorem updateMappingRow_spec {link : Nat} {s : Store} (hi : MapInv s) (hx : IndexInv s)
    (hfk : s.fk = true → ∃ l ∈ s.links, l.id = link) (c : Bool × Bool) {row : MapRow} (ha : s.Takes row)
    (hone : (s.between link row.other row.index).length ≤ 1) :
    (row.Sound ∧ ∃ c2 ms, updateMappingRow link c row s =
        .ok ((c.1 || (s.between link row.other row.index).isEmpty, c2), { s with maps := ms }) ∧
        MapInv { s with maps := ms } ∧
        (∀ m ∈ ms, m.index = row.index ∨ ∃ m' ∈ s.maps, m'.index = m.index) ∧
        (ms.filter fun m => m.link != link) = (s.maps.filter fun m => m.link != link) ∧
        ∀ o i, Store.between { s with maps := ms } link o i =
          if o = row.other ∧ i = row.index then [(row.level.getD [], row.value)] else s.between link o i) ∨
    (¬ row.Sound ∧ ∃ e, updateMappingRow link c row s = .error e) := by
  have hok : ¬ (!s.mapRowOk row) = true := by rw [(mapRowOk_iff hx).2 ha]; simp
  rcases hf : s.findMap link row.other row.index with _ | m
  · have hnone : ∀ m ∈ s.maps, ¬ (m.link = link ∧ m.other = row.other ∧ m.index = row.index) := by
      intro m hm h
      unfold Store.findMap at hf
      have := List.find?_eq_none.1 hf m hm
      simp [h.1, h.2.1, h.2.2] at this
    have hempty : s.between link row.other row.index = [] := by
      unfold Store.between
      rw [List.map_eq_nil_iff, List.filter_eq_nil_iff]
      intro m hm h
      simp only [Bool.and_eq_true, beq_iff_eq] at h
      exact hnone m hm ⟨h.1.1, h.1.2, h.2⟩
    have hrow : updateMappingRow link c row s =
        (mappingAdd link row.other row.index row.level row.value none >>= fun _ => (pure (true, c.2) : M (Bool × Bool))) s := by
      unfold updateMappingRow
      rw [get_bind, if_neg hok]
      simp only [hf]
    by_cases hs : row.Sound
    · left
      obtain ⟨lv, hlv⟩ := Option.ne_none_iff_exists'.1 hs.1
      have hadd := mappingAdd_run (s := s) (link := link) (lv := lv) hs.2.1 hs.2.2 (by
        intro m hm hl he
        simp only [Prod.mk.injEq] at he
        exact hnone m hm ⟨hl, he.1, he.2.1⟩) hfk
      rw [← hlv] at hadd
      refine ⟨hs, c.2, s.maps ++ [⟨nextId (s.maps.map (·.id)), link, row.other, row.index, lv, row.value, none⟩],
        ?_, ?_, ?_, ?_, ?_⟩
      rotate_left
      · exact ((mappingAdd_does _ _ _ _ _ _).steps _ _ _ hadd).invariant (fun _ _ _ _ hp h => h.prim hp) hi
      · intro x hxm
        rcases List.mem_append.1 hxm with h | h
        · exact .inr ⟨x, h, rfl⟩
        · rw [List.mem_singleton] at h; subst h; exact .inl rfl
      · simp [List.filter_append]
      · intro o i
        unfold Store.between
        rw [List.filter_append, List.map_append]
        by_cases h : o = row.other ∧ i = row.index
        · rw [if_pos h]
          obtain ⟨rfl, rfl⟩ := h
          have : (s.maps.filter fun m => m.link == link && m.other == row.other && m.index == row.index) = [] := by
            rw [List.filter_eq_nil_iff]
            intro m hm h
            simp only [Bool.and_eq_true, beq_iff_eq] at h
            exact hnone m hm ⟨h.1.1, h.1.2, h.2⟩
          rw [this, hlv]
          simp
        · rw [if_neg h, List.filter_cons_of_neg, List.filter_nil, List.map_nil, List.append_nil]
          simp only [Bool.and_eq_true, beq_iff_eq]
          rintro ⟨⟨-, h1⟩, h2⟩
          exact h ⟨h1.symm, h2.symm⟩
      · rw [hrow, hempty]
        refine bind_ok.2 ⟨(), _, hadd, ?_⟩
        simp
        rfl
    · right
      refine ⟨hs, ?_⟩
      obtain ⟨e, he⟩ := mappingAdd_fails (s := s) (link := link) (row := row) fun h => hs h.1
      rw [hrow]
      simp only [bind, StateT.bind, Except.bind]
      rw [he]
      exact ⟨_, rfl⟩
  · have hm : m ∈ s.maps := List.mem_of_find?_eq_some hf
    have hp : m.link = link ∧ m.other = row.other ∧ m.index = row.index := by
      have := List.find?_some hf
      simp only [Bool.and_eq_true, beq_iff_eq] at this
      exact ⟨this.1.1, this.1.2, this.2⟩
    have hfil : (s.maps.filter fun x => x.link == link && x.other == row.other && x.index == row.index) = [m] := by
      unfold Store.between at hone
      rw [List.length_map] at hone
      have hmem : m ∈ s.maps.filter fun x => x.link == link && x.other == row.other && x.index == row.index :=
        List.mem_filter.2 ⟨hm, by simp [hp.1, hp.2.1, hp.2.2]⟩
      obtain ⟨a, l', e⟩ := List.exists_cons_of_ne_nil (List.ne_nil_of_mem hmem)
      rw [e] at hone hmem ⊢
      have : l' = [] := by
        rw [← List.length_eq_zero_iff]; simp at hone; exact hone ▸ rfl
      subst this
      rw [List.mem_singleton] at hmem
      rw [hmem]
    have hbet : s.between link row.other row.index = [(m.level, m.value)] := by
      unfold Store.between; rw [hfil]; rfl
    have hc := hi.checks m hm
    simp only [mappingCheck, Bool.and_eq_true, decide_eq_true_eq] at hc
    rcases hlv : row.level with _ | lv
    · right
      refine ⟨fun h => h.1 hlv, ?_⟩
      unfold updateMappingRow
      rw [get_bind, if_neg hok]
      simp only [hf, hlv]
      exact ⟨_, rfl⟩
    have hrow : updateMappingRow link c row s =
        (mappingUpdate { m with value := row.value, level := lv } >>= fun _ => (pure (c.1, true) : M (Bool × Bool))) s := by
      unfold updateMappingRow
      rw [get_bind, if_neg hok]
      simp only [hf, hlv]
    have hany : ¬ ¬ (s.maps.any fun x => x.id == m.id) = true := by
      rw [not_not]; exact List.any_eq_true.2 ⟨m, hm, by simp⟩
    by_cases hs : row.Sound
    · left
      have hupd : mappingUpdate { m with value := row.value, level := lv } s = .ok ((), { s with
          maps := s.maps.map fun x => if x.id = m.id then { m with value := row.value, level := lv } else x }) := by
        unfold mappingUpdate
        rw [get_bind, if_neg hany, if_neg, if_neg, if_neg]
        · rfl
        · rintro ⟨h, hn⟩
          obtain ⟨x, hx, he⟩ := hfk h
          exact hn (List.any_eq_true.2 ⟨x, hx, by rw [hp.1]; simpa using he⟩)
        · intro h
          obtain ⟨x, hxm, h⟩ := List.any_eq_true.1 h
          simp only [Bool.and_eq_true, bne_iff_ne, beq_iff_eq] at h
          have : x ∈ s.maps.filter fun x => x.link == link && x.other == row.other && x.index == row.index :=
            List.mem_filter.2 ⟨hxm, by simp [h.1.1.1.2, h.1.1.2, h.1.2, hp.1, hp.2.1, hp.2.2]⟩
          rw [hfil, List.mem_singleton] at this
          exact h.1.1.1.1 (by rw [this])
        · simp only [mappingCheck, Bool.not_eq_true', Bool.not_eq_false, Bool.and_eq_true, decide_eq_true_eq]
          exact ⟨⟨hs.2.1, hc.1.2⟩, by have h := hc.2; rwa [Bool.not_eq_true'] at h⟩
      refine ⟨hs, true, s.maps.map fun x => if x.id = m.id then { m with value := row.value, level := lv } else x,
        ?_, ?_, ?_, ?_, ?_⟩
      rotate_left
      · exact ((mappingUpdate_does _).steps _ _ _ hupd).invariant (fun _ _ _ _ hp h => h.prim hp) hi
      · intro x hxm
        obtain ⟨y, hy, rfl⟩ := List.mem_map.1 hxm
        split
        · exact .inl hp.2.2
        · exact .inr ⟨y, hy, rfl⟩
      · rw [upd_filter (m' := { m with value := row.value, level := lv }) hi.ids hm _ (by rfl), map_upd_of_not_mem]
        intro x hxm he
        obtain ⟨h1, h2⟩ := List.mem_filter.1 hxm
        rw [eq_of_id hi.ids h1 hm he, hp.1] at h2
        simp at h2
      · intro o i
        unfold Store.between
        dsimp only
        rw [upd_filter (m' := { m with value := row.value, level := lv }) hi.ids hm _ (by rfl)]
        by_cases h : o = row.other ∧ i = row.index
        · rw [if_pos h, h.1, h.2, hfil]
          simp
        · rw [if_neg h, map_upd_of_not_mem]
          intro x hxm he
          obtain ⟨h1, h2⟩ := List.mem_filter.1 hxm
          simp only [Bool.and_eq_true, beq_iff_eq] at h2
          rw [eq_of_id hi.ids h1 hm he, hp.2.1, hp.2.2] at h2
          exact h ⟨h2.1.2.symm, h2.2.symm⟩
      · rw [hrow, hbet]
        refine bind_ok.2 ⟨(), _, hupd, ?_⟩
        simp
        rfl
    · right
      refine ⟨hs, ?_⟩
      have hneg : ¬ 0 ≤ row.value := by
        intro h
        refine hs ⟨by rw [hlv]; simp, h, fun h0 => ?_⟩
        have := hc.2
        rw [hp.2.1, hp.2.2, h0.1, h0.2] at this
        exact absurd this (by decide)
      have herr : ∃ e, mappingUpdate { m with value := row.value, level := lv } s = .error e := by
        unfold mappingUpdate
        rw [get_bind, if_neg hany, if_pos]
        · exact ⟨_, rfl⟩
        · simp [mappingCheck, hneg]
      obtain ⟨e, he⟩ := herr
      rw [hrow]
      simp only [bind, StateT.bind, Except.bind]
      rw [he]
      exact ⟨_, rfl⟩

theorem newest_cons (row : MapRow) (rows : List MapRow) (o : Int) (i : Nat) :
    newest (row :: rows) o i = (newest rows o i).or (if o = row.other ∧ i = row.index then some row else none) := by
  unfold newest
  by_cases h : o = row.other ∧ i = row.index
  · rw [if_pos h, List.filter_cons_of_pos (by simp [h.1, h.2]), List.getLast?_cons]
    generalize (rows.filter fun row => row.other == o && row.index == i).getLast? = x
    cases x <;> rfl
  · rw [if_neg h, List.filter_cons_of_neg, Option.or_none]
    simp only [Bool.and_eq_true, beq_iff_eq]
    exact fun h' => h ⟨h'.1.symm, h'.2.symm⟩

/-- What the mappings between two records are after the corrections. -/
def corrected (old : List (List Byte × ℚ)) : Option MapRow → List (List Byte × ℚ)
  | none => old
  | some row => [(row.level.getD [], row.value)]

theorem updateMappingRows_spec {link : Nat} : ∀ (rows : List MapRow) {s : Store} (_ : MapInv s) (_ : IndexInv s)
    (_ : s.fk = true → ∃ l ∈ s.links, l.id = link) (c : Bool × Bool)
    (_ : ∀ row ∈ s.taken rows, (s.between link row.other row.index).length ≤ 1),
    ((∀ row ∈ s.taken rows, row.Sound) ∧ ∃ c' ms, rows.foldlM (updateMappingRow link) c s =
        .ok (c', { s with maps := ms }) ∧
        (c'.1 = true ↔ c.1 = true ∨ ∃ row ∈ s.taken rows, s.between link row.other row.index = []) ∧
        MapInv { s with maps := ms } ∧
        (∀ m ∈ ms, (∃ r ∈ s.index, r.id = m.index) ∨ ∃ m' ∈ s.maps, m'.index = m.index) ∧
        (ms.filter fun m => m.link != link) = (s.maps.filter fun m => m.link != link) ∧
        ∀ o i, Store.between { s with maps := ms } link o i =
          corrected (s.between link o i) (newest (s.taken rows) o i)) ∨
    ((¬ ∀ row ∈ s.taken rows, row.Sound) ∧ ∃ e, rows.foldlM (updateMappingRow link) c s = .error e) := by
  intro rows
  induction rows with
  | nil =>
    intro s hi hx hfk c hone
    refine .inl ⟨by simp [Store.taken], c, s.maps, rfl, by simp [Store.taken], hi,
      fun m hm => .inr ⟨m, hm, rfl⟩, rfl, fun o i => by simp [Store.taken, newest, corrected]⟩
  | cons row rows ih =>
    intro s hi hx hfk c hone
    by_cases ha : s.Takes row
    · have htk : s.taken (row :: rows) = row :: s.taken rows := by
        unfold Store.taken
        rw [List.filter_cons_of_pos (by simpa using ha)]
      rw [htk] at hone ⊢
      rw [List.forall_mem_cons] at hone ⊢
      rcases updateMappingRow_spec hi hx hfk c ha hone.1 with ⟨hs, c2, ms, h1, h2, h3, h4, h5⟩ | ⟨hs, e, he⟩
      · have hfold : (row :: rows).foldlM (updateMappingRow link) c s =
            rows.foldlM (updateMappingRow link) (c.1 || (s.between link row.other row.index).isEmpty, c2)
              { s with maps := ms } := by
          rw [List.foldlM_cons]
          simp only [bind, StateT.bind, Except.bind]
          rw [h1]
        rw [hfold]
        have hone' : ∀ x ∈ Store.taken { s with maps := ms } rows,
            (Store.between { s with maps := ms } link x.other x.index).length ≤ 1 := by
          intro x hxm
          rw [h5]
          split
          · simp
          · exact hone.2 x hxm
        rcases ih (s := { s with maps := ms }) h2 hx.maps hfk _ hone' with
          ⟨k1, c', ns, k2, k3, k4, k5, k6, k7⟩ | ⟨k1, k2⟩
        · refine .inl ⟨⟨hs, k1⟩, c', ns, k2, ?_, k4, ?_, k6.trans h4, ?_⟩
          · rw [k3, Bool.or_eq_true, List.isEmpty_iff, or_assoc]
            apply or_congr_right
            have hiff : (∃ x ∈ row :: s.taken rows, s.between link x.other x.index = []) ↔
                s.between link row.other row.index = [] ∨ ∃ x ∈ s.taken rows, s.between link x.other x.index = [] := by
              simp
            rw [hiff]
            constructor
            · rintro (h | ⟨x, hxm, h⟩)
              · exact .inl h
              · rw [h5] at h
                split at h
                · exact absurd h (by simp)
                · exact .inr ⟨x, hxm, h⟩
            · rintro (h | ⟨x, hxm, h⟩)
              · exact .inl h
              · by_cases he : x.other = row.other ∧ x.index = row.index
                · left; rw [← he.1, ← he.2]; exact h
                · exact .inr ⟨x, hxm, by rw [h5, if_neg he]; exact h⟩
          · intro m hm
            rcases k5 m hm with h | ⟨m', hm', he⟩
            · exact .inl h
            · rcases h3 m' hm' with h | ⟨m2, hm2, he2⟩
              · exact .inl ⟨_, ha.1, by rw [← he, h]⟩
              · exact .inr ⟨m2, hm2, he2.trans he⟩
          · intro o i
            rw [k7, newest_cons]
            have : Store.taken { s with maps := ms } rows = s.taken rows := rfl
            rw [this]
            rcases newest (s.taken rows) o i with _ | x
            · rw [Option.none_or]
              show Store.between { s with maps := ms } link o i = _
              rw [h5]
              split <;> rfl
            · rfl
        · exact .inr ⟨fun h => k1 h.2, k2⟩
      · refine .inr ⟨fun h => hs h.1, e, ?_⟩
        rw [List.foldlM_cons]
        simp only [bind, StateT.bind, Except.bind]
        rw [he]
    · have htk : s.taken (row :: rows) = s.taken rows := by
        unfold Store.taken
        rw [List.filter_cons_of_neg (by simpa using ha)]
      rw [htk] at hone ⊢
      have hfold : (row :: rows).foldlM (updateMappingRow link) c s = rows.foldlM (updateMappingRow link) c s := by
        rw [List.foldlM_cons]
        have : updateMappingRow link c row s = .ok (c, s) := by
          unfold updateMappingRow
          rw [get_bind, if_pos]
          · rfl
          · rw [Bool.not_eq_true', ← Bool.not_eq_true, mapRowOk_iff hx]; exact ha
        simp only [bind, StateT.bind, Except.bind]
        rw [this]
      rw [hfold]
      exact ih hi hx hfk c hone

/-! ### Deleting -/

theorem sublist_eq_filter {α : Type} [DecidableEq α] {a b : List α} (h : a.Sublist b) (hnd : b.Nodup) :
    a = b.filter fun x => decide (x ∈ a) := by
  induction h with
  | slnil => rfl
  | cons x h ih =>
    rw [List.nodup_cons] at hnd
    rw [List.filter_cons_of_neg (by simpa using fun hx => hnd.1 (h.subset hx))]
    exact ih hnd.2
  | @cons_cons l1 l2 x h ih =>
    rw [List.nodup_cons] at hnd
    rw [List.filter_cons_of_pos (by simp)]
    congr 1
    refine (ih hnd.2).trans (List.filter_congr fun y hy => ?_)
    have : y ≠ x := fun he => hnd.1 (he ▸ hy)
    simp [this]

theorem deleteMappingRow_run {link : Nat} {s : Store} (hi : MapInv s) (hx : IndexInv s) (d : Bool) {row : MapRow}
    (hone : (s.between link row.other row.index).length ≤ 1) :
    ∃ d' ms, deleteMappingRow link d row s = .ok (d', { s with maps := ms }) ∧
      (d' = true ↔ d = true ∨ ∃ m ∈ s.maps, s.Names link row m) ∧ ms.Sublist s.maps ∧
      ∀ m, m ∈ ms ↔ m ∈ s.maps ∧ ¬ s.Names link row m := by
  have hsame : (∀ m ∈ s.maps, ¬ s.Names link row m) → deleteMappingRow link d row s = .ok (d, s) →
      ∃ d' ms, deleteMappingRow link d row s = .ok (d', { s with maps := ms }) ∧
      (d' = true ↔ d = true ∨ ∃ m ∈ s.maps, s.Names link row m) ∧ ms.Sublist s.maps ∧
      ∀ m, m ∈ ms ↔ m ∈ s.maps ∧ ¬ s.Names link row m := by
    intro h1 h2
    refine ⟨d, s.maps, h2, ?_, List.Sublist.refl _, fun m => ⟨fun h => ⟨h, h1 m h⟩, fun h => h.1⟩⟩
    constructor
    · exact .inl
    · rintro (h | ⟨m, hm, h⟩)
      · exact h
      · exact absurd h (h1 m hm)
  rcases hf : s.index.find? (fun r => r.id == row.index) with _ | r
  · apply hsame
    · rintro m hm ⟨h, -⟩
      have := List.find?_eq_none.1 hf _ h
      simp at this
    · unfold deleteMappingRow
      rw [get_bind]
      simp only [hf]
      rfl
  by_cases hl : r.labels = row.labels
  swap
  · apply hsame
    · rintro m hm ⟨h, -⟩
      have h1 := List.mem_of_find?_eq_some hf
      have h2 : r.id = row.index := by simpa using List.find?_some hf
      have := List.inj_on_of_nodup_map hx.idsNodup h1 h h2
      exact hl (by rw [this])
    · unfold deleteMappingRow
      rw [get_bind]
      simp only [hf, ne_eq, hl, not_false_eq_true, if_true]
      rfl
  have hrec : (⟨row.index, row.labels⟩ : IndexRec) ∈ s.index := (find_id_iff hx).1 ⟨r, hf, hl⟩
  rcases hm : s.findMap link row.other row.index with _ | m
  · apply hsame
    · rintro m hmm ⟨-, h1, h2, h3, -⟩
      unfold Store.findMap at hm
      have := List.find?_eq_none.1 hm m hmm
      simp [h1, h2, h3] at this
    · unfold deleteMappingRow
      rw [get_bind]
      simp only [hf, hl, ne_eq, not_true_eq_false, if_false, hm]
      rfl
  have hmm : m ∈ s.maps := List.mem_of_find?_eq_some hm
  have hp : m.link = link ∧ m.other = row.other ∧ m.index = row.index := by
    have := List.find?_some hm
    simp only [Bool.and_eq_true, beq_iff_eq] at this
    exact ⟨this.1.1, this.1.2, this.2⟩
  have honly : ∀ x ∈ s.maps, x.link = link → x.other = row.other → x.index = row.index → x = m := by
    intro x hxm h1 h2 h3
    unfold Store.between at hone
    rw [List.length_map] at hone
    have a : x ∈ s.maps.filter fun m => m.link == link && m.other == row.other && m.index == row.index :=
      List.mem_filter.2 ⟨hxm, by simp [h1, h2, h3]⟩
    have b : m ∈ s.maps.filter fun m => m.link == link && m.other == row.other && m.index == row.index :=
      List.mem_filter.2 ⟨hmm, by simp [hp.1, hp.2.1, hp.2.2]⟩
    generalize (s.maps.filter fun m => m.link == link && m.other == row.other && m.index == row.index) = l at hone a b
    match l, hone with
    | [], _ => cases a
    | [y], _ =>
      rw [List.mem_singleton] at a b
      rw [a, b]
  by_cases hv : m.value = row.value ∧ m.level = fullLevel s.cols.length
  · refine ⟨true, s.maps.filter fun x => x.id != m.id, ?_, ?_, List.filter_sublist, ?_⟩
    · unfold deleteMappingRow
      rw [get_bind]
      simp only [hf, hl, ne_eq, not_true_eq_false, if_false, hm, hv.1, hv.2]
      rfl
    · exact ⟨fun _ => .inr ⟨m, hmm, hrec, hp.1, hp.2.1, hp.2.2, hv.1, hv.2⟩, fun _ => rfl⟩
    · intro x
      rw [List.mem_filter, bne_iff_ne]
      apply and_congr_right
      intro hxm
      constructor
      · rintro hne ⟨-, h1, h2, h3, -⟩
        exact hne (by rw [honly x hxm h1 h2 h3])
      · intro hn he
        rw [eq_of_id hi.ids hxm hmm he] at hn
        exact hn ⟨hrec, hp.1, hp.2.1, hp.2.2, hv.1, hv.2⟩
  · apply hsame
    · rintro x hxm ⟨-, h1, h2, h3, h4, h5⟩
      rw [honly x hxm h1 h2 h3] at h4 h5
      exact hv ⟨h4, h5⟩
    · unfold deleteMappingRow
      rw [get_bind]
      simp only [hf, hl, ne_eq, not_true_eq_false, if_false, hm]
      by_cases h1 : m.value = row.value
      · have h2 : ¬ m.level = fullLevel s.cols.length := fun h => hv ⟨h1, h⟩
        simp only [h1, h2, not_true_eq_false, not_false_eq_true, if_true, if_false]
        rfl
      · simp only [h1, not_false_eq_true, if_true]
        rfl

theorem MapInv.sublist {s : Store} (hi : MapInv s) {ms : List Mapping} (h : ms.Sublist s.maps) :
    MapInv { s with maps := ms } :=
  ⟨hi.ids.sublist (h.map _), hi.keys.sublist (h.map _), fun m hm => hi.checks m (h.subset hm)⟩

theorem deleteMappingRows_run {link : Nat} : ∀ (rows : List MapRow) {s : Store} (_ : MapInv s) (_ : IndexInv s) (d : Bool)
    (_ : ∀ row ∈ rows, (s.between link row.other row.index).length ≤ 1),
    ∃ d' ms, rows.foldlM (deleteMappingRow link) d s = .ok (d', { s with maps := ms }) ∧
      (d' = true ↔ d = true ∨ ∃ m ∈ s.maps, ∃ row ∈ rows, s.Names link row m) ∧ ms.Sublist s.maps ∧
      ∀ m, m ∈ ms ↔ m ∈ s.maps ∧ ¬ ∃ row ∈ rows, s.Names link row m := by
  intro rows
  induction rows with
  | nil =>
    intro s hi hx d _
    exact ⟨d, s.maps, rfl, by simp, List.Sublist.refl _, by simp⟩
  | cons row rows ih =>
    intro s hi hx d hone
    rw [List.forall_mem_cons] at hone
    obtain ⟨d1, ms, h1, h2, h3, h4⟩ := deleteMappingRow_run hi hx d hone.1
    obtain ⟨d2, ns, k1, k2, k3, k4⟩ := ih (s := { s with maps := ms }) (hi.sublist h3) hx.maps d1 (by
      intro x hxm
      refine le_trans ?_ (hone.2 x hxm)
      unfold Store.between
      rw [List.length_map, List.length_map]
      exact (h3.filter _).length_le)
    have hnames : ∀ x m, Store.Names { s with maps := ms } link x m ↔ s.Names link x m := fun x m => Iff.rfl
    refine ⟨d2, ns, ?_, ?_, k3.trans h3, ?_⟩
    · rw [List.foldlM_cons]
      simp only [bind, StateT.bind, Except.bind]
      rw [h1]
      exact k1
    · rw [k2, h2, or_assoc]
      apply or_congr_right
      simp only [hnames, List.exists_mem_cons_iff]
      constructor
      · rintro (⟨m, hm, h⟩ | ⟨m, hm, h⟩)
        · exact ⟨m, hm, .inl h⟩
        · exact ⟨m, h3.subset hm, .inr h⟩
      · rintro ⟨m, hm, h⟩
        by_cases hn : s.Names link row m
        · exact .inl ⟨m, hm, hn⟩
        · exact .inr ⟨m, (h4 m).2 ⟨hm, hn⟩, h.resolve_left hn⟩
    · intro m
      rw [k4]
      simp only [hnames, List.exists_mem_cons_iff]
      show (m ∈ ms ∧ _) ↔ _
      rw [h4, not_or, and_assoc]

/-! ### The end of the operations -/

theorem sameContent_between {ms ns : List Mapping} (h : ms.map Mapping.content = ns.map Mapping.content) (s : Store)
    (link : Nat) (o : Int) (i : Nat) :
    Store.between { s with maps := ms } link o i = Store.between { s with maps := ns } link o i := by
  have key : ∀ ms : List Mapping, Store.between { s with maps := ms } link o i =
      ((ms.map Mapping.content).filter fun x => x.2.1 == link && x.2.2.1 == o && x.2.2.2.1 == i).map
        fun x => (x.2.2.2.2.1, x.2.2.2.2.2) := by
    intro ms
    rw [List.filter_map, List.map_map]
    rfl
  rw [key, key, h]

theorem sameContent_rowsOf {ms ns : List Mapping} (h : ms.map Mapping.content = ns.map Mapping.content) (s : Store)
    (link : Nat) : Store.rowsOf { s with maps := ms } link = Store.rowsOf { s with maps := ns } link := by
  have key : ∀ ms : List Mapping, Store.rowsOf { s with maps := ms } link =
      ((ms.map Mapping.content).filter fun x => x.2.1 == link).map
        fun x => (x.2.2.1, x.2.2.2.1, x.2.2.2.2.1, x.2.2.2.2.2) := by
    intro ms
    rw [List.filter_map, List.map_map]
    rfl
  rw [key, key, h]

theorem refreshMaps_others (ms : List Mapping) (lk : Nat) (p : Int → Bool) :
    ((refreshMaps ms fun k o => k == lk && p o).filter fun m => m.link != lk) = ms.filter fun m => m.link != lk := by
  rw [refreshMaps_filter _ _ _ (fun _ _ => rfl)]
  conv_rhs => rw [← List.map_id (ms.filter fun m => m.link != lk)]
  apply List.map_congr_left
  intro m hm
  have := (List.mem_filter.1 hm).2
  rw [if_neg]
  · rfl
  · rw [bne_iff_ne] at this
    simp [this]

theorem fkOk_maps {s s' : Store} (h : fkOk s = true) (hfk : s'.fk = s.fk) (hw : s'.weights = s.weights)
    (hi : s'.index = s.index)
    (hm : ∀ m ∈ s'.maps, (∃ r ∈ s.index, r.id = m.index) ∨ ∃ m' ∈ s.maps, m'.index = m.index) : fkOk s' = true := by
  unfold fkOk at h ⊢
  rw [hfk, hw, hi]
  rw [Bool.or_eq_true] at h ⊢
  rcases h with h | h
  · exact .inl h
  right
  rw [Bool.and_eq_true] at h ⊢
  refine ⟨h.1, ?_⟩
  rw [List.all_eq_true]
  intro m hmm
  rcases hm m hmm with ⟨r, hr, he⟩ | ⟨m', hm', he⟩
  · exact List.any_eq_true.2 ⟨r, hr, by simpa using he⟩
  · rw [← he]; exact List.all_eq_true.1 h.2 m' hm'

theorem refreshLink_finish {s : Store} {ms : List Mapping} {l : Link} (hi : MapInv { s with maps := ms })
    (hl : LinkInv s) (hm : l ∈ s.links) (hfk : fkOk s = true)
    (hidx : ∀ m ∈ ms, (∃ r ∈ s.index, r.id = m.index) ∨ ∃ m' ∈ s.maps, m'.index = m.index) :
    ∃ s', refreshLink l { s with maps := ms } = .ok ((), s') ∧ fkOk s' = true ∧
      s'.maps.map Mapping.content = ms.map Mapping.content ∧
      s'.mapsOfOthers l.id = (ms.filter fun m => m.link != l.id) ∧ LinkBrought s s' l.id := by
  classical
  obtain ⟨s', h⟩ := refreshLink_run hi ⟨hl.ids, hl.names, hl.defaults⟩ hm
  have hs' := refreshLink_ok hi.ids h
  subst hs'
  refine ⟨_, h, ?_, refreshMaps_map Mapping.content (fun _ _ => rfl) ms fun k o => k == l.id && decide (0 ≤ o), ?_, ?_⟩
  · refine fkOk_maps hfk rfl rfl rfl ?_
    intro m hmm
    obtain ⟨x, hx, -, -, -, he, -⟩ := mem_refreshMaps (ms := ms) (p := fun k o => k == l.id && decide (0 ≤ o)) hmm
    rw [← he]
    exact hidx x hx
  · exact refreshMaps_others ms l.id fun o => decide (0 ≤ o)
  · refine ⟨Store.distinctOthers { s with maps := ms } l.id, ?_, ?_⟩
    · have := distinctOthers_covered { s with maps := ms } l.id
      exact ⟨this.1, fun o => by rw [this.2 o, refreshMaps_source (t := { s with maps := ms })]⟩
    · show upd Link.id _ s.links = _
      unfold upd
      apply List.map_congr_left
      intro x hx
      by_cases he : x.id = l.id
      · have := List.inj_on_of_nodup_map hl.ids hx hm he
        subst this
        rw [if_pos rfl, if_pos rfl]
        congr 1
        rw [Bool.eq_iff_iff, decide_eq_true_eq]
        unfold Store.mappingIsComplete Store.linkReaches
        rw [List.all_eq_true]
        apply forall₂_congr
        intro r _
        rw [Bool.or_eq_true, beq_iff_eq, List.any_eq_true]
        constructor
        · rintro (h | ⟨m, hmm, h⟩) h0
          · exact absurd h h0
          · simp only [Bool.and_eq_true, beq_iff_eq] at h
            refine ⟨_, List.mem_map.2 ⟨m, hmm, rfl⟩, ?_⟩
            split <;> exact h
        · intro h
          by_cases h0 : r.id = 0
          · exact .inl h0
          · obtain ⟨m, hmm, h1, h2⟩ := h h0
            obtain ⟨y, hy, -, e1, -, e2, -⟩ := mem_refreshMaps (ms := ms) (p := fun k o => k == x.id && decide (0 ≤ o)) hmm
            exact .inr ⟨y, hy, by simp [e1, e2, h1, h2]⟩
      · rw [if_neg (by exact he), if_neg he]

theorem forM_refresh_finish {s : Store} {ms : List Mapping} {l : Link} (hi : MapInv { s with maps := ms })
    (hm : l ∈ s.links) (hfk : fkOk s = true)
    (hidx : ∀ m ∈ ms, (∃ r ∈ s.index, r.id = m.index) ∨ ∃ m' ∈ s.maps, m'.index = m.index) (os : List Int) :
    ∃ s', os.forM (fun o => refreshProportions l.id o) { s with maps := ms } = .ok ((), s') ∧ fkOk s' = true ∧
      s'.maps.map Mapping.content = ms.map Mapping.content ∧
      s'.mapsOfOthers l.id = (ms.filter fun m => m.link != l.id) ∧ s'.links = s.links := by
  obtain ⟨s', h, -⟩ := forM_refresh_run hi (lk := l.id) (fun _ => ⟨l, hm, rfl⟩) os
  have hs' := forM_refresh hi.ids h
  subst hs'
  refine ⟨_, h, ?_, refreshMaps_map Mapping.content (fun _ _ => rfl) ms fun k o => k == l.id && decide (o ∈ os), ?_, rfl⟩
  · refine fkOk_maps hfk rfl rfl rfl ?_
    intro m hmm
    obtain ⟨x, hx, -, -, -, he, -⟩ := mem_refreshMaps (ms := ms) (p := fun k o => k == l.id && decide (o ∈ os)) hmm
    rw [← he]
    exact hidx x hx
  · exact refreshMaps_others ms l.id fun o => decide (o ∈ os)

end Toron.Space
