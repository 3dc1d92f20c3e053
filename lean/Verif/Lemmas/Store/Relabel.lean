/-
Correcting labels: where weights and mappings end up.
-/
import Verif.Lemmas.Store.Merge
import Verif.Lemmas.Store.Proportion
import Verif.Lemmas.Store.WeightEdit
import Verif.Spec.Relabel

namespace Toron.Space

open Toron.Selectors (PyStr)

/-! ### Putting values together -/

/-- The same sum, and both are empty or none is. -/
def SameW (a b : List ℚ) : Prop := a.sum = b.sum ∧ (a = [] ↔ b = [])

theorem SameW.perm {a b : List ℚ} (h : a.Perm b) : SameW a b :=
  ⟨h.sum_eq, by rw [← List.length_eq_zero_iff, ← List.length_eq_zero_iff, h.length_eq]⟩

theorem SameW.trans {a b c : List ℚ} (h : SameW a b) (h' : SameW b c) : SameW a c :=
  ⟨h.1.trans h'.1, h.2.trans h'.2⟩

theorem SameW.append {a b c d : List ℚ} (h : SameW a b) (h' : SameW c d) : SameW (a ++ c) (b ++ d) :=
  ⟨by rw [List.sum_append, List.sum_append, h.1, h'.1], by rw [List.append_eq_nil_iff, List.append_eq_nil_iff, h.2, h'.2]⟩

/-- The same sums, and both are empty or none is. -/
def SameM (a b : List (ℚ × Option ℚ)) : Prop :=
  (a.map (·.1)).sum = (b.map (·.1)).sum ∧ propSum (a.map (·.2)) = propSum (b.map (·.2)) ∧ (a = [] ↔ b = [])

theorem SameM.perm {a b : List (ℚ × Option ℚ)} (h : a.Perm b) : SameM a b :=
  ⟨(h.map _).sum_eq, propSum_perm (h.map _),
    by rw [← List.length_eq_zero_iff, ← List.length_eq_zero_iff, h.length_eq]⟩

theorem SameM.trans {a b c : List (ℚ × Option ℚ)} (h : SameM a b) (h' : SameM b c) : SameM a c :=
  ⟨h.1.trans h'.1, h.2.1.trans h'.2.1, h.2.2.trans h'.2.2⟩

theorem SameM.append {a b c d : List (ℚ × Option ℚ)} (h : SameM a b) (h' : SameM c d) : SameM (a ++ c) (b ++ d) := by
  refine ⟨?_, ?_, ?_⟩
  · simp only [List.map_append, List.sum_append, h.1, h'.1]
  · simp only [List.map_append, propSum_append, h.2.1, h'.2.1]
  · rw [List.append_eq_nil_iff, List.append_eq_nil_iff, h.2.2, h'.2.2]

theorem SameW.putW {a b : List ℚ} (h : SameW a b) (hl : a.length ≤ 1) : a = putW b := by
  unfold Space.putW
  split
  · rename_i hb
    exact h.2.2 hb
  · rename_i hb
    match a, hl, h with
    | [], _, h => exact absurd (h.2.1 rfl) hb
    | [x], _, h => rw [← h.1]; simp

theorem SameM.putM {a b : List (ℚ × Option ℚ)} (h : SameM a b) (hl : a.length ≤ 1) : a = putM b := by
  unfold Space.putM
  split
  · rename_i hb
    exact h.2.2.2 hb
  · rename_i hb
    match a, hl, h with
    | [], _, h => exact absurd (h.2.2.1 rfl) hb
    | [(x, y)], _, h =>
      rw [← h.1, ← h.2.1, List.map_cons, List.map_cons, List.map_nil, List.map_nil, propSum_cons, propSum_nil,
        addProp_zero]
      simp

theorem filter_split {α : Type} (l : List α) (q f : α → Bool) :
    (l.filter f).Perm ((l.filter fun x => !q x).filter f ++ (l.filter q).filter f) := by
  rw [← List.filter_append]
  refine List.Perm.filter _ (List.Perm.symm ?_)
  exact List.perm_append_comm.trans (List.filter_append_perm q l)

/-- Where one merge takes things. -/
def moveTo (o r i : Nat) : Nat := if i = o then r else i

theorem mergeWeights_moves {o r : Nat} {s s' : Store} (hnd : (s.weights.map (·.id)).Nodup)
    (h : mergeWeights [o] r s = .ok ((), s')) (g : Nat) (p : Nat → Bool) :
    SameW (s'.weightsIn g p) (s.weightsIn g fun i => p (moveTo o r i)) := by
  obtain ⟨old, new, hp, rfl, hn⟩ := mergeWeights_ok hnd h
  have hidx : ∀ w ∈ new, w.index = r := by
    intro w hw
    have : (w.group, w.index, w.value) ∈ new.map (fun w => (w.group, w.index, w.value)) := List.mem_map_of_mem hw
    rw [hn, List.mem_map] at this
    obtain ⟨g, _, he⟩ := this
    exact (Prod.mk.inj (Prod.mk.inj he).2).1.symm
  have e1 : new.filter (fun w => w.group == g && p w.index) = new.filter fun w => w.group == g && p r :=
    List.filter_congr fun w hw => by rw [hidx w hw]
  have hnew : SameW ((new.filter fun w => w.group == g && p r).map (·.value))
      ((old.filter fun w => w.group == g && p r).map (·.value)) := by
    cases hpr : p r with
    | false =>
      have h1 : ∀ l : List Weight, (l.filter fun w => w.group == g && false) = [] := fun l =>
        List.filter_eq_nil_iff.2 fun w _ => by simp
      rw [h1, h1]
      exact SameW.perm (List.Perm.refl _)
    | true =>
      simp only [Bool.and_true]
      have h1 : (new.filter fun w => w.group == g).map (·.value) =
          ((new.map fun w => (w.group, w.index, w.value)).filter fun x => decide (x.1 = g)).map (·.2.2) := by
        rw [List.filter_map, List.map_map]
        rfl
      rw [h1, hn, List.filter_map, List.map_map]
      have h2 : ((fun x : Nat × Nat × ℚ => decide (x.1 = g)) ∘ fun g =>
          (g, r, ((old.filter fun w => w.group == g).map (·.value)).sum)) = fun x => decide (x = g) := rfl
      rw [h2, filter_distinct]
      split
      · rename_i hg
        refine ⟨by simp, ?_⟩
        simp only [List.map_cons, List.map_nil, List.cons_ne_self, reduceCtorEq, List.map_eq_nil_iff, false_iff]
        obtain ⟨w, hw, hwg⟩ := List.mem_map.1 hg
        exact List.ne_nil_of_mem (List.mem_filter.2 ⟨hw, by simpa using hwg⟩)
      · rename_i hg
        rw [List.filter_eq_nil_iff.2]
        · exact SameW.perm (List.Perm.refl _)
        · intro w hw he
          exact hg (List.mem_map.2 ⟨w, hw, by simpa using he⟩)
  have hold : ((old.filter fun w => w.group == g && p r).map (·.value)).Perm
      (((s.weights.filter fun w => decide (w.index ∈ [r, o])).filter fun w =>
        w.group == g && p (moveTo o r w.index)).map (·.value)) := by
    refine List.Perm.map _ ?_
    have : ((s.weights.filter fun w => decide (w.index ∈ [r, o])).filter fun w =>
        w.group == g && p (moveTo o r w.index)) =
        (s.weights.filter fun w => decide (w.index ∈ [r, o])).filter fun w => w.group == g && p r := by
      refine List.filter_congr fun w hw => ?_
      have := (List.mem_filter.1 hw).2
      simp only [List.mem_cons, List.not_mem_nil, or_false, decide_eq_true_eq] at this
      unfold moveTo
      split
      · rfl
      · rename_i hne
        rw [this.resolve_right hne]
    rw [this]
    exact hp.filter _
  refine SameW.trans ?_ (SameW.perm ((filter_split s.weights (fun w => decide (w.index ∈ [r, o])) _).map _).symm)
  unfold Store.weightsIn
  rw [List.filter_append, List.map_append, List.map_append, e1]
  refine SameW.append ?_ (hnew.trans (SameW.perm hold))
  refine SameW.perm (List.Perm.map _ ?_)
  have e2 : (s.weights.filter fun w => decide (w.index ∉ [r, o])) =
      s.weights.filter fun w => !decide (w.index ∈ [r, o]) := List.filter_congr fun w _ => by simp
  rw [e2, List.filter_congr]
  intro w hw
  have := (List.mem_filter.1 hw).2
  simp only [List.mem_cons, List.not_mem_nil, or_false, Bool.not_eq_true', decide_eq_false_iff_not, not_or] at this
  dsimp only
  unfold moveTo
  rw [if_neg this.2]

theorem mergeMappings_moves {o r : Nat} {s s' : Store} (hnd : (s.maps.map (·.id)).Nodup)
    (h : mergeMappings [o] r s = .ok ((), s')) (k : Nat × Int × List Byte) (p : Nat → Bool) :
    SameM (s'.mapsIn k p) (s.mapsIn k fun i => p (moveTo o r i)) := by
  have hkey : ∀ (t : Store) (p : Nat → Bool),
      t.mapsIn k p = (t.maps.filter fun m => m.key == k && p m.index).map fun m => (m.value, m.prop) := by
    intro t p
    unfold Store.mapsIn
    rw [List.filter_congr]
    intro m _
    congr 1
    obtain ⟨a, b, c⟩ := k
    rw [Bool.eq_iff_iff, beq_iff_eq]
    simp [Mapping.key]
  rw [hkey, hkey]
  obtain ⟨old, new, hp, rfl, hn⟩ := mergeMappings_ok hnd h
  have hidx : ∀ m ∈ new, m.index = r := by
    intro m hm
    have : (m.key, m.index, m.value, m.prop) ∈ new.map (fun m => (m.key, m.index, m.value, m.prop)) :=
      List.mem_map_of_mem hm
    rw [hn, List.mem_map] at this
    obtain ⟨_, _, he⟩ := this
    exact (Prod.mk.inj (Prod.mk.inj he).2).1.symm
  have e1 : new.filter (fun m => m.key == k && p m.index) = new.filter fun m => m.key == k && p r :=
    List.filter_congr fun m hm => by rw [hidx m hm]
  have hnew : SameM ((new.filter fun m => m.key == k && p r).map fun m => (m.value, m.prop))
      ((old.filter fun m => m.key == k && p r).map fun m => (m.value, m.prop)) := by
    cases hpr : p r with
    | false =>
      have h1 : ∀ l : List Mapping, (l.filter fun m => m.key == k && false) = [] := fun l =>
        List.filter_eq_nil_iff.2 fun m _ => by simp
      rw [h1, h1]
      exact SameM.perm (List.Perm.refl _)
    | true =>
      simp only [Bool.and_true]
      have h1 : (new.filter fun m => m.key == k).map (fun m => (m.value, m.prop)) =
          ((new.map fun m => (m.key, m.index, m.value, m.prop)).filter fun x => decide (x.1 = k)).map (·.2.2) := by
        rw [List.filter_map, List.map_map]
        congr 1
        apply List.filter_congr
        intro m _
        rw [Bool.eq_iff_iff, beq_iff_eq]
        simp
      rw [h1, hn, List.filter_map, List.map_map]
      have h2 : ((fun x : (Nat × Int × List Byte) × Nat × ℚ × Option ℚ => decide (x.1 = k)) ∘ fun k =>
          (k, r, ((old.filter fun m => m.key == k).map (·.value)).sum,
            propSum ((old.filter fun m => m.key == k).map (·.prop)))) = fun x => decide (x = k) := rfl
      rw [h2, filter_distinct]
      split
      · rename_i hg
        refine ⟨by simp [Function.comp_def], ?_, ?_⟩
        · simp only [List.map_cons, List.map_nil, Function.comp_apply, propSum_cons, propSum_nil, addProp_zero,
            List.map_map, Function.comp_def]
        · simp only [List.map_cons, List.map_nil, List.cons_ne_self, reduceCtorEq, List.map_eq_nil_iff, false_iff]
          obtain ⟨w, hw, hwg⟩ := List.mem_map.1 hg
          exact List.ne_nil_of_mem (List.mem_filter.2 ⟨hw, by simpa using hwg⟩)
      · rename_i hg
        rw [List.filter_eq_nil_iff.2]
        · exact SameM.perm (List.Perm.refl _)
        · intro w hw he
          exact hg (List.mem_map.2 ⟨w, hw, by simpa using he⟩)
  have hold : ((old.filter fun m => m.key == k && p r).map fun m => (m.value, m.prop)).Perm
      (((s.maps.filter fun m => decide (m.index ∈ [r, o])).filter fun m =>
        m.key == k && p (moveTo o r m.index)).map fun m => (m.value, m.prop)) := by
    refine List.Perm.map _ ?_
    have : ((s.maps.filter fun m => decide (m.index ∈ [r, o])).filter fun m =>
        m.key == k && p (moveTo o r m.index)) =
        (s.maps.filter fun m => decide (m.index ∈ [r, o])).filter fun m => m.key == k && p r := by
      refine List.filter_congr fun w hw => ?_
      have := (List.mem_filter.1 hw).2
      simp only [List.mem_cons, List.not_mem_nil, or_false, decide_eq_true_eq] at this
      unfold moveTo
      split
      · rfl
      · rename_i hne
        rw [this.resolve_right hne]
    rw [this]
    exact hp.filter _
  refine SameM.trans ?_ (SameM.perm ((filter_split s.maps (fun m => decide (m.index ∈ [r, o])) _).map _).symm)
  dsimp only
  rw [List.filter_append, List.map_append, List.map_append, e1]
  refine SameM.append ?_ (hnew.trans (SameM.perm hold))
  refine SameM.perm (List.Perm.map _ ?_)
  have e2 : (s.maps.filter fun m => decide (m.index ∉ [r, o])) =
      s.maps.filter fun m => !decide (m.index ∈ [r, o]) := List.filter_congr fun w _ => by simp
  rw [e2, List.filter_congr]
  intro w hw
  have := (List.mem_filter.1 hw).2
  simp only [List.mem_cons, List.not_mem_nil, or_false, Bool.not_eq_true', decide_eq_false_iff_not, not_or] at this
  unfold moveTo
  rw [if_neg this.2]

/-! ### One row -/

theorem indexUpdate_pos {r : IndexRec} {s s' : Store} {u : Unit} (h : indexUpdate r s = .ok (u, s'))
    (hx : ∃ x ∈ s.index, x.id = r.id) : r.id ≠ 0 := by
  simp only [indexUpdate, bind_ok, get_ok, ite_ok, throw_ok, put_ok, pure_ok] at h
  obtain ⟨_, _, he, h⟩ := h
  cases he
  obtain ⟨_, h⟩ | ⟨_, h⟩ := h
  · exact h.elim
  obtain ⟨_, h⟩ | ⟨_, h⟩ := h
  · exact h.elim
  obtain ⟨h1, h⟩ | ⟨h1, h⟩ := h
  · obtain ⟨x, hx, he⟩ := hx
    exact absurd (List.any_eq_true.2 ⟨x, hx, by simpa using he⟩) h1
  obtain ⟨_, h⟩ | ⟨h2, h⟩ := h
  · exact h.elim
  exact h2

theorem find_labels {s : Store} (labels : List PyStr) :
    (s.index.find? fun r => decide (r.labels = labels)) = s.findByLabels labels := by
  unfold Store.findByLabels
  congr 1
  funext r
  rw [Bool.eq_iff_iff]
  simp

theorem not_mem_of_find_none {s : Store} {i : Nat} (h : s.index.find? (fun r => r.id == i) = none) :
    i ∉ s.index.map (·.id) := by
  intro hm
  obtain ⟨r, hr, he⟩ := List.mem_map.1 hm
  exact absurd (List.find?_eq_none.1 h r hr) (by simpa using he)

/-- What belongs to the records of `s` is in `s'` where `d` takes it. -/
def Moved (s s' : Store) (d : Nat → Nat) : Prop :=
  (∀ g p, SameW (s'.weightsIn g p) (s.weightsIn g fun i => p (d i))) ∧
    ∀ k p, SameM (s'.mapsIn k p) (s.mapsIn k fun i => p (d i))

theorem Moved.of_eq {s s' : Store} (hw : s'.weights = s.weights) (hm : s'.maps = s.maps) : Moved s s' fun i => i := by
  refine ⟨fun g p => ?_, fun k p => ?_⟩
  · unfold Store.weightsIn; rw [hw]; exact SameW.perm (List.Perm.refl _)
  · unfold Store.mapsIn; rw [hm]; exact SameM.perm (List.Perm.refl _)

theorem Moved.trans {s t u : Store} {d e : Nat → Nat} (h : Moved s t d) (h' : Moved t u e) :
    Moved s u fun i => e (d i) :=
  ⟨fun g p => (h'.1 g p).trans (h.1 g fun i => p (e i)), fun k p => (h'.2 k p).trans (h.2 k fun i => p (e i))⟩

theorem updateIndexRow_spec {merge : Bool} {acc acc' : UpdateAcc} {row : Nat × List PyStr} {s s' : Store}
    {into : List (Nat × Nat)} (hw : WeightInv s) (hm : MapInv s)
    (hown : ∀ r ∈ s.index, r.id = row.1 → r.labels ≠ row.2) (hacc : acc.merged = into.map (·.1))
    (h : updateIndexRow merge acc row s = .ok (acc', s')) :
    ∃ ext, Relabelled.row merge ⟨s.index, into⟩ row = some ⟨s'.index, into ++ ext⟩ ∧
      acc'.merged = (into ++ ext).map (·.1) ∧ Moved s s' (ends ext) := by
  unfold updateIndexRow at h
  unfold Relabelled.row
  rw [ite_ok] at h
  obtain ⟨he, h⟩ | ⟨he, h⟩ := h
  · rw [pure_ok] at h; cases h
    rw [if_pos he]
    exact ⟨[], by rw [List.append_nil], by rw [List.append_nil, hacc], Moved.of_eq rfl rfl⟩
  rw [if_neg he]
  rw [get_bind] at h
  rcases hr : s.index.find? (fun r => r.id == row.1) with _ | r <;> simp only [hr] at h
  · have hnm := not_mem_of_find_none hr
    rw [if_pos hnm]
    rw [ite_ok] at h
    obtain ⟨_, h⟩ | ⟨hn, h⟩ := h
    · exact absurd h (by simp [throw_ok])
    · rw [pure_ok] at h; cases h
      rw [if_neg (by rw [← hacc]; exact hn)]
      exact ⟨[], by rw [List.append_nil], by rw [List.append_nil, hacc], Moved.of_eq rfl rfl⟩
  have hrm := List.mem_of_find?_eq_some hr
  have hri : r.id = row.1 := by simpa using List.find?_some hr
  have hmem : row.1 ∈ s.index.map (·.id) := hri ▸ List.mem_map_of_mem hrm
  rw [if_neg (not_not.2 hmem)]
  rw [bind_ok] at h
  obtain ⟨acc1, t, h1, h⟩ := h
  rw [bind_ok] at h
  obtain ⟨_, t', h2, h⟩ := h
  rw [pure_ok] at h
  cases h
  have h3 := indexUpdate_ok h2
  dsimp only
  rw [find_labels]
  cases hf : s.findByLabels row.2 with
  | none =>
    rw [hf] at h1
    cases h1
    have h0 := indexUpdate_pos h2 ⟨r, hrm, rfl⟩
    rw [if_neg (by rw [← hri]; exact h0)]
    subst h3
    refine ⟨[], ?_, by rw [List.append_nil, hacc], Moved.of_eq rfl rfl⟩
    rw [List.append_nil, ← hri]
    rfl
  | some o =>
    rw [hf] at h1
    unfold mergeConflict at h1
    rw [ite_ok] at h1
    obtain ⟨_, h1⟩ | ⟨hmg, h1⟩ := h1
    · exact absurd h1 (by simp [throw_ok])
    simp only [bind_ok, pure_ok] at h1
    obtain ⟨_, t1, hmw, _, t2, hmp, _, t3, hd, h1⟩ := h1
    cases h1
    obtain ⟨hd0, hd1⟩ := indexDelete_ok hd
    have ho := List.mem_of_find?_eq_some hf
    have hol : o.labels = row.2 := by simpa using List.find?_some hf
    have hne : o.id ≠ row.1 := fun he => hown o ho he hol
    have hs1 := (mergeWeights_does ..).steps _ _ _ hmw
    have hs2 := (mergeMappings_does ..).steps _ _ _ hmp
    have hi2 : t2.index = s.index := by rw [hs2.index_eq (by decide), hs1.index_eq (by decide)]
    have ho0 : o.id ≠ 0 := fun h0 => hd0 h0 o (by rw [hi2]; exact ho) h0
    have h0 := indexUpdate_pos h2 ⟨r, by
      rw [hd1]
      dsimp only
      rw [hi2]
      exact List.mem_filter.2 ⟨hrm, by simpa using fun h : r.id = o.id => hne (h.symm.trans hri)⟩, rfl⟩
    rw [if_neg (by rw [← hri]; exact h0)]
    dsimp only
    rw [if_neg hne, if_neg (by
      rintro (h | h)
      · rw [h] at hmg; exact hmg rfl
      · exact ho0 h)]
    subst h3
    refine ⟨[(o.id, row.1)], ?_, by rw [hacc, List.map_append]; rfl, ?_⟩
    · congr 2
      rw [hd1]
      dsimp only
      rw [hi2, ← hri]
      unfold withLabels upd
      congr 1
      exact List.filter_congr fun x _ => by rw [Bool.eq_iff_iff]; simp
    · have hm1 : t1.maps = s.maps := hs1.maps_eq (by decide)
      have hw2 : t2.weights = t1.weights := hs2.weights_eq (by decide)
      rw [← hri]
      have e : ends [(o.id, r.id)] = moveTo o.id r.id := rfl
      rw [e]
      subst hd1
      refine ⟨fun g p => ?_, fun k p => ?_⟩
      · have := mergeWeights_moves hw.ids hmw g p
        unfold Store.weightsIn at this ⊢
        dsimp only
        rw [hw2]
        exact this
      · have := mergeMappings_moves (by rw [hm1]; exact hm.ids) hmp k p
        unfold Store.mapsIn at this ⊢
        rw [hm1] at this
        exact this

theorem Relabelled.row_mem {merge : Bool} {t t' : Relabelled} {row : Nat × List PyStr}
    (h : Relabelled.row merge t row = some t') : ∀ y ∈ t'.recs, y.id = row.1 ∨ y ∈ t.recs := by
  unfold Relabelled.row at h
  intro y hy
  split at h
  · cases h; exact .inr hy
  split at h
  · split at h
    · cases h
    · cases h; exact .inr hy
  split at h
  · cases h
  split at h
  · cases h
    obtain ⟨x, hx, rfl⟩ := List.mem_map.1 hy
    split
    · exact .inl rfl
    · exact .inr hx
  · split at h
    · cases h; exact .inr hy
    split at h
    · cases h
    · cases h
      obtain ⟨x, hx, rfl⟩ := List.mem_map.1 hy
      split
      · exact .inl rfl
      · exact .inr (List.mem_of_mem_filter hx)

theorem ends_append (a b : List (Nat × Nat)) (i : Nat) : ends (a ++ b) i = ends b (ends a i) := by
  unfold ends
  rw [List.foldl_append]

theorem updateIndexRows_spec {merge : Bool} {rows : List (Nat × List PyStr)} : ∀ {acc acc' : UpdateAcc} {s s' : Store}
    {into : List (Nat × Nat)} (_ : WeightInv s) (_ : MapInv s) (_ : (rows.map (·.1)).Nodup)
    (_ : ∀ row ∈ rows, ∀ r ∈ s.index, r.id = row.1 → r.labels ≠ row.2) (_ : acc.merged = into.map (·.1))
    (_ : rows.foldlM (updateIndexRow merge) acc s = .ok (acc', s')),
    ∃ ext, Relabelled.rows merge rows ⟨s.index, into⟩ = some ⟨s'.index, into ++ ext⟩ ∧
      acc'.merged = (into ++ ext).map (·.1) ∧ Moved s s' (ends ext) := by
  induction rows with
  | nil =>
    intro acc acc' s s' into _ _ _ _ hacc h
    cases h
    exact ⟨[], by rw [List.append_nil]; rfl, by rw [List.append_nil, hacc], Moved.of_eq rfl rfl⟩
  | cons row rows ih =>
    intro acc acc' s s' into hw hm hnd hown hacc h
    obtain ⟨acc1, t, h1, h2⟩ := foldlM_cons_ok.1 h
    rw [List.map_cons, List.nodup_cons] at hnd
    obtain ⟨ext1, k1, k2, k3⟩ := updateIndexRow_spec hw hm (hown row List.mem_cons_self) hacc h1
    have hst := (updateIndexRow_does merge acc row).steps _ _ _ h1
    obtain ⟨ext2, i1, i2, i3⟩ := ih (hw.steps hst) (hm.steps hst) hnd.2 (by
      intro row' hr' y hy hyi
      rcases Relabelled.row_mem k1 y hy with hy' | hy'
      · exact absurd (hyi.symm.trans hy') (fun he => hnd.1 (he ▸ List.mem_map_of_mem hr'))
      · exact hown row' (List.mem_cons_of_mem _ hr') y hy' hyi) k2 h2
    refine ⟨ext1 ++ ext2, ?_, by rw [i2, List.append_assoc], ?_⟩
    · unfold Relabelled.rows at i1 ⊢
      rw [List.foldlM_cons, k1, ← List.append_assoc]
      exact i1
    · have : ends (ext1 ++ ext2) = fun i => ends ext2 (ends ext1 i) := funext (ends_append ext1 ext2)
      rw [this]
      exact k3.trans i3

end Toron.Space
