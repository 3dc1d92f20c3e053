/-
The counters of the methods that take a table.
-/
import Verif.Spec.Reports
import Verif.Lemmas.Store.Merge
import Verif.Lemmas.Store.Maps
import Verif.Lemmas.Store.Call
import Verif.Lemmas.Store.Policies
import Verif.Lemmas.Store.Complete

namespace Toron.Space

open Toron.Selectors (PyStr)

variable {α ρ : Type}

theorem account_of {f : α → ρ → M α} {keys : Store → ρ → List Key} {R : Store → ρ → List Key → Store → Prop}
    {P : Store → Prop} (hR : ∀ a r s a' s', P s → f a r s = .ok (a', s') → R s r (keys s r) s')
    (hP : ∀ a r s a' s', P s → f a r s = .ok (a', s') → P s') :
    ∀ {rows : List ρ} {a a' : α} {s s' : Store}, P s → rows.foldlM f a s = .ok (a', s') →
      Account R s rows (counted f keys a rows s) s'
  | [], a, a', s, s', _, h => by
    rw [List.foldlM_nil, pure_ok] at h
    cases h
    exact .nil _
  | r :: rs, a, a', s, s', hs, h => by
    obtain ⟨b, t, h1, h2⟩ := foldlM_cons_ok.1 h
    have := account_of hR hP (hP _ _ _ _ _ hs h1) h2
    unfold counted
    rw [h1]
    exact .cons (hR _ _ _ _ _ hs h1) this

theorem keep_ofP {f : α → ρ → M α} {keys : Store → ρ → List Key} {P : Store → Prop}
    (hk : ∀ a r s a' s', P s → f a r s = .ok (a', s') →
      ((∀ k ∈ keys s r, k.skip = true) ∧ a' = a ∧ s' = s) ∨ ∀ k ∈ keys s r, k.skip = false)
    (hP : ∀ a r s a' s', P s → f a r s = .ok (a', s') → P s') :
    ∀ {rows : List ρ} {a a' : α} {s s' : Store}, P s → rows.foldlM f a s = .ok (a', s') →
      ∃ kept, kept.Sublist rows ∧ kept.foldlM f a s = .ok (a', s') ∧
        counted f keys a kept s = (counted f keys a rows s).filter fun k => !k.skip
  | [], a, a', s, s', _, h => ⟨[], List.Sublist.refl _, h, rfl⟩
  | r :: rs, a, a', s, s', hs, h => by
    obtain ⟨b, t, h1, h2⟩ := foldlM_cons_ok.1 h
    obtain ⟨kept, k1, k2, k3⟩ := keep_ofP hk hP (hP _ _ _ _ _ hs h1) h2
    obtain ⟨hs, rfl, rfl⟩ | hs := hk _ _ _ _ _ hs h1
    · refine ⟨kept, k1.cons _, k2, ?_⟩
      conv_rhs => unfold counted
      rw [h1, List.filter_append, List.filter_eq_nil_iff.2 (fun k hk' => by simp [hs k hk'])]
      exact k3
    · refine ⟨r :: kept, k1.cons_cons _, foldlM_cons_ok.2 ⟨b, t, h1, k2⟩, ?_⟩
      unfold counted
      rw [h1, List.filter_append, List.filter_eq_self.2 (fun k hk' => by simp [hs k hk'])]
      exact congrArg _ k3

theorem keep_of {f : α → ρ → M α} {keys : Store → ρ → List Key}
    (hk : ∀ a r s a' s', f a r s = .ok (a', s') →
      ((∀ k ∈ keys s r, k.skip = true) ∧ a' = a ∧ s' = s) ∨ ∀ k ∈ keys s r, k.skip = false)
    {rows : List ρ} {a a' : α} {s s' : Store} (h : rows.foldlM f a s = .ok (a', s')) :
    ∃ kept, kept.Sublist rows ∧ kept.foldlM f a s = .ok (a', s') ∧
      counted f keys a kept s = (counted f keys a rows s).filter fun k => !k.skip :=
  keep_ofP (P := fun _ => True) (fun a r s a' s' _ => hk a r s a' s') (fun _ _ _ _ _ _ _ => trivial) trivial h

theorem Account.keys {R : Store → ρ → List Key → Store → Prop} {P : Key → Prop}
    (h1 : ∀ s r ks s', R s r ks s' → ∀ k ∈ ks, P k) {s s' : Store} {rows : List ρ}
    {ks : List Key} (h : Account R s rows ks s') : ∀ k ∈ ks, P k := by
  induction h with
  | nil => simp
  | cons hr _ ih =>
    intro k hk
    obtain hk | hk := List.mem_append.1 hk
    · exact h1 _ _ _ _ hr k hk
    · exact ih k hk

theorem counted_keys {f : α → ρ → M α} {keys : Store → ρ → List Key} {P : Key → Prop} (h : ∀ s r, ∀ k ∈ keys s r, P k) :
    ∀ (rows : List ρ) (a : α) (s : Store), ∀ k ∈ counted f keys a rows s, P k
  | [], a, s, k, hk => by cases hk
  | r :: rs, a, s, k, hk => by
    unfold counted at hk
    obtain hk | hk := List.mem_append.1 hk
    · exact h s r k hk
    · cases hf : f a r s with
      | error e => rw [hf] at hk; cases hk
      | ok x =>
        rw [hf] at hk
        exact counted_keys h rs _ _ k hk

theorem updateIndexKeys_order (s : Store) (row : Nat × List PyStr) : ∀ k ∈ updateIndexKeys s row, k ∈ warningOrder := by
  unfold updateIndexKeys
  split_ifs
  · simp [warningOrder]
  · split
    · simp [warningOrder]
    · split <;> simp [warningOrder]

theorem deleteIndexKeys_order (s : Store) (row : Nat × List PyStr) : ∀ k ∈ deleteIndexKeys s row, k ∈ warningOrder := by
  unfold deleteIndexKeys
  split
  · simp [warningOrder]
  · split_ifs <;> simp [warningOrder]

theorem mapRowKeys_order {s : Store} {row : MapRow} {d : List Key} (hd : ∀ k ∈ d, k ∈ warningOrder) :
    ∀ k ∈ (mapRowKeys s row).getD d, k ∈ warningOrder := by
  unfold mapRowKeys
  split
  · simp [warningOrder]
  · split_ifs
    · simp [warningOrder]
    · simp [warningOrder]
    · simpa using hd

theorem deleteMappingKeys_order (link : Nat) (s : Store) (row : MapRow) :
    ∀ k ∈ deleteMappingKeys link s row, k ∈ warningOrder := by
  unfold deleteMappingKeys
  split
  · simp [warningOrder]
  · split_ifs
    · simp [warningOrder]
    · split
      · simp [warningOrder]
      · split_ifs <;> simp [warningOrder]

theorem findWGroup_of {name : PyStr} {g : WGroup} {s s' : Store} (h : wgroupGetByName name s = .ok (g, s')) :
    s.findWGroup name = some g := by
  unfold wgroupGetByName at h
  obtain ⟨_, _, hg, h⟩ := bind_ok.1 h
  cases get_ok.1 hg
  cases hf : s.findWGroup name with
  | none => simp only [hf] at h; cases h
  | some x => simp only [hf] at h; cases h; rfl

theorem Account.length {R : Store → ρ → List Key → Store → Prop}
    (h1 : ∀ s r ks s', R s r ks s' → ks.countP (fun k => k != .merged) = 1) {s s' : Store} {rows : List ρ}
    {ks : List Key} (h : Account R s rows ks s') : ks.countP (fun k => k != .merged) = rows.length := by
  induction h with
  | nil => rfl
  | cons hr _ ih => rw [List.countP_append, h1 _ _ _ _ hr, ih, List.length_cons]; omega

theorem find_id_none {s : Store} {i : Nat} (h : s.index.find? (fun r => r.id == i) = none) : ¬ s.HasId i := by
  rintro ⟨r, hr, hi⟩
  have := List.find?_eq_none.1 h r hr
  simp [hi] at this

theorem find_id_some {s : Store} {i : Nat} {r : IndexRec} (h : s.index.find? (fun r => r.id == i) = some r) :
    r ∈ s.index ∧ r.id = i :=
  ⟨List.mem_of_find?_eq_some h, by simpa using List.find?_some h⟩

theorem step_congr {op op' : Op} {m m' : M Unit} {s : Store} (h : op.body = some m) (h' : op'.body = some m')
    (he : m s = m' s) : step op s = step op' s := by
  rw [step_of_body h, step_of_body h']
  unfold runTx
  rw [he]

theorem bind_congr_left {β γ : Type} {x y : M β} {f : β → M γ} {s : Store} (h : x s = y s) :
    (x >>= f) s = (y >>= f) s := by
  show (x s >>= fun p => f p.1 p.2) = (y s >>= fun p => f p.1 p.2)
  rw [h]

theorem sum_count_of_nodup {l ks : List Key} (hl : l.Nodup) (h : ∀ k ∈ ks, k ∈ l) :
    (l.map fun k => ks.count k).sum = ks.length := by
  induction ks with
  | nil => simp
  | cons a ks ih =>
    have h1 := ih (fun k hk => h k (List.mem_cons_of_mem _ hk))
    have ha := h a List.mem_cons_self
    simp only [List.count_cons, List.sum_map_add, h1, List.length_cons]
    congr 1
    have : (l.map fun k => if (a == k) = true then 1 else 0).sum = l.count a := by
      rw [List.count_eq_countP]
      clear hl h h1 ha ih
      induction l with
      | nil => rfl
      | cons b l ih =>
        rw [List.map_cons, List.sum_cons, ih, List.countP_cons]
        by_cases hab : a = b
        · simp [hab, Nat.add_comm]
        · have hba : b ≠ a := fun h => hab h.symm
          simp [hab, hba]
    rw [this, List.count_eq_one_of_mem hl ha]

theorem keep_or {f : Bool → ρ → M Bool} {kept : List ρ} {d : Bool} {s t : Store}
    (h : kept.foldlM f false s = .ok (d, t)) (hk : kept = []) : d = false ∧ t = s := by
  subst hk
  rw [List.foldlM_nil, pure_ok] at h
  cases h
  exact ⟨rfl, rfl⟩

theorem replicate_of {ks : List Key} {e : Key} {n : Nat} (he : e ≠ .merged)
    (hn : ks.countP (fun k => k != .merged) = n) (h : ∀ k ∈ ks, k = e) : ks = List.replicate n e := by
  refine List.eq_replicate_iff.2 ⟨?_, h⟩
  rw [← hn, List.countP_eq_length.2]
  intro k hk
  simp [h k hk, he]

theorem wgroupGetOrAdd_ok {name : PyStr} {g : WGroup} {s s' : Store} (h : wgroupGetOrAdd name s = .ok (g, s')) :
    g ∈ s'.wgroups ∧ g.name = name := by
  unfold wgroupGetOrAdd at h
  obtain ⟨_, _, hg, h⟩ := bind_ok.1 h
  cases get_ok.1 hg
  obtain ⟨_, t, h1, h⟩ := bind_ok.1 h
  obtain ⟨rfl, h2, h3⟩ := wgroupGetByName_ok h
  exact ⟨h2, h3⟩

/-! ### `update_index` -/

theorem updateIndexRow_report {merge : Bool} {acc acc' : UpdateAcc} {row : Nat × List PyStr} {s s' : Store}
    (h : updateIndexRow merge acc row s = .ok (acc', s')) :
    UpdateIndexRow s row (updateIndexKeys s row) s' ∧
    (((∀ k ∈ updateIndexKeys s row, k.skip = true) ∧ acc' = acc ∧ s' = s) ∨
      ∀ k ∈ updateIndexKeys s row, k.skip = false) := by
  unfold updateIndexKeys
  by_cases he : [] ∈ row.2
  · rw [if_pos he]
    unfold updateIndexRow at h
    rw [if_pos he, pure_ok] at h
    cases h
    exact ⟨.emptyStr he, .inl ⟨by simp [Key.skip], by trivial, by trivial⟩⟩
  rw [if_neg he]
  cases hf : s.index.find? (fun r => r.id == row.1) with
  | none =>
    unfold updateIndexRow at h
    rw [if_neg he, bind_ok] at h
    obtain ⟨_, _, hg, h⟩ := h
    rw [get_ok] at hg
    cases hg
    simp only [hf] at h
    rw [ite_ok] at h
    obtain ⟨_, h⟩ | ⟨_, h⟩ := h
    · exact absurd h (by simp [throw_ok])
    · rw [pure_ok] at h
      cases h
      exact ⟨.noIndex (find_id_none hf), .inl ⟨by simp [Key.skip], by trivial, by trivial⟩⟩
  | some r0 =>
    obtain ⟨hr0, hi0⟩ := find_id_some hf
    have hid : s.HasId row.1 := ⟨r0, hr0, hi0⟩
    unfold updateIndexRow at h
    rw [if_neg he, bind_ok] at h
    obtain ⟨_, _, hg, h⟩ := h
    rw [get_ok] at hg
    cases hg
    simp only [hf] at h
    rw [bind_ok] at h
    obtain ⟨acc1, t, h1, h⟩ := h
    rw [bind_ok] at h
    obtain ⟨_, t', h2, h⟩ := h
    rw [pure_ok] at h
    cases h
    obtain rfl := indexUpdate_ok h2
    cases hl : s.findByLabels row.2 with
    | none =>
      rw [hl] at h1
      unfold mergeConflict at h1
      rw [pure_ok] at h1
      cases h1
      have hno : ∀ r ∈ s.index, r.labels ≠ row.2 := fun r hr he' => by
        have := List.find?_eq_none.1 hl r hr
        simp [he'] at this
      refine ⟨?_, .inr (by simp [Key.skip])⟩
      have : upd IndexRec.id { r0 with labels := row.2 } s.index = withLabels row.1 row.2 s.index := by
        unfold upd withLabels
        refine List.map_congr_left fun x hx => ?_
        simp only [hi0]
      rw [this]
      exact .updated hid hno
    | some o =>
      rw [hl] at h1
      unfold mergeConflict at h1
      rw [ite_ok] at h1
      obtain ⟨_, h1⟩ | ⟨_, h1⟩ := h1
      · exact absurd h1 (by simp [throw_ok])
      rw [bind_ok] at h1
      obtain ⟨_, t1, g1, h1⟩ := h1
      rw [bind_ok] at h1
      obtain ⟨_, t2, g2, h1⟩ := h1
      rw [bind_ok] at h1
      obtain ⟨_, t3, g3, h1⟩ := h1
      rw [pure_ok] at h1
      cases h1
      have e1 : t1.index = s.index := ((mergeWeights_does _ _).steps _ _ _ g1).index_eq (by decide)
      have e2 : t2.index = t1.index := ((mergeMappings_does _ _).steps _ _ _ g2).index_eq (by decide)
      obtain ⟨_, rfl⟩ := indexDelete_ok g3
      refine ⟨?_, .inr (by simp [Key.skip])⟩
      refine .merged hid (List.mem_of_find?_eq_some hl) (by simpa using List.find?_some hl) ?_
      show upd IndexRec.id _ (t2.index.filter _) = _
      rw [e2, e1]
      unfold upd withLabels
      refine List.map_congr_left fun x hx => ?_
      simp only [hi0]

/-! ### `delete_index` -/

theorem not_isRecord {s : Store} (hs : (s.index.map (·.id)).Nodup) {r : IndexRec} {labels : List PyStr} (hr : r ∈ s.index)
    (hl : r.labels ≠ labels) : ¬ s.IsRecord r.id labels := by
  rintro ⟨x, hx, hi, hxl⟩
  have := List.inj_on_of_nodup_map hs hx hr hi
  exact hl (this ▸ hxl)

theorem deleteIndexRow_skip {d d' : Bool} {row : Nat × List PyStr} {s s' : Store}
    (h : deleteIndexRow d row s = .ok (d', s')) :
    ((∀ k ∈ deleteIndexKeys s row, k.skip = true) ∧ d' = d ∧ s' = s) ∨
      ∀ k ∈ deleteIndexKeys s row, k.skip = false := by
  unfold deleteIndexRow at h
  rw [bind_ok] at h
  obtain ⟨_, _, hg, h⟩ := h
  rw [get_ok] at hg
  cases hg
  unfold deleteIndexKeys
  cases hf : s.index.find? (fun r => r.id == row.1) with
  | none =>
    simp only [hf] at h
    rw [pure_ok] at h
    cases h
    exact .inl ⟨by simp [Key.skip], by trivial, by trivial⟩
  | some r =>
    simp only [hf] at h
    by_cases hl : r.labels ≠ row.2
    · rw [if_pos hl, pure_ok] at h
      cases h
      exact .inl ⟨by simp [Key.skip, hl], rfl, rfl⟩
    · exact .inr (by simp [Key.skip, hl])

theorem deleteIndexRow_report {d d' : Bool} {row : Nat × List PyStr} {s s' : Store}
    (hs : (s.index.map (·.id)).Nodup) (hw : (s.weights.map (·.id)).Nodup) (hm : (s.maps.map (·.id)).Nodup)
    (h : deleteIndexRow d row s = .ok (d', s')) : DeleteIndexRow s row (deleteIndexKeys s row) s' := by
  unfold deleteIndexRow at h
  rw [bind_ok] at h
  obtain ⟨_, _, hg, h⟩ := h
  rw [get_ok] at hg
  cases hg
  unfold deleteIndexKeys
  cases hf : s.index.find? (fun r => r.id == row.1) with
  | none =>
    simp only [hf] at h
    rw [pure_ok] at h
    cases h
    exact .noIndex (find_id_none hf)
  | some r =>
    obtain ⟨hr, hi⟩ := find_id_some hf
    simp only [hf] at h
    by_cases hl : r.labels ≠ row.2
    · rw [if_pos hl, pure_ok] at h
      cases h
      simp only [if_pos hl]
      exact .mismatch ⟨r, hr, hi⟩ (hi ▸ not_isRecord hs hr hl)
    · rw [if_neg hl, bind_ok] at h
      obtain ⟨_, t, h1, h⟩ := h
      rw [pure_ok] at h
      cases h
      obtain ⟨_, _, rfl⟩ := deleteIndexRecord_ok hw hm h1
      simp only [if_neg hl]
      refine .deleted ⟨r, hr, hi, not_not.1 hl⟩ (by rw [hi]) (by rw [hi]) ?_
      intro m hmm
      have : m.index ∈ (s.maps.filter fun m => m.index != r.id).map (·.index) := by
        have h1 : ((mapsWithout (s.links.map (·.id)) s.maps r.id).map (·.index)) =
            ((s.maps.filter fun m => m.index != r.id).map (·.index)) := by
          unfold mapsWithout refreshMaps
          rw [List.map_map]
          refine List.map_congr_left fun x _ => ?_
          simp only [Function.comp]
          split_ifs <;> rfl
        rw [← h1]
        exact List.mem_map_of_mem hmm
      obtain ⟨x, hx, he⟩ := List.mem_map.1 this
      rw [← he, ← hi]
      simpa using (List.mem_filter.1 hx).2

/-! ### Weights -/

theorem weightRowRecord_some {s : Store} {row : WeightRow} {r : IndexRec} (h : s.weightRowRecord row = some r) :
    row.Names s r := by
  unfold Store.weightRowRecord at h
  cases hv : row.idv with
  | none =>
    simp only [hv] at h
    exact ⟨List.mem_of_find?_eq_some h, by simpa using List.find?_some h, by simp [hv]⟩
  | some i =>
    simp only [hv] at h
    obtain ⟨h1, h2⟩ := Option.filter_eq_some_iff.1 h
    obtain ⟨hr, hi⟩ := find_id_some h1
    exact ⟨hr, by simpa using h2, fun j hj => by rw [hv] at hj; cases hj; exact hi⟩

theorem insertWeightRow_report {group : Nat} {p : Policy} {b b' : Bool} {row : WeightRow} {s s' : Store}
    (hs : (s.index.map (·.id)).Nodup) (hg : ∃ g ∈ s.wgroups, g.id = group) (h : insertWeightRow group p b row s = .ok (b', s')) :
    InsertWeightRow group p s row (insertWeightKeys group p s row) s' := by
  unfold insertWeightRow at h
  unfold insertWeightKeys
  cases hv : row.value with
  | none =>
    simp only [hv] at h
    rw [pure_ok] at h
    cases h
    exact .notRealnum hv
  | some v =>
    simp only [hv] at h
    rw [bind_ok] at h
    obtain ⟨_, _, hg, h⟩ := h
    rw [get_ok] at hg
    cases hg
    cases hr : s.weightRowRecord row with
    | none =>
      simp only [hr] at h
      rw [pure_ok] at h
      cases h
      cases hi : row.idv with
      | none =>
        refine .noMatch hi fun r hr' he => ?_
        unfold Store.weightRowRecord at hr
        simp only [hi] at hr
        have := List.find?_eq_none.1 hr r hr'
        simp [he] at this
      | some i =>
        simp only
        by_cases ha : s.index.any (fun r => r.id == i) = true
        · simp only [ha, if_true]
          obtain ⟨r, hr', hri⟩ := List.any_eq_true.1 ha
          have hri : r.id = i := by simpa using hri
          refine .mismatch hi ⟨r, hr', hri⟩ ?_
          rintro ⟨x, hx, hxi, hxl⟩
          unfold Store.weightRowRecord at hr
          simp only [hi] at hr
          have hf : s.index.find? (fun r => r.id == i) = some x := by
            cases hf : s.index.find? (fun r => r.id == i) with
            | none => exact absurd ⟨x, hx, hxi⟩ (find_id_none hf)
            | some y =>
              obtain ⟨hy, hyi⟩ := find_id_some hf
              rw [List.inj_on_of_nodup_map hs hy hx (hyi.trans hxi.symm)]
          rw [hf] at hr
          simp [hxl] at hr
        · simp only [ha]
          refine .noIndex hi ?_
          rintro ⟨x, hx, hxi⟩
          exact ha (List.any_eq_true.2 ⟨x, hx, by simp [hxi]⟩)
    | some r =>
      have hn := weightRowRecord_some hr
      simp only [hr] at h
      by_cases h0 : r.id = 0
      · rw [if_pos h0, pure_ok] at h
        cases h
        simp only [if_pos h0]
        exact .undefinedRecord hn h0
      · rw [if_neg h0] at h
        simp only [if_neg h0]
        cases hres : weightAddOrResolve group r.id v p s with
        | error e => simp only [hres] at h; cases h
        | ok x =>
          obtain ⟨res, t⟩ := x
          have ht : s' = t := by
            simp only [hres] at h
            cases res <;> · cases h; rfl
          subst ht
          unfold weightAddOrResolve at hres
          cases ha : weightAdd group r.id v s with
          | ok y =>
            obtain ⟨u, t'⟩ := y
            simp only [ha] at hres
            cases hres
            obtain ⟨_, _, h3, rfl⟩ := weightAdd_ok ha
            exact .inserted hn hv h0 h3
          | error e =>
            simp only [ha] at hres
            cases e with
            | valueError tag =>
              simp only at hres
              by_cases hc : r.id = 0 ∨ v < 0
              · rw [if_pos hc] at hres; cases hres
              rw [if_neg hc] at hres
              by_cases hp : p = .ignore
              · rw [if_pos hp] at hres
                cases hres
                refine .skipped hn hp ?_
                by_contra hno
                unfold weightAdd at ha
                replace ha : (if r.id = 0 then throw (.valueError "cannot assign weight to the undefined record")
                  else if v < 0 then throw (.valueError "value cannot be negative")
                  else if s.weights.any (fun w => w.group == group && w.index == r.id) then
                    throw (.valueError "a weight already exists")
                  else if s.fk ∧ ¬ (s.wgroups.any fun g => g.id == group) then
                    throw (.valueError "no group or index matching")
                  else put { s with weights := s.weights ++ [⟨nextId (s.weights.map (·.id)), group, r.id, v⟩] } :
                    M Unit) s = _ := ha
                rw [if_neg h0, if_neg (fun h => hc (.inr h)), if_neg, if_neg] at ha
                · cases ha
                · rintro ⟨_, hn'⟩
                  obtain ⟨g, hgm, hgi⟩ := hg
                  exact hn' (List.any_eq_true.2 ⟨g, hgm, by simp [hgi]⟩)
                · intro hany
                  obtain ⟨w, hw, hwe⟩ := List.any_eq_true.1 hany
                  exact hno ⟨w, hw, by simpa using hwe⟩
              · rw [if_neg hp] at hres
                cases hw : s.findWeight group r.id with
                | none => simp only [hw] at hres; cases hres
                | some w =>
                  have hw1 := List.mem_of_find?_eq_some hw
                  have hw2 : w.group = group ∧ w.index = r.id := by simpa using List.find?_some hw
                  simp only [hw] at hres
                  cases p with
                  | replace =>
                    simp only at hres
                    rw [bind_ok] at hres
                    obtain ⟨_, t', h1, h2⟩ := hres
                    rw [pure_ok] at h2
                    cases h2
                    obtain ⟨_, rfl⟩ := weightSetValue_ok h1
                    exact .overwritten hn hv rfl hw1 hw2.1 hw2.2
                  | sum =>
                    simp only at hres
                    rw [bind_ok] at hres
                    obtain ⟨_, t', h1, h2⟩ := hres
                    rw [pure_ok] at h2
                    cases h2
                    obtain ⟨_, rfl⟩ := weightSetValue_ok h1
                    exact .summed hn hv rfl hw1 hw2.1 hw2.2
                  | ignore => exact absurd rfl hp
                  | abort => cases hres
                  | other => cases hres
            | _ => cases hres

theorem insertWeightRow_skip {group : Nat} {p : Policy} {b b' : Bool} {row : WeightRow} {s s' : Store}
    (h : insertWeightRow group p b row s = .ok (b', s')) :
    ((∀ k ∈ insertWeightKeys group p s row, k.skip = true) ∧ b' = b ∧ s' = s) ∨
      ∀ k ∈ insertWeightKeys group p s row, k.skip = false := by
  unfold insertWeightRow at h
  unfold insertWeightKeys
  cases hv : row.value with
  | none =>
    simp only [hv] at h
    rw [pure_ok] at h
    cases h
    exact .inl ⟨by simp [Key.skip], by trivial, by trivial⟩
  | some v =>
    simp only [hv] at h
    rw [bind_ok] at h
    obtain ⟨_, _, hg, h⟩ := h
    rw [get_ok] at hg
    cases hg
    cases hr : s.weightRowRecord row with
    | none =>
      simp only [hr] at h
      rw [pure_ok] at h
      cases h
      refine .inl ⟨?_, rfl, rfl⟩
      cases row.idv with
      | none => simp [Key.skip]
      | some i =>
        simp only
        split_ifs <;> simp [Key.skip]
    | some r =>
      simp only [hr] at h
      by_cases h0 : r.id = 0
      · rw [if_pos h0, pure_ok] at h
        cases h
        simp only [if_pos h0]
        exact .inl ⟨by simp [Key.skip], by trivial, by trivial⟩
      · rw [if_neg h0] at h
        simp only [if_neg h0]
        cases hres : weightAddOrResolve group r.id v p s with
        | error e => simp only [hres] at h; cases h
        | ok x =>
          obtain ⟨res, t⟩ := x
          simp only [hres] at h
          cases res with
          | inserted => exact .inr (by simp [Key.skip, Resolved.key])
          | overwritten => exact .inr (by simp [Key.skip, Resolved.key])
          | summed => exact .inr (by simp [Key.skip, Resolved.key])
          | skipped =>
            cases h
            refine .inl ⟨by simp [Key.skip, Resolved.key], rfl, ?_⟩
            unfold weightAddOrResolve at hres
            cases ha : weightAdd group r.id v s with
            | ok y => simp only [ha] at hres; cases hres
            | error e =>
              simp only [ha] at hres
              cases e with
              | valueError tag =>
                simp only at hres
                by_cases hc : r.id = 0 ∨ v < 0
                · rw [if_pos hc] at hres; cases hres
                rw [if_neg hc] at hres
                by_cases hp : p = .ignore
                · rw [if_pos hp] at hres; cases hres; rfl
                · rw [if_neg hp] at hres
                  cases hw : s.findWeight group r.id with
                  | none => simp only [hw] at hres; cases hres
                  | some w =>
                    simp only [hw] at hres
                    cases p with
                    | replace =>
                      simp only at hres
                      rw [bind_ok] at hres
                      obtain ⟨_, t', h1, h2⟩ := hres
                      rw [pure_ok] at h2
                      cases h2
                    | sum =>
                      simp only at hres
                      rw [bind_ok] at hres
                      obtain ⟨_, t', h1, h2⟩ := hres
                      rw [pure_ok] at h2
                      cases h2
                    | ignore => exact absurd rfl hp
                    | abort => cases hres
                    | other => cases hres
              | _ => cases hres

theorem findWeight_none {s : Store} {g i : Nat} (h : s.findWeight g i = none) :
    ∀ w ∈ s.weights, ¬ (w.group = g ∧ w.index = i) := by
  intro w hw ⟨h1, h2⟩
  have := List.find?_eq_none.1 h w hw
  simp [h1, h2] at this

theorem updateWeightRow_report {group : Nat} {b b' : Bool} {row : Nat × List PyStr × ℚ} {s s' : Store}
    (hs : (s.index.map (·.id)).Nodup) (h : updateWeightRow group b row s = .ok (b', s')) :
    UpdateWeightRow group s row (updateWeightKeys group s row) s' ∧
    (((∀ k ∈ updateWeightKeys group s row, k.skip = true) ∧ b' = b ∧ s' = s) ∨
      ∀ k ∈ updateWeightKeys group s row, k.skip = false) := by
  unfold updateWeightRow at h
  rw [bind_ok] at h
  obtain ⟨_, _, hg, h⟩ := h
  rw [get_ok] at hg
  cases hg
  unfold updateWeightKeys
  cases hf : s.index.find? (fun r => r.id == row.1) with
  | none =>
    simp only [hf] at h
    rw [pure_ok] at h
    cases h
    exact ⟨.noIndex (find_id_none hf), .inl ⟨by simp [Key.skip], by trivial, by trivial⟩⟩
  | some r =>
    obtain ⟨hr, hi⟩ := find_id_some hf
    simp only [hf] at h
    by_cases hl : r.labels ≠ row.2.1
    · rw [if_pos hl, pure_ok] at h
      cases h
      simp only [if_pos hl]
      exact ⟨.mismatch ⟨r, hr, hi⟩ (hi ▸ not_isRecord hs hr hl), .inl ⟨by simp [Key.skip], by trivial, by trivial⟩⟩
    · rw [if_neg hl] at h
      simp only [if_neg hl]
      have hrec : s.IsRecord row.1 row.2.1 := ⟨r, hr, hi, not_not.1 hl⟩
      cases hw : s.findWeight group r.id with
      | none =>
        simp only [hw] at h
        rw [bind_ok] at h
        obtain ⟨_, t, h1, h⟩ := h
        rw [pure_ok] at h
        cases h
        obtain ⟨_, _, _, rfl⟩ := weightAdd_ok h1
        rw [hi] at hw ⊢
        exact ⟨.inserted hrec (findWeight_none hw), .inr (by simp [Key.skip])⟩
      | some w =>
        simp only [hw] at h
        rw [bind_ok] at h
        obtain ⟨_, t, h1, h⟩ := h
        rw [pure_ok] at h
        cases h
        obtain ⟨_, rfl⟩ := weightSetValue_ok h1
        rw [hi] at hw
        obtain ⟨w1, w2, w3⟩ := findWeight_some hw
        exact ⟨.updated hrec w1 w2 w3, .inr (by simp [Key.skip])⟩

theorem deleteWeightRow_report {group : Nat} {b b' : Bool} {row : Nat × List PyStr} {s s' : Store}
    (hs : (s.index.map (·.id)).Nodup) (h : deleteWeightRow group b row s = .ok (b', s')) :
    DeleteWeightRow group s row (deleteWeightKeys group s row) s' ∧
    (((∀ k ∈ deleteWeightKeys group s row, k.skip = true) ∧ b' = b ∧ s' = s) ∨
      ∀ k ∈ deleteWeightKeys group s row, k.skip = false) := by
  unfold deleteWeightRow at h
  rw [bind_ok] at h
  obtain ⟨_, _, hg, h⟩ := h
  rw [get_ok] at hg
  cases hg
  unfold deleteWeightKeys
  cases hf : s.index.find? (fun r => r.id == row.1) with
  | none =>
    simp only [hf] at h
    rw [pure_ok] at h
    cases h
    exact ⟨.noIndex (find_id_none hf), .inl ⟨by simp [Key.skip], by trivial, by trivial⟩⟩
  | some r =>
    obtain ⟨hr, hi⟩ := find_id_some hf
    simp only [hf] at h
    by_cases hl : r.labels ≠ row.2
    · rw [if_pos hl, pure_ok] at h
      cases h
      simp only [if_pos hl]
      exact ⟨.mismatch ⟨r, hr, hi⟩ (hi ▸ not_isRecord hs hr hl), .inl ⟨by simp [Key.skip], by trivial, by trivial⟩⟩
    · rw [if_neg hl] at h
      simp only [if_neg hl]
      have hrec : s.IsRecord row.1 row.2 := ⟨r, hr, hi, not_not.1 hl⟩
      unfold deleteWeightOf at h
      rw [bind_ok] at h
      obtain ⟨_, _, hg, h⟩ := h
      rw [get_ok] at hg
      cases hg
      cases hw : s.findWeight group r.id with
      | none =>
        simp only [hw] at h
        rw [pure_ok] at h
        cases h
        rw [hi] at hw
        exact ⟨.noWeight hrec (findWeight_none hw), .inl ⟨by simp [Key.skip], by trivial, by trivial⟩⟩
      | some w =>
        simp only [hw] at h
        rw [bind_ok] at h
        obtain ⟨_, t, h1, h⟩ := h
        rw [pure_ok] at h
        cases h
        unfold weightDelete at h1
        rw [modify_ok] at h1
        cases h1
        rw [hi] at hw
        obtain ⟨w1, w2, w3⟩ := findWeight_some hw
        exact ⟨.deleted hrec w1 w2 w3, .inr (by simp [Key.skip])⟩

/-! ### Mappings -/

theorem mapRowKeys_none {s : Store} {row : MapRow} : mapRowKeys s row = none ↔ s.mapRowOk row = true := by
  unfold mapRowKeys Store.mapRowOk
  cases s.index.find? (fun r => r.id == row.index) with
  | none => simp
  | some r =>
    simp only
    by_cases hl : r.labels = row.labels
    · cases s.levelOk row.level <;> simp [hl]
    · simp [hl]

theorem mapRowOk_true {s : Store} {row : MapRow} (h : s.mapRowOk row = true) :
    s.IsRecord row.index row.labels ∧ s.levelOk row.level = true := by
  unfold Store.mapRowOk at h
  rw [Bool.and_eq_true] at h
  refine ⟨?_, h.2⟩
  cases hf : s.index.find? (fun r => r.id == row.index) with
  | none => rw [hf] at h; simp at h
  | some r =>
    obtain ⟨hr, hi⟩ := find_id_some hf
    rw [hf] at h
    exact ⟨r, hr, hi, by simpa using h.1⟩

theorem mapRowKeys_some {s : Store} {row : MapRow} {ks : List Key} (hs : (s.index.map (·.id)).Nodup)
    (h : mapRowKeys s row = some ks) :
    s.mapRowOk row = false ∧ (∀ k ∈ ks, k.skip = true) ∧
    ((ks = [.noIndex] ∧ ¬ s.HasId row.index) ∨
      (ks = [.mismatch] ∧ s.HasId row.index ∧ ¬ s.IsRecord row.index row.labels) ∨
      (ks = [.badLevel] ∧ s.IsRecord row.index row.labels ∧ s.levelOk row.level = false)) := by
  have hok : s.mapRowOk row = false := by
    by_contra hc
    rw [mapRowKeys_none.2 (by simpa using hc)] at h
    cases h
  refine ⟨hok, ?_⟩
  unfold mapRowKeys at h
  cases hf : s.index.find? (fun r => r.id == row.index) with
  | none =>
    rw [hf] at h
    cases h
    exact ⟨by simp [Key.skip], .inl ⟨rfl, find_id_none hf⟩⟩
  | some r =>
    obtain ⟨hr, hi⟩ := find_id_some hf
    simp only [hf] at h
    by_cases hl : r.labels ≠ row.labels
    · rw [if_pos hl] at h
      cases h
      exact ⟨by simp [Key.skip], .inr (.inl ⟨rfl, ⟨r, hr, hi⟩, hi ▸ not_isRecord hs hr hl⟩)⟩
    · rw [if_neg hl] at h
      cases hlv : s.levelOk row.level with
      | true => simp [hlv] at h
      | false =>
        simp only [hlv] at h
        cases h
        exact ⟨by simp [Key.skip], .inr (.inr ⟨rfl, ⟨r, hr, hi, not_not.1 hl⟩, rfl⟩)⟩

theorem insertMappingRow_report {link : Nat} {b b' : Bool} {row : MapRow} {s s' : Store}
    (hs : (s.index.map (·.id)).Nodup) (h : insertMappingRow link b row s = .ok (b', s')) :
    InsertMappingRow link s row (insertMappingKeys s row) s' ∧
    (((∀ k ∈ insertMappingKeys s row, k.skip = true) ∧ b' = b ∧ s' = s) ∨
      ∀ k ∈ insertMappingKeys s row, k.skip = false) := by
  unfold insertMappingRow at h
  rw [bind_ok] at h
  obtain ⟨_, _, hg, h⟩ := h
  rw [get_ok] at hg
  cases hg
  unfold insertMappingKeys
  cases hk : mapRowKeys s row with
  | some ks =>
    obtain ⟨h1, h2, h3⟩ := mapRowKeys_some hs hk
    simp only [h1] at h
    cases h
    refine ⟨?_, .inl ⟨h2, rfl, rfl⟩⟩
    simp only [Option.getD_some]
    obtain ⟨rfl, h⟩ | ⟨rfl, h, h'⟩ | ⟨rfl, h, h'⟩ := h3
    · exact .noIndex h
    · exact .mismatch h h'
    · exact .badLevel h h'
  | none =>
    have h1 := mapRowKeys_none.1 hk
    obtain ⟨hrec, hlv⟩ := mapRowOk_true h1
    rw [h1] at h
    replace h : (match mappingAdd link row.other row.index row.level row.value none s with
      | .ok (_, s') => .ok (true, s')
      | .error _ => .error (.exception "mapping could not be added") : Except Err (Bool × Store)) = _ := h
    cases hm : mappingAdd link row.other row.index row.level row.value none s with
    | error e => rw [hm] at h; cases h
    | ok x =>
      obtain ⟨u, t⟩ := x
      rw [hm] at h
      cases h
      obtain ⟨lv, e1, _, rfl⟩ := mappingAdd_ok hm
      exact ⟨.inserted hrec hlv e1, .inr (by simp [Key.skip])⟩

theorem findMap_none {s : Store} {l i : Nat} {o : Int} (h : s.findMap l o i = none) :
    ∀ m ∈ s.maps, ¬ (m.link = l ∧ m.other = o ∧ m.index = i) := by
  intro w hw ⟨h1, h2, h3⟩
  have := List.find?_eq_none.1 h w hw
  simp [h1, h2, h3] at this

theorem findMap_some {s : Store} {l i : Nat} {o : Int} {m : Mapping} (h : s.findMap l o i = some m) :
    m ∈ s.maps ∧ m.link = l ∧ m.other = o ∧ m.index = i := by
  have := List.find?_some h
  simp only [Bool.and_eq_true, beq_iff_eq] at this
  exact ⟨List.mem_of_find?_eq_some h, this.1.1, this.1.2, this.2⟩

theorem updateMappingRow_report {link : Nat} {c c' : Bool × Bool} {row : MapRow} {s s' : Store}
    (hs : (s.index.map (·.id)).Nodup) (h : updateMappingRow link c row s = .ok (c', s')) :
    UpdateMappingRow link s row (updateMappingKeys link s row) s' ∧
    (((∀ k ∈ updateMappingKeys link s row, k.skip = true) ∧ c' = c ∧ s' = s) ∨
      ∀ k ∈ updateMappingKeys link s row, k.skip = false) := by
  unfold updateMappingRow at h
  rw [bind_ok] at h
  obtain ⟨_, _, hg, h⟩ := h
  rw [get_ok] at hg
  cases hg
  unfold updateMappingKeys
  cases hk : mapRowKeys s row with
  | some ks =>
    obtain ⟨h1, h2, h3⟩ := mapRowKeys_some hs hk
    simp only [h1] at h
    cases h
    refine ⟨?_, .inl ⟨h2, rfl, rfl⟩⟩
    simp only [Option.getD_some]
    obtain ⟨rfl, h⟩ | ⟨rfl, h, h'⟩ | ⟨rfl, h, h'⟩ := h3
    · exact .noIndex h
    · exact .mismatch h h'
    · exact .badLevel h h'
  | none =>
    have h1 := mapRowKeys_none.1 hk
    obtain ⟨hrec, hlv⟩ := mapRowOk_true h1
    rw [if_neg (by simp [h1])] at h
    simp only [Option.getD_none]
    cases hm : s.findMap link row.other row.index with
    | none =>
      simp only [hm] at h
      rw [bind_ok] at h
      obtain ⟨_, t, h2, h⟩ := h
      rw [pure_ok] at h
      cases h
      obtain ⟨lv, e1, _, rfl⟩ := mappingAdd_ok h2
      exact ⟨.inserted hrec hlv e1 (findMap_none hm), .inr (by simp [Key.skip])⟩
    | some m =>
      obtain ⟨m1, m2, m3, m4⟩ := findMap_some hm
      simp only [hm] at h
      cases hlevel : row.level with
      | none => simp only [hlevel] at h; cases h
      | some lv =>
        simp only [hlevel] at h
        rw [bind_ok] at h
        obtain ⟨_, t, h2, h⟩ := h
        rw [pure_ok] at h
        cases h
        obtain rfl := mappingUpdate_ok h2
        exact ⟨.updated (m := m) hrec hlv hlevel m1 m2 m3 m4, .inr (by simp [Key.skip])⟩

theorem deleteMappingRow_report {link : Nat} {b b' : Bool} {row : MapRow} {s s' : Store}
    (hs : (s.index.map (·.id)).Nodup) (h : deleteMappingRow link b row s = .ok (b', s')) :
    DeleteMappingRow link s row (deleteMappingKeys link s row) s' ∧
    (((∀ k ∈ deleteMappingKeys link s row, k.skip = true) ∧ b' = b ∧ s' = s) ∨
      ∀ k ∈ deleteMappingKeys link s row, k.skip = false) := by
  unfold deleteMappingRow at h
  rw [bind_ok] at h
  obtain ⟨_, _, hg, h⟩ := h
  rw [get_ok] at hg
  cases hg
  unfold deleteMappingKeys
  cases hf : s.index.find? (fun r => r.id == row.index) with
  | none =>
    simp only [hf] at h
    rw [pure_ok] at h
    cases h
    exact ⟨.noIndex (find_id_none hf), .inl ⟨by simp [Key.skip], by trivial, by trivial⟩⟩
  | some r =>
    obtain ⟨hr, hi⟩ := find_id_some hf
    simp only [hf] at h
    by_cases hl : r.labels ≠ row.labels
    · rw [if_pos hl, pure_ok] at h
      cases h
      simp only [if_pos hl]
      exact ⟨.mismatch ⟨r, hr, hi⟩ (hi ▸ not_isRecord hs hr hl), .inl ⟨by simp [Key.skip], by trivial, by trivial⟩⟩
    · rw [if_neg hl] at h
      simp only [if_neg hl]
      have hrec : s.IsRecord row.index row.labels := ⟨r, hr, hi, not_not.1 hl⟩
      cases hm : s.findMap link row.other row.index with
      | none =>
        simp only [hm] at h
        rw [pure_ok] at h
        cases h
        exact ⟨.noMapping hrec (findMap_none hm), .inl ⟨by simp [Key.skip], by trivial, by trivial⟩⟩
      | some m =>
        obtain ⟨m1, m2, m3, m4⟩ := findMap_some hm
        simp only [hm] at h
        by_cases hv : m.value ≠ row.value
        · rw [if_pos hv, pure_ok] at h
          cases h
          simp only [if_pos hv]
          exact ⟨.valueMismatch hrec m1 m2 m3 m4 hv, .inl ⟨by simp [Key.skip], by trivial, by trivial⟩⟩
        rw [if_neg hv] at h
        simp only [if_neg hv]
        by_cases hlv : m.level ≠ fullLevel s.cols.length
        · rw [if_pos hlv, pure_ok] at h
          cases h
          simp only [if_pos hlv]
          exact ⟨.approximate hrec m1 m2 m3 m4 hlv, .inl ⟨by simp [Key.skip], by trivial, by trivial⟩⟩
        rw [if_neg hlv, bind_ok] at h
        obtain ⟨_, t, h1, h⟩ := h
        rw [pure_ok] at h
        cases h
        unfold mappingDelete at h1
        rw [modify_ok] at h1
        cases h1
        simp only [if_neg hlv]
        exact ⟨.deleted hrec m1 m2 m3 m4 (not_not.1 hv), .inr (by simp [Key.skip])⟩

end Toron.Space
