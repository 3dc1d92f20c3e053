/-
C61: adding label columns keeps what is stored (`add_index_columns` in `src/toron/space.py`).
-/
import Verif.Lemmas.Store.Columns
import Verif.Lemmas.BitFlags
import Verif.Props.StorePartitions
import Verif.Spec.Read
import Verif.Demo

namespace Toron.Space

open Toron.Selectors (PyStr Sel)
open Toron.Partitions Toron.Spec

/-- The level is that of a valid combination of columns. -/
def Store.LevelValid (s : Store) (level : List Byte) : Prop :=
  ∃ d, s.Valid d ∧ level = (BitFlags.ofBits (s.cols.map fun c => decide (c ∈ d))).bytes

/-- The combination of all columns is used by a stored quantity, or by a mapping of a link. -/
def Store.WholeUsed (s : Store) : Prop :=
  (∃ q ∈ s.quants, ∃ l ∈ s.locs, l.id = q.loc ∧ ∀ x ∈ l.labels, x ≠ []) ∨
  ∃ m ∈ s.maps, (∃ l ∈ s.links, l.id = m.link) ∧ m.level = (BitFlags.ofBits (s.cols.map fun _ => true)).bytes

theorem addCols_eq {names : List PyStr} {s s' : Store} (h : names.forM addColumn s = .ok ((), s')) :
    s' = { s with
      cols := s.cols ++ names,
      index := s.index.map (fun r => { r with labels := r.labels ++ names.map fun _ => ['-'] }),
      locs := s.locs.map (fun r => { r with labels := r.labels ++ names.map fun _ => [] }),
      structs := s.structs.map (fun r => { r with bits := r.bits ++ names.map fun _ => false }) } := by
  induction names generalizing s with
  | nil => cases h; simp
  | cons c cs ih =>
    rw [forM_cons_ok] at h
    obtain ⟨t, h1, h2⟩ := h
    obtain ⟨_, rfl⟩ := addColumn_ok h1
    rw [ih h2]
    simp [Store.addCol, Function.comp_def]

theorem bitsOf_append {cols names : List PyStr} (hn : ∀ c ∈ names, c ∉ cols) {d : Finset PyStr}
    (hd : d ⊆ cols.toFinset) : bitsOf (cols ++ names) d = bitsOf cols d ++ names.map fun _ => false := by
  unfold bitsOf
  rw [List.map_append]
  congr 1
  apply List.map_congr_left
  intro c hc
  rw [decide_eq_false_iff_not]
  exact fun h => hn c hc (List.mem_toFinset.1 (hd h))

theorem bitsOf_whole (cols : List PyStr) : bitsOf cols cols.toFinset = List.replicate cols.length true := by
  unfold bitsOf
  rw [List.eq_replicate_iff]
  simp

/-- Trailing zeros do not change a level. -/
theorem bytes_append (bits : List Bool) (names : List PyStr) :
    (BitFlags.ofBits (bits ++ names.map fun _ => false)).bytes = (BitFlags.ofBits bits).bytes := by
  have : names.map (fun _ => false) = List.replicate names.length false := by
    rw [List.eq_replicate_iff]
    simp
  rw [this]
  have : BitFlags.ofBits (bits ++ List.replicate names.length false) = BitFlags.ofBits bits := by
    apply constructed_ext _ _ (.bits _) (.bits _)
    intro i
    rw [bitAt_toBits_ofBits, bitAt_toBits_ofBits, bitAt_append_false]
  rw [this]

theorem quantsByBits_nil {s : Store} {bits : List Bool} :
    s.quantsByBits bits = [] ↔ ¬ ∃ q ∈ s.quants, ∃ l ∈ s.locs, l.id = q.loc ∧ nonemptyBits l.labels = bits := by
  unfold Store.quantsByBits
  simp only [List.flatMap_eq_nil_iff, List.map_eq_nil_iff, List.filter_eq_nil_iff, (sortedBy_perm _ _).mem_iff,
    List.mem_filter, beq_iff_eq]
  constructor
  · rintro h ⟨q, hq, l, hl, he, hb⟩
    exact h l ⟨hl, hb⟩ q hq he.symm
  · intro h l hl q hq he
    exact h ⟨q, hq, l, hl.1, he.symm, hl.2⟩

theorem nonemptyBits_true {labels : List PyStr} {n : Nat} (hn : labels.length = n) :
    nonemptyBits labels = List.replicate n true ↔ ∀ x ∈ labels, x ≠ [] := by
  unfold nonemptyBits
  rw [List.eq_replicate_iff]
  simp [hn]

theorem nonemptyBits_append (labels names : List PyStr) :
    nonemptyBits (labels ++ names.map fun _ => []) = nonemptyBits labels ++ names.map fun _ => false := by
  simp [nonemptyBits]

/-- What adding columns does. -/
theorem addIndexColumns_eq {names : List PyStr} {s s' : Store} (h : addIndexColumns names s = .ok ((), s'))
    (hlen : ∀ l ∈ s.locs, l.labels.length = s.cols.length) :
    (∀ c ∈ names, c ∉ s.cols) ∧ ∃ X D, s' = { s with
      cols := s.cols ++ names,
      index := s.index.map (fun r => { r with labels := r.labels ++ names.map fun _ => ['-'] }),
      locs := s.locs.map (fun r => { r with labels := r.labels ++ names.map fun _ => [] }),
      structs := X,
      partDefs := some D } ∧
    ∃ M, M = findMinimalGeneratingSet [[(s.cols ++ names).toFinset], s.defs, [(s.cols ++ names).toFinset]] ∧
      (s.WholeUsed → D = M) ∧
      (¬ s.WholeUsed → D = findMinimalGeneratingSet [M.filter (fun x => x ≠ s.whole), [(s.cols ++ names).toFinset]]) := by
  unfold addIndexColumns at h
  rw [bind_ok] at h
  obtain ⟨_, s1, hv, h⟩ := h
  obtain ⟨rfl, hall⟩ := validateNewColumns_ok hv
  have hnew : ∀ c ∈ names, c ∉ s1.cols := fun c hc => (hall c hc).2.1
  refine ⟨hnew, ?_⟩
  rw [bind_ok] at h
  obtain ⟨_, _, he, h⟩ := h
  rw [get_ok] at he
  cases he
  dsimp only at h
  rw [bind_ok] at h
  obtain ⟨_, s2, h1, h⟩ := h
  have he := addCols_eq h1
  rw [bind_ok] at h
  obtain ⟨_, s3, h3, h⟩ := h
  obtain ⟨rfl, _⟩ := checkUnique_ok h3
  simp only [bind_ok, get_ok] at h
  obtain ⟨_, _, he1, _, s4, h4, _, s5, h5, _, _, he2, h⟩ := h
  cases he1
  cases he2
  obtain ⟨hne, _, _, _, rfl⟩ := addPartitionDef_ok h4
  obtain ⟨X, rfl, hX⟩ := rebuildStructure_ok h5
  dsimp only at h
  have hused : ∀ t : Store, ∀ st, t.cols = s3.cols → t.quants = s3.quants → t.maps = s3.maps → t.links = s3.links →
      t.locs = s3.locs → t.structByLabels s1.cols.toFinset = some st →
      ((t.quantsByBits st.bits = [] ∧ fullLevel s1.cols.length ∉
      ((t.maps.filter fun m => t.links.any fun l => l.id == m.link).map (·.level))) ↔ ¬ s1.WholeUsed) := by
    intro t st e1 e2 e3 e4 e5 hst
    have hb := List.find?_some hst
    rw [beq_iff_eq, e1, he] at hb
    dsimp only at hb
    rw [bitsOf_append hnew (Finset.Subset.refl _), bitsOf_whole] at hb
    rw [quantsByBits_nil, hb, e2, e3, e4, e5, he]
    dsimp only
    unfold Store.WholeUsed
    rw [not_or]
    apply and_congr
    · apply not_congr
      apply exists_congr
      intro q
      apply and_congr_right
      intro _
      simp only [List.mem_map, exists_exists_and_eq_and]
      apply exists_congr
      intro l
      apply and_congr_right
      intro hl
      apply and_congr_right
      intro _
      rw [nonemptyBits_append, List.append_cancel_right_eq, nonemptyBits_true (hlen l hl)]
    · apply not_congr
      rw [List.mem_map]
      apply exists_congr
      intro m
      rw [List.mem_filter, List.any_eq_true, and_assoc]
      apply and_congr_right
      intro _
      simp only [beq_iff_eq]
      apply and_congr_right
      intro _
      unfold fullLevel
      rw [List.map_const']
  rcases hst : Store.structByLabels _ s1.cols.toFinset with _ | st
  · rw [hst] at h
    exact absurd h (by simp [throw_ok])
  have hu' := hused { s3 with structs := X, partDefs := some (findMinimalGeneratingSet [[s3.cols.toFinset], s3.defs, [s3.whole]]) }
    st rfl rfl rfl rfl rfl hst
  rw [hst] at h
  dsimp only at h hu'
  rw [ite_ok, hu'] at h
  clear hu' hused hst hX h5 h4 h3 h1
  obtain ⟨hu, h⟩ | ⟨hu, h⟩ := h
  · rw [bind_ok] at h
    obtain ⟨_, s6, h6, h7⟩ := h
    have := removePartitionDef_ok h6
    subst this
    obtain ⟨Y, rfl, hY⟩ := rebuildStructure_ok h7
    subst he
    exact ⟨Y, _, rfl, _, rfl, fun hw => absurd hw hu, fun _ => rfl⟩
  · cases h
    subst he
    exact ⟨X, _, rfl, _, rfl, fun _ => rfl, fun hw => absurd hw hu⟩

/-! ### C61 -/

/-- Records, locations and everything else stay; the new columns are undefined in records and empty in
locations. -/
theorem C61_data {s s' : Store} (hr : Reachable s) {names : List PyStr}
    (h : step (.addIndexColumns names) s = (s', .ok ())) :
    s'.cols = s.cols ++ names ∧
      s'.index = s.index.map (fun r => ⟨r.id, r.labels ++ names.map fun _ => ['-']⟩) ∧
      s'.locs = s.locs.map (fun l => ⟨l.id, l.labels ++ names.map fun _ => []⟩) ∧
      s'.quants = s.quants ∧ s'.weights = s.weights ∧ s'.wgroups = s.wgroups ∧ s'.agroups = s.agroups ∧
      s'.links = s.links ∧ s'.maps = s.maps := by
  obtain ⟨_, X, D, rfl, _⟩ := addIndexColumns_eq (call_ok h rfl) hr.quantInv.locLens
  exact ⟨rfl, rfl, rfl, rfl, rfl, rfl, rfl, rfl, rfl⟩

/-- A combination that was valid is still valid, unless it is the combination of all columns and nothing uses
it. -/
theorem C61_valid_partial {s s' : Store} (hr : ReachableKeeping s) {names : List PyStr}
    (h : step (.addIndexColumns names) s = (s', .ok ())) {d : Finset PyStr} (hd : s.Valid d)
    (hu : d = s.whole → s.WholeUsed) : s'.Valid d := by
  have h := call_ok h rfl
  have hi := addIndexColumns_inv h
  obtain ⟨hnew, X, D, rfl, M, hM, h1, h2⟩ := addIndexColumns_eq h hr.reachable.quantInv.locLens
  obtain ⟨hc, hun⟩ := (C53_valid_partial hr d).1 hd
  have hne : s.cols ++ names ≠ [] := by simp [hc]
  rw [hi.1.valid_iff]
  have hsub : d ⊆ (s.cols ++ names).toFinset := by
    intro x hx
    have := hd.1 hx
    simp only [List.mem_toFinset, List.mem_append] at this ⊢
    exact .inl this
  refine ⟨hne, d, ?_, (Finset.inter_eq_left.2 hsub).symm⟩
  show IsUnionOf (· ∈ D) d
  have hunM : IsUnionOf (· ∈ M) d := hM ▸ isUnionOf_of_base (b := s.defs) (by simp) hun
  by_cases hw : s.WholeUsed
  · rw [h1 hw]
    exact hunM
  · rw [h2 hw]
    refine isUnionOf_of_base (b := M.filter fun x => x ≠ s.whole) (by simp) ?_
    rw [isUnionOf_iff] at hunM ⊢
    intro x hx
    obtain ⟨e, he, hed, hxe⟩ := hunM x hx
    refine ⟨e, List.mem_filter.2 ⟨he, ?_⟩, hed, hxe⟩
    rw [decide_eq_true_eq]
    rintro rfl
    exact hw (hu (Finset.Subset.antisymm hd.1 hed))

/-- Quantities that were counted are still counted. -/
theorem C61_quantities_partial {s s' : Store} (hr : ReachableKeeping s) {names : List PyStr}
    (h : step (.addIndexColumns names) s = (s', .ok ())) {q : Quant} (hq : q ∈ s.quants) (hcount : s.Counted q) :
    q ∈ s'.quants ∧ s'.Counted q := by
  obtain ⟨hcols, _, hlocs, hquants, _⟩ := C61_data hr.reachable h
  refine ⟨hquants ▸ hq, ?_⟩
  obtain ⟨l, hl, hlq, st, hst, hb⟩ := hcount
  have hlen := hr.reachable.quantInv.locLens l hl
  have hc : s.cols ≠ [] := by
    intro hc
    rw [(hr.parts.1.empty hc).1] at hst
    cases hst
  obtain ⟨d, hd, hbd⟩ := (hr.parts.1.rows hc st.bits).1 (List.mem_map_of_mem hst)
  have hsub := isUnionOf_subset hr.parts.2.sub hd
  have hv : s.Valid d := (C53_valid_partial hr d).2 ⟨hc, hd⟩
  have hv' := C61_valid_partial hr h hv (by
    rintro rfl
    refine .inl ⟨q, hq, l, hl, hlq, ?_⟩
    rw [← nonemptyBits_true hlen]
    show l.labels.map (fun x => !x.isEmpty) = _
    rw [← hb, hbd]
    exact bitsOf_whole _)
  have hnew := (addIndexColumns_eq (call_ok h rfl) hr.reachable.quantInv.locLens).1
  obtain ⟨_, r, hrs, hrb⟩ := hv'
  refine ⟨⟨l.id, l.labels ++ names.map fun _ => []⟩, ?_, hlq, r, hrs, ?_⟩
  · rw [hlocs]
    exact List.mem_map.2 ⟨l, hl, rfl⟩
  · show r.bits = nonemptyBits (l.labels ++ names.map fun _ => [])
    rw [nonemptyBits_append]
    show r.bits = l.labels.map (fun x => !x.isEmpty) ++ _
    rw [← hb, hbd, ← bitsOf_append hnew hsub, hrb, hcols]
    rfl

/-- Mappings of the links whose level was that of a valid combination still have one. -/
theorem C61_mappings_partial {s s' : Store} (hr : ReachableKeeping s) {names : List PyStr}
    (h : step (.addIndexColumns names) s = (s', .ok ())) {m : Mapping} (hm : m ∈ s.maps)
    (hl : ∃ l ∈ s.links, l.id = m.link) (hlv : s.LevelValid m.level) : m ∈ s'.maps ∧ s'.LevelValid m.level := by
  obtain ⟨hcols, _, _, _, _, _, _, _, hmaps⟩ := C61_data hr.reachable h
  refine ⟨hmaps ▸ hm, ?_⟩
  obtain ⟨d, hv, hb⟩ := hlv
  have hnew := (addIndexColumns_eq (call_ok h rfl) hr.reachable.quantInv.locLens).1
  refine ⟨d, C61_valid_partial hr h hv ?_, ?_⟩
  · rintro rfl
    refine .inr ⟨m, hm, hl, ?_⟩
    rw [hb]
    have : (s.cols.map fun c => decide (c ∈ s.whole)) = s.cols.map fun _ => true := by
      apply List.map_congr_left
      intro c hc
      simpa [Store.whole] using hc
    rw [this]
  · rw [hb, hcols]
    have := bitsOf_append hnew hv.1
    unfold bitsOf at this
    rw [this, bytes_append]

/-- If nothing uses the old combination of all columns, it stays valid only if the other combinations make it
up. -/
theorem C61_whole {s s' : Store} (hr : ReachableKeeping s) {names : List PyStr}
    (h : step (.addIndexColumns names) s = (s', .ok ())) (hn : names ≠ []) (hc : s.cols ≠ []) :
    s'.Valid s.whole ↔ s.WholeUsed ∨ ∀ c ∈ s.whole, ∃ d, s.Valid d ∧ d ⊂ s.whole ∧ c ∈ d := by
  constructor
  · intro hv
    by_cases hw : s.WholeUsed
    · exact .inl hw
    right
    have h := call_ok h rfl
    have hi := addIndexColumns_inv h
    obtain ⟨hnew, X, D, rfl, M, hM, h1, h2⟩ := addIndexColumns_eq h hr.reachable.quantInv.locLens
    obtain ⟨_, e, he, hde⟩ := (hi.1.valid_iff _).1 hv
    have hsub := isUnionOf_subset (hi.2 hr.parts.2).sub he
    rw [Finset.inter_eq_left.2 hsub] at hde
    subst hde
    have he : IsUnionOf (· ∈ D) s.whole := he
    rw [h2 hw, C02_minimal_generates_same, isUnionOf_iff] at he
    intro c hcw
    obtain ⟨d, ⟨b, hb, hdb⟩, hds, hcd⟩ := he c hcw
    simp only [List.mem_cons, List.not_mem_nil, or_false] at hb
    have hnot : ¬ (s.cols ++ names).toFinset ⊆ s.whole := by
      intro hs
      obtain ⟨n, hnn⟩ := List.exists_mem_of_ne_nil _ hn
      have := hs (List.mem_toFinset.2 (List.mem_append_right _ hnn))
      exact hnew n hnn (List.mem_toFinset.1 this)
    rcases hb with rfl | rfl
    · obtain ⟨hdM, hdn⟩ := List.mem_filter.1 hdb
      rw [decide_eq_true_eq] at hdn
      rw [hM] at hdM
      obtain ⟨b, hb, hdb⟩ := C02_minimal_subset _ d hdM
      simp only [List.mem_cons, List.not_mem_nil, or_false] at hb
      rcases hb with rfl | rfl | rfl
      · exact absurd (List.mem_singleton.1 hdb ▸ hds) hnot
      · exact ⟨d, (C53_valid_partial hr d).2 ⟨hc, isUnionOf_self hdb⟩, lt_of_le_of_ne hds hdn, hcd⟩
      · exact absurd (List.mem_singleton.1 hdb ▸ hds) hnot
    · exact absurd (List.mem_singleton.1 hdb ▸ hds) hnot
  · rintro (hw | hall)
    · exact C61_valid_partial hr h ((C53_valid_partial hr _).2 ⟨hc, hr.parts.2.gen hc⟩) fun _ => hw
    · have hk : ∀ d, s.Valid d → d ⊂ s.whole → s'.Valid d := fun d hv hd =>
        C61_valid_partial hr h hv fun he => absurd he hd.ne
      have h' := call_ok h rfl
      have hi := addIndexColumns_inv h'
      have hcols := (C61_data hr.reachable h).1
      rw [hi.1.valid_iff]
      refine ⟨by simp [hcols, hc], s.whole, ?_, ?_⟩
      · rw [isUnionOf_iff]
        intro c hcw
        obtain ⟨d, hv, hd, hcd⟩ := hall c hcw
        obtain ⟨_, e, he, rfl⟩ := (hi.1.valid_iff _).1 (hk d hv hd)
        have hes := isUnionOf_subset (hi.2 hr.parts.2).sub he
        rw [Finset.inter_eq_left.2 hes] at hd hcd
        obtain ⟨f, hf, hfe, hcf⟩ := (isUnionOf_iff _ _).1 he c hcd
        exact ⟨f, hf, hfe.trans hd.subset, hcf⟩
      · symm
        rw [Finset.inter_eq_left]
        intro x hx
        unfold Store.whole at hx ⊢
        rw [hcols]
        simp only [List.mem_toFinset, List.mem_append] at hx ⊢
        exact .inl hx

/-! ### Adding columns works -/

theorem mem_lower_append {cols R : List PyStr} {c d : PyStr}
    (h : asciiLower d ∈ ((cols ++ [c]) ++ R).map asciiLower) :
    asciiLower d ∈ (cols ++ R).map asciiLower ∨ asciiLower d = asciiLower c := by
  simp only [List.map_append, List.mem_append, List.map_cons, List.map_nil, List.mem_cons, List.not_mem_nil,
    or_false] at h ⊢
  generalize asciiLower d = a at h ⊢
  rcases h with (h | h) | h
  · exact .inl (.inl h)
  · exact .inr h
  · exact .inl (.inr h)

theorem addCols_succ {names : List PyStr} {s : Store} (hn : (names.map asciiLower).Nodup)
    (hs : ∀ c ∈ names, asciiLower c ∉ s.sqlNames) : ∃ s', names.forM addColumn s = .ok ((), s') := by
  induction names generalizing s with
  | nil => exact ⟨s, rfl⟩
  | cons c cs ih =>
    rw [List.map_cons, List.nodup_cons] at hn
    have h1 : addColumn c s = .ok ((), s.addCol c) := by
      unfold addColumn
      rw [bind_ok]
      refine ⟨s, s, rfl, ?_⟩
      have h0 := hs c (List.mem_cons_self ..)
      generalize s.sqlNames = ns at h0
      rw [if_neg h0]
      rfl
    obtain ⟨s', h2⟩ := ih (s := s.addCol c) hn.2 (by
      intro d hd hm
      have : asciiLower d ∈ s.sqlNames ∨ asciiLower d = asciiLower c := by
        exact mem_lower_append hm
      rcases this with h | h
      · exact hs d (List.mem_cons_of_mem _ hd) h
      · exact hn.1 (h ▸ List.mem_map_of_mem hd))
    refine ⟨s', ?_⟩
    rw [forM_cons_ok]
    exact ⟨_, h1, h2⟩

theorem structAdds_succ {l : List (Finset PyStr)} {g : Finset PyStr → Option Gran} {cols : List PyStr} {s : Store}
    (hc : s.cols = cols) (hne : cols ≠ []) (hnd : (s.structs.map (·.bits) ++ l.map (bitsOf cols)).Nodup) :
    ∃ s', l.forM (fun d => structAdd (g d) (bitsOf cols d)) s = .ok ((), s') := by
  induction l generalizing s with
  | nil => exact ⟨s, rfl⟩
  | cons d ds ih =>
    have h1 : structAdd (g d) (bitsOf cols d) s = .ok ((),
        { s with structs := s.structs ++ [⟨nextId (s.structs.map (·.id)), g d, bitsOf cols d⟩] }) := by
      simp only [structAdd, bind_ok, get_ok, ite_ok, throw_ok, put_ok]
      refine ⟨s, s, rfl, .inr ⟨by simp [bitsOf, hne], .inr ⟨by simp [bitsOf, hc], .inr ⟨?_, rfl⟩⟩⟩⟩
      intro hm
      rw [List.nodup_append] at hnd
      exact hnd.2.2 _ hm _ (List.mem_cons_self ..) rfl
    obtain ⟨s', h2⟩ := ih (s := { s with structs := s.structs ++ [⟨nextId (s.structs.map (·.id)), g d, bitsOf cols d⟩] })
      hc (by simpa using hnd)
    refine ⟨s', ?_⟩
    rw [forM_cons_ok]
    exact ⟨_, h1, h2⟩

theorem rebuildStructure_succ {s : Store} (hne : s.cols ≠ []) (hd : s.defs ≠ []) (hsub : ∀ d ∈ s.defs, d ⊆ s.whole) :
    ∃ s', rebuildStructure s = .ok ((), s') := by
  have hnd : ((makeStructure s.defs).map (bitsOf s.cols)).Nodup := by
    refine List.Nodup.map_on ?_ (C01_structure_nodup _)
    intro d hd e he hb
    rw [bitsOf_eq_iff] at hb
    have h1 := isUnionOf_subset hsub ((mem_makeStructure _ _).1 hd)
    have h2 := isUnionOf_subset hsub ((mem_makeStructure _ _).1 he)
    unfold Store.whole at h1 h2
    rwa [Finset.inter_eq_left.2 h1, Finset.inter_eq_left.2 h2] at hb
  obtain ⟨s', h⟩ := structAdds_succ (s := { s with structs := [] }) (l := makeStructure s.defs)
    (g := ({ s with structs := [] } : Store).granSql) rfl hne (by simpa using hnd)
  refine ⟨s', ?_⟩
  simp only [rebuildStructure, bind_ok, get_ok, modify_ok, ite_ok, throw_ok]
  exact ⟨_, _, rfl, _, _, rfl, .inr ⟨fun h => hd h.2, h⟩⟩

theorem addPartitionDef_succ {s : Store} {d : Finset PyStr} (hne : s.cols ≠ []) (hsub : d ⊆ s.whole)
    (hd : d ∉ s.defs) (hm : d ∈ findMinimalGeneratingSet [[d], s.defs, [s.whole]]) :
    addPartitionDef d s =
      .ok ((), { s with partDefs := some (findMinimalGeneratingSet [[d], s.defs, [s.whole]]) }) := by
  unfold addPartitionDef
  rw [bind_ok]
  refine ⟨s, s, rfl, ?_⟩
  have h1 : d ∉ s.partDefs.getD [] := hd
  have h2 : ¬ ¬ d ⊆ s.cols.toFinset := not_not.2 hsub
  have h3 : ¬ d ∉ findMinimalGeneratingSet [[d], s.partDefs.getD [], [s.cols.toFinset]] := not_not.2 hm
  rw [if_neg hne, if_neg h2, if_neg h1, if_neg h3]
  rfl

/-- In histories without dropped columns, columns with new names can be added. -/
theorem C61_succeeds_partial {s : Store} (hr : ReachableKeeping s) {names : List PyStr} (hne : names ≠ [])
    (hres : ∀ c ∈ names, c ∉ reservedNames) (hattr : ∀ c ∈ names, c ∉ s.regAttrs.getD [])
    (hnd : (names.map asciiLower).Nodup) (hnew : ∀ c ∈ names, asciiLower c ∉ s.sqlNames) :
    ∃ s', step (.addIndexColumns names) s = (s', .ok ()) := by
  have hnew' : ∀ c ∈ names, c ∉ s.cols := fun c hc h => hnew c hc (mem_sqlNames_of_mem h)
  obtain ⟨n, hn⟩ := List.exists_mem_of_ne_nil _ hne
  have hv : validateNewColumns names s = .ok ((), s) := by
    unfold validateNewColumns
    rw [bind_ok]
    refine ⟨s, s, rfl, ?_⟩
    clear hnd hn hne
    induction names with
    | nil => rfl
    | cons c cs ih =>
      rw [forM_cons_ok]
      refine ⟨s, ?_, ih (fun c hc => hres c (List.mem_cons_of_mem _ hc)) (fun c hc => hattr c (List.mem_cons_of_mem _ hc))
        (fun c hc => hnew c (List.mem_cons_of_mem _ hc)) (fun c hc => hnew' c (List.mem_cons_of_mem _ hc))⟩
      have hc := List.mem_cons_self (a := c) (l := cs)
      rw [if_neg (hres c hc), if_neg (hnew' c hc), if_neg (hattr c hc)]
      rfl
  obtain ⟨t, h1⟩ := addCols_succ hnd hnew
  have he := addCols_eq h1
  have hcu : checkUnique t = .ok ((), t) := by
    unfold checkUnique
    rw [bind_ok]
    refine ⟨t, t, rfl, ?_⟩
    rw [if_neg]
    · rfl
    · rintro ⟨_, h⟩
      apply h
      rw [he]
      simp only [List.map_map, Function.comp_def]
      refine ⟨?_, ?_, ?_⟩
      · have := hr.reachable.indexInv.labels.map (f := (· ++ names.map fun _ => ['-'])) (List.append_left_injective _)
        rwa [List.map_map] at this
      · have := hr.reachable.quantInv.locLabels.map (f := (· ++ names.map fun _ => [])) (List.append_left_injective _)
        rwa [List.map_map] at this
      · have := (C53_once hr.reachable).map (f := (· ++ names.map fun _ => false)) (List.append_left_injective _)
        rwa [List.map_map] at this
  have hcols : t.cols = s.cols ++ names := by rw [he]
  have htne : t.cols ≠ [] := by simp [hcols, hne]
  have hdefs : t.defs = s.defs := by rw [he]; rfl
  have hnw : n ∈ t.whole := by
    unfold Store.whole
    rw [hcols]
    exact List.mem_toFinset.2 (List.mem_append_right _ hn)
  have hns : n ∉ s.whole := fun h => hnew' n hn (List.mem_toFinset.1 h)
  have hold : ∀ d ∈ s.defs, n ∉ d := fun d hd h => hns (hr.parts.2.sub d hd h)
  have hsw : s.whole ⊆ t.whole := by
    intro x hx
    unfold Store.whole at *
    rw [hcols]
    simp only [List.mem_toFinset, List.mem_append] at hx ⊢
    exact .inl hx
  -- every generating set made from these contains the new whole space
  have hin : ∀ bases, [t.whole] ∈ bases → (∀ b ∈ bases, ∀ d ∈ b, d ∈ s.defs ∨ d = t.whole) →
      t.whole ∈ findMinimalGeneratingSet bases := by
    intro bases hb hall
    obtain ⟨d, hd, hdw, hnd⟩ := (isUnionOf_iff _ _).1 (minimal_whole hb) n hnw
    obtain ⟨b, hb', hdb⟩ := C02_minimal_subset _ d hd
    rcases hall b hb' d hdb with h | rfl
    · exact absurd hnd (hold d h)
    · exact hd
  have hbs : ∀ b ∈ [[t.whole], s.defs, [t.whole]], ∀ d ∈ b, d ∈ s.defs ∨ d = t.whole := by
    intro b hb d hd
    simp only [List.mem_cons, List.not_mem_nil, or_false] at hb
    rcases hb with rfl | rfl | rfl
    · exact .inr (List.mem_singleton.1 hd)
    · exact .inl hd
    · exact .inr (List.mem_singleton.1 hd)
  have hM := hin [[t.whole], s.defs, [t.whole]] (by simp) hbs
  have hMsub : ∀ d ∈ findMinimalGeneratingSet [[t.whole], s.defs, [t.whole]], d ∈ s.defs ∨ d = t.whole := by
    intro d hd
    obtain ⟨b, hb, hdb⟩ := C02_minimal_subset _ d hd
    exact hbs b hb d hdb
  generalize hMe : findMinimalGeneratingSet [[t.whole], s.defs, [t.whole]] = G at hM hMsub
  have h4 : addPartitionDef t.cols.toFinset t = .ok ((), { t with partDefs := some G }) := by
    have h6 := addPartitionDef_succ (s := t) (d := t.whole) htne (Finset.Subset.refl _)
      (by rw [hdefs]; exact fun h => hold _ h hnw) (by rw [hdefs, hMe]; exact hM)
    rw [hdefs, hMe] at h6
    exact h6
  have hsub5 : ∀ d ∈ G, d ⊆ t.whole := by
    intro d hd
    rcases hMsub d hd with h | rfl
    · exact (hr.parts.2.sub d h).trans hsw
    · exact Finset.Subset.refl _
  obtain ⟨s5, h5⟩ := rebuildStructure_succ (s := { t with partDefs := some G }) htne
    (List.ne_nil_of_mem hM) hsub5
  have hi5 : StructInv s5 := StructInv.of_rebuild h5 htne (by simp)
  obtain ⟨X, hs5, _⟩ := rebuildStructure_ok h5
  have hc5 : s5.cols = t.cols := by rw [hs5]
  have hd5 : s5.defs = G := by rw [hs5]; rfl
  have hp5 : s5.partDefs = some G := by rw [hs5]
  obtain ⟨st, hst⟩ : ∃ st, s5.structByLabels s.cols.toFinset = some st := by
    have hu : IsUnionOf (· ∈ s5.defs) s.whole := by
      by_cases hc : s.cols = []
      · rw [isUnionOf_iff]
        intro x hx
        simp [Store.whole, hc] at hx
      · rw [hd5, ← hMe]
        exact isUnionOf_of_base (b := s.defs) (by simp) (hr.parts.2.gen hc)
    obtain ⟨r, hr1, hr2⟩ := List.mem_map.1 ((hi5.rows (hc5 ▸ htne) (bitsOf s5.cols s.whole)).2 ⟨_, hu, rfl⟩)
    unfold Store.structByLabels
    rcases hf : s5.structs.find? _ with _ | st
    · rw [List.find?_eq_none] at hf
      exact absurd (beq_iff_eq.2 hr2) (hf r hr1)
    · exact ⟨st, rfl⟩
  have hlast : ∃ s', addIndexColumns names s = .ok ((), s') := by
    have hlast' : ∃ s', (match s5.structByLabels s.cols.toFinset with
        | none => throw (Err.keyError "no structure matching labels")
        | some st =>
          if s5.quantsByBits st.bits = [] ∧ fullLevel s.cols.length ∉
            ((s5.maps.filter fun m => s5.links.any fun l => l.id == m.link).map (·.level)) then do
            removePartitionDef s.cols.toFinset
            rebuildStructure
          else pure () : M Unit) s5 = .ok ((), s') := by
      rw [hst]
      dsimp only
      by_cases hu : s5.quantsByBits st.bits = [] ∧ fullLevel s.cols.length ∉
            ((s5.maps.filter fun m => s5.links.any fun l => l.id == m.link).map (·.level))
      · rw [if_pos hu]
        have hw5 : s5.cols.toFinset = t.whole := by unfold Store.whole; rw [hc5]
        have h6 : removePartitionDef s.cols.toFinset s5 = .ok ((), { s5 with
            partDefs := some (findMinimalGeneratingSet [G.filter (fun x => x ≠ s.cols.toFinset), [t.whole]]) }) := by
          unfold removePartitionDef
          rw [bind_ok]
          refine ⟨s5, s5, rfl, ?_⟩
          rw [hw5, hp5, if_neg]
          · rfl
          · intro h
            unfold Store.whole at *
            rw [← h] at hnw
            exact hns hnw
        have hbs' : ∀ b ∈ [G.filter (fun x => x ≠ s.cols.toFinset), [t.whole]], ∀ d ∈ b, d ∈ s.defs ∨ d = t.whole := by
          intro b hb d hd
          simp only [List.mem_cons, List.not_mem_nil, or_false] at hb
          rcases hb with rfl | rfl
          · exact hMsub d (List.mem_of_mem_filter hd)
          · exact .inr (List.mem_singleton.1 hd)
        obtain ⟨s', h7⟩ := rebuildStructure_succ (s := { s5 with
            partDefs := some (findMinimalGeneratingSet [G.filter (fun x => x ≠ s.cols.toFinset), [t.whole]]) })
          (hc5 ▸ htne : s5.cols ≠ []) (List.ne_nil_of_mem (hin _ (by simp) hbs')) (by
            intro d hd
            show d ⊆ s5.cols.toFinset
            rw [hw5]
            obtain ⟨b, hb, hdb⟩ := C02_minimal_subset _ d hd
            rcases hbs' b hb d hdb with h | rfl
            · exact (hr.parts.2.sub d h).trans hsw
            · exact Finset.Subset.refl _)
        exact ⟨s', by rw [bind_ok]; exact ⟨_, _, h6, h7⟩⟩
      · rw [if_neg hu]
        exact ⟨s5, rfl⟩
    obtain ⟨s', h'⟩ := hlast'
    refine ⟨s', ?_⟩
    unfold addIndexColumns
    simp only [bind_ok, get_ok]
    exact ⟨_, _, hv, _, _, rfl, _, _, h1, _, _, hcu, _, _, rfl, _, _, h4, _, _, h5, _, _, rfl, h'⟩
  obtain ⟨s', hs'⟩ := hlast
  refine ⟨s', ?_⟩
  have hfk : fkOk s' = true := by
    obtain ⟨_, X, D, rfl, _⟩ := addIndexColumns_eq hs' hr.reachable.quantInv.locLens
    have := hr.reachable.fkOk
    unfold fkOk at this ⊢
    simp only [List.any_map, Function.comp_def]
    exact this
  show runTx (addIndexColumns names) s = _
  unfold runTx
  rw [hs']
  exact if_pos hfk

/-- Columns A, B and X; X is dropped. -/
def shrunkOps : List Op := [.addIndexColumns [['A'], ['B'], ['X']], .dropIndexColumns [['X']]]

def shrunk : Store := run shrunkOps (Store.new ['u'])

/-- After a column has been dropped no column can be added: neither a new one nor the old one. -/
theorem C61_violated : ∃ s, Reachable s ∧ s.cols = [['A'], ['B']] ∧ s.regAttrs = none ∧
    (step (.addIndexColumns [['Y']]) s).2.toOption = none ∧ (step (.addIndexColumns [['X']]) s).2.toOption = none :=
  ⟨shrunk, ⟨['u'], shrunkOps, rfl⟩, by decide +kernel, by decide +kernel, by decide +kernel, by decide +kernel⟩

theorem demo_keeping : ReachableKeeping Demo.store := ⟨['u'], Demo.ops, by simp [Demo.ops, Op.dropsColumns], rfl⟩

example : ∃ s', step (.addIndexColumns [['C'], ['D']]) Demo.store = (s', .ok ()) :=
  C61_succeeds_partial demo_keeping (by decide) (by decide +kernel) (by decide +kernel) (by decide +kernel)
    (by decide +kernel)

example : Demo.store.WholeUsed :=
  .inl ⟨⟨2, 2, 1, 7⟩, by decide +kernel, ⟨2, [Demo.ly, Demo.l1]⟩, by decide +kernel, rfl, by decide⟩

example : Demo.store.Counted ⟨1, 1, 1, 100⟩ := by
  refine ⟨⟨1, [Demo.lx, []]⟩, by decide +kernel, rfl, ?_⟩
  decide +kernel

example : Demo.store.LevelValid [0xC0#8] :=
  ⟨{Demo.colA, Demo.colB}, by unfold Store.Valid; decide +kernel, by decide +kernel⟩

end Toron.Space
