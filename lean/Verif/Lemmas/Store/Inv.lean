/-
Structural invariants of all histories.
-/
import Verif.Lemmas.Store.Step
import Verif.Spec.Store
import Mathlib.Data.List.Nodup

namespace Toron.Space

open Toron.Selectors (PyStr Sel)

section lists
variable {α κ : Type}

theorem lt_nextId {l : List Nat} {x : Nat} (h : x ∈ l) : x < nextId l := by
  induction l with
  | nil => simp at h
  | cons y ys ih =>
    simp only [nextId, List.foldr_cons] at *
    rcases List.mem_cons.1 h with rfl | h
    · omega
    · have := ih h; omega

theorem nextId_not_mem (l : List Nat) : nextId l ∉ l := fun h => lt_irrefl _ (lt_nextId h)

theorem nextId_pos (l : List Nat) : 0 < nextId l := Nat.succ_pos _

theorem nodup_filter_map {key : α → κ} {l : List α} (p : α → Bool) (h : (l.map key).Nodup) :
    ((l.filter p).map key).Nodup := (List.filter_sublist.map key).nodup h

theorem nodup_append_one {key : α → κ} {l : List α} {x : α} (h : (l.map key).Nodup)
    (hx : ∀ y ∈ l, key y ≠ key x) : ((l ++ [x]).map key).Nodup := by
  rw [List.map_append, List.nodup_append']
  refine ⟨h, by simp, ?_⟩
  simp only [List.map_cons, List.map_nil, List.disjoint_singleton, List.mem_map, not_exists, not_and]
  exact hx

theorem nodup_update {id : α → Nat} {key : α → κ} {l : List α} {r : α} (hid : (l.map id).Nodup)
    (hk : (l.map key).Nodup) (hu : ∀ x ∈ l, id x ≠ id r → key x ≠ key r) :
    ((l.map fun x => if id x = id r then r else x).map key).Nodup := by
  unfold List.Nodup at *
  rw [List.pairwise_map] at hid hk
  rw [List.pairwise_map, List.pairwise_map]
  have := hid.and hk
  refine this.imp_of_mem ?_
  intro a b ha hb hab
  obtain ⟨h1, h2⟩ := hab
  split <;> split
  · omega
  · rename_i _ h
    exact (hu b hb h).symm
  · rename_i h _
    exact hu a ha h
  · exact h2

theorem map_update_id {id : α → κ} [DecidableEq κ] {l : List α} {r : α} :
    (l.map fun x => if id x = id r then r else x).map id = l.map id := by
  rw [List.map_map]
  apply List.map_congr_left
  intro x _
  simp only [Function.comp]
  split
  · rename_i h; exact h.symm
  · rfl

theorem mem_update {id : α → κ} [DecidableEq κ] {l : List α} {r y : α}
    (h : y ∈ l.map fun x => if id x = id r then r else x) : (y = r) ∨ (y ∈ l ∧ id y ≠ id r) := by
  rw [List.mem_map] at h
  obtain ⟨x, hx, rfl⟩ := h
  split
  · exact Or.inl rfl
  · rename_i h; exact Or.inr ⟨hx, h⟩

end lists

/-- Close the goals for changes that do not concern the property. -/
macro "unconcerned" : tactic => `(tactic| first | assumption | exact id)

/-! ### Index records -/

/-- Ids of index records are distinct, at most `seq`; the undefined record is there. -/
structure IndexInv (s : Store) : Prop where
  idsNodup : (s.index.map (·.id)).Nodup
  idsLe : ∀ r ∈ s.index, r.id ≤ s.seq
  undef : s.undefinedRecord ∈ s.index
  lens : ∀ r ∈ s.index, r.labels.length = s.cols.length
  nonempty : ∀ r ∈ s.index, [] ∉ r.labels
  labels : (s.index.map (·.labels)).Nodup

theorem keepCols_replicate {β : Type} (cols drop : List PyStr) (x : β) :
    keepCols cols drop (List.replicate cols.length x) =
      List.replicate (cols.filter (fun c => c ∉ drop)).length x := by
  unfold keepCols
  induction cols with
  | nil => rfl
  | cons c cs ih =>
    simp only [List.length_cons, List.replicate_succ, List.zip_cons_cons, List.filter_cons]
    split
    · rename_i h
      simp only [decide_eq_true_eq] at h
      simp only [List.map_cons, ih, h, not_false_eq_true, decide_true, if_true, List.length_cons,
        List.replicate_succ]
    · rename_i h
      simp only [decide_eq_true_eq] at h
      simp only [ih, h, decide_false, Bool.false_eq_true, if_false]

theorem keepCols_length {β : Type} (cols drop : List PyStr) (xs : List β) (h : xs.length = cols.length) :
    (keepCols cols drop xs).length = (cols.filter (fun c => c ∉ drop)).length := by
  unfold keepCols
  rw [List.length_map]
  induction cols generalizing xs with
  | nil => simp
  | cons c cs ih =>
    obtain _ | ⟨x, xs⟩ := xs
    · simp at h
    · simp only [List.zip_cons_cons, List.filter_cons]
      have := ih xs (by simpa using h)
      by_cases hc : c ∈ drop
      · simpa [hc] using this
      · simpa [hc] using this

theorem mem_keepCols {β : Type} {cols drop : List PyStr} {xs : List β} {x : β}
    (h : x ∈ keepCols cols drop xs) : x ∈ xs := by
  simp only [keepCols, List.mem_map, List.mem_filter] at h
  obtain ⟨⟨c, y⟩, ⟨h, _⟩, rfl⟩ := h
  exact (List.of_mem_zip h).2

theorem IndexInv.prim {k : Kind} {s s' : Store} (hp : Prim k s s') (h : IndexInv s) : IndexInv s' := by
  obtain ⟨h1, h2, h3, h4, h5, h6⟩ := h
  cases hp with
  | idxAdd _ labels hlen hne hemp huniq =>
    refine ⟨nodup_append_one h1 ?_, ?_, List.mem_append_left _ h3, ?_, ?_, nodup_append_one h6 ?_⟩
    · intro y hy
      have := h2 y hy
      show y.id ≠ s.seq + 1
      omega
    · intro r hr
      show r.id ≤ s.seq + 1
      rcases List.mem_append.1 hr with hr | hr
      · have := h2 r hr; omega
      · rw [List.mem_singleton] at hr; subst hr; simp
    · intro r hr
      rcases List.mem_append.1 hr with hr | hr
      · exact h4 r hr
      · rw [List.mem_singleton] at hr; subst hr; exact hlen
    · intro r hr
      rcases List.mem_append.1 hr with hr | hr
      · exact h5 r hr
      · rw [List.mem_singleton] at hr; subst hr; exact hemp
    · intro y hy heq
      exact huniq (List.mem_map.2 ⟨y, hy, heq⟩)
  | idxUpd _ r hbare hlen hne hex h0 hemp huniq =>
    refine ⟨by simpa only [map_update_id] using h1, ?_, ?_, ?_, ?_, nodup_update h1 h6 huniq⟩
    · intro y hy
      rcases mem_update hy with rfl | ⟨hy, _⟩
      · obtain ⟨x, hx, hxe⟩ := hex
        have := h2 x hx
        show y.id ≤ s.seq
        omega
      · exact h2 y hy
    · refine List.mem_map.2 ⟨_, h3, ?_⟩
      rw [if_neg]
      · rfl
      · exact fun he => h0 he.symm
    · intro y hy
      rcases mem_update hy with rfl | ⟨hy, _⟩
      · exact hlen
      · exact h4 y hy
    · intro y hy
      rcases mem_update hy with rfl | ⟨hy, _⟩
      · exact hemp
      · exact h5 y hy
  | idxDel _ id h0 =>
    refine ⟨nodup_filter_map _ h1, fun r hr => h2 r (List.mem_of_mem_filter hr), ?_,
      fun r hr => h4 r (List.mem_of_mem_filter hr), fun r hr => h5 r (List.mem_of_mem_filter hr),
      nodup_filter_map _ h6⟩
    refine List.mem_filter.2 ⟨h3, ?_⟩
    rw [bne_iff_ne]
    intro he
    exact h0 he.symm _ h3 rfl
  | colAdd _ c hres hattr hnew =>
    refine ⟨?_, ?_, ?_, ?_, ?_, ?_⟩
    · simpa only [Store.addCol, List.map_map, Function.comp_def] using h1
    · intro r hr
      simp only [Store.addCol, List.mem_map] at hr
      obtain ⟨x, hx, rfl⟩ := hr
      exact h2 x hx
    · refine List.mem_map.2 ⟨_, h3, ?_⟩
      simp only [Store.undefinedRecord, Store.addCol, List.length_append, List.length_cons,
        List.length_nil, Nat.zero_add, List.replicate_succ', IndexRec.mk.injEq, true_and]
    · intro r hr
      simp only [Store.addCol, List.mem_map] at hr
      obtain ⟨x, hx, rfl⟩ := hr
      simp [Store.addCol, h4 x hx]
    · intro r hr
      simp only [Store.addCol, List.mem_map] at hr
      obtain ⟨x, hx, rfl⟩ := hr
      simp [h5 x hx]
    · have := h6.map (f := fun l : List PyStr => l ++ [['-']]) (fun a b hab => List.append_left_injective _ hab)
      simpa only [Store.addCol, List.map_map, Function.comp_def] using this
  | colRen _ old new _ _ _ _ =>
    refine ⟨h1, h2, ?_, ?_, h5, h6⟩
    · simpa only [Store.undefinedRecord, List.length_map] using h3
    · simpa only [List.length_map] using h4
  | colDrop _ names hne hi hl hst =>
    refine ⟨?_, ?_, ?_, ?_, ?_, hi⟩
    · simpa only [Store.dropCols, List.map_map, Function.comp_def] using h1
    · intro r hr
      simp only [Store.dropCols, List.mem_map] at hr
      obtain ⟨x, hx, rfl⟩ := hr
      exact h2 x hx
    · refine List.mem_map.2 ⟨_, h3, ?_⟩
      simp only [Store.undefinedRecord, Store.dropCols, keepCols_replicate]
    · intro r hr
      simp only [Store.dropCols, List.mem_map] at hr
      obtain ⟨x, hx, rfl⟩ := hr
      exact keepCols_length _ _ _ (h4 x hx)
    · intro r hr
      simp only [Store.dropCols, List.mem_map] at hr
      obtain ⟨x, hx, rfl⟩ := hr
      exact fun hm => h5 x hx (mem_keepCols hm)
  | _ => exact ⟨h1, h2, h3, h4, h5, h6⟩

theorem Reachable.indexInv {s : Store} (h : Reachable s) : IndexInv s :=
  h.of_prim (fun uid => ⟨by simp [Store.new], by simp [Store.new], by simp [Store.new, Store.undefinedRecord],
    by simp [Store.new], by simp [Store.new], by simp [Store.new]⟩) fun _ _ _ hp => IndexInv.prim hp

/-- `seq` never decreases and new ids are larger than the old `seq`. -/
def IdsFresh (s s' : Store) : Prop :=
  s.seq ≤ s'.seq ∧ ∀ r' ∈ s'.index, (∃ r ∈ s.index, r.id = r'.id) ∨ s.seq < r'.id

theorem IdsFresh.of_steps {K : List Kind} {s s' : Store} (h : Steps K s s') : IdsFresh s s' := by
  refine h.relation (R := IdsFresh) (fun s => ⟨le_refl _, fun r hr => .inl ⟨r, hr, rfl⟩⟩) ?_ ?_
  · rintro a b c ⟨h1, h2⟩ ⟨h3, h4⟩
    refine ⟨h1.trans h3, fun r hr => ?_⟩
    rcases h4 r hr with ⟨x, hx, hxe⟩ | hlt
    · rcases h2 x hx with ⟨y, hy, hye⟩ | hlt
      · exact .inl ⟨y, hy, hye.trans hxe⟩
      · right; omega
    · right; omega
  · intro k _ s s' hp
    cases hp with
    | idxAdd _ labels _ _ _ _ =>
      refine ⟨Nat.le_succ _, fun r hr => ?_⟩
      rcases List.mem_append.1 hr with hr | hr
      · exact .inl ⟨r, hr, rfl⟩
      · rw [List.mem_singleton] at hr; subst hr; right; exact Nat.lt_succ_self _
    | idxUpd _ r _ _ _ hex _ _ _ =>
      refine ⟨le_refl _, fun y hy => ?_⟩
      rcases mem_update hy with rfl | ⟨hy, _⟩
      · exact .inl hex
      · exact .inl ⟨y, hy, rfl⟩
    | idxDel =>
      exact ⟨le_refl _, fun y hy => .inl ⟨y, List.mem_of_mem_filter hy, rfl⟩⟩
    | colAdd =>
      refine ⟨le_refl _, fun r hr => ?_⟩
      simp only [Store.addCol, List.mem_map] at hr
      obtain ⟨x, hx, rfl⟩ := hr
      exact .inl ⟨x, hx, rfl⟩
    | colDrop =>
      refine ⟨le_refl _, fun r hr => ?_⟩
      simp only [Store.dropCols, List.mem_map] at hr
      obtain ⟨x, hx, rfl⟩ := hr
      exact .inl ⟨x, hx, rfl⟩
    | _ => exact ⟨le_refl _, fun r hr => .inl ⟨r, hr, rfl⟩⟩

end Toron.Space
