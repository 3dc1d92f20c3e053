/-
The exact effect of successful runs of the repository operations and of loops over them.
-/
import Verif.Lemmas.Store.Inv2

set_option linter.unusedSimpArgs false

namespace Toron.Space

open Toron.Selectors (PyStr Sel)

section lists
variable {α : Type}

/-- Replace the element with the id of `r`. -/
def upd (id : α → Nat) (r : α) (l : List α) : List α := l.map fun x => if id x = id r then r else x

theorem upd_of_not_mem {id : α → Nat} {r : α} {l : List α} (h : ∀ x ∈ l, id x ≠ id r) : upd id r l = l := by
  unfold upd
  conv_rhs => rw [← List.map_id l]
  apply List.map_congr_left
  intro x hx
  rw [if_neg (h x hx)]
  rfl

theorem foldl_map_comm {β : Type} (h : β → α → α) (ls : List β) (l : List α) :
    ls.foldl (fun acc x => acc.map (h x)) l = l.map fun y => ls.foldl (fun y x => h x y) y := by
  induction ls generalizing l with
  | nil => simp
  | cons x xs ih =>
    rw [List.foldl_cons, ih, List.map_map]
    rfl

theorem eq_of_id {id : α → Nat} {l : List α} (hnd : (l.map id).Nodup) {x y : α} (hx : x ∈ l) (hy : y ∈ l)
    (h : id x = id y) : x = y := List.inj_on_of_nodup_map hnd hx hy h

/-- Writing back `g x` for some of the elements, one after the other. -/
theorem foldl_upd {id : α → Nat} {l : List α} (hnd : (l.map id).Nodup) {ls : List α}
    (hsub : ∀ x ∈ ls, x ∈ l) {g : α → α} (hg : ∀ x ∈ ls, id (g x) = id x) :
    ls.foldl (fun acc x => upd id (g x) acc) l =
      l.map fun x => if id x ∈ ls.map id then g x else x := by
  unfold upd
  rw [foldl_map_comm (fun x y => if id y = id (g x) then g x else y)]
  apply List.map_congr_left
  intro y hy
  have key : ∀ (ls : List α), (∀ x ∈ ls, x ∈ l) → (∀ x ∈ ls, id (g x) = id x) → ∀ z, id z = id y →
      ls.foldl (fun z x => if id z = id (g x) then g x else z) z = if id y ∈ ls.map id then g y else z := by
    intro ls
    induction ls with
    | nil => intro _ _ z _; simp
    | cons x xs ih =>
      intro hsub hg z hz
      rw [List.foldl_cons]
      have ih' := ih (fun a ha => hsub a (by simp [ha])) (fun a ha => hg a (by simp [ha]))
      by_cases hxy : id y = id x
      · have hyx : y = x := eq_of_id hnd hy (hsub x (by simp)) hxy
        subst hyx
        rw [if_pos (by rw [hz, hg y (by simp)]), ih' (g y) (hg y (by simp))]
        simp
      · rw [if_neg (by rw [hz, hg x (by simp)]; exact hxy), ih' z hz]
        simp [hxy]
  exact key ls hsub hg y rfl

/-- Deleting some elements by id, one after the other. -/
theorem foldl_del {id : α → Nat} (ids : List Nat) (l : List α) :
    ids.foldl (fun acc i => acc.filter fun x => id x != i) l = l.filter fun x => id x ∉ ids := by
  induction ids generalizing l with
  | nil => simp
  | cons i is ih =>
    rw [List.foldl_cons, ih, List.filter_filter]
    apply List.filter_congr
    intro x _
    by_cases h1 : id x = i <;> by_cases h2 : id x ∈ is <;> simp [h1, h2]

theorem filter_not_mem_sub {id : α → Nat} {l : List α} (hnd : (l.map id).Nodup) {p : α → Bool} :
    (l.filter fun x => id x ∉ (l.filter p).map id) = l.filter fun x => !p x := by
  apply List.filter_congr
  intro x hx
  by_cases hp : p x
  · simp only [hp, Bool.not_true, decide_eq_false_iff_not, not_not]
    exact List.mem_map_of_mem (List.mem_filter.2 ⟨hx, hp⟩)
  · simp only [hp, Bool.not_false, decide_eq_true_eq]
    intro hm
    obtain ⟨y, hy, he⟩ := List.mem_map.1 hm
    obtain ⟨hyl, hyp⟩ := List.mem_filter.1 hy
    rw [eq_of_id hnd hyl hx he] at hyp
    exact hp hyp

end lists

section runs
variable {α β : Type}

/-- A loop whose body has a known effect. -/
theorem forM_exact {l : List α} {f : α → M Unit} {e : α → Store → Store}
    (hf : ∀ a ∈ l, ∀ s s', f a s = .ok ((), s') → s' = e a s) {s s' : Store}
    (h : l.forM f s = .ok ((), s')) : s' = l.foldl (fun t a => e a t) s := by
  induction l generalizing s with
  | nil => cases h; rfl
  | cons x xs ih =>
    obtain ⟨t, h1, h2⟩ := forM_cons_ok.1 h
    rw [List.foldl_cons, ← hf x (by simp) s t h1]
    exact ih (fun a ha => hf a (by simp [ha])) h2

theorem foldlM_cons_ok {f : β → α → M β} {b c : β} {x : α} {xs : List α} {s s' : Store} :
    (x :: xs).foldlM f b s = .ok (c, s') ↔ ∃ d t, f b x s = .ok (d, t) ∧ xs.foldlM f d t = .ok (c, s') := by
  rw [List.foldlM_cons, bind_ok]

/-- A fold, with a relation kept between the accumulator and the store. -/
theorem foldlM_inv {l : List α} {f : β → α → M β} {P : β → Store → Prop}
    (hf : ∀ a ∈ l, ∀ b s c s', P b s → f b a s = .ok (c, s') → P c s') {b c : β} {s s' : Store}
    (hP : P b s) (h : l.foldlM f b s = .ok (c, s')) : P c s' := by
  induction l generalizing b s with
  | nil => cases h; exact hP
  | cons x xs ih =>
    obtain ⟨d, t, h1, h2⟩ := foldlM_cons_ok.1 h
    exact ih (fun a ha => hf a (by simp [ha])) (hf x (by simp) _ _ _ _ hP h1) h2

/-- A loop that keeps a condition. -/
theorem forM_keep {l : List α} {f : α → M Unit} {P : Store → Prop}
    (hf : ∀ a ∈ l, ∀ s s', P s → f a s = .ok ((), s') → P s') {s s' : Store}
    (hP : P s) (h : l.forM f s = .ok ((), s')) : P s' := by
  induction l generalizing s with
  | nil => cases h; exact hP
  | cons x xs ih =>
    obtain ⟨t, h1, h2⟩ := forM_cons_ok.1 h
    exact ih (fun a ha => hf a (by simp [ha])) (hf x (by simp) _ _ hP h1) h2

/-- A loop over a conditional body is a loop over the elements that meet the condition. -/
theorem forM_if {l : List α} {p : α → Bool} {f : α → M Unit} :
    (l.forM fun x => if p x = true then f x else pure ()) = (l.filter p).forM f := by
  induction l with
  | nil => rfl
  | cons x xs ih =>
    show ((if p x = true then f x else pure ()) >>= fun _ => xs.forM _) = _
    rw [ih, List.filter_cons]
    by_cases hp : p x
    · simp only [hp, if_true]; rfl
    · simp only [hp, if_false, Bool.false_eq_true]; rfl

theorem runTx_ok {m : M α} {s : Store} {a : α} (h : (runTx m s).2 = .ok a) :
    m s = .ok (a, (runTx m s).1) ∧ fkOk (runTx m s).1 = true := by
  unfold runTx at h ⊢
  split at h
  · rename_i b s' heq
    split at h
    · rename_i hfk
      cases h
      simp only [heq, hfk, if_true, and_self]
    · cases h
  · cases h

theorem runTx_error {m : M α} {s : Store} {e : Err} (h : (runTx m s).2 = .error e) : (runTx m s).1 = s := by
  unfold runTx at h ⊢
  split at h
  · split at h
    · cases h
    · rename_i heq hfk
      simp only [heq, hfk]
      rfl
  · rename_i heq
    simp only [heq]

theorem step_ok {op : Op} {m : M Unit} (hb : op.body = some m) {s : Store} (h : (step op s).2 = .ok ()) :
    m s = .ok ((), (step op s).1) := by
  rw [step_of_body hb] at h ⊢
  exact (runTx_ok h).1

end runs

/-! ### Repositories -/

theorem linkUpdate_ok {l : Link} {s s' : Store} {u : Unit} (h : linkUpdate l s = .ok (u, s')) :
    s' = { s with links := upd Link.id l s.links } := by
  simp only [linkUpdate, bind_ok, get_ok, ite_ok, throw_ok, put_ok, pure_ok] at h
  obtain ⟨_, _, he, h⟩ := h
  cases he
  obtain ⟨h1, h⟩ | ⟨h1, h⟩ := h
  · cases h
    rw [upd_of_not_mem]
    intro x hx he
    exact h1 (List.any_eq_true.2 ⟨x, hx, by simp [he]⟩)
  obtain ⟨_, h⟩ | ⟨h2, h⟩ := h
  · exact h.elim
  cases h
  rfl

theorem wgroupUpdate_ok {g : WGroup} {s s' : Store} {u : Unit} (h : wgroupUpdate g s = .ok (u, s')) :
    s' = { s with wgroups := upd WGroup.id g s.wgroups } := by
  simp only [wgroupUpdate, bind_ok, get_ok, ite_ok, throw_ok, put_ok, pure_ok] at h
  obtain ⟨_, _, he, h⟩ := h
  cases he
  obtain ⟨h1, h⟩ | ⟨h1, h⟩ := h
  · cases h
    rw [upd_of_not_mem]
    intro x hx he
    exact h1 (List.any_eq_true.2 ⟨x, hx, by simp [he]⟩)
  obtain ⟨_, h⟩ | ⟨h2, h⟩ := h
  · exact h.elim
  cases h
  rfl

theorem mappingUpdate_ok {m : Mapping} {s s' : Store} {u : Unit} (h : mappingUpdate m s = .ok (u, s')) :
    s' = { s with maps := upd Mapping.id m s.maps } := by
  simp only [mappingUpdate, bind_ok, get_ok, ite_ok, throw_ok, put_ok, pure_ok] at h
  obtain ⟨_, _, he, h⟩ := h
  cases he
  obtain ⟨h1, h⟩ | ⟨h1, h⟩ := h
  · cases h
    rw [upd_of_not_mem]
    intro x hx he
    exact h1 (List.any_eq_true.2 ⟨x, hx, by simp [he]⟩)
  obtain ⟨_, h⟩ | ⟨h2, h⟩ := h
  · exact h.elim
  obtain ⟨_, h⟩ | ⟨h3, h⟩ := h
  · exact h.elim
  obtain ⟨_, h⟩ | ⟨h4, h⟩ := h
  · exact h.elim
  cases h
  rfl

theorem indexUpdate_ok {r : IndexRec} {s s' : Store} {u : Unit} (h : indexUpdate r s = .ok (u, s')) :
    s' = { s with index := upd IndexRec.id r s.index } := by
  simp only [indexUpdate, bind_ok, get_ok, ite_ok, throw_ok, put_ok, pure_ok] at h
  obtain ⟨_, _, he, h⟩ := h
  cases he
  obtain ⟨_, h⟩ | ⟨_, h⟩ := h
  · exact h.elim
  obtain ⟨_, h⟩ | ⟨_, h⟩ := h
  · exact h.elim
  obtain ⟨h1, h⟩ | ⟨h1, h⟩ := h
  · cases h
    rw [upd_of_not_mem]
    intro x hx he
    exact h1 (List.any_eq_true.2 ⟨x, hx, by simp [he]⟩)
  obtain ⟨_, h⟩ | ⟨_, h⟩ := h
  · exact h.elim
  obtain ⟨_, h⟩ | ⟨_, h⟩ := h
  · exact h.elim
  obtain ⟨_, h⟩ | ⟨_, h⟩ := h
  · exact h.elim
  cases h
  rfl

theorem indexDelete_ok {id : Nat} {s s' : Store} {u : Unit} (h : indexDelete id s = .ok (u, s')) :
    (id = 0 → ∀ x ∈ s.index, x.id ≠ 0) ∧ s' = { s with index := s.index.filter fun x => x.id != id } := by
  simp only [indexDelete, bind_ok, get_ok, ite_ok, throw_ok, put_ok, pure_ok] at h
  obtain ⟨_, _, he, h⟩ := h
  cases he
  obtain ⟨_, h⟩ | ⟨h1, h⟩ := h
  · exact h.elim
  cases h
  refine ⟨fun h0 x hx hx0 => h1 ⟨h0, ?_⟩, rfl⟩
  exact List.any_eq_true.2 ⟨x, hx, by simp [hx0]⟩

theorem linkAdd_ok {l : Link} {s s' : Store} {u : Unit} (h : linkAdd l s = .ok (u, s')) :
    s' = s.withLink l := by
  simp only [linkAdd, bind_ok, get_ok, ite_ok, throw_ok, put_ok, pure_ok] at h
  obtain ⟨_, _, he, h⟩ := h
  cases he
  obtain ⟨_, h⟩ | ⟨h1, h⟩ := h
  · exact h.elim
  cases h
  rfl

theorem weightAdd_ok {group index : Nat} {value : ℚ} {s s' : Store} {u : Unit}
    (h : weightAdd group index value s = .ok (u, s')) :
    index ≠ 0 ∧ 0 ≤ value ∧ (∀ w ∈ s.weights, ¬ (w.group = group ∧ w.index = index)) ∧
      s' = { s with weights := s.weights ++ [⟨nextId (s.weights.map (·.id)), group, index, value⟩] } := by
  simp only [weightAdd, bind_ok, get_ok, ite_ok, throw_ok, put_ok, pure_ok] at h
  obtain ⟨_, _, he, h⟩ := h
  cases he
  obtain ⟨_, h⟩ | ⟨h1, h⟩ := h
  · exact h.elim
  obtain ⟨_, h⟩ | ⟨h2, h⟩ := h
  · exact h.elim
  obtain ⟨_, h⟩ | ⟨h3, h⟩ := h
  · exact h.elim
  obtain ⟨_, h⟩ | ⟨h4, h⟩ := h
  · exact h.elim
  cases h
  refine ⟨h1, not_lt.1 h2, ?_, rfl⟩
  intro w hw hw'
  exact h3 (List.any_eq_true.2 ⟨w, hw, by simp [hw']⟩)

theorem mappingAdd_ok {link : Nat} {other : Int} {index : Nat} {level : Option (List Byte)} {value : ℚ}
    {prop : Option ℚ} {s s' : Store} {u : Unit}
    (h : mappingAdd link other index level value prop s = .ok (u, s')) :
    ∃ lv, level = some lv ∧ ¬ (other = 0 ∧ index = 0) ∧
      s' = { s with maps := s.maps ++
        [⟨nextId (s.maps.map (·.id)), link, other, index, lv, value, prop⟩] } := by
  simp only [mappingAdd, bind_ok, get_ok, ite_ok, throw_ok, put_ok, pure_ok] at h
  obtain ⟨_, _, he, h⟩ := h
  cases he
  obtain ⟨_, h⟩ | ⟨h1, h⟩ := h
  · exact h.elim
  cases level with
  | none => exact absurd h (by simp [throw_ok])
  | some lv =>
    simp only [ite_ok, throw_ok, put_ok] at h
    obtain ⟨_, h⟩ | ⟨h2, h⟩ := h
    · exact h.elim
    obtain ⟨_, h⟩ | ⟨h3, h⟩ := h
    · exact h.elim
    obtain ⟨_, h⟩ | ⟨h4, h⟩ := h
    · exact h.elim
    cases h
    exact ⟨lv, rfl, h1, rfl⟩

theorem weightSetValue_ok {id : Nat} {value : ℚ} {s s' : Store} {u : Unit}
    (h : weightSetValue id value s = .ok (u, s')) :
    0 ≤ value ∧ s' = { s with
      weights := s.weights.map fun w => if w.id = id then { w with value := value } else w } := by
  simp only [weightSetValue, bind_ok, get_ok, ite_ok, throw_ok, put_ok, pure_ok] at h
  obtain ⟨_, _, he, h⟩ := h
  cases he
  obtain ⟨_, h⟩ | ⟨h1, h⟩ := h
  · exact h.elim
  cases h
  exact ⟨not_lt.1 h1, rfl⟩

/-! ### Loops -/

theorem forM_weightDelete {ws : List Weight} {s s' : Store}
    (h : ws.forM (fun w => weightDelete w.id) s = .ok ((), s')) :
    s' = { s with weights := s.weights.filter fun w => w.id ∉ ws.map (·.id) } := by
  rw [forM_exact (e := fun w t => { t with weights := t.weights.filter fun x => x.id != w.id }) ?_ h]
  · have : ∀ (ws : List Weight) (t : Store),
        ws.foldl (fun t w => { t with weights := t.weights.filter fun x => x.id != w.id }) t =
          { t with weights := (ws.map (·.id)).foldl (fun acc i => acc.filter fun x => x.id != i) t.weights } := by
      intro ws
      induction ws with
      | nil => intro t; rfl
      | cons w ws ih => intro t; rw [List.foldl_cons, ih]; rfl
    rw [this, foldl_del]
  · intro w _ t t' ht
    exact (Prod.mk.inj (modify_ok.1 ht)).2

theorem forM_mappingDelete {ms : List Mapping} {s s' : Store}
    (h : ms.forM (fun m => mappingDelete m.id) s = .ok ((), s')) :
    s' = { s with maps := s.maps.filter fun m => m.id ∉ ms.map (·.id) } := by
  rw [forM_exact (e := fun m t => { t with maps := t.maps.filter fun x => x.id != m.id }) ?_ h]
  · have : ∀ (ms : List Mapping) (t : Store),
        ms.foldl (fun t m => { t with maps := t.maps.filter fun x => x.id != m.id }) t =
          { t with maps := (ms.map (·.id)).foldl (fun acc i => acc.filter fun x => x.id != i) t.maps } := by
      intro ms
      induction ms with
      | nil => intro t; rfl
      | cons w ms ih => intro t; rw [List.foldl_cons, ih]; rfl
    rw [this, foldl_del]
  · intro w _ t t' ht
    exact (Prod.mk.inj (modify_ok.1 ht)).2

/-- Updating some mappings. -/
theorem forM_mappingUpdate {ms : List Mapping} {g : Mapping → Mapping} {s s' : Store}
    (hnd : (s.maps.map (·.id)).Nodup) (hsub : ∀ m ∈ ms, m ∈ s.maps) (hg : ∀ m ∈ ms, (g m).id = m.id)
    (h : ms.forM (fun m => mappingUpdate (g m)) s = .ok ((), s')) :
    s' = { s with maps := s.maps.map fun m => if m.id ∈ ms.map (·.id) then g m else m } := by
  rw [forM_exact (e := fun m t => { t with maps := upd Mapping.id (g m) t.maps }) ?_ h]
  · have : ∀ (ms : List Mapping) (t : Store),
        ms.foldl (fun t m => { t with maps := upd Mapping.id (g m) t.maps }) t =
          { t with maps := ms.foldl (fun acc m => upd Mapping.id (g m) acc) t.maps } := by
      intro ms
      induction ms with
      | nil => intro t; rfl
      | cons w ms ih => intro t; rw [List.foldl_cons, ih]; rfl
    rw [this, foldl_upd hnd hsub hg]
  · intro w _ t t' ht
    exact mappingUpdate_ok ht

/-- Updating some links. -/
theorem forM_linkUpdate {ls : List Link} {g : Link → Link} {s s' : Store}
    (hnd : (s.links.map (·.id)).Nodup) (hsub : ∀ l ∈ ls, l ∈ s.links) (hg : ∀ l ∈ ls, (g l).id = l.id)
    (h : ls.forM (fun l => linkUpdate (g l)) s = .ok ((), s')) :
    s' = { s with links := s.links.map fun l => if l.id ∈ ls.map (·.id) then g l else l } := by
  rw [forM_exact (e := fun l t => { t with links := upd Link.id (g l) t.links }) ?_ h]
  · have : ∀ (ls : List Link) (t : Store),
        ls.foldl (fun t l => { t with links := upd Link.id (g l) t.links }) t =
          { t with links := ls.foldl (fun acc l => upd Link.id (g l) acc) t.links } := by
      intro ls
      induction ls with
      | nil => intro t; rfl
      | cons w ls ih => intro t; rw [List.foldl_cons, ih]; rfl
    rw [this, foldl_upd hnd hsub hg]
  · intro w _ t t' ht
    exact linkUpdate_ok ht

/-- Updating some weight groups. -/
theorem forM_wgroupUpdate {gs : List WGroup} {g : WGroup → WGroup} {s s' : Store}
    (hnd : (s.wgroups.map (·.id)).Nodup) (hsub : ∀ l ∈ gs, l ∈ s.wgroups)
    (hg : ∀ l ∈ gs, (g l).id = l.id)
    (h : gs.forM (fun l => wgroupUpdate (g l)) s = .ok ((), s')) :
    s' = { s with wgroups := s.wgroups.map fun l => if l.id ∈ gs.map (·.id) then g l else l } := by
  rw [forM_exact (e := fun l t => { t with wgroups := upd WGroup.id (g l) t.wgroups }) ?_ h]
  · have : ∀ (gs : List WGroup) (t : Store),
        gs.foldl (fun t l => { t with wgroups := upd WGroup.id (g l) t.wgroups }) t =
          { t with wgroups := gs.foldl (fun acc l => upd WGroup.id (g l) acc) t.wgroups } := by
      intro gs
      induction gs with
      | nil => intro t; rfl
      | cons w gs ih => intro t; rw [List.foldl_cons, ih]; rfl
    rw [this, foldl_upd hnd hsub hg]
  · intro w _ t t' ht
    exact wgroupUpdate_ok ht

end Toron.Space
