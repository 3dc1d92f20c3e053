/-
Lemmas on combining the matches of both sides of mapping data.
-/
import Verif.Lemmas.Mapper

namespace Toron.Mapper

open Toron.Selectors (PyStr)
open Toron.Space

/-! ### Sums -/

theorem sum_filter_ite {α : Type} (l : List α) (p : α → Prop) [DecidablePred p] (f : α → ℚ) :
    ((l.filter fun x => decide (p x)).map f).sum = (l.map fun x => if p x then f x else 0).sum := by
  induction l with
  | nil => rfl
  | cons x xs ih =>
    by_cases h : p x
    · rw [List.filter_cons_of_pos (by simpa using h), List.map_cons, List.map_cons, List.sum_cons, List.sum_cons, ih,
        if_pos h]
    · rw [List.filter_cons_of_neg (by simpa using h), List.map_cons, List.sum_cons, ih, if_neg h, zero_add]

theorem sum_flatMap {α β : Type} (l : List α) (f : α → List β) (g : β → ℚ) :
    ((l.flatMap f).map g).sum = (l.map fun x => ((f x).map g).sum).sum := by
  induction l with
  | nil => rfl
  | cons x xs ih => rw [List.flatMap_cons, List.map_append, List.sum_append, ih, List.map_cons, List.sum_cons]

theorem sum_sub {α : Type} (l : List α) (f g : α → ℚ) :
    (l.map fun x => f x - g x).sum = (l.map f).sum - (l.map g).sum := by
  induction l with
  | nil => simp
  | cons x xs ih => simp only [List.map_cons, List.sum_cons, ih]; ring

theorem sum_mul_sum {α β : Type} (l : List α) (m : List β) (f : α → ℚ) (g : β → ℚ) :
    (l.map fun a => (m.map fun b => f a * g b).sum).sum = (l.map f).sum * (m.map g).sum := by
  rw [← List.sum_map_mul_right]
  congr 1
  apply List.map_congr_left
  intro a _
  rw [List.sum_map_mul_left]

theorem sum_congr' {α : Type} {l : List α} {f g : α → ℚ} (h : ∀ x ∈ l, f x = g x) :
    (l.map f).sum = (l.map g).sum := by rw [List.map_congr_left h]

/-! ### Shares -/

theorem share_eq (ms : List Match) (run i : Nat) :
    share ms run i = ((ofRun ms run).map fun m => if m.index = i then m.prop.getD 0 else 0).sum := by
  unfold share ofRun
  rw [sum_filter_ite, sum_filter_ite]
  apply sum_congr'
  intro m _
  by_cases h1 : m.run = run <;> by_cases h2 : m.index = i <;> simp [h1, h2]

theorem shareAt_eq (ms : List Match) (run i : Nat) (L : List Byte) :
    shareAt ms run i L =
      ((ofRun ms run).map fun m => if m.index = i ∧ m.level = L then m.prop.getD 0 else 0).sum := by
  unfold shareAt ofRun
  rw [sum_filter_ite, sum_filter_ite]
  apply sum_congr'
  intro m _
  by_cases h1 : m.run = run <;> simp [h1]

/-! ### The joined rows -/

/-- Each match has a proportion. -/
def HasProps (ms : List Match) : Prop := ∀ m ∈ ms, m.prop.isSome

theorem sqlMul_getD {a b : Option ℚ} : (sqlMul a b).getD 0 = a.getD 0 * b.getD 0 := by
  rcases a with _ | a <;> rcases b with _ | b <;> simp [sqlMul]

theorem joined_sum (values : List (Nat × ℚ)) (src trg : List Match) (F : Nat × Nat × List Byte → ℚ) :
    ((joined false values src trg).map fun j => F j.1 * j.2.getD 0).sum =
      (values.map fun r => ((ofRun src r.1).map fun a => ((ofRun trg r.1).map fun b =>
        if a.index = 0 ∧ b.index = 0 then 0
        else F (a.index, b.index, b.level) * (r.2 * (a.prop.getD 0 * b.prop.getD 0))).sum).sum).sum := by
  unfold joined
  rw [sum_flatMap]
  apply sum_congr'
  intro r _
  have h1 : (src.filter fun a => a.run == r.1) = ofRun src r.1 := by
    unfold ofRun
    apply List.filter_congr
    intro a _
    by_cases h : a.run = r.1 <;> simp [h]
  rw [sum_flatMap, h1]
  apply sum_congr'
  intro a ha
  have ha : a.run = r.1 := by simpa using (List.mem_filter.1 ha).2
  rw [List.map_map]
  have h2 : (trg.filter fun b => b.run == a.run && (false || !(a.index == 0 && b.index == 0))) =
      (ofRun trg r.1).filter fun b => decide (¬ (a.index = 0 ∧ b.index = 0)) := by
    unfold ofRun
    rw [List.filter_filter]
    apply List.filter_congr
    intro b _
    rw [ha]
    by_cases h : b.run = r.1 <;> by_cases h3 : a.index = 0 <;> by_cases h4 : b.index = 0 <;> simp [h, h3, h4]
  rw [h2, sum_filter_ite]
  apply sum_congr'
  intro b _
  by_cases h : a.index = 0 ∧ b.index = 0
  · rw [if_pos h, if_neg (by simpa using h)]
  · rw [if_neg h, if_pos h]
    simp only [Function.comp, sqlMul_getD, Option.getD_some]

theorem mem_joined {values : List (Nat × ℚ)} {src trg : List Match} {j : (Nat × Nat × List Byte) × Option ℚ} :
    j ∈ joined false values src trg ↔ ∃ r ∈ values, ∃ a ∈ src, ∃ b ∈ trg, a.run = r.1 ∧ b.run = r.1 ∧
      ¬ (a.index = 0 ∧ b.index = 0) ∧ j = ((a.index, b.index, b.level), sqlMul (some r.2) (sqlMul a.prop b.prop)) := by
  unfold joined
  simp only [List.mem_flatMap, List.mem_map, List.mem_filter, beq_iff_eq, Bool.and_eq_true, Bool.false_or,
    Bool.not_eq_true', Bool.and_eq_false_iff, beq_eq_false_iff_ne]
  constructor
  · rintro ⟨r, hr, a, ⟨ha, har⟩, b, ⟨hb, hbr, h0⟩, rfl⟩
    exact ⟨r, hr, a, ha, b, hb, har, hbr.trans har, by rintro ⟨h1, h2⟩; rcases h0 with h | h <;> contradiction, rfl⟩
  · rintro ⟨r, hr, a, ha, b, hb, har, hbr, h0, rfl⟩
    exact ⟨r, hr, a, ⟨ha, har⟩, b, ⟨hb, hbr.trans har.symm, not_and_or.1 h0⟩, rfl⟩

/-! ### The result -/

variable {rows : List SourceRow} {src trg : List Match}

theorem out_keys (js : List ((Nat × Nat × List Byte) × Option ℚ)) :
    ((aggregate js).map fun x => (x.other, x.index, x.level)) = sortedBy keyLe (distinct (js.map (·.1))) := by
  unfold aggregate
  rw [List.map_map]
  exact List.map_id _

theorem out_keys_nodup (js : List ((Nat × Nat × List Byte) × Option ℚ)) :
    ((aggregate js).map fun x => (x.other, x.index, x.level)).Nodup := by
  rw [out_keys]
  exact (sortedBy_perm _ _).nodup_iff.2 (nodup_distinct _)

theorem mem_keys {js : List ((Nat × Nat × List Byte) × Option ℚ)} {k : Nat × Nat × List Byte} :
    k ∈ sortedBy keyLe (distinct (js.map (·.1))) ↔ ∃ j ∈ js, j.1 = k := by
  rw [(sortedBy_perm _ _).mem_iff, mem_distinct, List.mem_map]

theorem out_sum (js : List ((Nat × Nat × List Byte) × Option ℚ)) :
    ((aggregate js).map OutRow.amount).sum = (js.map fun j => j.2.getD 0).sum := by
  unfold aggregate
  rw [List.map_map]
  have : (fun k : Nat × Nat × List Byte => ((js.filter fun j => decide (j.1 = k)).map fun j => j.2.getD 0).sum) =
      OutRow.amount ∘ fun k =>
        ⟨k.1, k.2.1, k.2.2, sqlSum ((js.filter fun j => decide (j.1 = k)).map (·.2))⟩ := by
    funext k
    show _ = (sqlSum _).getD 0
    rw [sqlSum_getD, List.map_map]
    rfl
  rw [← this, sum_by_key (fun j => j.2.getD 0) (·.1) js ((sortedBy_perm _ _).nodup_iff.2 (nodup_distinct _))]
  congr 2
  apply List.filter_eq_self.2
  intro j hj
  simpa using mem_keys.2 ⟨j, hj, rfl⟩

theorem out_mem {x : OutRow} : x ∈ iterMappings rows src trg →
    ¬ (x.other = 0 ∧ x.index = 0) ∧ ∃ r ∈ rows, ∃ a ∈ src, ∃ b ∈ trg, a.run = r.run ∧ b.run = r.run ∧
      a.index = x.other ∧ b.index = x.index ∧ b.level = x.level := by
  intro hx
  have hk : (x.other, x.index, x.level) ∈ (iterMappings rows src trg).map fun x => (x.other, x.index, x.level) :=
    List.mem_map.2 ⟨x, hx, rfl⟩
  rw [iterMappings, out_keys, mem_keys] at hk
  obtain ⟨j, hj, he⟩ := hk
  obtain ⟨v, hv, a, ha, b, hb, h1, h2, h0, rfl⟩ := mem_joined.1 hj
  obtain ⟨r, hr, rfl⟩ := List.mem_map.1 hv
  obtain ⟨e1, e2, e3⟩ : a.index = x.other ∧ b.index = x.index ∧ b.level = x.level := by simpa using he
  exact ⟨by rw [← e1, ← e2]; exact h0, r, hr, a, ha, b, hb, h1, h2, e1, e2, e3⟩

theorem out_mem' {r : SourceRow} (hr : r ∈ rows) {a b : Match} (ha : a ∈ src) (hb : b ∈ trg) (h1 : a.run = r.run)
    (h2 : b.run = r.run) (h0 : ¬ (a.index = 0 ∧ b.index = 0)) :
    ∃ x ∈ iterMappings rows src trg, x.other = a.index ∧ x.index = b.index ∧ x.level = b.level := by
  have : (a.index, b.index, b.level) ∈ (iterMappings rows src trg).map fun x => (x.other, x.index, x.level) := by
    rw [iterMappings, out_keys, mem_keys]
    exact ⟨_, mem_joined.2 ⟨(r.run, r.value), List.mem_map.2 ⟨r, hr, rfl⟩, a, ha, b, hb, h1, h2, h0, rfl⟩, rfl⟩
  obtain ⟨x, hx, he⟩ := List.mem_map.1 this
  exact ⟨x, hx, by simpa using he⟩

theorem out_value (h1 : HasProps src) (h2 : HasProps trg) {x : OutRow} (hx : x ∈ iterMappings rows src trg) :
    x.value = some ((rows.map fun r =>
      r.value * share src r.run x.other * shareAt trg r.run x.index x.level).sum) := by
  have h0 := (out_mem hx).1
  unfold iterMappings aggregate at hx
  obtain ⟨k, hk, rfl⟩ := List.mem_map.1 hx
  dsimp only at h0 ⊢
  obtain ⟨j, hj, hjk⟩ := mem_keys.1 hk
  have hsome : ∀ j ∈ joined false (rows.map fun r => (r.run, r.value)) src trg, j.2.isSome := by
    intro j hj
    obtain ⟨v, hv, a, ha, b, hb, _, _, _, rfl⟩ := mem_joined.1 hj
    obtain ⟨p, hp⟩ := Option.isSome_iff_exists.1 (h1 a ha)
    obtain ⟨q, hq⟩ := Option.isSome_iff_exists.1 (h2 b hb)
    simp [hp, hq, sqlMul]
  have hval := sqlSum_getD (((joined false (rows.map fun r => (r.run, r.value)) src trg).filter
    fun j => decide (j.1 = k)).map (·.2))
  rcases hq : sqlSum (((joined false (rows.map fun r => (r.run, r.value)) src trg).filter
    fun j => decide (j.1 = k)).map (·.2)) with _ | q
  · have := sqlSum_none.1 hq j.2 (List.mem_map.2 ⟨j, List.mem_filter.2 ⟨hj, by simpa using hjk⟩, rfl⟩)
    have hs := hsome j hj
    rw [this] at hs
    simp at hs
  · rw [hq, Option.getD_some] at hval
    rw [hq, hval]
    congr 1
    rw [List.map_map, sum_filter_ite]
    have hF := joined_sum (rows.map fun r => (r.run, r.value)) src trg fun k' => if k' = k then 1 else 0
    have : ∀ j : (Nat × Nat × List Byte) × Option ℚ,
        (if j.1 = k then ((fun v => v.getD 0) ∘ (·.2)) j else 0) = (if j.1 = k then 1 else 0) * j.2.getD 0 := by
      intro j
      by_cases h : j.1 = k <;> simp [h]
    simp only [this]
    rw [hF, List.map_map]
    apply sum_congr'
    intro r _
    dsimp only [Function.comp]
    rw [mul_assoc, share_eq, shareAt_eq, ← sum_mul_sum, ← List.sum_map_mul_left]
    apply sum_congr'
    intro a _
    rw [← List.sum_map_mul_left]
    apply sum_congr'
    intro b _
    obtain ⟨o, i, L⟩ := k
    dsimp only at h0 ⊢
    by_cases e1 : a.index = o <;> by_cases e2 : b.index = i <;> by_cases e3 : b.level = L <;>
      simp [e1, e2, e3, h0]

theorem out_total :
    ((iterMappings rows src trg).map OutRow.amount).sum =
      (rows.map fun r => r.value * (((ofRun src r.run).map fun m => m.prop.getD 0).sum *
        ((ofRun trg r.run).map fun m => m.prop.getD 0).sum - share src r.run 0 * share trg r.run 0)).sum := by
  have hF := joined_sum (rows.map fun r => (r.run, r.value)) src trg fun _ => 1
  simp only [one_mul] at hF
  rw [iterMappings, out_sum, hF, List.map_map]
  apply sum_congr'
  intro r _
  dsimp only [Function.comp]
  rw [share_eq, share_eq, ← sum_mul_sum, ← sum_mul_sum, ← sum_sub, ← List.sum_map_mul_left]
  apply sum_congr'
  intro a _
  rw [← sum_sub, ← List.sum_map_mul_left]
  apply sum_congr'
  intro b _
  by_cases e1 : a.index = 0 <;> by_cases e2 : b.index = 0 <;> simp [e1, e2]

end Toron.Mapper
