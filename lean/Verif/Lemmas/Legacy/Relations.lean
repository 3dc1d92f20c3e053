/-
Lemmas about the relations that the legacy mapper makes out of matches.
-/
import Verif.Lemmas.Legacy.Mapper
import Mathlib.Algebra.BigOperators.Ring.List

namespace Toron.Legacy

open Toron.Selectors (PyStr)
open Toron.Space (IndexRec)

theorem map_flatMap_sum {α β : Type} (l : List α) (f : α → List β) (g : β → ℚ) :
    ((l.flatMap f).map g).sum = (l.map fun x => ((f x).map g).sum).sum := by
  induction l with
  | nil => rfl
  | cons a l ih => simp [List.flatMap_cons, ih]

theorem filter_map_sum {α : Type} (l : List α) (p : α → Bool) (g : α → ℚ) :
    ((l.filter p).map g).sum = (l.map fun x => if p x = true then g x else 0).sum := by
  induction l with
  | nil => rfl
  | cons a l ih =>
    by_cases h : p a = true
    · simp [List.filter_cons, h, ih]
    · simp [List.filter_cons, h, ih]

theorem sum_at {κ : Type} [DecidableEq κ] {ks : List κ} (hn : ks.Nodup) {x : κ} (hx : x ∈ ks) (q : κ → Bool) (c : ℚ) :
    (ks.map fun k => if q k = true then (if x = k then c else 0) else 0).sum = if q x = true then c else 0 := by
  induction ks with
  | nil => cases hx
  | cons k ks ih =>
    rw [List.nodup_cons] at hn
    rw [List.map_cons, List.sum_cons]
    by_cases h : x = k
    · subst h
      have : (ks.map fun k => if q k = true then (if x = k then c else 0) else 0).sum = 0 := by
        apply List.sum_eq_zero
        intro y hy
        obtain ⟨k, hk, rfl⟩ := List.mem_map.1 hy
        have : x ≠ k := fun e => hn.1 (e ▸ hk)
        simp [this]
      rw [this, add_zero, if_pos rfl]
    · rw [ih hn.2 ((List.mem_cons.1 hx).resolve_left h), if_neg h]
      simp

theorem grouped_sum {κ : Type} [DecidableEq κ] {ks : List κ} (hn : ks.Nodup) (pieces : List (κ × ℚ)) (hp : ∀ p ∈ pieces, p.1 ∈ ks)
    (q : κ → Bool) :
    (ks.map fun k => if q k = true then ((pieces.filter fun p => decide (p.1 = k)).map (·.2)).sum else 0).sum =
      (pieces.map fun p => if q p.1 = true then p.2 else 0).sum := by
  induction pieces with
  | nil => simp
  | cons p ps ih =>
    rw [List.map_cons, List.sum_cons, ← ih fun x hx => hp x (List.mem_cons_of_mem _ hx),
      ← sum_at hn (hp p List.mem_cons_self) q p.2, ← List.sum_map_add]
    congr 1
    apply List.map_congr_left
    intro k _
    by_cases h : p.1 = k <;> by_cases hq : q k = true <;> simp [List.filter_cons, h, hq]

/-- The keys of relations. -/
theorem relations_sum (rows : List TableRow) (src dst : List Found) (q : Nat → Nat → Bool) :
    (((relations rows src dst).filter fun g => q g.1 g.2.1).map (·.2.2)).sum =
      (rows.map fun r => ((src.filter fun a => a.run == r.run).map fun a => ((dst.filter fun b => b.run == r.run).map fun b =>
        if q a.index b.index = true then r.value * (proportionIn src a * proportionIn dst b) else 0).sum).sum).sum := by
  have hp := sortedBy_perm keyLe ((relationPieces rows src dst).map (·.1)).dedup
  have hn : (sortedBy keyLe ((relationPieces rows src dst).map (·.1)).dedup).Nodup := hp.nodup_iff.2 (List.nodup_dedup _)
  rw [filter_map_sum]
  unfold relations
  rw [List.map_map]
  have := grouped_sum hn (relationPieces rows src dst)
    (fun p hm => by rw [hp.mem_iff, List.mem_dedup]; exact List.mem_map_of_mem hm) (fun k => q k.1 k.2.1)
  refine Eq.trans ?_ (this.trans ?_)
  · rfl
  · unfold relationPieces
    rw [map_flatMap_sum]
    congr 1
    apply List.map_congr_left
    intro r _
    rw [map_flatMap_sum]
    congr 1
    apply List.map_congr_left
    intro a _
    rw [List.map_map]
    rfl

theorem partOf_eq (found : List Found) (run index : Nat) : partOf found run index =
    ((found.filter fun m => m.run == run).map fun m => if m.index = index then proportionIn found m else 0).sum := by
  unfold partOf
  rw [partsOf_eq, filter_map_sum, List.map_map]
  congr 1
  apply List.map_congr_left
  intro m _
  simp

theorem sum_products {l l' : List Found} {f g : Found → ℚ} {p q : Found → Prop} [DecidablePred p] [DecidablePred q] (v : ℚ) :
    (l.map fun a => (l'.map fun b => if p a ∧ q b then v * (f a * g b) else 0).sum).sum =
      v * ((l.map fun a => if p a then f a else 0).sum * (l'.map fun b => if q b then g b else 0).sum) := by
  have h1 : ∀ a, (l'.map fun b => if p a ∧ q b then v * (f a * g b) else 0).sum =
      v * (if p a then f a else 0) * (l'.map fun b => if q b then g b else 0).sum := by
    intro a
    rw [← List.sum_map_mul_left]
    congr 1
    apply List.map_congr_left
    intro b _
    by_cases ha : p a <;> by_cases hb : q b <;> simp [ha, hb, mul_assoc]
  simp only [h1]
  rw [List.sum_map_mul_right, List.sum_map_mul_left, mul_assoc]

theorem relationTotal_eq (rows : List TableRow) (src dst : List Found) (source index : Nat) :
    relationTotal (relations rows src dst) source index =
      (rows.map fun r => r.value * (partOf src r.run source * partOf dst r.run index)).sum := by
  unfold relationTotal
  have := relations_sum rows src dst fun s i => decide (s = source ∧ i = index)
  rw [this]
  congr 1
  apply List.map_congr_left
  intro r _
  rw [partOf_eq, partOf_eq, ← sum_products]
  simp only [decide_eq_true_eq]

theorem relations_total (rows : List TableRow) (src dst : List Found) :
    ((relations rows src dst).map (·.2.2)).sum =
      (rows.map fun r => r.value * (((partsOf src r.run).map (·.2)).sum * ((partsOf dst r.run).map (·.2)).sum)).sum := by
  have := relations_sum rows src dst fun _ _ => true
  rw [List.filter_true] at this
  rw [this]
  congr 1
  apply List.map_congr_left
  intro r _
  rw [partsOf_eq, partsOf_eq, List.map_map, List.map_map]
  have := sum_products (l := src.filter fun a => a.run == r.run) (l' := dst.filter fun b => b.run == r.run)
    (f := proportionIn src) (g := proportionIn dst) (p := fun _ => True) (q := fun _ => True) r.value
  simp only [and_self, if_true] at this
  simpa [Function.comp_def] using this

/-! ### Without overlapping, the level belongs to the record -/

theorem found_level {n : Node} {a : MatchArgs} {header : List PyStr} {rows : List (Nat × List PyStr)} {found : List Found}
    (ho : a.overlap = false) (h : n.findMatches a header rows = .ok found) :
    ∀ m ∈ found, ∀ m' ∈ found, m.index = m'.index → m.level = m'.level := by
  obtain ⟨_, groups, amb, _, _, _, hf⟩ := findMatches_cases h
  refine foldlM_induct (P := fun out : List Found => ∀ m ∈ out, ∀ m' ∈ out, m.index = m'.index → m.level = m'.level) hf ?_ ?_
  · intro m hm m' hm' _
    obtain ⟨l, _, hm⟩ := List.mem_flatMap.1 hm
    obtain ⟨l', _, hm'⟩ := List.mem_flatMap.1 hm'
    rw [(mem_exactMatches.1 hm).2.2.1, (mem_exactMatches.1 hm').2.2.1]
  · intro b l b' _ hb hs
    rcases addAmbiguous_ok hs with rfl | ⟨all, _, records, _, hsub, rfl⟩
    · exact hb
    · have new : ∀ m ∈ (runsOf rows l).flatMap (fun run => records.map fun r =>
          (⟨run, r.1, r.2, some (n.levelOf (whereOf header l))⟩ : Found)),
          m.level = some (n.levelOf (whereOf header l)) ∧ ∀ x ∈ b, x.index ≠ m.index := by
        intro m hm
        obtain ⟨run, _, hm⟩ := List.mem_flatMap.1 hm
        obtain ⟨r, hr, rfl⟩ := List.mem_map.1 hm
        refine ⟨rfl, fun x hx e => ?_⟩
        rw [hsub, List.mem_filter, ho] at hr
        have h2 := hr.2
        simp only [Bool.false_or, Bool.not_eq_true', List.any_eq_false, beq_iff_eq] at h2
        exact h2 x hx e
      intro m hm m' hm' e
      rcases List.mem_append.1 hm with h1 | h1 <;> rcases List.mem_append.1 hm' with h2 | h2
      · exact hb m h1 m' h2 e
      · exact absurd e ((new m' h2).2 m h1)
      · exact absurd e.symm ((new m h1).2 m' h2)
      · rw [(new m h1).1, (new m' h2).1]

theorem mem_pieces {rows : List TableRow} {src dst : List Found} {k : Nat × Nat × Option (List Bool)}
    (h : k ∈ (relationPieces rows src dst).map (·.1)) : ∃ b ∈ dst, b.index = k.2.1 ∧ b.level = k.2.2 := by
  obtain ⟨p, hp, rfl⟩ := List.mem_map.1 h
  unfold relationPieces at hp
  obtain ⟨r, _, hp⟩ := List.mem_flatMap.1 hp
  obtain ⟨a, _, hp⟩ := List.mem_flatMap.1 hp
  obtain ⟨b, hb, rfl⟩ := List.mem_map.1 hp
  exact ⟨b, (List.mem_filter.1 hb).1, rfl, rfl⟩

theorem relations_keys {rows : List TableRow} {src dst : List Found}
    (h : ∀ m ∈ dst, ∀ m' ∈ dst, m.index = m'.index → m.level = m'.level) :
    ((relations rows src dst).map fun g => (g.1, g.2.1)).Nodup := by
  unfold relations
  rw [List.map_map]
  have hp := sortedBy_perm keyLe ((relationPieces rows src dst).map (·.1)).dedup
  refine List.Nodup.map_on ?_ (hp.nodup_iff.2 (List.nodup_dedup _))
  intro x hx y hy e
  rw [hp.mem_iff, List.mem_dedup] at hx hy
  obtain ⟨b, hb, b1, b2⟩ := mem_pieces hx
  obtain ⟨c, hc, c1, c2⟩ := mem_pieces hy
  simp only [Function.comp_apply, Prod.mk.injEq] at e
  have := h b hb c hc (by rw [b1, c1, e.2])
  rw [b2, c2] at this
  exact Prod.ext e.1 (Prod.ext e.2 this)

theorem filter_key_length {given : List (Nat × Nat × ℚ)} (h : (given.map fun g => (g.1, g.2.1)).Nodup) (s i : Nat) :
    (lastGiven given s i).getD 0 = relationTotal given s i := by
  unfold lastGiven relationTotal
  have : (given.filter fun g => decide (g.1 = s ∧ g.2.1 = i)).length ≤ 1 := by
    by_contra hl
    push Not at hl
    have hsub : ((given.filter fun g => decide (g.1 = s ∧ g.2.1 = i)).map fun g => (g.1, g.2.1)).Nodup :=
      h.sublist (List.filter_sublist.map _)
    rcases hx : given.filter fun g => decide (g.1 = s ∧ g.2.1 = i) with _ | ⟨x, _ | ⟨y, ys⟩⟩
    · rw [hx] at hl; simp at hl
    · rw [hx] at hl; simp at hl
    · have hxm : x ∈ given.filter fun g => decide (g.1 = s ∧ g.2.1 = i) := by rw [hx]; simp
      have hym : y ∈ given.filter fun g => decide (g.1 = s ∧ g.2.1 = i) := by rw [hx]; simp
      have h1 := (List.mem_filter.1 hxm).2
      have h2 := (List.mem_filter.1 hym).2
      simp only [decide_eq_true_eq] at h1 h2
      rw [hx] at hsub
      simp [h1.1, h1.2, h2.1, h2.2] at hsub
  rcases hx : given.filter fun g => decide (g.1 = s ∧ g.2.1 = i) with _ | ⟨x, _ | ⟨y, ys⟩⟩
  · rw [hx]; rfl
  · rw [hx]; simp
  · rw [hx] at this; simp at this

end Toron.Legacy
