import Verif.Lemmas.Selectors
import Mathlib.Algebra.BigOperators.Group.List.Basic

namespace Toron.Selectors
open Spec

theorem noRepL_iff (cm : CaseMap) (l : List Sel) :
    Sel.NoRepeatsL cm l ↔ ∀ s ∈ l, s.NoRepeats cm := by
  induction l with
  | nil => simp [Sel.NoRepeatsL]
  | cons a l ih => simp [Sel.NoRepeatsL, ih]

mutual
theorem Sel.ind {P : Sel → Prop} (hs : ∀ a o v i, P (.simple a o v i))
    (ha : ∀ l, (∀ s ∈ l, P s) → P (.any l)) (hn : ∀ l, (∀ s ∈ l, P s) → P (.neg l))
    (hw : ∀ l, (∀ s ∈ l, P s) → P (.whr l)) (hc : ∀ l, (∀ s ∈ l, P s) → P (.compound l))
    (hl : P .loop) : (s : Sel) → P s
  | .simple a o v i => hs a o v i
  | .any l => ha l (Sel.indL hs ha hn hw hc hl l)
  | .neg l => hn l (Sel.indL hs ha hn hw hc hl l)
  | .whr l => hw l (Sel.indL hs ha hn hw hc hl l)
  | .compound l => hc l (Sel.indL hs ha hn hw hc hl l)
  | .loop => hl

theorem Sel.indL {P : Sel → Prop} (hs : ∀ a o v i, P (.simple a o v i))
    (ha : ∀ l, (∀ s ∈ l, P s) → P (.any l)) (hn : ∀ l, (∀ s ∈ l, P s) → P (.neg l))
    (hw : ∀ l, (∀ s ∈ l, P s) → P (.whr l)) (hc : ∀ l, (∀ s ∈ l, P s) → P (.compound l))
    (hl : P .loop) : (l : List Sel) → ∀ s ∈ l, P s
  | [] => by simp
  | s :: ss => by
    intro t ht
    rcases List.mem_cons.1 ht with h | ht
    · rw [h]; exact Sel.ind hs ha hn hw hc hl s
    · exact Sel.indL hs ha hn hw hc hl ss t ht
end

theorem keySub_iff (cm : CaseMap) (l m : List Sel) :
    Sel.keySub cm l m = true ↔ ∀ x ∈ l, ∃ y ∈ m, Sel.keyEq cm x y = true := by
  induction l with
  | nil => simp [Sel.keySub]
  | cons a l ih => simp [Sel.keySub, ih]

theorem keyMem_iff (cm : CaseMap) (l : List Sel) (y : Sel) :
    Sel.keyMem cm l y = true ↔ ∃ x ∈ l, Sel.keyEq cm x y = true := by
  induction l with
  | nil => simp [Sel.keyMem]
  | cons a l ih => simp [Sel.keyMem, ih]

/-- The two lists have the same set of comparison keys. -/
def SameKeys (cm : CaseMap) (l m : List Sel) : Prop :=
  (∀ x ∈ l, ∃ y ∈ m, Sel.keyEq cm x y = true) ∧ ∀ y ∈ m, ∃ x ∈ l, Sel.keyEq cm x y = true

theorem sameKeys_iff (cm : CaseMap) (l m : List Sel) :
    (Sel.keySub cm l m && m.all fun y => Sel.keyMem cm l y) = true ↔ SameKeys cm l m := by
  rw [Bool.and_eq_true, keySub_iff, List.all_eq_true]
  simp only [keyMem_iff, SameKeys]

theorem keyEq_symm (cm : CaseMap) (s : Sel) :
    ∀ t, Sel.keyEq cm s t = true → Sel.keyEq cm t s = true := by
  have step : ∀ l m : List Sel,
      (∀ s ∈ l, ∀ t, Sel.keyEq cm s t = true → Sel.keyEq cm t s = true) →
      SameKeys cm l m → SameKeys cm m l := by
    rintro l m ih ⟨h1, h2⟩
    constructor
    · intro y hy
      obtain ⟨x, hx, h⟩ := h2 y hy
      exact ⟨x, hx, ih x hx y h⟩
    · intro x hx
      obtain ⟨y, hy, h⟩ := h1 x hx
      exact ⟨y, hy, ih x hx y h⟩
  induction s using Sel.ind with
  | hs a o v i =>
    intro t h
    cases t <;> simp only [Sel.keyEq, Bool.and_eq_true, beq_iff_eq, Bool.false_eq_true] at h ⊢
    obtain ⟨⟨⟨rfl, rfl⟩, h⟩, rfl⟩ := h
    exact ⟨⟨⟨rfl, rfl⟩, h.symm⟩, rfl⟩
  | ha l ih | hn l ih | hw l ih | hc l ih =>
    intro t h
    cases t <;> simp only [Sel.keyEq, Bool.false_eq_true, sameKeys_iff] at h ⊢
    exact step _ _ ih h
  | hl => intro t h; cases t <;> simp [Sel.keyEq] at h

theorem keyEq_trans (cm : CaseMap) (s : Sel) :
    ∀ t u, Sel.keyEq cm s t = true → Sel.keyEq cm t u = true → Sel.keyEq cm s u = true := by
  have step : ∀ l m n : List Sel,
      (∀ s ∈ l, ∀ t u, Sel.keyEq cm s t = true → Sel.keyEq cm t u = true → Sel.keyEq cm s u = true) →
      SameKeys cm l m → SameKeys cm m n → SameKeys cm l n := by
    rintro l m n ih ⟨h1, h2⟩ ⟨h3, h4⟩
    constructor
    · intro x hx
      obtain ⟨y, hy, h⟩ := h1 x hx
      obtain ⟨z, hz, h'⟩ := h3 y hy
      exact ⟨z, hz, ih x hx y z h h'⟩
    · intro z hz
      obtain ⟨y, hy, h⟩ := h4 z hz
      obtain ⟨x, hx, h'⟩ := h2 y hy
      exact ⟨x, hx, ih x hx y z h' h⟩
  induction s using Sel.ind with
  | hs a o v i =>
    intro t u h h'
    cases t <;> simp only [Sel.keyEq, Bool.and_eq_true, beq_iff_eq, Bool.false_eq_true] at h
    cases u <;> simp only [Sel.keyEq, Bool.and_eq_true, beq_iff_eq, Bool.false_eq_true] at h' ⊢
    obtain ⟨⟨⟨rfl, rfl⟩, h⟩, rfl⟩ := h
    obtain ⟨⟨⟨rfl, rfl⟩, h'⟩, rfl⟩ := h'
    exact ⟨⟨⟨rfl, rfl⟩, h.trans h'⟩, rfl⟩
  | ha l ih | hn l ih | hw l ih | hc l ih =>
    intro t u h h'
    cases t <;> simp only [Sel.keyEq, Bool.false_eq_true, sameKeys_iff] at h
    cases u <;> simp only [Sel.keyEq, Bool.false_eq_true, sameKeys_iff] at h' ⊢
    exact step _ _ _ ih h h'
  | hl => intro t u h; cases t <;> simp [Sel.keyEq] at h

theorem bool_result {x y : Except Err Bool} (hx : ∃ b, x = .ok b) (hy : ∃ b, y = .ok b)
    (h : x = .ok true ↔ y = .ok true) : x = y := by
  obtain ⟨a, rfl⟩ := hx
  obtain ⟨b, rfl⟩ := hy
  cases a <;> cases b <;> simp_all

theorem keyEq_eval (cm : CaseMap) (hcase : ∀ a b, cm.lower a = cm.lower b → cm.upper a = cm.upper b)
    (s : Sel) : ∀ t, Sel.keyEq cm s t = true → s.WF → t.WF → ∀ r, s.eval cm r = t.eval cm r := by
  have stepAny : ∀ l m : List Sel,
      (∀ s ∈ l, ∀ t, Sel.keyEq cm s t = true → s.WF → t.WF → ∀ r, s.eval cm r = t.eval cm r) →
      SameKeys cm l m → Sel.WFL l → Sel.WFL m → ∀ r, Sel.evalAny cm r l = Sel.evalAny cm r m := by
    intro l m ih hk hl hm r
    apply bool_result (evalAny_total cm r l hl) (evalAny_total cm r m hm)
    rw [evalAny_iff cm r l hl, evalAny_iff cm r m hm]
    rw [wfl_iff] at hl hm
    constructor
    · rintro ⟨x, hx, e⟩
      obtain ⟨y, hy, h⟩ := hk.1 x hx
      exact ⟨y, hy, by rw [← ih x hx y h (hl x hx) (hm y hy)]; exact e⟩
    · rintro ⟨y, hy, e⟩
      obtain ⟨x, hx, h⟩ := hk.2 y hy
      exact ⟨x, hx, by rw [ih x hx y h (hl x hx) (hm y hy)]; exact e⟩
  have stepAll : ∀ l m : List Sel,
      (∀ s ∈ l, ∀ t, Sel.keyEq cm s t = true → s.WF → t.WF → ∀ r, s.eval cm r = t.eval cm r) →
      SameKeys cm l m → Sel.WFL l → Sel.WFL m → ∀ r, Sel.evalAll cm r l = Sel.evalAll cm r m := by
    intro l m ih hk hl hm r
    apply bool_result (evalAll_total cm r l hl) (evalAll_total cm r m hm)
    rw [evalAll_iff cm r l hl, evalAll_iff cm r m hm]
    rw [wfl_iff] at hl hm
    constructor
    · intro e y hy
      obtain ⟨x, hx, h⟩ := hk.2 y hy
      rw [← ih x hx y h (hl x hx) (hm y hy)]; exact e x hx
    · intro e x hx
      obtain ⟨y, hy, h⟩ := hk.1 x hx
      rw [ih x hx y h (hl x hx) (hm y hy)]; exact e y hy
  induction s using Sel.ind with
  | hs a o v i =>
    intro t h hw hw' r
    cases t <;> simp only [Sel.keyEq, Bool.and_eq_true, beq_iff_eq, Bool.false_eq_true] at h
    rename_i a' o' v' i'
    obtain ⟨⟨⟨rfl, rfl⟩, h⟩, rfl⟩ := h
    simp only [Sel.WF] at hw hw'
    cases i with
    | false =>
      simp only [cmpVal, Bool.false_and, Bool.false_eq_true, if_false] at h
      rw [h]
    | true =>
      have h1 := hw.2 rfl
      have h2 := hw'.2 rfl
      simp only [cmpVal, h1, h2, Bool.and_self, if_true] at h
      cases v with
      | none => simp [truthy] at h1
      | some v =>
        cases v' with
        | none => simp [truthy] at h2
        | some v' =>
          simp only [Option.map_some, Option.some.injEq] at h
          simp [Sel.eval, hcase v v' h]
  | ha l ih | hw l ih =>
    intro t h hw hw' r
    cases t <;> simp only [Sel.keyEq, Bool.false_eq_true, sameKeys_iff] at h
    simp only [Sel.eval]
    exact stepAny _ _ ih h hw.2 hw'.2 r
  | hn l ih =>
    intro t h hw hw' r
    cases t <;> simp only [Sel.keyEq, Bool.false_eq_true, sameKeys_iff] at h
    simp only [Sel.eval]
    rw [stepAny _ _ ih h hw.2 hw'.2 r]
  | hc l ih =>
    intro t h hw hw' r
    cases t <;> simp only [Sel.keyEq, Bool.false_eq_true, sameKeys_iff] at h
    simp only [Sel.eval]
    exact stepAll _ _ ih h hw.2 hw'.2 r
  | hl => intro t h; cases t <;> simp [Sel.keyEq] at h

theorem sum_sameKeys (cm : CaseMap) (f : Sel → Nat) (l m : List Sel) (hk : SameKeys cm l m)
    (hl : l.Pairwise fun a b => Sel.keyEq cm a b = false)
    (hm : m.Pairwise fun a b => Sel.keyEq cm a b = false)
    (hf : ∀ x ∈ l, ∀ y ∈ m, Sel.keyEq cm x y = true → f x = f y) :
    (l.map f).sum = (m.map f).sum := by
  induction l generalizing m with
  | nil =>
    cases m with
    | nil => rfl
    | cons y m => obtain ⟨x, hx, _⟩ := hk.2 y (by simp); simp at hx
  | cons x l ih =>
    obtain ⟨y, hy, hxy⟩ := hk.1 x (by simp)
    obtain ⟨m1, m2, rfl⟩ := List.append_of_mem hy
    rw [List.pairwise_cons] at hl
    have hperm : (m1 ++ y :: m2).Perm (y :: (m1 ++ m2)) := List.perm_middle
    have hm' : (y :: (m1 ++ m2)).Pairwise fun a b => Sel.keyEq cm a b = false := by
      refine (hperm.pairwise_iff ?_).1 hm
      intro a b h
      by_contra hc
      rw [Bool.not_eq_false] at hc
      rw [keyEq_symm cm b a hc] at h; simp at h
    rw [List.pairwise_cons] at hm'
    have hne : ∀ z ∈ m1 ++ m2, Sel.keyEq cm x z = false := by
      intro z hz
      by_contra hc
      rw [Bool.not_eq_false] at hc
      have := keyEq_trans cm y x z (keyEq_symm cm x y hxy) hc
      rw [hm'.1 z hz] at this; simp at this
    have hk' : SameKeys cm l (m1 ++ m2) := by
      constructor
      · intro x' hx'
        obtain ⟨z, hz, h⟩ := hk.1 x' (List.mem_cons_of_mem _ hx')
        rcases List.mem_cons.1 (hperm.mem_iff.1 hz) with rfl | hz
        · have := keyEq_trans cm x z x' hxy (keyEq_symm cm x' z h)
          rw [hl.1 x' hx'] at this; simp at this
        · exact ⟨z, hz, h⟩
      · intro z hz
        obtain ⟨x', hx', h⟩ := hk.2 z (hperm.mem_iff.2 (List.mem_cons_of_mem _ hz))
        rcases List.mem_cons.1 hx' with rfl | hx'
        · rw [hne z hz] at h; simp at h
        · exact ⟨x', hx', h⟩
    have hrec := ih (m1 ++ m2) hk' hl.2 hm'.2 (fun x' hx' z hz => hf x' (List.mem_cons_of_mem _ hx') z
      (hperm.mem_iff.2 (List.mem_cons_of_mem _ hz)))
    rw [(hperm.map f).sum_eq]
    simp only [List.map_cons, List.sum_cons, hrec, hf x (by simp) y hy hxy]

theorem keyEq_spec (cm : CaseMap) (s : Sel) : ∀ t, Sel.keyEq cm s t = true → s.WF → t.WF →
    s.NoRepeats cm → t.NoRepeats cm → s.specificity = t.specificity := by
  have stepMax : ∀ l m : List Sel,
      (∀ s ∈ l, ∀ t, Sel.keyEq cm s t = true → s.WF → t.WF → s.NoRepeats cm → t.NoRepeats cm →
        s.specificity = t.specificity) →
      SameKeys cm l m → (l ≠ [] ∧ Sel.WFL l) → (m ≠ [] ∧ Sel.WFL m) →
      Sel.NoRepeatsL cm l → Sel.NoRepeatsL cm m → Sel.specMaxL l = Sel.specMaxL m := by
    intro l m ih hk hl hm hnl hnm
    obtain ⟨a, ha, ⟨x, hx, hxa⟩, hxl⟩ := specMaxL_max l hl.1 hl.2
    obtain ⟨b, hb, ⟨y, hy, hyb⟩, hym⟩ := specMaxL_max m hm.1 hm.2
    have hlw := (wfl_iff l).1 hl.2
    have hmw := (wfl_iff m).1 hm.2
    rw [noRepL_iff] at hnl hnm
    rw [ha, hb]
    congr 1
    apply SpecLE.antisymm
    · obtain ⟨z, hz, h⟩ := hk.1 x hx
      have := ih x hx z h (hlw x hx) (hmw z hz) (hnl x hx) (hnm z hz)
      obtain ⟨p, hp, hle⟩ := hym z hz
      rw [← this, hxa] at hp
      cases hp; exact hle
    · obtain ⟨z, hz, h⟩ := hk.2 y hy
      have := ih z hz y h (hlw z hz) (hmw y hy) (hnl z hz) (hnm y hy)
      obtain ⟨p, hp, hle⟩ := hxl z hz
      rw [this, hyb] at hp
      cases hp; exact hle
  induction s using Sel.ind with
  | hs a o v i =>
    intro t h hw hw' _ _
    cases t <;> simp only [Sel.keyEq, Bool.and_eq_true, beq_iff_eq, Bool.false_eq_true] at h
    obtain ⟨⟨⟨rfl, rfl⟩, h⟩, rfl⟩ := h
    simp only [Sel.WF] at hw hw'
    simp only [Sel.specificity, ← hw.1, ← hw'.1]
  | ha l ih | hn l ih =>
    intro t h hw hw' h1 h2
    cases t <;> simp only [Sel.keyEq, Bool.false_eq_true, sameKeys_iff] at h
    simp only [Sel.specificity]
    exact stepMax _ _ ih h hw hw' h1 h2
  | hw l ih =>
    intro t h _ _ _ _
    cases t <;> simp only [Sel.keyEq, Bool.false_eq_true, sameKeys_iff] at h
    simp only [Sel.specificity]
  | hc l ih =>
    intro t h hw hw' h1 h2
    cases t <;> simp only [Sel.keyEq, Bool.false_eq_true, sameKeys_iff] at h
    rename_i m
    simp only [Sel.specificity]
    simp only [Sel.WF] at hw hw'
    simp only [Sel.NoRepeats] at h1 h2
    obtain ⟨ps, hps, e⟩ := specSumL_sum l hw.2
    obtain ⟨qs, hqs, e'⟩ := specSumL_sum m hw'.2
    let f : Sel → Specificity := fun s => match s.specificity with | .ok p => p | .error _ => (0, 0)
    have toMap : ∀ (l : List Sel) (ps : List Specificity),
        List.Forall₂ (fun s p => Sel.specificity s = .ok p) l ps → ps = l.map f := by
      intro l ps h
      induction h with
      | nil => rfl
      | cons hp _ ih => simp only [List.map_cons, ← ih, f, hp]
    rw [e, e', toMap l ps hps, toMap m qs hqs, List.map_map, List.map_map, List.map_map,
      List.map_map]
    have hlw := (wfl_iff l).1 hw.2
    have hmw := (wfl_iff m).1 hw'.2
    have hln := (noRepL_iff cm l).1 h1.1
    have hmn := (noRepL_iff cm m).1 h2.1
    have hf : ∀ x ∈ l, ∀ y ∈ m, Sel.keyEq cm x y = true → f x = f y := by
      intro x hx y hy hxy
      simp only [f, ih x hx y hxy (hlw x hx) (hmw y hy) (hln x hx) (hmn y hy)]
    rw [sum_sameKeys cm ((·.1) ∘ f) l m h h1.2 h2.2
        (fun x hx y hy hxy => by simp only [Function.comp, hf x hx y hy hxy]),
      sum_sameKeys cm ((·.2) ∘ f) l m h h1.2 h2.2
        (fun x hx y hy hxy => by simp only [Function.comp, hf x hx y hy hxy])]
  | hl => intro t h; cases t <;> simp [Sel.keyEq] at h

end Toron.Selectors

namespace Toron.Selectors
open Spec

/-! ### the key chosen -/

variable {κ : Type}

theorem ggus_spec (cm : CaseMap) (r : Row) (dict : List (κ × Option (List Sel))) (default : κ)
    (hnd : (dict.map (·.1)).Nodup) (hwf : ∀ k sels, (k, some sels) ∈ dict → ∀ s ∈ sels, s.WF) :
    ∃ res, getGreatestUniqueSpecificity cm r dict default = .ok res ∧
      ((∃ sp, UniqueAt cm r dict res sp ∧
          ∀ k' sp', UniqueAt cm r dict k' sp' → SpecLE sp' sp) ∨
        ((∀ k sp, ¬ UniqueAt cm r dict k sp) ∧ res = default)) := by
  obtain ⟨items, h1, h2, h3⟩ := matchedItems_spec cm r dict
    (fun k sels hm => (wfl_iff sels).2 (hwf k sels hm))
  have hnd' := h3.nodup hnd
  refine ⟨_, by rw [getGreatestUniqueSpecificity, h1]; rfl, ?_⟩
  have key : ∀ k sp, UniqueAt cm r dict k sp ↔
      (sp, k) ∈ items ∧ ∀ k', (sp, k') ∈ items → k' = k := by
    intro k sp
    unfold UniqueAt
    rw [h2]
    constructor
    · rintro ⟨a, b⟩
      refine ⟨a, ?_⟩
      intro k' hk'
      obtain ⟨s, hs, hl⟩ := (h2 sp k').1 hk'
      exact b k' s hs hl
    · rintro ⟨a, b⟩
      exact ⟨a, fun k' s hs hl => b k' ((h2 sp k').2 ⟨s, hs, hl⟩)⟩
  rcases choose_spec default items hnd' with ⟨sp, g1, g2, g3⟩ | ⟨g1, g2⟩
  · left
    refine ⟨sp, (key _ _).2 ⟨g1, g2⟩, ?_⟩
    intro k' sp' hu
    rw [key] at hu
    exact g3 sp' k' hu.1 hu.2
  · right
    refine ⟨?_, g2⟩
    intro k sp hu
    rw [key] at hu
    obtain ⟨k', hk', hne⟩ := g1 sp k hu.1
    exact hne (hu.2 k' hk')

/-- The characterisation determines the result. -/
theorem chosen_unique (cm : CaseMap) (r : Row) (dict dict' : List (κ × Option (List Sel)))
    (default a b : κ) (heq : ∀ k sp, UniqueAt cm r dict k sp ↔ UniqueAt cm r dict' k sp)
    (ha : (∃ sp, UniqueAt cm r dict a sp ∧ ∀ k' sp', UniqueAt cm r dict k' sp' → SpecLE sp' sp) ∨
        ((∀ k sp, ¬ UniqueAt cm r dict k sp) ∧ a = default))
    (hb : (∃ sp, UniqueAt cm r dict' b sp ∧ ∀ k' sp', UniqueAt cm r dict' k' sp' → SpecLE sp' sp) ∨
        ((∀ k sp, ¬ UniqueAt cm r dict' k sp) ∧ b = default)) : a = b := by
  rcases ha with ⟨sp, h1, h2⟩ | ⟨h1, h2⟩ <;> rcases hb with ⟨sp', g1, g2⟩ | ⟨g1, g2⟩
  · have e : sp = sp' := SpecLE.antisymm (g2 a sp ((heq _ _).1 h1)) (h2 b sp' ((heq _ _).2 g1))
    subst e
    obtain ⟨s, hs, hl⟩ := h1.1
    have g1' := (heq _ _).2 g1
    exact g1'.2 a s hs hl
  · exact absurd ((heq _ _).1 h1) (g1 _ _)
  · exact absurd ((heq _ _).2 g1) (h1 _ _)
  · rw [h2, g2]

theorem uniqueAt_congr (cm : CaseMap) (r : Row) (dict dict' : List (κ × Option (List Sel)))
    (h : ∀ k sp, (∃ sels, (k, some sels) ∈ dict ∧ Level cm r sels sp) ↔
      (∃ sels, (k, some sels) ∈ dict' ∧ Level cm r sels sp)) (k : κ) (sp : Specificity) :
    UniqueAt cm r dict k sp ↔ UniqueAt cm r dict' k sp := by
  unfold UniqueAt
  rw [h]
  refine and_congr_right fun _ => ?_
  constructor
  · intro g k' s hs hl
    obtain ⟨s', hs', hl'⟩ := (h k' sp).2 ⟨s, hs, hl⟩
    exact g k' s' hs' hl'
  · intro g k' s hs hl
    obtain ⟨s', hs', hl'⟩ := (h k' sp).1 ⟨s, hs, hl⟩
    exact g k' s' hs' hl'

theorem level_congr (cm : CaseMap) (r : Row) (l m : List Sel) (h : ∀ s, s ∈ l ↔ s ∈ m)
    (sp : Specificity) : Level cm r l sp ↔ Level cm r m sp := by
  unfold Level; simp only [h]

/-! ### frozenset -/

theorem frozenset_spec (cm : CaseMap) (acc l : List Sel) :
    (∀ s ∈ frozensetSels cm acc l, s ∈ acc ∨ s ∈ l) ∧
    (∀ s ∈ acc, s ∈ frozensetSels cm acc l) ∧
    (∀ s ∈ l, s ∈ frozensetSels cm acc l ∨
      ∃ t ∈ frozensetSels cm acc l, Sel.keyEq cm t s = true) := by
  induction l generalizing acc with
  | nil => simp [frozensetSels]
  | cons x l ih =>
    unfold frozensetSels
    split
    · rename_i hx
      obtain ⟨h1, h2, h3⟩ := ih acc
      refine ⟨fun s hs => ?_, h2, ?_⟩
      · rcases h1 s hs with h | h
        · exact Or.inl h
        · exact Or.inr (List.mem_cons_of_mem _ h)
      · intro s hs
        rcases List.mem_cons.1 hs with rfl | hs
        · obtain ⟨t, ht, he⟩ := (keyMem_iff cm acc s).1 hx
          exact Or.inr ⟨t, h2 t ht, he⟩
        · exact h3 s hs
    · obtain ⟨h1, h2, h3⟩ := ih (acc ++ [x])
      refine ⟨fun s hs => ?_, fun s hs => h2 s (by simp [hs]), ?_⟩
      · rcases h1 s hs with h | h
        · rcases List.mem_append.1 h with h | h
          · exact Or.inl h
          · right; simp only [List.mem_singleton] at h; simp [h]
        · exact Or.inr (List.mem_cons_of_mem _ h)
      · intro s hs
        rcases List.mem_cons.1 hs with rfl | hs
        · exact Or.inl (h2 s (by simp))
        · exact h3 s hs

theorem frozenset_level (cm : CaseMap)
    (hcase : ∀ a b, cm.lower a = cm.lower b → cm.upper a = cm.upper b) (r : Row) (l : List Sel)
    (hwf : ∀ s ∈ l, s.WF) (hnr : ∀ s ∈ l, s.NoRepeats cm) (sp : Specificity) :
    Level cm r (frozensetSels cm [] l) sp ↔ Level cm r l sp := by
  obtain ⟨h1, _, h3⟩ := frozenset_spec cm [] l
  have h1' : ∀ s ∈ frozensetSels cm [] l, s ∈ l := fun s hs => by
    rcases h1 s hs with h | h
    · simp at h
    · exact h
  have h3' : ∀ s ∈ l, ∃ t ∈ frozensetSels cm [] l,
      s.eval cm r = t.eval cm r ∧ s.specificity = t.specificity := by
    intro s hs
    rcases h3 s hs with h | ⟨t, ht, he⟩
    · exact ⟨s, h, rfl, rfl⟩
    · have ht' := h1' t ht
      exact ⟨t, ht, (keyEq_eval cm hcase t s he (hwf t ht') (hwf s hs) r).symm,
        (keyEq_spec cm t s he (hwf t ht') (hwf s hs) (hnr t ht') (hnr s hs)).symm⟩
  unfold Level
  constructor
  · rintro ⟨⟨s, hs, he, hp⟩, hall⟩
    refine ⟨⟨s, h1' s hs, he, hp⟩, ?_⟩
    intro t ht hte
    obtain ⟨u, hu, e1, e2⟩ := h3' t ht
    rw [e2]
    exact hall u hu (by rw [← e1]; exact hte)
  · rintro ⟨⟨s, hs, he, hp⟩, hall⟩
    obtain ⟨u, hu, e1, e2⟩ := h3' s hs
    exact ⟨⟨u, hu, by rw [← e1]; exact he, by rw [← e2]; exact hp⟩, fun t ht => hall t (h1' t ht)⟩

/-! ### ASCII case -/

/-- Upper case of an ASCII letter. -/
def asciiUpper (c : Char) : Char := if 97 ≤ c.toNat ∧ c.toNat ≤ 122 then Char.ofNat (c.toNat - 32) else c

/-- Lower case of an ASCII letter. -/
def asciiLower (c : Char) : Char := if 65 ≤ c.toNat ∧ c.toNat ≤ 90 then Char.ofNat (c.toNat + 32) else c

/-- `str.upper`/`str.lower` on ASCII text. -/
def asciiCase : CaseMap := ⟨List.map asciiUpper, List.map asciiLower⟩

theorem asciiUpper_lower (c : Char) : asciiUpper (asciiLower c) = asciiUpper c := by
  unfold asciiLower
  split
  · rename_i h
    obtain ⟨h1, h2⟩ := h
    have hc : c = Char.ofNat c.toNat := (Char.ofNat_toNat c).symm
    have fin : ∀ n, 65 ≤ n → n ≤ 90 →
        asciiUpper (Char.ofNat (n + 32)) = asciiUpper (Char.ofNat n) := by
      intro n a b
      have : n ∈ List.range' 65 26 := by rw [List.mem_range'_1]; omega
      have all : ∀ n ∈ List.range' 65 26,
        asciiUpper (Char.ofNat (n + 32)) = asciiUpper (Char.ofNat n) := by decide
      exact all n this
    rw [fin _ h1 h2, ← hc]
  · rfl

theorem asciiCase_ok (a b : PyStr) (h : asciiCase.lower a = asciiCase.lower b) :
    asciiCase.upper a = asciiCase.upper b := by
  have := congrArg (List.map asciiUpper) h
  simp only [asciiCase, List.map_map] at this ⊢
  have e : asciiUpper ∘ asciiLower = asciiUpper := funext asciiUpper_lower
  rwa [e] at this

end Toron.Selectors
