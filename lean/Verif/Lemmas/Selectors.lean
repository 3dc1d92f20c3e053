import Verif.Spec.Selectors
import Verif.Lemmas.Py
import Mathlib.Data.List.Infix
import Mathlib.Data.List.Basic
import Mathlib.Tactic.ByContra

namespace Toron.Selectors
open Spec

/-! ### strings -/

theorem startsWith_iff (b a : PyStr) : startsWith b a = true ↔ a <+: b := by
  simp only [startsWith, beq_iff_eq]
  rw [List.prefix_iff_eq_take]
  exact eq_comm

theorem endsWith_iff (b a : PyStr) : endsWith b a = true ↔ a <:+ b := by
  simp only [endsWith, Bool.and_eq_true, decide_eq_true_eq, beq_iff_eq]
  rw [List.suffix_iff_eq_drop]
  constructor
  · rintro ⟨_, h⟩; exact h.symm
  · intro h
    refine ⟨?_, h.symm⟩
    have := congrArg List.length h
    rw [List.length_drop] at this
    omega

theorem isSubstring_iff (a b : PyStr) : isSubstring a b = true ↔ a <:+: b := by
  induction b with
  | nil => simp [isSubstring]
  | cons c cs ih =>
    simp only [isSubstring, Bool.or_eq_true, startsWith_iff, ih, List.infix_cons_iff]

theorem splitWords_spec (cur b : PyStr) (hcur : ∀ c ∈ cur, isSpace c = false) (a : PyStr) :
    a ∈ splitWords cur b ↔
      (a ≠ [] ∧ (∀ c ∈ a, isSpace c = false) ∧
        ((∃ p r, a = cur ++ p ∧ b = p ++ r ∧ (r = [] ∨ ∃ c r', r = c :: r' ∧ isSpace c = true)) ∨
         (∃ l c r, b = l ++ [c] ++ a ++ r ∧ isSpace c = true ∧
            (r = [] ∨ ∃ c r', r = c :: r' ∧ isSpace c = true)))) := by
  induction b generalizing cur with
  | nil =>
    unfold splitWords
    constructor
    · intro h
      split at h
      · simp at h
      · rename_i hc
        simp only [List.mem_singleton] at h
        subst h
        refine ⟨by simpa using hc, hcur, Or.inl ⟨[], [], by simp, by simp, Or.inl rfl⟩⟩
    · rintro ⟨hne, hsp, h | h⟩
      · obtain ⟨p, r, rfl, hb, _⟩ := h
        have := List.append_eq_nil_iff.1 hb.symm
        rw [this.1] at hne ⊢
        simp only [List.append_nil] at hne ⊢
        rw [if_neg (by simpa using hne)]
        simp
      · obtain ⟨l, c, r, hb, _⟩ := h
        simp at hb
  | cons c cs ih =>
    unfold splitWords
    by_cases hc : isSpace c = true
    · rw [if_pos hc]
      have step : a ∈ splitWords [] cs ↔ a ≠ [] ∧ (∀ c ∈ a, isSpace c = false) ∧
          (∃ l c' r, c :: cs = l ++ [c'] ++ a ++ r ∧ isSpace c' = true ∧
            (r = [] ∨ ∃ c r', r = c :: r' ∧ isSpace c = true)) := by
        rw [ih [] (by simp)]
        constructor
        · rintro ⟨h1, h2, h | h⟩
          · obtain ⟨p, r, hp, hb, hr⟩ := h
            simp only [List.nil_append] at hp
            subst hp
            exact ⟨h1, h2, [], c, r, by simp [hb], hc, hr⟩
          · obtain ⟨l, c', r, hb, hc', hr⟩ := h
            exact ⟨h1, h2, c :: l, c', r, by simp [hb], hc', hr⟩
        · rintro ⟨h1, h2, l, c', r, hb, hc', hr⟩
          refine ⟨h1, h2, ?_⟩
          cases l with
          | nil =>
            simp only [List.nil_append, List.cons_append, List.cons.injEq] at hb
            exact Or.inl ⟨a, r, by simp, hb.2, hr⟩
          | cons d l =>
            simp only [List.cons_append, List.cons.injEq] at hb
            exact Or.inr ⟨l, c', r, hb.2, hc', hr⟩
      have noP : ∀ p r, a = cur ++ p → c :: cs = p ++ r → (∀ c ∈ a, isSpace c = false) → p = [] := by
        intro p r ha hb hs
        cases p with
        | nil => rfl
        | cons d p =>
          simp only [List.cons_append, List.cons.injEq] at hb
          have := hs d (by simp [ha])
          rw [← hb.1, hc] at this; simp at this
      split
      · rename_i hcur0
        have hcur0 : cur = [] := by simpa using hcur0
        rw [step]
        constructor
        · rintro ⟨h1, h2, h⟩; exact ⟨h1, h2, Or.inr h⟩
        · rintro ⟨h1, h2, h | h⟩
          · obtain ⟨p, r, ha, hb, _⟩ := h
            have := noP p r ha hb h2
            exact absurd (by rw [ha, hcur0, this]; rfl) h1
          · exact ⟨h1, h2, h⟩
      · rename_i hcur0
        have hcur0 : cur ≠ [] := by simpa using hcur0
        rw [List.mem_cons, step]
        constructor
        · rintro (rfl | ⟨h1, h2, h⟩)
          · exact ⟨hcur0, hcur, Or.inl ⟨[], c :: cs, by simp, by simp, Or.inr ⟨c, cs, rfl, hc⟩⟩⟩
          · exact ⟨h1, h2, Or.inr h⟩
        · rintro ⟨h1, h2, h | h⟩
          · obtain ⟨p, r, ha, hb, _⟩ := h
            have := noP p r ha hb h2
            left; rw [ha, this, List.append_nil]
          · right; exact ⟨h1, h2, h⟩
    · rw [if_neg hc]
      have hc' : isSpace c = false := by simpa using hc
      rw [ih (cur ++ [c]) (by
        intro d hd
        rcases List.mem_append.1 hd with hd | hd
        · exact hcur d hd
        · simp only [List.mem_singleton] at hd; rw [hd]; exact hc')]
      constructor
      · rintro ⟨h1, h2, h | h⟩
        · obtain ⟨p, r, ha, hb, hr⟩ := h
          exact ⟨h1, h2, Or.inl ⟨c :: p, r, by simp [ha], by simp [hb], hr⟩⟩
        · obtain ⟨l, d, r, hb, hd, hr⟩ := h
          exact ⟨h1, h2, Or.inr ⟨c :: l, d, r, by simp [hb], hd, hr⟩⟩
      · rintro ⟨h1, h2, h | h⟩
        · obtain ⟨p, r, ha, hb, hr⟩ := h
          refine ⟨h1, h2, Or.inl ?_⟩
          cases p with
          | nil =>
            simp only [List.nil_append] at hb
            rcases hr with hr | ⟨d, r', hr, hd⟩
            · rw [hr] at hb; simp at hb
            · rw [hr] at hb
              simp only [List.cons.injEq] at hb
              rw [hb.1] at hc'; rw [hc'] at hd; simp at hd
          | cons d p =>
            simp only [List.cons_append, List.cons.injEq] at hb
            exact ⟨p, r, by simp [ha, hb.1], hb.2, hr⟩
        · obtain ⟨l, d, r, hb, hd, hr⟩ := h
          refine ⟨h1, h2, Or.inr ?_⟩
          cases l with
          | nil =>
            simp only [List.nil_append, List.cons_append, List.cons.injEq] at hb
            rw [← hb.1, hc'] at hd; simp at hd
          | cons e l =>
            simp only [List.cons_append, List.cons.injEq] at hb
            exact ⟨l, d, r, by simp [hb.2], hd, hr⟩

theorem splitWords_iff (a b : PyStr) : (splitWords [] b).contains a = true ↔ IsWord a b := by
  rw [List.contains_iff_mem, splitWords_spec [] b (by simp) a]
  unfold IsWord
  constructor
  · rintro ⟨h1, h2, h | h⟩
    · obtain ⟨p, r, ha, hb, hr⟩ := h
      simp only [List.nil_append] at ha
      subst ha
      exact ⟨h1, h2, [], r, by simp [hb], Or.inl rfl, hr⟩
    · obtain ⟨l, c, r, hb, hc, hr⟩ := h
      exact ⟨h1, h2, l ++ [c], r, hb, Or.inr ⟨l, c, rfl, hc⟩, hr⟩
  · rintro ⟨h1, h2, l, r, hb, hl, hr⟩
    refine ⟨h1, h2, ?_⟩
    rcases hl with rfl | ⟨l', c, rfl, hc⟩
    · exact Or.inl ⟨a, r, by simp, by simpa using hb, hr⟩
    · exact Or.inr ⟨l', c, r, hb, hc, hr⟩

theorem matchFunc_iff (o : Option Op) (a b : PyStr) : matchFunc o a b = true ↔ Holds o a b := by
  cases o with
  | none => cases b <;> simp [matchFunc, Holds]
  | some o =>
    cases o <;> simp only [matchFunc, Holds]
    · simp
    · exact splitWords_iff a b
    · rw [Bool.or_eq_true, startsWith_iff, beq_iff_eq]; exact or_comm
    · exact startsWith_iff b a
    · exact endsWith_iff b a
    · exact isSubstring_iff a b

/-! ### trees -/

theorem wfl_iff (l : List Sel) : Sel.WFL l ↔ ∀ s ∈ l, s.WF := by
  induction l with
  | nil => simp [Sel.WFL]
  | cons a l ih => simp [Sel.WFL, ih]

mutual
theorem eval_total (cm : CaseMap) (r : Row) : (s : Sel) → s.WF → ∃ b, s.eval cm r = .ok b
  | .simple .., _ => ⟨_, rfl⟩
  | .any l, h => by
    obtain ⟨b, hb⟩ := evalAny_total cm r l h.2
    exact ⟨b, by rw [Sel.eval, hb]⟩
  | .neg l, h => by
    obtain ⟨b, hb⟩ := evalAny_total cm r l h.2
    exact ⟨!b, by rw [Sel.eval, hb]; rfl⟩
  | .whr l, h => by
    obtain ⟨b, hb⟩ := evalAny_total cm r l h.2
    exact ⟨b, by rw [Sel.eval, hb]⟩
  | .compound l, h => by
    obtain ⟨b, hb⟩ := evalAll_total cm r l h.2
    exact ⟨b, by rw [Sel.eval, hb]⟩
  | .loop, h => h.elim

theorem evalAny_total (cm : CaseMap) (r : Row) :
    (l : List Sel) → Sel.WFL l → ∃ b, Sel.evalAny cm r l = .ok b
  | [], _ => ⟨_, rfl⟩
  | s :: ss, h => by
    obtain ⟨b, hb⟩ := eval_total cm r s h.1
    obtain ⟨c, hc⟩ := evalAny_total cm r ss h.2
    cases b
    · exact ⟨c, by simp [Sel.evalAny, hb, hc]⟩
    · exact ⟨true, by simp [Sel.evalAny, hb]⟩

theorem evalAll_total (cm : CaseMap) (r : Row) :
    (l : List Sel) → Sel.WFL l → ∃ b, Sel.evalAll cm r l = .ok b
  | [], _ => ⟨_, rfl⟩
  | s :: ss, h => by
    obtain ⟨b, hb⟩ := eval_total cm r s h.1
    obtain ⟨c, hc⟩ := evalAll_total cm r ss h.2
    cases b
    · exact ⟨false, by simp [Sel.evalAll, hb]⟩
    · exact ⟨c, by simp [Sel.evalAll, hb, hc]⟩
end

theorem evalAny_iff (cm : CaseMap) (r : Row) (l : List Sel) (h : Sel.WFL l) :
    Sel.evalAny cm r l = .ok true ↔ ∃ s ∈ l, s.eval cm r = .ok true := by
  induction l with
  | nil => simp [Sel.evalAny]
  | cons s ss ih =>
    obtain ⟨b, hb⟩ := eval_total cm r s h.1
    cases b
    · simp [Sel.evalAny, hb, ih h.2]
    · simp [Sel.evalAny, hb]

theorem evalAll_iff (cm : CaseMap) (r : Row) (l : List Sel) (h : Sel.WFL l) :
    Sel.evalAll cm r l = .ok true ↔ ∀ s ∈ l, s.eval cm r = .ok true := by
  induction l with
  | nil => simp [Sel.evalAll]
  | cons s ss ih =>
    obtain ⟨b, hb⟩ := eval_total cm r s h.1
    cases b
    · simp [Sel.evalAll, hb]
    · simp [Sel.evalAll, hb, ih h.2]

/-! ### order on specificities -/

theorem specLe_iff (a b : Specificity) : specLe a b = true ↔ SpecLE a b := by
  simp [specLe, SpecLE]

theorem Spec.SpecLE.refl (a : Specificity) : SpecLE a a := Or.inr ⟨rfl, le_refl _⟩

theorem Spec.SpecLE.trans {a b c : Specificity} (h1 : SpecLE a b) (h2 : SpecLE b c) : SpecLE a c := by
  unfold SpecLE at *; omega

theorem Spec.SpecLE.total (a b : Specificity) : SpecLE a b ∨ SpecLE b a := by
  unfold SpecLE at *; omega

theorem Spec.SpecLE.antisymm {a b : Specificity} (h1 : SpecLE a b) (h2 : SpecLE b a) : a = b := by
  unfold SpecLE at *
  apply Prod.ext <;> omega

theorem Spec.SpecLE.zero (a : Specificity) : SpecLE (0, 0) a := by
  unfold SpecLE; simp only; omega

theorem specMax_le_left (a b : Specificity) : SpecLE a (specMax a b) := by
  unfold specMax; split
  · rename_i h; exact (specLe_iff _ _).1 h
  · exact SpecLE.refl a

theorem specMax_le_right (a b : Specificity) : SpecLE b (specMax a b) := by
  unfold specMax; split
  · exact SpecLE.refl b
  · rename_i h
    rcases SpecLE.total a b with h' | h'
    · exact absurd ((specLe_iff _ _).2 h') h
    · exact h'

theorem specMax_eq (a b : Specificity) : specMax a b = a ∨ specMax a b = b := by
  unfold specMax; split <;> simp

mutual
theorem spec_total : (s : Sel) → s.WF → ∃ p, s.specificity = .ok p
  | .simple .., _ => ⟨_, rfl⟩
  | .any l, h => by
    obtain ⟨b, hb⟩ := specMaxL_total l h.1 h.2
    exact ⟨b, by rw [Sel.specificity, hb]⟩
  | .neg l, h => by
    obtain ⟨b, hb⟩ := specMaxL_total l h.1 h.2
    exact ⟨b, by rw [Sel.specificity, hb]⟩
  | .whr l, _ => ⟨_, rfl⟩
  | .compound l, h => by
    obtain ⟨b, hb⟩ := specSumL_total l h.2
    exact ⟨b, by rw [Sel.specificity, hb]⟩
  | .loop, h => h.elim

theorem specMaxL_total : (l : List Sel) → l ≠ [] → Sel.WFL l → ∃ p, Sel.specMaxL l = .ok p
  | [], h, _ => absurd rfl h
  | [s], _, h => by
    obtain ⟨b, hb⟩ := spec_total s h.1
    exact ⟨b, by rw [Sel.specMaxL, hb]⟩
  | s :: t :: ss, _, h => by
    obtain ⟨b, hb⟩ := spec_total s h.1
    obtain ⟨c, hc⟩ := specMaxL_total (t :: ss) (by simp) h.2
    exact ⟨specMax b c, by rw [Sel.specMaxL, hb, hc]; simp⟩

theorem specSumL_total : (l : List Sel) → Sel.WFL l → ∃ p, Sel.specSumL l = .ok p
  | [], _ => ⟨_, rfl⟩
  | s :: ss, h => by
    obtain ⟨b, hb⟩ := spec_total s h.1
    obtain ⟨c, hc⟩ := specSumL_total ss h.2
    exact ⟨_, by rw [Sel.specSumL, hb, hc]⟩
end

theorem specMaxL_max (l : List Sel) (hne : l ≠ []) (h : Sel.WFL l) :
    ∃ m, Sel.specMaxL l = .ok m ∧ (∃ s ∈ l, s.specificity = .ok m) ∧
      ∀ s ∈ l, ∃ p, s.specificity = .ok p ∧ SpecLE p m := by
  induction l with
  | nil => exact absurd rfl hne
  | cons s ss ih =>
    obtain ⟨b, hb⟩ := spec_total s h.1
    cases ss with
    | nil =>
      refine ⟨b, by rw [Sel.specMaxL, hb], ⟨s, by simp, hb⟩, ?_⟩
      intro t ht
      simp only [List.mem_singleton] at ht
      subst ht
      exact ⟨b, hb, SpecLE.refl b⟩
    | cons t ss =>
      obtain ⟨m, hm, ⟨w, hw, hwm⟩, hall⟩ := ih (by simp) h.2
      refine ⟨specMax b m, by rw [Sel.specMaxL, hb, hm]; simp, ?_, ?_⟩
      · rcases specMax_eq b m with e | e
        · exact ⟨s, by simp, by rw [e]; exact hb⟩
        · exact ⟨w, List.mem_cons_of_mem _ hw, by rw [e]; exact hwm⟩
      · intro u hu
        rcases List.mem_cons.1 hu with rfl | hu
        · exact ⟨b, hb, specMax_le_left b m⟩
        · obtain ⟨p, hp, hpm⟩ := hall u hu
          exact ⟨p, hp, hpm.trans (specMax_le_right b m)⟩

theorem specSumL_sum (l : List Sel) (h : Sel.WFL l) :
    ∃ ps, List.Forall₂ (fun s p => Sel.specificity s = .ok p) l ps ∧
      Sel.specSumL l = .ok ((ps.map (·.1)).sum, (ps.map (·.2)).sum) := by
  induction l with
  | nil => exact ⟨[], .nil, rfl⟩
  | cons s ss ih =>
    obtain ⟨b, hb⟩ := spec_total s h.1
    obtain ⟨ps, hps, e⟩ := ih h.2
    exact ⟨b :: ps, .cons hb hps, by rw [Sel.specSumL, hb, e]; simp⟩

/-! ### choosing a key -/

theorem bestOf_spec (cm : CaseMap) (r : Row) (sels : List Sel) (acc : Option Specificity)
    (h : Sel.WFL sels) : ∃ res, bestOf cm r acc sels = .ok res ∧
      (res = none ↔ acc = none ∧ ∀ s ∈ sels, s.eval cm r = .ok false) ∧
      ∀ sp, res = some sp →
        ((acc = some sp ∨ ∃ s ∈ sels, s.eval cm r = .ok true ∧ s.specificity = .ok sp) ∧
        (∀ a, acc = some a → SpecLE a sp) ∧
        ∀ s ∈ sels, s.eval cm r = .ok true → ∃ p, s.specificity = .ok p ∧ SpecLE p sp) := by
  induction sels generalizing acc with
  | nil =>
    refine ⟨acc, rfl, by simp, ?_⟩
    rintro sp rfl
    exact ⟨Or.inl rfl, fun a ha => by cases ha; exact SpecLE.refl _, by simp⟩
  | cons s ss ih =>
    obtain ⟨b, hb⟩ := eval_total cm r s h.1
    cases b with
    | false =>
      obtain ⟨res, h1, h2, h3⟩ := ih acc h.2
      refine ⟨res, by rw [bestOf, hb]; exact h1, by rw [h2]; simp [hb], ?_⟩
      intro sp hsp
      obtain ⟨g1, g2, g3⟩ := h3 sp hsp
      refine ⟨?_, g2, ?_⟩
      · rcases g1 with g1 | ⟨t, ht, h'⟩
        · exact Or.inl g1
        · exact Or.inr ⟨t, List.mem_cons_of_mem _ ht, h'⟩
      · intro t ht he
        rcases List.mem_cons.1 ht with rfl | ht
        · rw [hb] at he; simp at he
        · exact g3 t ht he
    | true =>
      obtain ⟨p, hp⟩ := spec_total s h.1
      obtain ⟨res, h1, h2, h3⟩ := ih (some (specMax (acc.getD (0, 0)) p)) h.2
      refine ⟨res, by rw [bestOf, hb]; simp only [hp]; exact h1, by rw [h2]; simp [hb], ?_⟩
      intro sp hsp
      obtain ⟨g1, g2, g3⟩ := h3 sp hsp
      have gm := g2 _ rfl
      refine ⟨?_, ?_, ?_⟩
      · rcases g1 with g1 | ⟨t, ht, h'⟩
        · simp only [Option.some.injEq] at g1
          cases acc with
          | none =>
            simp only [Option.getD_none] at g1
            right
            refine ⟨s, by simp, hb, ?_⟩
            rw [← g1]
            rcases specMax_eq (0, 0) p with e | e
            · have h0 := specMax_le_right (0, 0) p
              rw [e] at h0 ⊢
              rw [hp, SpecLE.antisymm h0 (SpecLE.zero p)]
            · rw [e]; exact hp
          | some a =>
            simp only [Option.getD_some] at g1
            rcases specMax_eq a p with e | e
            · left; rw [← g1, e]
            · right; exact ⟨s, by simp, hb, by rw [← g1, e]; exact hp⟩
        · exact Or.inr ⟨t, List.mem_cons_of_mem _ ht, h'⟩
      · rintro a rfl
        exact (specMax_le_left a p).trans gm
      · intro t ht he
        rcases List.mem_cons.1 ht with rfl | ht
        · exact ⟨p, hp, (specMax_le_right _ p).trans gm⟩
        · exact g3 t ht he

theorem Spec.Level.unique {cm : CaseMap} {r : Row} {sels : List Sel} {a b : Specificity}
    (h1 : Level cm r sels a) (h2 : Level cm r sels b) : a = b := by
  obtain ⟨⟨s, hs, he, hp⟩, ha⟩ := h1
  obtain ⟨⟨t, ht, he', hp'⟩, hb⟩ := h2
  obtain ⟨p, q, hle⟩ := ha t ht he'
  obtain ⟨p', q', hle'⟩ := hb s hs he
  rw [hp'] at q; cases q
  rw [hp] at q'; cases q'
  exact SpecLE.antisymm hle' hle

variable {κ : Type}

theorem matchedItems_spec (cm : CaseMap) (r : Row) (dict : List (κ × Option (List Sel)))
    (h : ∀ k sels, (k, some sels) ∈ dict → Sel.WFL sels) :
    ∃ items, matchedItems cm r dict = .ok items ∧
      (∀ sp k, (sp, k) ∈ items ↔ ∃ sels, (k, some sels) ∈ dict ∧ Level cm r sels sp) ∧
      (items.map (·.2)).Sublist (dict.map (·.1)) := by
  induction dict with
  | nil => exact ⟨[], rfl, by simp, by simp⟩
  | cons kv rest ih =>
    obtain ⟨k, sels⟩ := kv
    obtain ⟨items, h1, h2, h3⟩ := ih (fun k s hm => h k s (List.mem_cons_of_mem _ hm))
    have hwf : Sel.WFL (sels.getD []) := by
      cases sels with
      | none => simp [Sel.WFL]
      | some s => exact h k s (by simp)
    obtain ⟨res, g1, g2, g3⟩ := bestOf_spec cm r (sels.getD []) none hwf
    cases res with
    | none =>
      refine ⟨items, by rw [matchedItems, g1, h1], ?_, by
        simp only [List.map_cons]; exact h3.trans (List.sublist_cons_self _ _)⟩
      intro sp k'
      rw [h2]
      constructor
      · rintro ⟨s, hs, hl⟩; exact ⟨s, List.mem_cons_of_mem _ hs, hl⟩
      · rintro ⟨s, hs, hl⟩
        rcases List.mem_cons.1 hs with e | hs
        · cases e
          have := (g2.1 rfl).2
          obtain ⟨⟨t, ht, he, _⟩, _⟩ := hl
          rw [this t ht] at he; simp at he
        · exact ⟨s, hs, hl⟩
    | some p =>
      refine ⟨(p, k) :: items, by rw [matchedItems, g1, h1], ?_, by
        simp only [List.map_cons]; exact h3.cons_cons _⟩
      obtain ⟨f1, f2, f3⟩ := g3 p rfl
      have hl : Level cm r (sels.getD []) p := by
        refine ⟨?_, f3⟩
        rcases f1 with f1 | f1
        · simp at f1
        · exact f1
      intro sp k'
      rw [List.mem_cons, h2]
      constructor
      · rintro (e | ⟨s, hs, hl'⟩)
        · cases e
          cases sels with
          | none => obtain ⟨⟨t, ht, _⟩, _⟩ := hl; simp at ht
          | some s => exact ⟨s, by simp, hl⟩
        · exact ⟨s, List.mem_cons_of_mem _ hs, hl'⟩
      · rintro ⟨s, hs, hl'⟩
        rcases List.mem_cons.1 hs with e | hs
        · cases e
          left
          rw [Level.unique hl' hl]
        · exact Or.inr ⟨s, hs, hl'⟩

/-! groups of a list sorted by decreasing specificity -/

theorem groupRuns_ne_nil (l : List (Specificity × κ)) : ∀ g ∈ groupRuns l, g ≠ [] := by
  induction l with
  | nil => simp [groupRuns]
  | cons x xs ih =>
    unfold groupRuns
    split
    · rename_i y g gs he
      rw [he] at ih
      split
      · intro g' hg'
        rcases List.mem_cons.1 hg' with rfl | hg'
        · simp
        · exact ih g' (List.mem_cons_of_mem _ hg')
      · intro g' hg'
        rcases List.mem_cons.1 hg' with rfl | hg'
        · simp
        · exact ih g' hg'
    · intro g' hg'
      rcases List.mem_cons.1 hg' with rfl | hg'
      · simp
      · exact ih g' hg'

theorem groupRuns_flatten (l : List (Specificity × κ)) : (groupRuns l).flatten = l := by
  induction l with
  | nil => simp [groupRuns]
  | cons x xs ih =>
    unfold groupRuns
    split
    · rename_i y g gs he
      rw [he] at ih
      split
      · simp only [List.flatten_cons, List.cons_append] at ih ⊢; rw [ih]
      · simp only [List.flatten_cons, List.cons_append, List.nil_append] at ih ⊢; rw [ih]
    · simp only [List.flatten_cons, List.cons_append, List.nil_append]; rw [ih]

/-- Facts about the groups of a sorted list: within a group all have the same specificity, and the
specificities of groups are strictly decreasing. -/
theorem groupRuns_facts (l : List (Specificity × κ)) (hs : l.Pairwise fun a b => SpecLE b.1 a.1) :
    (∀ g ∈ groupRuns l, ∀ a ∈ g, ∀ b ∈ g, a.1 = b.1) ∧
    (groupRuns l).Pairwise (fun g g' => ∀ a ∈ g, ∀ b ∈ g', SpecLE b.1 a.1 ∧ b.1 ≠ a.1) := by
  induction l with
  | nil => simp [groupRuns]
  | cons x xs ih =>
    rw [List.pairwise_cons] at hs
    obtain ⟨i1, i2⟩ := ih hs.2
    have hfl := groupRuns_flatten xs
    unfold groupRuns
    split
    · rename_i y g gs he
      rw [he] at i1 i2 hfl
      rw [List.pairwise_cons] at i2
      have hmem : ∀ g' ∈ ((y :: g) :: gs), ∀ b ∈ g', b ∈ xs := by
        intro g' hg' b hb
        rw [← hfl]
        exact List.mem_flatten.2 ⟨g', hg', hb⟩
      split
      · rename_i hxy
        have hxy : y.1 = x.1 := by simpa using hxy
        have key : ∀ a ∈ x :: y :: g, a.1 = y.1 := by
          intro a ha
          rcases List.mem_cons.1 ha with rfl | ha
          · exact hxy.symm
          · exact i1 (y :: g) (by simp) a ha y (by simp)
        constructor
        · intro g' hg' a ha b hb
          rcases List.mem_cons.1 hg' with rfl | hg'
          · rw [key a ha, key b hb]
          · exact i1 g' (List.mem_cons_of_mem _ hg') a ha b hb
        · rw [List.pairwise_cons]
          refine ⟨?_, i2.2⟩
          intro g' hg' a ha b hb
          rw [key a ha]
          exact i2.1 g' hg' y (by simp) b hb
      · rename_i hxy
        have hxy : ¬ y.1 = x.1 := by simpa using hxy
        constructor
        · intro g' hg' a ha b hb
          rcases List.mem_cons.1 hg' with rfl | hg'
          · simp only [List.mem_singleton] at ha hb; rw [ha, hb]
          · exact i1 g' hg' a ha b hb
        · rw [List.pairwise_cons]
          refine ⟨?_, by rw [List.pairwise_cons]; exact i2⟩
          intro g' hg' a ha b hb
          simp only [List.mem_singleton] at ha
          subst ha
          refine ⟨hs.1 b (hmem g' hg' b hb), ?_⟩
          rcases List.mem_cons.1 hg' with rfl | hg'
          · rw [i1 (y :: g) (by simp) b hb y (by simp)]; exact hxy
          · intro e
            have h1 := (i2.1 g' hg' y (by simp) b hb)
            have h2 := hs.1 y (hmem (y :: g) (by simp) y (by simp))
            rw [e] at h1
            exact hxy (SpecLE.antisymm h2 h1.1)
    · rename_i gs hno
      have hgs : groupRuns xs = [] := by
        cases hg : groupRuns xs with
        | nil => rfl
        | cons g gs' =>
          cases g with
          | nil => exact absurd rfl (groupRuns_ne_nil xs [] (by rw [hg]; simp))
          | cons y g => exact absurd hg (hno y g gs')
      rw [hgs]
      constructor
      · intro g' hg' a ha b hb
        simp only [List.mem_singleton] at hg'
        subst hg'
        simp only [List.mem_singleton] at ha hb; rw [ha, hb]
      · simp

theorem firstSingle_cases (d : κ) (gs : List (List (Specificity × κ))) :
    (∃ pre x post, gs = pre ++ [x] :: post ∧ (∀ g ∈ pre, ∀ y, g ≠ [y]) ∧ firstSingle d gs = x.2) ∨
    ((∀ g ∈ gs, ∀ y, g ≠ [y]) ∧ firstSingle d gs = d) := by
  induction gs with
  | nil => right; simp [firstSingle]
  | cons g gs ih =>
    unfold firstSingle
    split
    · rename_i h; simp at h
    · rename_i x gs' h
      simp only [List.cons.injEq] at h
      left
      exact ⟨[], x, gs, by simp [h.1], by simp, rfl⟩
    · rename_i g' gs' hno h
      simp only [List.cons.injEq] at h
      obtain ⟨rfl, rfl⟩ := h
      have hg : ∀ y, g ≠ [y] := fun y hy => hno y hy
      rcases ih with ⟨pre, x, post, h1, h2, h3⟩ | ⟨h1, h2⟩
      · left
        refine ⟨g :: pre, x, post, by simp [h1], ?_, h3⟩
        intro g' hg'
        rcases List.mem_cons.1 hg' with rfl | hg'
        · exact hg
        · exact h2 g' hg'
      · right
        refine ⟨?_, h2⟩
        intro g' hg'
        rcases List.mem_cons.1 hg' with rfl | hg'
        · exact hg
        · exact h1 g' hg'

theorem two_of_not_single {α : Type} (g : List α) (hne : g ≠ []) (h : ∀ y, g ≠ [y]) :
    ∃ a b t, g = a :: b :: t := by
  match g with
  | [] => exact absurd rfl hne
  | [a] => exact absurd rfl (h a)
  | a :: b :: t => exact ⟨a, b, t, rfl⟩

/-- The chosen key of a list of `(specificity, key)` items with distinct keys. -/
theorem choose_spec (d : κ) (items : List (Specificity × κ)) (hnd : (items.map (·.2)).Nodup) :
    let res := firstSingle d (groupRuns (sortedBy (fun a b => specLe b.1 a.1) items))
    (∃ sp, (sp, res) ∈ items ∧ (∀ k', (sp, k') ∈ items → k' = res) ∧
        ∀ sp' k', (sp', k') ∈ items → (∀ k'', (sp', k'') ∈ items → k'' = k') → SpecLE sp' sp) ∨
    ((∀ sp k, (sp, k) ∈ items → ∃ k', (sp, k') ∈ items ∧ k' ≠ k) ∧ res = d) := by
  intro res
  set srt := sortedBy (fun a b : Specificity × κ => specLe b.1 a.1) items with hsrt
  have hperm : srt.Perm items := sortedBy_perm _ _
  have hsorted : srt.Pairwise fun a b => SpecLE b.1 a.1 := by
    have := sortedBy_pairwise (fun a b : Specificity × κ => specLe b.1 a.1)
      (by intro a b c h1 h2; rw [specLe_iff] at *; exact h2.trans h1)
      (by intro a b; rw [specLe_iff, specLe_iff]; exact SpecLE.total _ _) items
    exact this.imp (fun h => (specLe_iff _ _).1 h)
  obtain ⟨f1, f2⟩ := groupRuns_facts srt hsorted
  have hfl := groupRuns_flatten srt
  have hmem : ∀ x, x ∈ items ↔ ∃ g ∈ groupRuns srt, x ∈ g := by
    intro x
    rw [← hperm.mem_iff, ← hfl, List.mem_flatten]
    rw [hfl]
  have hnds : (srt.map (·.2)).Nodup := (hperm.map _).nodup_iff.2 hnd
  -- two different positions of one group have different keys
  have hkey : ∀ a b t, a :: b :: t ∈ groupRuns srt → a.2 ≠ b.2 := by
    intro a b t hg
    obtain ⟨s1, s2, e⟩ := List.append_of_mem hg
    rw [← hfl, e] at hnds
    simp only [List.flatten_append, List.flatten_cons, List.cons_append, List.map_append,
      List.map_cons] at hnds
    have := (List.nodup_append.1 hnds).2.1
    rw [List.nodup_cons] at this
    intro hab
    exact this.1 (by rw [hab]; simp)
  rcases firstSingle_cases d (groupRuns srt) with ⟨pre, x, post, h1, h2, h3⟩ | ⟨h1, h2⟩
  · left
    have hx : (x.1, res) ∈ items := by
      rw [hmem]
      refine ⟨[x], by rw [h1]; simp, ?_⟩
      show (x.1, firstSingle d (groupRuns srt)) ∈ [x]
      rw [h3]; simp
    refine ⟨x.1, hx, ?_, ?_⟩
    · intro k' hk'
      rw [hmem] at hk'
      obtain ⟨g, hg, hkg⟩ := hk'
      rw [h1] at hg
      rw [h1, List.pairwise_append, List.pairwise_cons] at f2
      rcases List.mem_append.1 hg with hg | hg
      · exact absurd rfl ((f2.2.2 g hg [x] (by simp)) _ hkg x (by simp)).2
      · rcases List.mem_cons.1 hg with rfl | hg
        · simp only [List.mem_singleton] at hkg
          show k' = firstSingle d (groupRuns srt)
          rw [h3, ← hkg]
        · exact absurd rfl (f2.2.1.1 g hg x (by simp) _ hkg).2
    · intro sp' k' hk' huniq
      have hk'' := hk'
      rw [hmem] at hk''
      obtain ⟨g, hg, hkg⟩ := hk''
      have hg0 := hg
      rw [h1] at hg
      rw [h1, List.pairwise_append, List.pairwise_cons] at f2
      rcases List.mem_append.1 hg with hg | hg
      · exfalso
        obtain ⟨a, b, t, rfl⟩ := two_of_not_single g (groupRuns_ne_nil srt g hg0) (h2 g hg)
        have ha := f1 _ hg0 a (by simp) _ hkg
        have hb := f1 _ hg0 b (by simp) _ hkg
        simp only at ha hb
        have ea := huniq a.2 ((hmem _).2 ⟨_, hg0, by rw [← ha]; simp⟩)
        have eb := huniq b.2 ((hmem _).2 ⟨_, hg0, by rw [← hb]; simp⟩)
        exact hkey a b t hg0 (ea.trans eb.symm)
      · rcases List.mem_cons.1 hg with rfl | hg
        · simp only [List.mem_singleton] at hkg
          rw [← hkg]; exact SpecLE.refl _
        · exact (f2.2.1.1 g hg x (by simp) _ hkg).1
  · right
    refine ⟨?_, h2⟩
    intro sp k hk
    have hk'' := hk
    rw [hmem] at hk''
    obtain ⟨g, hg, hkg⟩ := hk''
    obtain ⟨a, b, t, rfl⟩ := two_of_not_single g (groupRuns_ne_nil srt g hg) (h1 g hg)
    have ha := f1 _ hg a (by simp) _ hkg
    have hb := f1 _ hg b (by simp) _ hkg
    have hab := hkey a b t hg
    simp only at ha hb
    by_cases e : a.2 = k
    · exact ⟨b.2, (hmem _).2 ⟨_, hg, by rw [← hb]; simp⟩, by rw [← e]; exact hab.symm⟩
    · exact ⟨a.2, (hmem _).2 ⟨_, hg, by rw [← ha]; simp⟩, e⟩

end Toron.Selectors
