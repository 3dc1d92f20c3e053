/-
C36: moving an element of an ordered list.
-/
import Verif.Lemmas.Store.Call
import Verif.Spec.Order
import Verif.Demo

namespace Toron.Space

open Toron.Selectors (PyStr Sel)
open Toron.Spec (Moved)

theorem first_split {seq : List PyStr} {x : PyStr} (h : x ∈ seq) :
    ∃ l r, seq = l ++ x :: r ∧ x ∉ l ∧ seq.idxOf? x = some l.length := by
  induction seq with
  | nil => cases h
  | cons y ys ih =>
    by_cases hy : y = x
    · subst hy
      exact ⟨[], ys, rfl, by simp, by simp [List.idxOf?_cons]⟩
    · obtain ⟨l, r, rfl, hl, hi⟩ := ih (by
        rcases List.mem_cons.1 h with h | h
        · exact absurd h.symm hy
        · exact h)
      refine ⟨y :: l, r, rfl, ?_, ?_⟩
      · simp only [List.mem_cons, not_or]
        exact ⟨fun h => hy h.symm, hl⟩
      · rw [List.idxOf?_cons, if_neg (by simpa using hy), hi]
        rfl

theorem insertIdx_take_drop {α : Type} {l : List α} {n : Nat} {x : α} (h : n ≤ l.length) :
    l.insertIdx n x = l.take n ++ x :: l.drop n := by
  induction l generalizing n with
  | nil =>
    have : n = 0 := Nat.le_zero.1 h
    subst this
    rfl
  | cons y ys ih =>
    cases n with
    | zero => rfl
    | succ n =>
      rw [List.insertIdx_succ_cons, ih (Nat.le_of_succ_le_succ h)]
      rfl

/-- An element of the list is moved as specified. -/
theorem C36_moved {seq : List PyStr} {x : PyStr} {offset : Int} (h : x ∈ seq) :
    ∃ out, changeElementOrder seq x offset = .ok out ∧ Moved x offset seq out := by
  obtain ⟨l, r, rfl, hl, hi⟩ := first_split h
  refine ⟨_, by unfold changeElementOrder; rw [hi], ?_⟩
  have he : (l ++ x :: r).eraseIdx l.length = l ++ r := by
    rw [List.eraseIdx_append_of_length_le (Nat.le_refl _), Nat.sub_self]
    rfl
  rw [he]
  set n : Int := min (max 0 ((l.length : Int) + offset)) (((l ++ x :: r).length : Int) - 1) with hn
  have hlen : ((l ++ x :: r).length : Int) - 1 = ((l ++ r).length : Int) := by
    simp only [List.length_append, List.length_cons]
    omega
  have h0 : 0 ≤ n := by
    rw [hn, hlen]
    omega
  have h1 : n ≤ ((l ++ r).length : Int) := by
    rw [hn, hlen]
    exact min_le_right _ _
  have h2 : n.toNat ≤ (l ++ r).length := by omega
  refine ⟨l, r, (l ++ r).take n.toNat, (l ++ r).drop n.toNat, rfl, hl, ?_, List.take_append_drop _ _, ?_⟩
  · exact insertIdx_take_drop h2
  · rw [List.length_take, Nat.min_eq_left h2, Int.toNat_of_nonneg h0]

/-- Other elements are rejected. -/
theorem C36_unknown {seq : List PyStr} {x : PyStr} {offset : Int} (h : x ∉ seq) :
    changeElementOrder seq x offset = .error (.toronError "not found") := by
  unfold changeElementOrder
  rw [List.idxOf?_eq_none_iff.2 h]

/-- Moving gives a permutation. -/
theorem C36_perm {seq out : List PyStr} {x : PyStr} {offset : Int}
    (h : changeElementOrder seq x offset = .ok out) : out.Perm seq := by
  by_cases hx : x ∈ seq
  · obtain ⟨out', ho, l, r, l', r', rfl, _, rfl, he, _⟩ := C36_moved (offset := offset) hx
    rw [ho] at h
    cases h
    refine (List.perm_middle).trans ?_
    rw [he]
    exact List.perm_middle.symm
  · rw [C36_unknown hx] at h
    cases h

/-- Changing the order of the attributes moves the attribute in the stored list. -/
theorem C36_change_attribute_order {s s' : Store} {a : PyStr} {offset : Int}
    (h : step (.changeAttributeOrder a offset) s = (s', .ok ())) :
    ∃ out, Moved a offset (s.regAttrs.getD []) out ∧ s' = { s with regAttrs := some out } := by
  have h := call_ok h rfl
  unfold changeAttributeOrder at h
  simp only [bind_ok, get_ok, liftE_ok] at h
  obtain ⟨_, _, he, seq, _, ⟨seq, hseq, he2⟩, h⟩ := h
  cases he
  cases he2
  by_cases hx : a ∈ s.regAttrs.getD []
  · obtain ⟨out, ho, hm⟩ := C36_moved (offset := offset) hx
    rw [ho] at hseq
    cases hseq
    refine ⟨_, hm, ?_⟩
    unfold setRegisteredAttributes at h
    simp only [bind_ok, get_ok, ite_ok, throw_ok, put_ok] at h
    obtain ⟨_, _, he, ⟨_, h⟩ | ⟨_, ⟨_, h⟩ | ⟨_, ⟨_, h⟩ | ⟨_, h⟩⟩⟩⟩ := h
    · exact h.elim
    · exact h.elim
    · exact h.elim
    · cases he
      cases h
      rfl
  · rw [C36_unknown hx] at hseq
    cases hseq

/-- Changing the order of the labels moves the label in the displayed list. -/
theorem C36_change_label_order {s s' : Store} {label : PyStr} {offset : Int}
    (h : step (.changeLabelOrder label offset) s = (s', .ok ())) :
    ∃ out, Moved label offset s.displayOrder out ∧ s' = { s with display := some out } := by
  have h := call_ok h rfl
  unfold changeLabelOrder at h
  simp only [bind_ok, get_ok, liftE_ok] at h
  obtain ⟨_, _, he, seq, _, ⟨seq, hseq, he2⟩, h⟩ := h
  cases he
  cases he2
  by_cases hx : label ∈ s.displayOrder
  · obtain ⟨out, ho, hm⟩ := C36_moved (offset := offset) hx
    rw [ho] at hseq
    cases hseq
    refine ⟨_, hm, ?_⟩
    simp only [ite_ok, throw_ok, put_ok] at h
    obtain ⟨_, h⟩ | ⟨_, h⟩ := h
    · exact h.elim
    · cases h
      rfl
  · rw [C36_unknown hx] at hseq
    cases hseq

example : changeElementOrder [['a'], ['b'], ['c'], ['d']] ['b'] 1 = .ok [['a'], ['c'], ['b'], ['d']] ∧
    changeElementOrder [['a'], ['b'], ['c'], ['d']] ['b'] 7 = .ok [['a'], ['c'], ['d'], ['b']] ∧
    changeElementOrder [['a'], ['b'], ['c'], ['d']] ['c'] (-9) = .ok [['c'], ['a'], ['b'], ['d']] := by
  decide

example : (step (.changeLabelOrder Demo.colB (-1)) Demo.store).2 = .ok () ∧
    (step (.changeLabelOrder Demo.colB (-1)) Demo.store).1.displayOrder = [Demo.colB, Demo.colA] ∧
    (step (.changeAttributeOrder ['d'] (-1))
      (step (.setRegisteredAttributes [['c'], ['d']]) Demo.store).1).1.regAttrs = some [['d'], ['c']] := by
  refine ⟨?_, ?_, ?_⟩ <;> decide +kernel

end Toron.Space
