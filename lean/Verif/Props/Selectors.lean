/-
Property theorems about selectors (C04, C05, C06).
-/
import Verif.Lemmas.SelectorsEq

namespace Toron.Selectors
open Spec

variable {κ : Type}

/-! ### C05: matching and specificity -/

/-- C05: a simple selector matches exactly if the documented relation of its operator holds between
its value and the row's value (the empty string if the row lacks the attribute); with `ignore_case`
between the upper-cased texts. -/
theorem C05_simple_matches_iff (cm : CaseMap) (r : Row) (attr : PyStr) (op : Option Op)
    (val : Option PyStr) (ic : Bool) :
    (Sel.simple attr op val ic).eval cm r = .ok true ↔
      (if ic then Holds op (cm.upper (val.getD [])) (cm.upper ((r.lookup attr).getD []))
       else Holds op (val.getD []) ((r.lookup attr).getD [])) := by
  cases ic
  · simp only [Sel.eval, Except.ok.injEq, Bool.false_eq_true, if_false]; exact matchFunc_iff _ _ _
  · simp only [Sel.eval, Except.ok.injEq, if_true]; exact matchFunc_iff _ _ _

/-- C05: a well-formed selector always gives an answer. -/
theorem C05_matching_is_total (cm : CaseMap) (r : Row) (s : Sel) (h : s.WF) :
    ∃ b, s.eval cm r = .ok b :=
  eval_total cm r s h

/-- C05: `:is(...)` matches iff some part matches. -/
theorem C05_is_matches_iff (cm : CaseMap) (r : Row) (l : List Sel) (h : (Sel.any l).WF) :
    (Sel.any l).eval cm r = .ok true ↔ ∃ s ∈ l, s.eval cm r = .ok true := by
  rw [Sel.eval]; exact evalAny_iff cm r l h.2

/-- C05: `:where(...)` matches iff some part matches. -/
theorem C05_where_matches_iff (cm : CaseMap) (r : Row) (l : List Sel) (h : (Sel.whr l).WF) :
    (Sel.whr l).eval cm r = .ok true ↔ ∃ s ∈ l, s.eval cm r = .ok true := by
  rw [Sel.eval]; exact evalAny_iff cm r l h.2

/-- C05: `:not(...)` matches iff no part matches. -/
theorem C05_not_matches_iff (cm : CaseMap) (r : Row) (l : List Sel) (h : (Sel.neg l).WF) :
    (Sel.neg l).eval cm r = .ok true ↔ ∀ s ∈ l, s.eval cm r ≠ .ok true := by
  rw [Sel.eval]
  obtain ⟨b, hb⟩ := evalAny_total cm r l h.2
  have := evalAny_iff cm r l h.2
  rw [hb] at this ⊢
  cases b
  · simp only [Except.map, Bool.not_false, true_iff]
    intro s hs hc
    have := this.2 ⟨s, hs, hc⟩
    simp at this
  · simp only [Except.map, Bool.not_true, Except.ok.injEq, Bool.false_eq_true, false_iff]
    obtain ⟨s, hs, hc⟩ := this.1 rfl
    exact fun hall => hall s hs hc

/-- C05: a compound matches iff all parts match. -/
theorem C05_compound_matches_iff (cm : CaseMap) (r : Row) (l : List Sel) (h : (Sel.compound l).WF) :
    (Sel.compound l).eval cm r = .ok true ↔ ∀ s ∈ l, s.eval cm r = .ok true := by
  rw [Sel.eval]; exact evalAll_iff cm r l h.2

/-- C05: the specificity of `[attr]` is (1, 0), of a comparison with a value (1, 1). -/
theorem C05_simple_specificity (attr : PyStr) (op : Option Op) (val : Option PyStr) (ic : Bool)
    (h : (Sel.simple attr op val ic).WF) :
    (Sel.simple attr op val ic).specificity = .ok (if op = none then (1, 0) else (1, 1)) := by
  simp only [Sel.WF] at h
  rw [Sel.specificity, ← h.1]
  cases op <;> simp

/-- C05: the specificity of a compound is the component-wise sum over its parts. -/
theorem C05_compound_specificity (l : List Sel) (h : (Sel.compound l).WF) :
    ∃ ps, List.Forall₂ (fun s p => Sel.specificity s = .ok p) l ps ∧
      (Sel.compound l).specificity = .ok ((ps.map (·.1)).sum, (ps.map (·.2)).sum) := by
  rw [Sel.specificity]; exact specSumL_sum l h.2

/-- C05: the specificity of `:is(...)` is the greatest among its parts. -/
theorem C05_is_specificity (l : List Sel) (h : (Sel.any l).WF) :
    ∃ m, (Sel.any l).specificity = .ok m ∧ (∃ s ∈ l, s.specificity = .ok m) ∧
      ∀ s ∈ l, ∃ p, s.specificity = .ok p ∧ SpecLE p m := by
  rw [Sel.specificity]; exact specMaxL_max l h.1 h.2

/-- C05: the specificity of `:not(...)` is the greatest among its parts. -/
theorem C05_not_specificity (l : List Sel) (h : (Sel.neg l).WF) :
    ∃ m, (Sel.neg l).specificity = .ok m ∧ (∃ s ∈ l, s.specificity = .ok m) ∧
      ∀ s ∈ l, ∃ p, s.specificity = .ok p ∧ SpecLE p m := by
  rw [Sel.specificity]; exact specMaxL_max l h.1 h.2

/-- C05: the specificity of `:where(...)` is zero. -/
theorem C05_where_specificity (l : List Sel) : (Sel.whr l).specificity = .ok (0, 0) := by
  rw [Sel.specificity]

/-- C05: `SimpleSelector(attr, op, val, ignore_case)` accepts exactly: neither operator nor value
(and then no `ignore_case`), or a known operator with a non-empty value. -/
theorem C05_constructor_accepts_iff (attr : PyStr) (op val : Option PyStr) (ic : Bool) :
    (∃ s, mkSimple attr op val ic = .ok s) ↔
      (op = none ∧ (val = none ∨ val = some []) ∧ ic = false) ∨
      (∃ o v, op = some o ∧ (Op.ofStr o).isSome ∧ val = some v ∧ v ≠ []) := by
  unfold mkSimple
  cases op with
  | none =>
    cases val with
    | none => cases ic <;> simp [truthy]
    | some v => cases v <;> cases ic <;> simp [truthy]
  | some o =>
    cases o with
    | nil =>
      cases val with
      | none => cases ic <;> simp [truthy, Op.ofStr]
      | some v => cases v <;> cases ic <;> simp [truthy, Op.ofStr]
    | cons c o =>
      cases hop : Op.ofStr (c :: o) with
      | none => cases val with
        | none => cases ic <;> simp [truthy]
        | some v => cases v <;> cases ic <;> simp [truthy, hop]
      | some o' => cases val with
        | none => cases ic <;> simp [truthy]
        | some v => cases v <;> cases ic <;> simp [truthy, hop]

/-- C05: what the constructors build from well-formed parts is well-formed; for `:is(...)` with the
exception of a single part that is itself an `:is(...)` (see `C05_nested_is_violated`). -/
theorem C05_constructors_wellformed_partial (l : List Sel) (hne : l ≠ []) (h : ∀ s ∈ l, s.WF) :
    (∀ attr op val ic s, mkSimple attr op val ic = .ok s → s.WF) ∧
    (mkNeg l).WF ∧ (mkWhere l).WF ∧
    ((∀ m, l ≠ [.any m]) → (mkAny l).WF) ∧ ((∀ m, l ≠ [.compound m]) → (mkCompound l).WF) := by
  refine ⟨?_, ⟨hne, (wfl_iff l).2 h⟩, ⟨hne, (wfl_iff l).2 h⟩, ?_, ?_⟩
  · intro attr op val ic s hs
    have hacc := (C05_constructor_accepts_iff attr op val ic).1 ⟨s, hs⟩
    rcases hacc with ⟨rfl, rfl | rfl, rfl⟩ | ⟨o, v, rfl, ho, rfl, hv⟩
    · simp [mkSimple, truthy] at hs; subst hs; simp [Sel.WF, truthy]
    · simp [mkSimple, truthy] at hs; subst hs; simp [Sel.WF, truthy]
    · have ho' : o ≠ [] := by rintro rfl; simp [Op.ofStr] at ho
      obtain ⟨o', ho''⟩ := Option.isSome_iff_exists.1 ho
      have e1 : o.isEmpty = false := by cases o <;> simp_all
      have e2 : v.isEmpty = false := by cases v <;> simp_all
      simp [mkSimple, truthy, e1, e2, ho''] at hs
      subst hs; simp [Sel.WF, truthy, e2]
  · intro hm
    unfold mkAny
    split
    · exact absurd rfl (hm _)
    · exact (h .loop (by simp)).elim
    · exact h _ (by simp)
    · exact ⟨hne, (wfl_iff l).2 h⟩
  · intro hm
    unfold mkCompound
    split
    · exact absurd rfl (hm _)
    · exact h _ (by simp)
    · exact ⟨hne, (wfl_iff l).2 h⟩

/-- The selector `[A]`. -/
private def selA : Sel := .simple ['A'] none none false
/-- The selector `[B]`. -/
private def selB : Sel := .simple ['B'] none none false
/-- The selector `[C="x"]`. -/
private def selC : Sel := .simple ['C'] (some .eq) (some ['x']) false

/-- C05, violated by the code: `:is(:is([A], [B]))` is accepted by the grammar but any use of it
fails, because re-initialisation makes the inner selector contain itself. -/
theorem C05_nested_is_violated (cm : CaseMap) (r : Row) :
    (mkAny [mkAny [selA, selB]]).eval cm r = .error recursionError := rfl

-- a nested tree that meets the hypotheses: `:not(:is([A], [C="x"])):where([B])`
example : (Sel.compound [.neg [.any [selA, selC]], .whr [selB]]).WF := by
  simp [Sel.WF, Sel.WFL, selA, selB, selC, truthy]
example : (Sel.compound [.neg [.any [selA, selC]], .whr [selB]]).eval asciiCase
    [(['B'], ['y']), (['C'], ['z'])] = .ok true := by decide
example : (Sel.compound [.neg [.any [selA, selC]], .whr [selB]]).specificity = .ok (1, 1) := by decide
example : (Sel.simple ['A'] (some .word) (some ['x', 'y']) true).eval asciiCase
    [(['A'], ['a', ' ', 'X', 'Y', '\t', 'b'])] = .ok true := by decide

/-! ### C04: the greatest unique specificity -/

/-- C04: the chosen key is matched at a level that it shares with no other key, and no other key
that is alone at its level has a higher one; if no key is alone at its level, the default. -/
theorem C04_greatest_unique (cm : CaseMap) (r : Row) (dict : List (κ × Option (List Sel)))
    (default : κ) (hnd : (dict.map (·.1)).Nodup)
    (hwf : ∀ k sels, (k, some sels) ∈ dict → ∀ s ∈ sels, s.WF) :
    ∃ res, getGreatestUniqueSpecificity cm r dict default = .ok res ∧
      ((∃ sp, UniqueAt cm r dict res sp ∧
          ∀ k' sp', UniqueAt cm r dict k' sp' → SpecLE sp' sp) ∨
        ((∀ k sp, ¬ UniqueAt cm r dict k sp) ∧ res = default)) :=
  ggus_spec cm r dict default hnd hwf

/-- C04: the choice does not depend on the order of the keys. -/
theorem C04_key_order_irrelevant (cm : CaseMap) (r : Row) (dict dict' : List (κ × Option (List Sel)))
    (default : κ) (hnd : (dict.map (·.1)).Nodup)
    (hwf : ∀ k sels, (k, some sels) ∈ dict → ∀ s ∈ sels, s.WF) (hp : dict.Perm dict') :
    getGreatestUniqueSpecificity cm r dict default =
      getGreatestUniqueSpecificity cm r dict' default := by
  obtain ⟨a, ha, ha'⟩ := ggus_spec cm r dict default hnd hwf
  obtain ⟨b, hb, hb'⟩ := ggus_spec cm r dict' default ((hp.map _).nodup_iff.1 hnd)
    (fun k sels hm => hwf k sels (hp.mem_iff.2 hm))
  rw [ha, hb, chosen_unique cm r dict dict' default a b
    (uniqueAt_congr cm r dict dict' (fun k sp => by simp only [hp.mem_iff])) ha' hb']

/-- C04: the choice does not depend on the order of the selectors under a key. -/
theorem C04_selector_order_irrelevant (cm : CaseMap) (r : Row)
    (keys : List (κ × List Sel × List Sel)) (default : κ) (hnd : (keys.map (·.1)).Nodup)
    (hwf : ∀ e ∈ keys, ∀ s ∈ e.2.1, s.WF) (hp : ∀ e ∈ keys, e.2.1.Perm e.2.2) :
    getGreatestUniqueSpecificity cm r (keys.map fun e => (e.1, some e.2.1)) default =
      getGreatestUniqueSpecificity cm r (keys.map fun e => (e.1, some e.2.2)) default := by
  have m1 : ∀ k sels, (k, some sels) ∈ (keys.map fun e => (e.1, some e.2.1)) ↔
      ∃ m, (k, sels, m) ∈ keys := by
    intro k sels
    simp only [List.mem_map, Prod.mk.injEq, Option.some.injEq]
    constructor
    · rintro ⟨⟨a, b, c⟩, h, rfl, rfl⟩; exact ⟨c, h⟩
    · rintro ⟨m, h⟩; exact ⟨_, h, rfl, rfl⟩
  have m2 : ∀ k sels, (k, some sels) ∈ (keys.map fun e => (e.1, some e.2.2)) ↔
      ∃ m, (k, m, sels) ∈ keys := by
    intro k sels
    simp only [List.mem_map, Prod.mk.injEq, Option.some.injEq]
    constructor
    · rintro ⟨⟨a, b, c⟩, h, rfl, rfl⟩; exact ⟨b, h⟩
    · rintro ⟨m, h⟩; exact ⟨_, h, rfl, rfl⟩
  obtain ⟨a, ha, ha'⟩ := ggus_spec cm r (keys.map fun e => (e.1, some e.2.1)) default
    (by simpa [List.map_map, Function.comp_def] using hnd)
    (fun k sels hm s hs => by
      obtain ⟨m, h⟩ := (m1 k sels).1 hm
      exact hwf _ h s hs)
  obtain ⟨b, hb, hb'⟩ := ggus_spec cm r (keys.map fun e => (e.1, some e.2.2)) default
    (by simpa [List.map_map, Function.comp_def] using hnd)
    (fun k sels hm s hs => by
      obtain ⟨m, h⟩ := (m2 k sels).1 hm
      exact hwf _ h s ((hp _ h).mem_iff.2 hs))
  rw [ha, hb, chosen_unique cm r _ _ default a b (uniqueAt_congr cm r _ _ ?_) ha' hb']
  intro k sp
  simp only [m1, m2]
  constructor
  · rintro ⟨sels, ⟨m, h⟩, hl⟩
    exact ⟨m, ⟨sels, h⟩, (level_congr cm r sels m (fun s => (hp _ h).mem_iff) sp).1 hl⟩
  · rintro ⟨sels, ⟨m, h⟩, hl⟩
    exact ⟨m, ⟨sels, h⟩, (level_congr cm r m sels (fun s => (hp _ h).mem_iff) sp).2 hl⟩

/-- C04 (partial) for `GetMatchingKey`, which first removes selectors equal to an earlier one under
the same key. Proved: the same characterisation in terms of the selectors given, for selectors in
which no compound repeats a part. Missing: repeated parts, for which the choice does depend on the
order of selectors, see `C04_order_violated`. -/
theorem C04_getMatchingKey_partial (cm : CaseMap)
    (hcase : ∀ a b, cm.lower a = cm.lower b → cm.upper a = cm.upper b) (r : Row)
    (dict : List (κ × Option (List Sel))) (default : κ) (hnd : (dict.map (·.1)).Nodup)
    (hwf : ∀ k sels, (k, some sels) ∈ dict → ∀ s ∈ sels, s.WF)
    (hnr : ∀ k sels, (k, some sels) ∈ dict → ∀ s ∈ sels, s.NoRepeats cm) :
    ∃ res, getMatchingKey cm dict default r = .ok res ∧
      ((∃ sp, UniqueAt cm r dict res sp ∧
          ∀ k' sp', UniqueAt cm r dict k' sp' → SpecLE sp' sp) ∨
        ((∀ k sp, ¬ UniqueAt cm r dict k sp) ∧ res = default)) := by
  set dict' := (dict.filter fun kv => !(kv.2.getD []).isEmpty).map fun kv =>
    (kv.1, some (frozensetSels cm [] (kv.2.getD []))) with hd
  have hmem : ∀ k sels', (k, some sels') ∈ dict' ↔
      ∃ sels, (k, some sels) ∈ dict ∧ sels ≠ [] ∧ sels' = frozensetSels cm [] sels := by
    intro k sels'
    rw [hd, List.mem_map]
    constructor
    · rintro ⟨⟨k0, s0⟩, h, e⟩
      rw [List.mem_filter] at h
      simp only [Prod.mk.injEq, Option.some.injEq] at e
      obtain ⟨rfl, rfl⟩ := e
      cases s0 with
      | none => simp at h
      | some s => exact ⟨s, h.1, by simpa using h.2, rfl⟩
    · rintro ⟨sels, h, hne, rfl⟩
      exact ⟨(k, some sels), List.mem_filter.2 ⟨h, by simpa using hne⟩, rfl⟩
  have hiff : ∀ k sp, (∃ sels, (k, some sels) ∈ dict' ∧ Level cm r sels sp) ↔
      (∃ sels, (k, some sels) ∈ dict ∧ Level cm r sels sp) := by
    intro k sp
    constructor
    · rintro ⟨s', hs', hl⟩
      obtain ⟨s, hs, _, rfl⟩ := (hmem k s').1 hs'
      exact ⟨s, hs, (frozenset_level cm hcase r s (hwf k s hs) (hnr k s hs) sp).1 hl⟩
    · rintro ⟨s, hs, hl⟩
      refine ⟨frozensetSels cm [] s, (hmem k _).2 ⟨s, hs, ?_, rfl⟩,
        (frozenset_level cm hcase r s (hwf k s hs) (hnr k s hs) sp).2 hl⟩
      rintro rfl
      obtain ⟨⟨t, ht, _⟩, _⟩ := hl
      simp at ht
  obtain ⟨res, h1, h2⟩ := ggus_spec cm r dict' default
    (by
      rw [hd, List.map_map]
      exact (List.Sublist.map _ List.filter_sublist).nodup hnd)
    (fun k s' hs' t ht => by
      obtain ⟨s, hs, _, rfl⟩ := (hmem k s').1 hs'
      rcases (frozenset_spec cm [] s).1 t ht with h | h
      · simp at h
      · exact hwf k s hs t h)
  refine ⟨res, h1, ?_⟩
  have hu := uniqueAt_congr cm r dict' dict hiff
  simpa only [hu] using h2

/-- C04, violated by the code: of the equal selectors `[A][A]` and `[A][A][A]` `GetMatchingKey` keeps
the first, so the order in which they are listed decides between the default (0) and key 1. -/
theorem C04_order_violated :
    getMatchingKey asciiCase
      [(1, some [.compound [selA, selA], .compound [selA, selA, selA]]),
       (2, some [.compound [selA, selB]])] 0 [(['A'], ['x']), (['B'], ['y'])] = .ok 0 ∧
    getMatchingKey asciiCase
      [(1, some [.compound [selA, selA, selA], .compound [selA, selA]]),
       (2, some [.compound [selA, selB]])] 0 [(['A'], ['x']), (['B'], ['y'])] = .ok 1 := by
  decide

-- three keys, the two most specific tied: the third is chosen, not the default 0
example : getGreatestUniqueSpecificity asciiCase [(['A'], ['x']), (['C'], ['x'])]
    [(1, some [selC]), (2, some [selA]), (3, some [selB, selC])] 0 = .ok 2 := by decide
example : (([(1, some [selC]), (2, some [selA]), (3, some [selB, selC])] :
    List (Nat × Option (List Sel))).map (·.1)).Nodup ∧
    ∀ s ∈ [selA, selB, selC], s.WF ∧ s.NoRepeats asciiCase := by
  simp [Sel.WF, Sel.NoRepeats, selA, selB, selC, truthy]

/-! ### C06: equal selectors -/

/-- C06: selectors that compare equal match the same rows, provided equal lower-case texts have equal
upper-case texts (true of ASCII: `asciiCase_ok`; false of Unicode: `C06_unicode_violated`). -/
theorem C06_equal_selectors_match_same_partial (cm : CaseMap)
    (hcase : ∀ a b, cm.lower a = cm.lower b → cm.upper a = cm.upper b) (s t : Sel)
    (heq : Sel.keyEq cm s t = true) (hs : s.WF) (ht : t.WF) (r : Row) :
    s.eval cm r = t.eval cm r :=
  keyEq_eval cm hcase s t heq hs ht r

/-- C06: on ASCII text selectors that compare equal match the same rows. -/
theorem C06_equal_ascii_selectors_match_same (s t : Sel) (heq : Sel.keyEq asciiCase s t = true)
    (hs : s.WF) (ht : t.WF) (r : Row) : s.eval asciiCase r = t.eval asciiCase r :=
  keyEq_eval asciiCase asciiCase_ok s t heq hs ht r

/-- C06 (partial): selectors that compare equal have the same specificity if no compound in them
repeats a part. Missing: repeated parts, see `C06_specificity_violated`. -/
theorem C06_equal_selectors_same_specificity_partial (cm : CaseMap) (s t : Sel)
    (heq : Sel.keyEq cm s t = true) (hs : s.WF) (ht : t.WF) (h1 : s.NoRepeats cm)
    (h2 : t.NoRepeats cm) : s.specificity = t.specificity :=
  keyEq_spec cm s t heq hs ht h1 h2

/-- C06: equality of selectors is symmetric and transitive. -/
theorem C06_equality_symm_trans (cm : CaseMap) (s t u : Sel) :
    (Sel.keyEq cm s t = true → Sel.keyEq cm t s = true) ∧
    (Sel.keyEq cm s t = true → Sel.keyEq cm t u = true → Sel.keyEq cm s u = true) :=
  ⟨keyEq_symm cm s t, keyEq_trans cm s t u⟩

/-- C06, violated by the code: `[A][A]` and `[A][A][A]` compare equal, but their specificities are
(2, 0) and (3, 0). -/
theorem C06_specificity_violated (cm : CaseMap) :
    Sel.keyEq cm (.compound [selA, selA]) (.compound [selA, selA, selA]) = true ∧
    (Sel.compound [selA, selA]).specificity = .ok (2, 0) ∧
    (Sel.compound [selA, selA, selA]).specificity = .ok (3, 0) :=
  ⟨rfl, rfl, rfl⟩

/-- `str.upper`/`str.lower` for ASCII and the Kelvin sign (U+212A), whose lower case is `k` and whose
upper case is itself. -/
def kelvinCase : CaseMap :=
  ⟨List.map asciiUpper, List.map fun c => if c.toNat = 0x212A then 'k' else asciiLower c⟩

/-- C06, violated by the code: with `ignore_case` the values `k` and U+212A compare equal (by lower
case) but match differently (by upper case). -/
theorem C06_unicode_violated :
    Sel.keyEq kelvinCase (.simple ['A'] (some .eq) (some ['k']) true)
      (.simple ['A'] (some .eq) (some [Char.ofNat 0x212A]) true) = true ∧
    (Sel.simple ['A'] (some .eq) (some ['k']) true).eval kelvinCase [(['A'], ['k'])] = .ok true ∧
    (Sel.simple ['A'] (some .eq) (some [Char.ofNat 0x212A]) true).eval kelvinCase
      [(['A'], ['k'])] = .ok false := by
  decide

-- two different trees that compare equal and meet the hypotheses: order and case differ
example :
    let s : Sel := .compound [.neg [selA, selB], .simple ['C'] (some .eq) (some ['x']) true]
    let t : Sel := .compound [.simple ['C'] (some .eq) (some ['X']) true, .neg [selB, selA, selB]]
    Sel.keyEq asciiCase s t = true ∧ s.WF ∧ t.WF ∧ s.NoRepeats asciiCase ∧
      t.NoRepeats asciiCase := by
  refine ⟨rfl, ?_, ?_, ?_, ?_⟩
  · simp [Sel.WF, Sel.WFL, selA, selB, truthy]
  · simp [Sel.WF, Sel.WFL, selA, selB, truthy]
  · exact ⟨⟨⟨trivial, trivial, trivial⟩, trivial, trivial⟩, by
      rw [List.pairwise_pair]; rfl⟩
  · exact ⟨⟨trivial, ⟨trivial, trivial, trivial, trivial⟩, trivial⟩, by
      rw [List.pairwise_pair]; rfl⟩

end Toron.Selectors
