/-
Lemmas about the names of files that are recorded for a mapping.
-/
import Verif.Model.Hints
import Verif.Spec.Hints
import Verif.Lemmas.Files
import Verif.Lemmas.Selectors

namespace Toron.Files

open Toron.Selectors (PyStr endsWith endsWith_iff)
open Toron.Space (toronExt)

theorem ext_eq : toronExt = ".toron".toList := by decide

theorem shortHint_names (p : PyStr) : Names (shortHint p) p := by
  unfold shortHint Names
  by_cases h : endsWith p toronExt = true
  · rw [if_pos h]
    rw [endsWith_iff, ext_eq] at h
    obtain ⟨stem, rfl⟩ := h
    have e : (stem ++ ".toron".toList).take ((stem ++ ".toron".toList).length - 6) = stem := by
      have : (stem ++ ".toron".toList).length - 6 = stem.length := by
        rw [List.length_append]
        have : (".toron".toList).length = 6 := by decide
        omega
      rw [this, List.take_left]
    dsimp only
    rw [e]
    by_cases hs : stem = []
    · rw [if_pos hs]
      exact .inr (.inr ⟨.inl (by rw [hs]; rfl), rfl⟩)
    · rw [if_neg hs]
      exact .inl ⟨stem, rfl, hs, rfl⟩
  · rw [if_neg h]
    rw [endsWith_iff, ext_eq] at h
    dsimp only
    by_cases hs : p = []
    · rw [if_pos hs]
      exact .inr (.inr ⟨.inr hs, rfl⟩)
    · rw [if_neg hs]
      exact .inr (.inl ⟨h, hs, rfl⟩)

theorem relText_cons (a : PyStr) {cs : List PyStr} (h : cs ≠ []) : relText (a :: cs) = a ++ '/' :: relText cs := by
  unfold relText
  obtain ⟨b, bs, rfl⟩ := List.exists_cons_of_ne_nil h
  simp [List.intercalate, List.intersperse]

theorem relText_single (a : PyStr) : relText [a] = a := by
  simp [relText, List.intercalate]

theorem comps_relText {cs : List PyStr} (h : ∀ c ∈ cs, '/' ∉ c) (hn : cs ≠ []) : comps (relText cs) = cs := by
  induction cs with
  | nil => exact absurd rfl hn
  | cons a cs ih =>
    by_cases hc : cs = []
    · subst hc
      rw [relText_single, comps_name (h a (by simp))]
    · rw [relText_cons a hc, comps_append, comps_name (h a (by simp)), ih (fun c hm => h c (by simp [hm])) hc]
      rfl

theorem relText_head {cs : List PyStr} (h : ∀ c ∈ cs, Plain c) : (relText cs).head? ≠ some '/' := by
  cases cs with
  | nil => simp [relText, List.intercalate]
  | cons a cs =>
    have ha := h a (by simp)
    obtain ⟨x, xs, rfl⟩ := List.exists_cons_of_ne_nil ha.1
    have hx : x ≠ '/' := fun e => ha.2.2.2.1 (by simp [e])
    by_cases hc : cs = []
    · subst hc
      rw [relText_single]
      simpa using hx
    · rw [relText_cons _ hc]
      simpa using hx

theorem relText_ne_nil {cs : List PyStr} (h : ∀ c ∈ cs, Plain c) (hn : cs ≠ []) : relText cs ≠ [] := by
  obtain ⟨a, cs, rfl⟩ := List.exists_cons_of_ne_nil hn
  have ha := (h a (by simp)).1
  by_cases hc : cs = []
  · subst hc; rw [relText_single]; exact ha
  · rw [relText_cons _ hc]; simp

theorem slashes_relText {cs : List PyStr} (h : ∀ c ∈ cs, Plain c) : slashes (relText cs) = relText cs := by
  have hp : ∀ c : PyStr, '\\' ∉ c → slashes c = c := by
    intro c hc
    unfold slashes
    conv_rhs => rw [← List.map_id c]
    apply List.map_congr_left
    intro x hx
    rw [if_neg]
    · rfl
    · rintro rfl; exact hc hx
  induction cs with
  | nil => rfl
  | cons a cs ih =>
    by_cases hc : cs = []
    · subst hc
      rw [relText_single, hp a (h a (by simp)).2.2.2.2]
    · rw [relText_cons a hc]
      have e : slashes (a ++ '/' :: relText cs) = slashes a ++ '/' :: slashes (relText cs) := by
        simp [slashes]
      rw [e, hp a (h a (by simp)).2.2.2.2, ih fun c hm => h c (by simp [hm])]

theorem slashes_pathText (b : Bool) {cs : List PyStr} (h : ∀ c ∈ cs, Plain c) : slashes (pathText b cs) = pathText b cs := by
  unfold pathText
  have e : ∀ x y, slashes (x ++ y) = slashes x ++ slashes y := fun x y => by simp [slashes]
  rw [e, slashes_relText h]
  cases b <;> simp [slashes]

theorem pathText_head (b : Bool) {cs : List PyStr} (h : ∀ c ∈ cs, Plain c) : decide ((pathText b cs).head? = some '/') = b := by
  cases b
  · simpa [pathText] using relText_head h
  · simp [pathText]

theorem shown_plain {cs : List PyStr} (h : ∀ c ∈ cs, Plain c) : (cs.filter fun c => decide (c ≠ [] ∧ c ≠ ['.'])) = cs := by
  rw [List.filter_eq_self]
  intro c hc
  have := h c hc
  simp [this.1, this.2.1]

theorem shownComps_relText {cs : List PyStr} (h : ∀ c ∈ cs, Plain c) : shownComps (relText cs) = cs := by
  by_cases hn : cs = []
  · subst hn; decide
  · unfold shownComps
    rw [comps_relText (fun c hc => (h c hc).2.2.2.1) hn, shown_plain h]

theorem shownComps_pathText (b : Bool) {cs : List PyStr} (h : ∀ c ∈ cs, Plain c) : shownComps (pathText b cs) = cs := by
  cases b
  · simpa [pathText] using shownComps_relText h
  · have : pathText true cs = '/' :: relText cs := rfl
    rw [this]
    have e : shownComps ('/' :: relText cs) = shownComps (relText cs) := by
      unfold shownComps
      rw [comps, if_pos rfl, List.filter_cons_of_neg (by simp)]
    rw [e, shownComps_relText h]

theorem commonStart_split {p q : List PyStr} (common : List PyStr) (h : p.head? ≠ q.head?) :
    commonStart (common ++ p) (common ++ q) = common := by
  induction common with
  | nil =>
    rcases p with _ | ⟨a, p⟩ <;> rcases q with _ | ⟨b, q⟩ <;> simp_all [commonStart]
  | cons a cs ih => simp [commonStart, ih]

theorem commonStart_prefix (a b : List PyStr) : commonStart a (a ++ b) = a := by
  induction a with
  | nil => cases b <;> rfl
  | cons x xs ih => simp [commonStart, ih]

theorem foldl_enter {cs : List PyStr} (h : ∀ c ∈ cs, Plain c) (k : Key) : cs.foldl enter k = k ++ cs := by
  induction cs generalizing k with
  | nil => simp
  | cons c cs ih =>
    have hc := h c (by simp)
    have e : enter k c = k ++ [c] := by
      unfold enter
      rw [if_neg (by simp [hc.1, hc.2.1]), if_neg hc.2.2.1]
    rw [List.foldl_cons, e, ih fun x hx => h x (by simp [hx])]
    simp

theorem absKey_pathText (cwd : Key) (b : Bool) {cs : List PyStr} (h : ∀ c ∈ cs, Plain c) :
    absKey cwd (pathText b cs) = (if b then [] else cwd) ++ cs := by
  have hr : ∀ k, (comps (relText cs)).foldl enter k = k ++ cs := by
    intro k
    by_cases hn : cs = []
    · subst hn; simp [relText, List.intercalate, comps, enter_empty]
    · rw [comps_relText (fun c hc => (h c hc).2.2.2.1) hn, foldl_enter h]
  unfold absKey
  have hh := pathText_head b h
  cases b
  · have hh : ¬ (pathText false cs).head? = some '/' := by simpa using hh
    rw [if_neg hh]
    have : pathText false cs = relText cs := rfl
    rw [this, hr]
    rfl
  · have : pathText true cs = '/' :: relText cs := rfl
    rw [this, if_pos rfl, comps, if_pos rfl, List.foldl_cons, enter_empty, hr]
    rfl

theorem relPath_under (cwd : Key) (b : Bool) {common p : List PyStr} (hc : ∀ c ∈ common, Plain c) (hp : ∀ c ∈ p, Plain c)
    (hn : p ≠ []) : relPath cwd (pathText b (common ++ p)) (pathText b common) = .ok (relText p) := by
  have hcp : ∀ c ∈ common ++ p, Plain c := fun c hm => (List.mem_append.1 hm).elim (hc c) (hp c)
  unfold relPath
  rw [if_neg]
  · dsimp only
    rw [absKey_pathText cwd b hc, absKey_pathText cwd b hcp, ← List.append_assoc, commonStart_prefix]
    rw [Nat.sub_self, List.replicate_zero, List.nil_append, List.drop_left, if_neg hn]
    rfl
  · have : relText (common ++ p) ≠ [] := relText_ne_nil hcp (by simp [hn])
    unfold pathText
    simp [this]

theorem withoutCommon_eq (cwd : Key) (b : Bool) {common p q : List PyStr} (hc : ∀ c ∈ common, Plain c) (hp : ∀ c ∈ p, Plain c)
    (hq : ∀ c ∈ q, Plain c) (hpn : p ≠ []) (hqn : q ≠ []) (hd : p.head? ≠ q.head?) :
    withoutCommon cwd (pathText b (common ++ p)) (pathText b (common ++ q)) = (relText p, relText q) := by
  have hcp : ∀ c ∈ common ++ p, Plain c := fun c hm => (List.mem_append.1 hm).elim (hc c) (hp c)
  have hcq : ∀ c ∈ common ++ q, Plain c := fun c hm => (List.mem_append.1 hm).elim (hc c) (hq c)
  have hcom : commonPath (pathText b (common ++ p)) (pathText b (common ++ q)) = .ok (pathText b common) := by
    unfold commonPath
    rw [pathText_head b hcp, pathText_head b hcq, if_pos rfl, shownComps_pathText b hcp, shownComps_pathText b hcq,
      commonStart_split common hd]
    congr 1
    unfold pathText joinAll relText
    congr 1
    have := pathText_head b hcp
    cases b
    · rw [if_neg (by simpa [pathText, relText] using this)]; rfl
    · rfl
  unfold withoutCommon
  rw [hcom]
  dsimp only
  rw [relPath_under cwd b hc hp hpn, relPath_under cwd b hc hq hqn]
  split_ifs with h0
  · cases b
    · by_cases hcn : common = []
      · subst hcn; rfl
      · exact absurd h0 (relText_ne_nil hc hcn)
    · cases h0
  · rfl

end Toron.Files
