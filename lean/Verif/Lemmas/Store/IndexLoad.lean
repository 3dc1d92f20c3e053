/-
Lemmas about loading index data (C65).
-/
import Verif.Spec.IndexLoad
import Verif.Lemmas.Store.Policies
import Verif.Lemmas.Store.Frames
import Verif.Lemmas.Store.Merge
import Verif.Lemmas.Store.Complete
import Verif.Lemmas.Distinct

namespace Toron.Space

open Toron.Selectors (PyStr)

theorem Policy.after_append (p : Policy) (old : Option ℚ) (a b : List ℚ) :
    p.after (p.after old a) b = p.after old (a ++ b) := by
  induction a generalizing old with
  | nil => rw [Policy.after_nil, List.nil_append]
  | cons v vs ih => rw [← Policy.after_cons, ih, Policy.after_cons, List.cons_append]

theorem Policy.allows_append (p : Policy) (old : Option ℚ) (a b : List ℚ) :
    p.Allows old (a ++ b) ↔ p.Allows old a ∧ p.Allows (p.after old a) b := by
  induction a generalizing old with
  | nil => simp [Policy.after_nil, Policy.allows_nil]
  | cons v vs ih =>
    rw [List.cons_append, Policy.allows_cons, ih, Policy.allows_cons p old v vs, and_assoc, Policy.after_cons]

/-- One weight cell. -/
theorem insertIndexWeight_ok {i : Nat} {p : Policy} {c c' : Counts} {gw : WGroup × Option ℚ} {s s' : Store}
    (hw : WeightInv s) (h : insertIndexWeight i p c gw s = .ok (c', s')) :
    s'.index = s.index ∧ s'.wgroups = s.wgroups ∧ WeightInv s' ∧
      (i = 0 → gw.2 = none) ∧ p.Allows (s.weightOf gw.1.id i) gw.2.toList ∧
      ∀ g' i', s'.weightOf g' i' =
        if g' = gw.1.id ∧ i' = i then p.after (s.weightOf gw.1.id i) gw.2.toList else s.weightOf g' i' := by
  have hinv : WeightInv s' := ((insertIndexWeight_does ..).steps _ _ _ h).invariant (fun _ _ _ _ hp h => h.prim hp) hw
  refine ⟨((insertIndexWeight_does ..).steps _ _ _ h).index_eq (by decide),
    ((insertIndexWeight_does ..).steps _ _ _ h).wgroups_eq (by decide), hinv, ?_⟩
  unfold insertIndexWeight at h
  rcases hv : gw.2 with _ | v <;> simp only [hv] at h
  · rw [pure_ok] at h
    cases h
    refine ⟨fun _ => rfl, Policy.allows_nil _ _, fun g' i' => ?_⟩
    rw [Option.toList_none, Policy.after_nil]
    split
    · rename_i hc; rw [hc.1, hc.2]
    · rfl
  · rw [bind_ok] at h
    obtain ⟨_, _, he, h⟩ := h
    rw [get_ok] at he
    cases he
    rcases hf : s.findWeight gw.1.id i with _ | w <;> simp only [hf] at h
    · rw [bind_ok] at h
      obtain ⟨_, t, h1, h⟩ := h
      rw [pure_ok] at h
      cases h
      obtain ⟨h0, hpos, _, rfl⟩ := weightAdd_ok h1
      have hn : s.weightOf gw.1.id i = none := by unfold Store.weightOf; rw [hf]; rfl
      refine ⟨fun h => absurd h h0, ?_, fun g' i' => ?_⟩
      · rw [hn, Option.toList_some, Policy.allows_one]; simp
      · rw [weightOf_add hf, hn, Option.toList_some, Policy.after_none]
    · have hn : s.weightOf gw.1.id i = some w.value := by unfold Store.weightOf; rw [hf]; rfl
      have h0 : i ≠ 0 := by
        obtain ⟨hm, _, e⟩ := findWeight_some hf
        rw [← e]; exact hw.defined w hm
      cases p with
      | ignore =>
        simp only [pure_ok] at h
        cases h
        refine ⟨fun h => absurd h h0, ?_, fun g' i' => ?_⟩
        · rw [Option.toList_some, Policy.allows_one]; simp
        · split
          · rename_i hc; rw [hc.1, hc.2, hn]; rfl
          · rfl
      | replace =>
        simp only [bind_ok, pure_ok] at h
        obtain ⟨_, t, h1, h⟩ := h
        cases h
        obtain ⟨hpos, rfl⟩ := weightSetValue_ok h1
        refine ⟨fun h => absurd h h0, ?_, fun g' i' => ?_⟩
        · rw [Option.toList_some, Policy.allows_one]; simp
        · rw [weightOf_set hw hf]
          simp [Policy.after]
      | _ => exact absurd h (by simp [throw_ok])

/-! ### The record of a row -/

theorem indexAdd_cases {labels : List PyStr} {s s' : Store} {i : Nat} (h : indexAdd labels s = .ok (i, s')) :
    i = s.seq + 1 ∧ labels ∉ s.index.map (·.labels) ∧
      s' = { s with index := s.index ++ [⟨s.seq + 1, labels⟩], seq := s.seq + 1 } := by
  simp only [indexAdd, bind_ok, get_ok, ite_ok, throw_ok, put_ok, pure_ok] at h
  obtain ⟨_, _, he, h⟩ := h
  cases he
  obtain ⟨_, h⟩ | ⟨h1, h⟩ := h
  · exact h.elim
  obtain ⟨_, h⟩ | ⟨h2, h⟩ := h
  · exact h.elim
  obtain ⟨_, h⟩ | ⟨h3, h⟩ := h
  · exact h.elim
  obtain ⟨_, _, he, h⟩ := h
  cases he
  cases h
  exact ⟨rfl, h3, rfl⟩

theorem indexGet_cases {i : Nat} {r : IndexRec} {s s' : Store} (h : indexGet i s = .ok (r, s')) :
    s' = s ∧ r ∈ s.index ∧ r.id = i := by
  simp only [indexGet, bind_ok, get_ok] at h
  obtain ⟨_, _, he, h⟩ := h
  cases he
  rcases hf : s.index.find? (fun r => r.id == i) with _ | r' <;> simp only [hf, throw_ok, pure_ok] at h
  cases h
  exact ⟨rfl, List.mem_of_find?_eq_some hf, by simpa using List.find?_some hf⟩

/-- The four ways in which a row finds its record. -/
theorem insertIndexRecord_cases {p : Policy} {c c' : Counts} {row : IndexRow} {i : Nat} {s s' : Store}
    (h : insertIndexRecord p c row s = .ok ((i, c'), s')) :
    (row.idv = some i ∧ s' = s ∧ ∃ r ∈ s.index, r.id = i ∧ ∀ l ∈ row.labels, l = r.labels ∨ p = .ignore) ∨
    (row.idv = some i ∧ p = .replace ∧ ∃ r ∈ s.index, r.id = i ∧ ∃ l, row.labels = some l ∧
      s' = { s with index := upd IndexRec.id ⟨i, l⟩ s.index }) ∨
    (row.idv = none ∧ row.labels.getD [] ∉ s.index.map (·.labels) ∧ i = s.seq + 1 ∧
      s' = { s with index := s.index ++ [⟨s.seq + 1, row.labels.getD []⟩], seq := s.seq + 1 }) ∨
    (row.idv = none ∧ s' = s ∧ (⟨i, row.labels.getD []⟩ : IndexRec) ∈ s.index) := by
  unfold insertIndexRecord at h
  rcases hi : row.idv with _ | j <;> simp only [hi] at h
  · right; right
    split at h
    · rename_i heq
      cases h
      obtain ⟨h1, h2, h3⟩ := indexAdd_cases heq
      exact .inl ⟨rfl, h2, h1, h3⟩
    · split at h
      · rename_i r hf
        cases h
        refine .inr ⟨rfl, rfl, ?_⟩
        have h1 := List.mem_of_find?_eq_some hf
        have h2 : r.labels = row.labels.getD [] := by simpa using List.find?_some hf
        rw [← h2]; exact h1
      · cases h
    · cases h
  · rw [bind_ok] at h
    obtain ⟨r, t, h1, h⟩ := h
    obtain ⟨rfl, hr, hid⟩ := indexGet_cases h1
    rcases hl : row.labels with _ | labels <;> simp only [hl] at h
    · rw [pure_ok] at h
      cases h
      exact .inl ⟨rfl, rfl, r, hr, hid, fun l hl => (nomatch hl)⟩
    · rw [ite_ok] at h
      obtain ⟨he, h⟩ | ⟨_, h⟩ := h
      · rw [pure_ok] at h
        cases h
        exact .inl ⟨rfl, rfl, r, hr, hid, fun l hl => .inl (by cases hl; exact he)⟩
      · cases p with
        | ignore =>
          simp only [pure_ok] at h
          cases h
          exact .inl ⟨rfl, rfl, r, hr, hid, fun l hl => .inr rfl⟩
        | replace =>
          simp only [bind_ok, pure_ok] at h
          obtain ⟨_, t', h1, h⟩ := h
          cases h
          refine .inr (.inl ⟨rfl, rfl, r, hr, hid, labels, rfl, ?_⟩)
          rw [indexUpdate_ok h1]
          obtain ⟨rid, rl⟩ := r
          cases hid
          rfl
        | _ => exact absurd h (by simp [throw_ok])

/-! ### The weights of a row -/

/-- The numbers a row has for the group `g`. -/
def cellsFor (g : Nat) (l : List (WGroup × Option ℚ)) : List ℚ :=
  (l.filter fun x => decide (x.1.id = g)).filterMap (·.2)

theorem cellsFor_cons (g : Nat) (x : WGroup × Option ℚ) (l : List (WGroup × Option ℚ)) :
    cellsFor g (x :: l) = (if x.1.id = g then x.2.toList else []) ++ cellsFor g l := by
  unfold cellsFor
  rw [List.filter_cons]
  by_cases h : x.1.id = g
  · rw [if_pos (by simpa using h), if_pos h, List.filterMap_cons]
    cases x.2 <;> rfl
  · rw [if_neg (by simpa using h), if_neg h, List.nil_append]

theorem insertIndexWeights_ok {i : Nat} {p : Policy} {l : List (WGroup × Option ℚ)} {c c' : Counts} {s s' : Store}
    (hw : WeightInv s) (h : l.foldlM (insertIndexWeight i p) c s = .ok (c', s')) :
    s'.index = s.index ∧ s'.wgroups = s.wgroups ∧ WeightInv s' ∧ (i = 0 → ∀ gw ∈ l, gw.2 = none) ∧
      (∀ g, p.Allows (s.weightOf g i) (cellsFor g l)) ∧
      ∀ g i', s'.weightOf g i' = if i' = i then p.after (s.weightOf g i) (cellsFor g l) else s.weightOf g i' := by
  induction l generalizing c s with
  | nil =>
    cases h
    refine ⟨rfl, rfl, hw, fun _ _ hm => (nomatch hm), fun g => Policy.allows_nil _ _, fun g i' => ?_⟩
    show _ = if i' = i then p.after (s'.weightOf g i) [] else _
    rw [Policy.after_nil]
    split
    · rename_i hc; rw [hc]
    · rfl
  | cons x xs ih =>
    obtain ⟨d, t, h1, h2⟩ := foldlM_cons_ok.1 h
    obtain ⟨a1, a2, a3, a4, a5, a6⟩ := insertIndexWeight_ok hw h1
    obtain ⟨b1, b2, b3, b4, b5, b6⟩ := ih a3 h2
    have key : ∀ g, t.weightOf g i = p.after (s.weightOf g i) (if x.1.id = g then x.2.toList else []) := by
      intro g
      rw [a6]
      by_cases hg : x.1.id = g
      · subst hg
        rw [if_pos ⟨rfl, rfl⟩, if_pos rfl]
      · rw [if_neg (fun h => hg h.1.symm), if_neg hg, Policy.after_nil]
    refine ⟨b1.trans a1, b2.trans a2, b3, fun h0 gw hm => ?_, fun g => ?_, fun g i' => ?_⟩
    · rcases List.mem_cons.1 hm with rfl | hm
      · exact a4 h0
      · exact b4 h0 gw hm
    · rw [cellsFor_cons, Policy.allows_append, ← key]
      refine ⟨?_, b5 g⟩
      by_cases hg : x.1.id = g
      · subst hg
        rw [if_pos rfl]; exact a5
      · rw [if_neg hg]; exact Policy.allows_nil _ _
    · rw [b6, cellsFor_cons, ← Policy.after_append, ← key]
      by_cases hi : i' = i
      · rw [if_pos hi, if_pos hi]
      · rw [if_neg hi, if_neg hi, a6, if_neg (fun h => hi h.2)]

/-! ### A row -/

theorem insertIndexRow_cases {groups : List WGroup} {pl pw : Policy} {c c' : Counts} {row : IndexRow} {s s' : Store}
    (hw : WeightInv s) (h : insertIndexRow groups pl pw c row s = .ok (c', s')) :
    (¬ row.Counts ∧ s' = s) ∨
    (row.Counts ∧ ∃ i c1 t, insertIndexRecord pl c row s = .ok ((i, c1), t) ∧ s'.index = t.index ∧ s'.seq = t.seq ∧
      s'.wgroups = s.wgroups ∧ WeightInv s' ∧ (i = 0 → ∀ gw ∈ groups.zip row.ws, gw.2 = none) ∧
      (∀ g, pw.Allows (s.weightOf g i) (cellsFor g (groups.zip row.ws))) ∧
      ∀ g i', s'.weightOf g i' =
        if i' = i then pw.after (s.weightOf g i) (cellsFor g (groups.zip row.ws)) else s.weightOf g i') := by
  unfold insertIndexRow at h
  rw [ite_ok] at h
  obtain ⟨hc, h⟩ | ⟨hc, h⟩ := h
  · rw [pure_ok] at h; cases h; exact .inl ⟨fun h => h hc, rfl⟩
  · refine .inr ⟨hc, ?_⟩
    rw [bind_ok] at h
    obtain ⟨⟨i, c1⟩, t, h1, h⟩ := h
    have hst := (insertIndexRecord_does ..).steps _ _ _ h1
    have hwt : t.weights = s.weights := hst.weights_eq (by decide)
    have hgt : t.wgroups = s.wgroups := hst.wgroups_eq (by decide)
    have hof : ∀ g i, t.weightOf g i = s.weightOf g i := by
      intro g i; unfold Store.weightOf Store.findWeight; rw [hwt]
    obtain ⟨b1, b2, b3, b4, b5, b6⟩ := insertIndexWeights_ok (WeightInv.steps hst hw) h
    have hseq : s'.seq = t.seq := by
      have hs : Steps [.wAdd, .wSet] t s' :=
        Does.steps (K := [.wAdd, .wSet]) (Does.foldlM fun c gw _ => insertIndexWeight_does _ _ _ _) _ _ _ h
      refine hs.relation (R := fun a b => b.seq = a.seq) (fun _ => rfl) (fun _ _ _ h1 h2 => h2.trans h1) ?_
      intro k hk a b hp
      cases hp <;> first | rfl | (exfalso; revert hk; decide)
    simp only [hof] at b5 b6
    exact ⟨i, c1, t, h1, b1, hseq, b2.trans hgt, b3, b4, b5, b6⟩

/-! ### The records after a row -/

/-- The labels a row gives to the record `i`. -/
def rowGiven (row : IndexRow) (i : Nat) : List (List PyStr) :=
  if row.Counts ∧ row.idv = some i then row.labels.toList else []

theorem labelsGiven_cons (row : IndexRow) (rows : List IndexRow) (i : Nat) :
    labelsGiven (row :: rows) i = rowGiven row i ++ labelsGiven rows i := by
  unfold labelsGiven rowGiven
  rw [List.filter_cons]
  by_cases h : row.Counts ∧ row.idv = some i
  · rw [if_pos (by simpa using h), if_pos h, List.filterMap_cons]
    cases row.labels <;> rfl
  · rw [if_neg (by simpa using h), if_neg h, List.nil_append]

theorem labelsAfter_append (p : Policy) (old : List PyStr) (a b : List (List PyStr)) :
    labelsAfter p (labelsAfter p old a) b = labelsAfter p old (a ++ b) := by
  unfold labelsAfter
  by_cases hp : p = .replace
  · rw [if_pos hp, if_pos hp, if_pos hp, List.getLast?_append]
    cases b.getLast? <;> rfl
  · rw [if_neg hp, if_neg hp, if_neg hp]

theorem labelsAfter_nil (p : Policy) (old : List PyStr) : labelsAfter p old [] = old := by
  unfold labelsAfter; split <;> rfl

/-- The record after rows have given labels to it. -/
def relabel (p : Policy) (given : Nat → List (List PyStr)) (r : IndexRec) : IndexRec :=
  ⟨r.id, labelsAfter p r.labels (given r.id)⟩

theorem relabel_nil {p : Policy} {given : Nat → List (List PyStr)} {r : IndexRec} (h : given r.id = []) :
    relabel p given r = r := by
  unfold relabel; rw [h, labelsAfter_nil]

theorem relabel_not {p : Policy} (hp : p ≠ .replace) (given : Nat → List (List PyStr)) (r : IndexRec) :
    relabel p given r = r := by
  unfold relabel labelsAfter; rw [if_neg hp]

theorem relabel_relabel (p : Policy) (f g : Nat → List (List PyStr)) (r : IndexRec) :
    relabel p g (relabel p f r) = relabel p (fun i => f i ++ g i) r := by
  unfold relabel; rw [labelsAfter_append]

/-- The record a row adds. -/
def rowNew (s : Store) (row : IndexRow) : List IndexRec :=
  if row.Counts ∧ row.idv = none ∧ row.labels.getD [] ∉ s.index.map (·.labels) then
    [⟨s.seq + 1, row.labels.getD []⟩] else []

theorem map_self {α : Type} {f : α → α} {l : List α} (h : ∀ x ∈ l, f x = x) : l.map f = l := by
  conv_rhs => rw [← List.map_id l]
  exact List.map_congr_left fun x hx => by rw [h x hx]; rfl

theorem insertIndexRow_index {groups : List WGroup} {pl pw : Policy} {c c' : Counts} {row : IndexRow} {s s' : Store}
    (hi : IndexInv s) (hw : WeightInv s) (h : insertIndexRow groups pl pw c row s = .ok (c', s')) :
    s'.index = s.index.map (relabel pl (rowGiven row)) ++ rowNew s row ∧ s'.seq = s.seq + (rowNew s row).length ∧
      (pl ≠ .ignore → pl ≠ .replace → ∀ r ∈ s.index, ∀ l ∈ rowGiven row r.id, l = r.labels) ∧
      (row.Counts → ∀ i ∈ row.idv, ∃ r ∈ s.index, r.id = i) := by
  have uniq : ∀ r ∈ s.index, ∀ r' ∈ s.index, r.id = r'.id → r = r' := fun r hr r' hr' he =>
    List.inj_on_of_nodup_map hi.idsNodup hr hr' he
  obtain ⟨hc, rfl⟩ | ⟨hc, i, c1, t, h1, ht, hseq, -⟩ := insertIndexRow_cases hw h
  · have hn : rowNew s' row = [] := if_neg fun h => hc h.1
    have hg : ∀ i, rowGiven row i = [] := fun i => if_neg fun h => hc h.1
    rw [hn]
    refine ⟨?_, rfl, fun _ _ r _ l hl => by rw [hg] at hl; exact (nomatch hl), fun h => absurd h hc⟩
    rw [List.append_nil, map_self fun r _ => relabel_nil (hg _)]
  · rw [ht, hseq]
    obtain ⟨hid, rfl, r, hr, rfl, hl⟩ | ⟨hid, hp, r, hr, rfl, l, hl, rfl⟩ | ⟨hid, hl, rfl, rfl⟩ | ⟨hid, rfl, hm⟩ :=
      insertIndexRecord_cases h1
    · have hn : rowNew t row = [] := if_neg fun h => by rw [hid] at h; exact (nomatch h.2.1)
      rw [hn]
      refine ⟨?_, rfl, fun h1 h2 r' hr' l' hl' => ?_, fun _ j hj => ?_⟩
      · rw [List.append_nil, map_self]
        intro r' hr'
        unfold relabel labelsAfter
        by_cases hp : pl = .replace
        · rw [if_pos hp]
          by_cases he : row.idv = some r'.id
          · have : r = r' := uniq _ hr _ hr' (by rw [hid] at he; exact Option.some.inj he)
            subst this
            unfold rowGiven
            rw [if_pos ⟨hc, he⟩]
            rcases hlab : row.labels with _ | lab
            · rfl
            · rcases hl lab hlab with h | h
              · rw [h]; rfl
              · rw [hp] at h; cases h
          · unfold rowGiven
            rw [if_neg fun h => he h.2]; rfl
        · rw [if_neg hp]
      · unfold rowGiven at hl'
        split at hl'
        · rename_i hx
          have : r = r' := uniq _ hr _ hr' (by rw [hid] at hx; exact Option.some.inj hx.2)
          subst this
          rcases hl l' (by simpa using hl') with h | h
          · exact h
          · exact absurd h h1
        · exact (nomatch hl')
      · rw [hid] at hj; cases hj
        exact ⟨r, hr, rfl⟩
    · have hn : rowNew s row = [] := if_neg fun h => by rw [hid] at h; exact (nomatch h.2.1)
      rw [hn]
      refine ⟨?_, rfl, fun _ h => absurd hp h, fun _ j hj => ?_⟩
      · rw [List.append_nil]
        show upd _ _ _ = _
        unfold upd
        apply List.map_congr_left
        intro r' hr'
        unfold relabel labelsAfter rowGiven
        rw [if_pos hp]
        by_cases he : r'.id = r.id
        · rw [if_pos he, if_pos ⟨hc, by rw [he, hid]⟩, hl, he]; rfl
        · rw [if_neg he, if_neg fun h => he (by rw [hid] at h; exact (Option.some.inj h.2).symm)]; rfl
      · rw [hid] at hj; cases hj
        exact ⟨r, hr, rfl⟩
    · have hn : rowNew s row = [⟨s.seq + 1, row.labels.getD []⟩] := if_pos ⟨hc, hid, hl⟩
      have hg : ∀ i, rowGiven row i = [] := fun i => if_neg fun h => by rw [hid] at h; exact (nomatch h.2)
      rw [hn]
      refine ⟨?_, rfl, fun _ _ r _ l hl => by rw [hg] at hl; exact (nomatch hl), fun _ j hj => by rw [hid] at hj; cases hj⟩
      rw [map_self fun r _ => relabel_nil (hg _)]
    · have hn : rowNew t row = [] := if_neg fun h => h.2.2 (List.mem_map_of_mem hm)
      have hg : ∀ i, rowGiven row i = [] := fun i => if_neg fun h => by rw [hid] at h; exact (nomatch h.2)
      rw [hn]
      refine ⟨?_, rfl, fun _ _ r _ l hl => by rw [hg] at hl; exact (nomatch hl), fun _ j hj => by rw [hid] at hj; cases hj⟩
      rw [List.append_nil, map_self fun r _ => relabel_nil (hg _)]

/-! ### All rows -/

theorem filter_distinct_comm {α : Type} [DecidableEq α] (l : List α) (p : α → Bool) :
    distinct (l.filter p) = (distinct l).filter p := by
  induction l with
  | nil => rfl
  | cons x xs ih =>
    show distinct ((x :: xs).filter p) = (x :: (distinct xs).filter (fun y => y ≠ x)).filter p
    rw [List.filter_cons, List.filter_cons]
    by_cases hx : p x = true
    · rw [if_pos hx, if_pos hx]
      show x :: _ = _
      rw [ih, List.filter_filter, List.filter_filter]
      simp only [Bool.and_comm]
    · rw [if_neg hx, if_neg hx, ih, List.filter_filter]
      apply List.filter_congr
      intro y _
      by_cases hy : y = x
      · subst hy; simp [hx]
      · simp [hy]

theorem newLabels_cons (s : Store) (row : IndexRow) (rows : List IndexRow) {t : Store}
    (ht : t.index = s.index ++ rowNew s row) :
    s.newLabels (row :: rows) = (rowNew s row).map (·.labels) ++ t.newLabels rows := by
  unfold Store.newLabels rowNew at *
  rw [List.filter_cons]
  by_cases h : row.Counts ∧ row.idv = none ∧ row.labels.getD [] ∉ s.index.map (·.labels)
  · rw [if_pos h] at ht ⊢
    rw [if_pos (by simpa using h), List.map_cons]
    show _ :: _ = _ :: _
    congr 1
    rw [ht, ← filter_distinct_comm, List.filter_map, List.filter_filter]
    congr 2
    apply List.filter_congr
    intro x _
    simp only [List.map_append, List.mem_append, Function.comp_apply, decide_not]
    by_cases hx : x.labels.getD [] = row.labels.getD [] <;> simp [hx]
  · rw [if_neg h] at ht ⊢
    rw [if_neg (by simpa using h), ht]
    simp

theorem insertIndexRow_inv {groups : List WGroup} {pl pw : Policy} {c c' : Counts} {row : IndexRow} {s s' : Store}
    (hi : IndexInv s) (hw : WeightInv s) (h : insertIndexRow groups pl pw c row s = .ok (c', s')) :
    IndexInv s' ∧ WeightInv s' := by
  have hst := (insertIndexRow_does ..).steps _ _ _ h
  exact ⟨hst.invariant (fun _ _ _ _ hp h => h.prim hp) hi, WeightInv.steps hst hw⟩

theorem insertIndexRows_index {groups : List WGroup} {pl pw : Policy} {c c' : Counts} {rows : List IndexRow}
    {s s' : Store} (hi : IndexInv s) (hw : WeightInv s)
    (h : rows.foldlM (insertIndexRow groups pl pw) c s = .ok (c', s')) :
    ∃ new, s'.index = s.index.map (relabel pl (labelsGiven rows)) ++ new ∧
      (∀ r ∈ new, s.seq < r.id ∧ ∃ row ∈ rows, row.Counts ∧ row.labels.getD [] = r.labels) ∧
      (pl ≠ .ignore → pl ≠ .replace → ∀ r ∈ s.index, ∀ l ∈ labelsGiven rows r.id, l = r.labels) ∧
      (∀ row ∈ rows, row.Counts → ∀ i ∈ row.idv, ∃ r ∈ s'.index, r.id = i) ∧
      (pl ≠ .replace → new.map (·.labels) = s.newLabels rows) ∧
      new.length ≤ (rows.filter fun row => decide (row.Counts ∧ row.idv = none)).length := by
  induction rows generalizing c s with
  | nil =>
    cases h
    refine ⟨[], ?_, fun _ h => (nomatch h), fun _ _ _ _ _ h => (nomatch h), fun _ h => (nomatch h), fun _ => rfl,
      le_refl _⟩
    rw [List.append_nil, map_self fun r _ => relabel_nil rfl]
  | cons row rows ih =>
    obtain ⟨d, t, h1, h2⟩ := foldlM_cons_ok.1 h
    obtain ⟨a1, a2, a3, a4⟩ := insertIndexRow_index hi hw h1
    obtain ⟨hit, hwt⟩ := insertIndexRow_inv hi hw h1
    obtain ⟨new, b1, b2, b3, b4, b5, b6⟩ := ih hit hwt h2
    refine ⟨(rowNew s row).map (relabel pl (labelsGiven rows)) ++ new, ?_, ?_, ?_, ?_, ?_, ?_⟩
    · rw [b1, a1, List.map_append, List.append_assoc, List.map_map]
      congr 1
      apply List.map_congr_left
      intro r _
      rw [Function.comp_apply, relabel_relabel]
      simp only [relabel, labelsGiven_cons]
    · intro r hr
      rcases List.mem_append.1 hr with hr | hr
      · obtain ⟨r0, hr0, rfl⟩ := List.mem_map.1 hr
        unfold rowNew at hr0
        split at hr0
        · rename_i hx
          rw [List.mem_singleton] at hr0
          subst hr0
          refine ⟨Nat.lt_succ_self _, ?_⟩
          show ∃ row' ∈ row :: rows, row'.Counts ∧ row'.labels.getD [] = labelsAfter _ _ _
          unfold labelsAfter
          split
          · rcases hl : (labelsGiven rows (s.seq + 1)).getLast? with _ | l
            · exact ⟨row, List.mem_cons_self, hx.1, rfl⟩
            · have := List.mem_of_getLast? hl
              unfold labelsGiven at this
              obtain ⟨row', hrow', hl'⟩ := List.mem_filterMap.1 this
              obtain ⟨hm, hd⟩ := List.mem_filter.1 hrow'
              refine ⟨row', List.mem_cons_of_mem _ hm, (of_decide_eq_true hd).1, ?_⟩
              rw [hl']; rfl
          · exact ⟨row, List.mem_cons_self, hx.1, rfl⟩
        · exact (nomatch hr0)
      · obtain ⟨h1, row', hm, h2⟩ := b2 r hr
        exact ⟨by omega, row', List.mem_cons_of_mem _ hm, h2⟩
    · intro hp1 hp2 r hr l hl
      rw [labelsGiven_cons] at hl
      rcases List.mem_append.1 hl with hl | hl
      · exact a3 hp1 hp2 r hr l hl
      · refine b3 hp1 hp2 r ?_ l hl
        rw [a1]
        exact List.mem_append_left _ (List.mem_map.2 ⟨r, hr, relabel_not hp2 _ _⟩)
    · intro row' hm hc i hid
      rcases List.mem_cons.1 hm with rfl | hm
      · obtain ⟨r, hr, rfl⟩ := a4 hc i hid
        refine ⟨relabel pl (labelsGiven rows) (relabel pl (rowGiven row') r), ?_, rfl⟩
        rw [b1, a1]
        exact List.mem_append_left _ (List.mem_map_of_mem (List.mem_append_left _ (List.mem_map_of_mem hr)))
      · exact b4 row' hm hc i hid
    · intro hp
      rw [newLabels_cons s row rows (t := t), List.map_append, b5 hp, map_self fun r _ => relabel_not hp _ r]
      rw [a1, map_self fun r _ => relabel_not hp _ r]
    · rw [List.length_append, List.length_map]
      by_cases hx : row.Counts ∧ row.idv = none
      · rw [List.filter_cons_of_pos (by simpa using hx), List.length_cons]
        have : (rowNew s row).length ≤ 1 := by unfold rowNew; split <;> simp
        omega
      · rw [List.filter_cons_of_neg (by simpa using hx)]
        have : rowNew s row = [] := if_neg fun h => hx ⟨h.1, h.2.1⟩
        rw [this]
        simpa using b6

theorem relabel_mem {p : Policy} {rows : List IndexRow} (hp : p ≠ .replace ∨ ∀ row ∈ rows, row.idv = none)
    {l new : List IndexRec} {r : IndexRec} (h : r ∈ l) : r ∈ l.map (relabel p (labelsGiven rows)) ++ new := by
  refine List.mem_append_left _ (List.mem_map.2 ⟨r, h, ?_⟩)
  rcases hp with hp | hp
  · exact relabel_not hp _ _
  · apply relabel_nil
    unfold labelsGiven
    rw [List.filter_eq_nil_iff.2]
    · rfl
    · intro row hm
      simp [hp row hm]

theorem insertIndexRows_inv {groups : List WGroup} {pl pw : Policy} {c c' : Counts} {rows : List IndexRow}
    {s s' : Store} (hi : IndexInv s) (hw : WeightInv s)
    (h : rows.foldlM (insertIndexRow groups pl pw) c s = .ok (c', s')) : IndexInv s' ∧ WeightInv s' :=
  foldlM_inv (P := fun _ s => IndexInv s ∧ WeightInv s)
    (fun _ _ _ _ _ _ hP h => insertIndexRow_inv hP.1 hP.2 h) ⟨hi, hw⟩ h

theorem insertIndexRows_weights {groups : List WGroup} {pl pw : Policy} {c c' : Counts} {rows : List IndexRow}
    {s s' : Store} (hi : IndexInv s) (hw : WeightInv s) (hst : pl ≠ .replace ∨ (∀ row ∈ rows, row.idv ≠ none) ∨ ∀ row ∈ rows, row.idv = none)
    (h : rows.foldlM (insertIndexRow groups pl pw) c s = .ok (c', s')) :
    s'.wgroups = s.wgroups ∧
    (∀ row ∈ rows, row.Counts → s'.About row 0 → ∀ gw ∈ groups.zip row.ws, gw.2 = none) ∧
    ∀ g i, pw.Allows (s.weightOf g i) ((rows.filter fun row => decide (row.Counts ∧ s'.About row i)).flatMap
        fun row => cellsFor g (groups.zip row.ws)) ∧
      s'.weightOf g i = pw.after (s.weightOf g i)
        ((rows.filter fun row => decide (row.Counts ∧ s'.About row i)).flatMap
          fun row => cellsFor g (groups.zip row.ws)) := by
  induction rows generalizing c s with
  | nil =>
    cases h
    exact ⟨rfl, fun _ h => (nomatch h), fun g i => ⟨Policy.allows_nil _ _, (Policy.after_nil _ _).symm⟩⟩
  | cons row rows ih =>
    obtain ⟨d, t, h1, h2⟩ := foldlM_cons_ok.1 h
    obtain ⟨hit, hwt⟩ := insertIndexRow_inv hi hw h1
    obtain ⟨b1, b2, b3⟩ := ih hit hwt (hst.imp id fun h => h.imp (fun h x hx => h x (List.mem_cons_of_mem _ hx))
      fun h x hx => h x (List.mem_cons_of_mem _ hx)) h2
    obtain ⟨new, e1, -⟩ := insertIndexRows_index hit hwt h2
    have hi' := (insertIndexRows_inv hit hwt h2).1
    obtain ⟨hc, rfl⟩ | ⟨hc, i, c1, u, h3, hu, hseq, g1, -, g3, g4, g5⟩ := insertIndexRow_cases hw h1
    · refine ⟨b1, fun row' hm hc' => ?_, fun g i => ?_⟩
      · rcases List.mem_cons.1 hm with rfl | hm
        · exact absurd hc' hc
        · exact b2 row' hm hc'
      · rw [List.filter_cons, if_neg (by simpa using fun h => absurd h hc)]
        exact b3 g i
    · have about : ∀ i', s'.About row i' ↔ i' = i := by
        intro i'
        unfold Store.About
        have found : row.idv = none → (⟨i, row.labels.getD []⟩ : IndexRec) ∈ u.index →
            (row.idv = some i' ∨ row.idv = none ∧ (⟨i', row.labels.getD []⟩ : IndexRec) ∈ s'.index ↔ i' = i) := by
          intro hn hm
          have hp : pl ≠ .replace ∨ ∀ row ∈ rows, row.idv = none :=
            hst.imp id fun h => h.elim (fun h => absurd hn (h row List.mem_cons_self))
              fun h x hx => h x (List.mem_cons_of_mem _ hx)
          have hm' : (⟨i, row.labels.getD []⟩ : IndexRec) ∈ s'.index := by
            rw [e1, hu]; exact relabel_mem hp hm
          constructor
          · rintro (h | ⟨_, h⟩)
            · rw [hn] at h; cases h
            · have := List.inj_on_of_nodup_map hi'.labels h hm' rfl
              exact congrArg IndexRec.id this
          · rintro rfl
            exact .inr ⟨hn, hm'⟩
        have named : row.idv = some i →
            (row.idv = some i' ∨ row.idv = none ∧ (⟨i', row.labels.getD []⟩ : IndexRec) ∈ s'.index ↔ i' = i) := by
          intro hn
          rw [hn]
          constructor
          · rintro (h | ⟨h, _⟩)
            · exact (Option.some.inj h).symm
            · cases h
          · rintro rfl; exact .inl rfl
        obtain ⟨hid, -⟩ | ⟨hid, -⟩ | ⟨hid, -, rfl, rfl⟩ | ⟨hid, rfl, hm⟩ := insertIndexRecord_cases h3
        · exact named hid
        · exact named hid
        · exact found hid (List.mem_append_right _ (List.mem_singleton.2 rfl))
        · exact found hid hm
      refine ⟨b1.trans g1, fun row' hm hc' hab => ?_, fun g i' => ?_⟩
      · rcases List.mem_cons.1 hm with rfl | hm
        · exact g3 ((about 0).1 hab).symm
        · exact b2 row' hm hc' hab
      · obtain ⟨b4, b5⟩ := b3 g i'
        rw [List.filter_cons]
        by_cases he : i' = i
        · subst he
          rw [if_pos (by simpa using ⟨hc, (about i').2 rfl⟩), List.flatMap_cons, Policy.allows_append,
            ← Policy.after_append]
          rw [g5, if_pos rfl] at b4 b5
          exact ⟨⟨g4 g, b4⟩, b5⟩
        · rw [if_neg (by simpa using fun _ h => he ((about i').1 h))]
          rw [g5, if_neg he] at b4 b5
          exact ⟨b4, b5⟩

/-! ### The columns -/

theorem mapM_wgroups {names : List PyStr} {groups : List WGroup} {s s' : Store}
    (h : names.mapM wgroupGetByName s = .ok (groups, s')) :
    groups.map (·.name) = names ∧ ∀ g ∈ groups, g ∈ s.wgroups := by
  induction names generalizing groups s with
  | nil =>
    rw [List.mapM_nil, pure_ok] at h
    cases h
    exact ⟨rfl, fun _ h => (nomatch h)⟩
  | cons n ns ih =>
    rw [List.mapM_cons] at h
    simp only [bind_ok, pure_ok] at h
    obtain ⟨g, t, h1, gs, t', h2, h⟩ := h
    cases h
    obtain ⟨rfl, h3, h4⟩ := wgroupGetByName_ok h1
    obtain ⟨h5, h6⟩ := ih h2
    refine ⟨by rw [List.map_cons, h5, h4], fun x hx => ?_⟩
    rcases List.mem_cons.1 hx with rfl | hx
    · exact h3
    · exact h6 x hx

theorem insertIndexGroups_ok {weights : Option (List PyStr)} {wcols : List PyStr} {groups : List WGroup} {s s' : Store}
    (h : insertIndexGroups weights wcols s = .ok (groups, s')) :
    groups.map (·.name) = weightColumns weights wcols ∧ ∀ g ∈ groups, g ∈ s.wgroups := by
  unfold insertIndexGroups at h
  cases weights with
  | none => exact mapM_wgroups h
  | some names =>
    simp only [bind_ok] at h
    obtain ⟨_, t, h1, h2⟩ := h
    have : t.wgroups = s.wgroups := by
      have hst : Does [] (names.forM fun n => do let _ ← wgroupGetByName n) := by does
      exact (hst.steps _ _ _ h1).wgroups_eq (by decide)
    rw [← this]
    exact mapM_wgroups h2

theorem cellsFor_eq {s : Store} (hw : WeightInv s) {groups : List WGroup} (hg : ∀ g ∈ groups, g ∈ s.wgroups) {g : WGroup}
    (hm : g ∈ s.wgroups) (row : IndexRow) :
    cellsFor g.id (groups.zip row.ws) = row.numbers (groups.map (·.name)) g.name := by
  unfold cellsFor IndexRow.numbers
  rw [List.zip_map_left, List.filter_map, List.filterMap_map]
  have : (groups.zip row.ws).filter (fun x => decide (x.1.id = g.id)) =
      (groups.zip row.ws).filter ((fun x : PyStr × Option ℚ => decide (x.1 = g.name)) ∘ Prod.map (·.name) id) := by
    apply List.filter_congr
    intro x hx
    have hx' := hg _ (List.of_mem_zip hx).1
    rw [Function.comp_apply, decide_eq_decide]
    constructor
    · intro h; exact congrArg WGroup.name (List.inj_on_of_nodup_map hw.gids hx' hm h)
    · intro h; exact congrArg WGroup.id (List.inj_on_of_nodup_map hw.names hx' hm h)
  rw [this]
  rfl

/-! ### After the rows -/

theorem recomputeComplete_names {s s' : Store} (hw : WeightInv s) (h : recomputeComplete s = .ok ((), s')) :
    s'.wgroups.map (fun g => (g.id, g.name)) = s.wgroups.map fun g => (g.id, g.name) := by
  unfold recomputeComplete at h
  simp only [bind_ok, get_ok] at h
  obtain ⟨_, _, he, h⟩ := h
  cases he
  refine forM_keep (P := fun t : Store => t.wgroups.map (fun g => (g.id, g.name)) =
    s.wgroups.map fun g => (g.id, g.name)) ?_ rfl h
  intro g hg t t' ht h
  simp only [bind_ok, get_ok] at h
  obtain ⟨_, _, he, h⟩ := h
  cases he
  rw [wgroupUpdate_ok h, ← ht]
  show (upd _ _ _).map _ = _
  unfold upd
  rw [List.map_map]
  apply List.map_congr_left
  intro x hx
  rw [Function.comp_apply]
  split
  · rename_i he
    have hm : (x.id, x.name) ∈ s.wgroups.map fun g => (g.id, g.name) := by
      rw [← ht]; exact List.mem_map_of_mem (f := fun g : WGroup => (g.id, g.name)) hx
    obtain ⟨y, hy, hxy⟩ := List.mem_map.1 hm
    have h1 : y.id = x.id := congrArg Prod.fst hxy
    have h2 : y.name = x.name := congrArg Prod.snd hxy
    have : y = g := List.inj_on_of_nodup_map hw.gids hy hg (h1.trans he)
    subst this
    rw [Prod.mk.injEq]; exact ⟨h1, h2⟩
  · rfl

/-- The load as a whole. -/
theorem insertIndex_result {weights : Option (List PyStr)} {wcols : List PyStr} {pl pw : Policy}
    {rows : List IndexRow} {s s' : Store} (hi : IndexInv s) (hw : WeightInv s)
    (h : insertIndex weights wcols pl pw rows s = .ok ((), s')) :
    ∃ groups c t, rows.foldlM (insertIndexRow groups pl pw) ⟨false, false⟩ s = .ok (c, t) ∧
      groups.map (·.name) = weightColumns weights wcols ∧ (∀ g ∈ groups, g ∈ s.wgroups) ∧
      s'.index = t.index ∧ s'.weights = t.weights ∧
      s'.wgroups.map (fun g => (g.id, g.name)) = t.wgroups.map fun g => (g.id, g.name) := by
  obtain ⟨groups, c, t, u, h1, h2, h3, -, h5⟩ := insertIndex_parts h
  obtain ⟨h6, h7⟩ := insertIndexGroups_ok h5
  obtain ⟨hit, hwt⟩ := insertIndexRows_inv hi hw h1
  have hu : Steps [.hash, .structs, .pdefs, .lUpd] t u := by
    rw [whenM_ok] at h2
    obtain ⟨_, h2⟩ | ⟨_, rfl⟩ := h2
    · exact afterNewRecords_does.steps _ _ _ h2
    · exact Steps.refl _
  have hs : Steps [.wgUpd] u s' ∧
      s'.wgroups.map (fun g => (g.id, g.name)) = u.wgroups.map fun g => (g.id, g.name) := by
    rw [whenM_ok] at h3
    obtain ⟨_, h3⟩ | ⟨_, rfl⟩ := h3
    · exact ⟨recomputeComplete_does.steps _ _ _ h3, recomputeComplete_names (WeightInv.steps hu hwt) h3⟩
    · exact ⟨Steps.refl _, rfl⟩
  exact ⟨groups, c, t, h1, h6, h7, (hs.1.index_eq (by decide)).trans (hu.index_eq (by decide)),
    (hs.1.weights_eq (by decide)).trans (hu.weights_eq (by decide)),
    hs.2.trans (by rw [hu.wgroups_eq (by decide)])⟩

end Toron.Space
