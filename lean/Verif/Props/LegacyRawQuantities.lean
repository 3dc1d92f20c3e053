/-
C125: reading and deleting the quantities of a legacy node.
-/
import Verif.Spec.RawQuantities
import Verif.Props.LegacyMapper

namespace Toron.Legacy

open Toron.Selectors (PyStr Row)
open Toron.Space (LocRec AGroup Quant Attrs)

theorem setItem_new {β : Type} {key : PyStr} {v : β} {d : List (PyStr × β)} (h : key ∉ d.map (·.1)) :
    setItem key v d = d ++ [(key, v)] := by
  induction d with
  | nil => rfl
  | cons x xs ih =>
    rw [List.map_cons, List.mem_cons, not_or] at h
    rw [setItem, if_neg (Ne.symm h.1), ih h.2, List.cons_append]

theorem lookup_cons_if {β : Type} (x : PyStr × β) (xs : List (PyStr × β)) (k : PyStr) :
    (x :: xs).lookup k = if k = x.1 then some x.2 else xs.lookup k := by
  rw [List.lookup_cons]
  by_cases h : k = x.1
  · rw [if_pos h, beq_iff_eq.2 h]
  · rw [if_neg h, beq_eq_false_iff_ne.2 h]

theorem setItem_lookup {β : Type} (key : PyStr) (v : β) (d : List (PyStr × β)) (k : PyStr) :
    (setItem key v d).lookup k = if k = key then some v else d.lookup k := by
  induction d with
  | nil => rw [setItem, lookup_cons_if]
  | cons x xs ih =>
    rw [setItem, lookup_cons_if]
    by_cases hx : x.1 = key
    · rw [if_pos hx, lookup_cons_if]
      by_cases h : k = key
      · rw [if_pos h, if_pos h]
      · rw [if_neg h, if_neg h, if_neg (hx ▸ h)]
    · rw [if_neg hx, lookup_cons_if, ih]
      by_cases h : k = x.1
      · have : k ≠ key := fun e => hx (h ▸ e)
        rw [if_pos h, if_neg this, if_pos h]
      · rw [if_neg h, if_neg h]

/-- Whether the conditions are met is decided by both lists together. -/
theorem divide_meets {n : Node} (hc : n.cols.Nodup) (labels : List PyStr) (a : Attrs) {cond : List (PyStr × PyStr)}
    {names : List PyStr} (hn : List.Forall₂ (fun kv name => normName kv.1 = .ok name) cond names) (hd : names.Nodup)
    {locs attrs : List (PyStr × PyStr)} (hdis : ∀ x ∈ names, x ∉ locs.map (·.1)) :
    ∃ locs' attrs', divideWhere n.cols locs attrs cond = .ok (locs', attrs') ∧
      (((locs'.all fun cv => (n.cols.zip labels).lookup cv.1 == some cv.2) && keepsAttrs attrs' a) = true ↔
        ((locs.all fun cv => (n.cols.zip labels).lookup cv.1 == some cv.2) && keepsAttrs attrs a) = true ∧
          ∀ kv ∈ cond, n.Meets labels a kv.1 kv.2) := by
  induction hn generalizing locs attrs with
  | nil => exact ⟨locs, attrs, rfl, by simp⟩
  | @cons kv name cond names hk hrest ih =>
    obtain ⟨k, v⟩ := kv
    have hk : normName k = .ok name := hk
    rw [List.nodup_cons] at hd
    rw [divideWhere, hk]
    dsimp only
    have hcol : ∀ col, n.IsColumn k col ↔ col = name ∧ name ∈ n.cols := by
      intro col
      unfold Node.IsColumn
      rw [hk]
      constructor
      · rintro ⟨h1, h2⟩
        cases h1
        exact ⟨rfl, h2⟩
      · rintro ⟨rfl, h2⟩
        exact ⟨rfl, h2⟩
    by_cases hin : name ∈ n.cols
    · rw [if_pos hin, setItem_new (hdis name List.mem_cons_self)]
      obtain ⟨l', a', h1, h2⟩ := ih hd.2 (locs := locs ++ [(name, v)]) (attrs := attrs) (by
        intro x hx
        rw [List.map_append, List.mem_append, not_or]
        refine ⟨hdis x (List.mem_cons_of_mem _ hx), ?_⟩
        rintro hmem
        have : x = name := by simpa using hmem
        exact hd.1 (this ▸ hx))
      refine ⟨l', a', h1, h2.trans ?_⟩
      have hm : n.Meets labels a k v ↔ (n.cols.zip labels).lookup name = some v := by
        rw [lookup_zip_iff hc]
        unfold Node.Meets
        constructor
        · intro h
          exact h.1 name ((hcol name).2 ⟨rfl, hin⟩)
        · intro h
          refine ⟨fun col hcol' => ?_, fun hno => absurd ⟨name, (hcol name).2 ⟨rfl, hin⟩⟩ hno⟩
          rw [((hcol col).1 hcol').1]
          exact h
      rw [List.forall_mem_cons, hm, List.all_append, Bool.and_eq_true, Bool.and_eq_true, Bool.and_eq_true]
      simp only [List.all_cons, List.all_nil, Bool.and_true, beq_iff_eq]
      tauto
    · rw [if_neg hin]
      obtain ⟨l', a', h1, h2⟩ := ih hd.2 (locs := locs) (attrs := attrs ++ [(k, v)])
        fun x hx => hdis x (List.mem_cons_of_mem _ hx)
      refine ⟨l', a', h1, h2.trans ?_⟩
      have hm : n.Meets labels a k v ↔ (a.lookup k).getD [] = v := by
        unfold Node.Meets
        constructor
        · intro h
          exact h.2 fun ⟨col, hcol'⟩ => hin ((hcol col).1 hcol').2
        · intro h
          exact ⟨fun col hcol' => absurd ((hcol col).1 hcol').2 hin, fun _ => h⟩
      rw [List.forall_mem_cons, hm]
      unfold keepsAttrs
      rw [List.all_append, Bool.and_eq_true, Bool.and_eq_true, Bool.and_eq_true]
      simp only [List.all_cons, List.all_nil, Bool.and_true, beq_iff_eq, Row.get]
      tauto

theorem joined_some {n : Node} (hr : Reachable n) {q : Quant} (hq : q ∈ n.quants) :
    ∃ l a, n.joined q = some (l, a) ∧ l ∈ n.locs ∧ l.id = q.loc ∧ a ∈ n.attrs ∧ a.id = q.ag := by
  obtain ⟨⟨l, hl, e1⟩, a, ha, e2⟩ := hr.inv.quantRefs q hq
  have h1 : ∃ l', n.locs.find? (fun l => l.id == q.loc) = some l' := by
    cases hf : n.locs.find? (fun l => l.id == q.loc) with
    | none => exact absurd (by simp [e1]) (List.find?_eq_none.1 hf l hl)
    | some x => exact ⟨x, rfl⟩
  have h2 : ∃ a', n.attrs.find? (fun a => a.id == q.ag) = some a' := by
    cases hf : n.attrs.find? (fun a => a.id == q.ag) with
    | none => exact absurd (by simp [e2]) (List.find?_eq_none.1 hf a ha)
    | some x => exact ⟨x, rfl⟩
  obtain ⟨l', h1⟩ := h1
  obtain ⟨a', h2⟩ := h2
  refine ⟨l', a', ?_, List.mem_of_find?_eq_some h1, by simpa using List.find?_some h1, List.mem_of_find?_eq_some h2,
    by simpa using List.find?_some h2⟩
  unfold Node.joined
  rw [h1, h2]

/-- Dividing the conditions succeeds; which quantities are chosen. -/
theorem divide_chosen {n : Node} (hr : Reachable n) {cond : List (PyStr × PyStr)} (hk : KeysDiffer cond) :
    ∃ d, divideWhere n.cols [] [] cond = .ok d ∧ ∀ q ∈ n.quants, ∀ x, n.joined q = some x →
      (n.chosen d.1 d.2 x = true ↔ n.MeetsAll cond q) := by
  obtain ⟨names, hn, hd⟩ := hk
  obtain ⟨l0, a0, h0, -⟩ := divide_meets hr.colsNodup [] [] hn hd (locs := []) (attrs := []) (by simp)
  refine ⟨(l0, a0), h0, fun q hq x hx => ?_⟩
  obtain ⟨l, a, hj, hl, e1, ha, e2⟩ := joined_some hr hq
  rw [hj, Option.some_inj] at hx
  subst hx
  obtain ⟨l', a', h', hiff⟩ := divide_meets hr.colsNodup l.labels a.attrs hn hd (locs := []) (attrs := []) (by simp)
  rw [h0] at h'
  cases h'
  unfold Node.chosen
  rw [hiff]
  constructor
  · rintro ⟨-, h⟩
    exact ⟨l, hl, e1, a, ha, e2, h⟩
  · rintro ⟨l2, hl2, e3, a2, ha2, e4, h⟩
    have : l2 = l := List.inj_on_of_nodup_map hr.inv.locIds hl2 hl (e3.trans e1.symm)
    subst this
    have : a2 = a := List.inj_on_of_nodup_map hr.inv.attrIds ha2 ha (e4.trans e2.symm)
    subst this
    exact ⟨rfl, h⟩

open Classical in
/-- **C125, partial.** Deleting removes exactly the quantities that meet all conditions, and then the locations that no quantity is
left for; nothing else is changed. At least one condition has to be given. The keys of the conditions have to stand for different
names, see `C125_violated_keys`. -/
theorem C125_delete_partial {n : Node} (hr : Reachable n) {cond : List (PyStr × PyStr)} (hk : KeysDiffer cond) (hne : cond ≠ []) :
    ∃ n', n.deleteRaw cond = .ok n' ∧ n'.quants = (n.quants.filter fun q => decide (¬ n.MeetsAll cond q)) ∧
      n'.locs = (n.locs.filter fun l => decide (∃ q ∈ n.quants, ¬ n.MeetsAll cond q ∧ q.loc = l.id)) ∧
      n' = { n with quants := n'.quants, locs := n'.locs } := by
  obtain ⟨d, hd, hch⟩ := divide_chosen hr hk
  have hq : (n.quants.filter fun q => match n.joined q with | some x => !n.chosen d.1 d.2 x | none => true) =
      n.quants.filter fun q => decide (¬ n.MeetsAll cond q) := by
    apply List.filter_congr
    intro q hq
    obtain ⟨l, a, hj, -⟩ := joined_some hr hq
    rw [hj]
    have := hch q hq (l, a) hj
    dsimp only
    by_cases hm : n.MeetsAll cond q
    · rw [this.2 hm]; simp [hm]
    · rw [Bool.eq_false_iff.2 fun e => hm (this.1 e)]; simp [hm]
  refine ⟨{ n with quants := n.quants.filter fun q => decide (¬ n.MeetsAll cond q), locs := n.locs.filter fun l => (n.quants.filter fun q => decide (¬ n.MeetsAll cond q)).any fun q => q.loc == l.id }, ?_, rfl, ?_, rfl⟩
  · unfold Node.deleteRaw
    rw [if_neg hne, hd]
    show Except.ok _ = Except.ok _
    rw [← hq]
    rfl
  · dsimp only
    apply List.filter_congr
    intro l _
    rw [Bool.eq_iff_iff, List.any_eq_true, decide_eq_true_iff]
    constructor
    · rintro ⟨q, hq, e⟩
      rw [List.mem_filter, decide_eq_true_iff] at hq
      exact ⟨q, hq.1, hq.2, by simpa using e⟩
    · rintro ⟨q, h1, h2, e⟩
      exact ⟨q, List.mem_filter.2 ⟨h1, decide_eq_true h2⟩, by simpa using e⟩

/-- **C125.** Without conditions nothing is deleted. -/
theorem C125_delete_none (n : Node) : ∃ tag, n.deleteRaw [] = .error (.typeError tag) := ⟨_, rfl⟩

theorem divide_refused {cols : List PyStr} {cond locs attrs : List (PyStr × PyStr)} (h : ∃ kv ∈ cond, '\x00' ∈ kv.1) :
    ∃ tag, divideWhere cols locs attrs cond = .error (.valueError tag) := by
  induction cond generalizing locs attrs with
  | nil => simp at h
  | cons kv rest ih =>
    obtain ⟨k, v⟩ := kv
    by_cases hk : '\x00' ∈ k
    · refine ⟨"NUL not allowed", ?_⟩
      rw [divideWhere]
      unfold normName
      rw [if_pos hk]
    · obtain ⟨kv, hkv, hnul⟩ := h
      have hrest : kv ∈ rest := by
        rcases List.mem_cons.1 hkv with e | e
        · rw [e] at hnul
          exact absurd hnul hk
        · exact e
      have hn : ∃ name, normName k = .ok name := by
        unfold normName
        rw [if_neg hk]
        split_ifs <;> exact ⟨_, rfl⟩
      obtain ⟨name, hn⟩ := hn
      rw [divideWhere, hn]
      dsimp only
      by_cases hin : name ∈ cols
      · rw [if_pos hin]
        exact ih ⟨kv, hrest, hnul⟩
      · rw [if_neg hin]
        exact ih ⟨kv, hrest, hnul⟩

/-- **C125.** A condition whose key has a NUL is refused: nothing is read and nothing is deleted. -/
theorem C125_refused (n : Node) {cond : List (PyStr × PyStr)} (h : ∃ kv ∈ cond, '\x00' ∈ kv.1) :
    ∃ tag, n.readRaw cond = .error (.valueError tag) ∧ n.deleteRaw cond = .error (.valueError tag) := by
  obtain ⟨tag, ht⟩ := divide_refused (cols := n.cols) (locs := []) (attrs := []) h
  refine ⟨tag, ?_, ?_⟩
  · unfold Node.readRaw
    rw [ht]
    rfl
  · unfold Node.deleteRaw
    rw [if_neg (by rintro rfl; simp at h), ht]
    rfl

/-- The hypothesis of `C125_refused` can be met, with a condition before it that is fine. -/
example : ∃ kv ∈ ([(['A'], ['x']), (['k', '\x00'], ['v'])] : List (PyStr × PyStr)), '\x00' ∈ kv.1 := by decide

theorem fold_lookup {β : Type} (f : PyStr → β) (kvs : List (PyStr × PyStr)) (d : List (PyStr × β)) (k : PyStr)
    (hn : (kvs.map (·.1)).Nodup) :
    (kvs.foldl (fun d kv => setItem kv.1 (f kv.2) d) d).lookup k = ((kvs.lookup k).map f).or (d.lookup k) := by
  induction kvs generalizing d with
  | nil => simp
  | cons x xs ih =>
    rw [List.map_cons, List.nodup_cons] at hn
    rw [List.foldl_cons, ih _ hn.2, setItem_lookup, lookup_cons_if]
    by_cases h : k = x.1
    · subst h
      have : xs.lookup x.1 = none := by
        rw [List.lookup_eq_none_iff]
        intro y hy
        rw [bne_iff_ne]
        rintro e
        exact hn.1 (List.mem_map.2 ⟨y, hy, e.symm⟩)
      simp [this]
    · rw [if_neg h, if_neg h]

open Classical in
/-- **C125, partial.** Reading gives one row for each quantity that meets all conditions; without conditions, for each quantity.
In the row, the key `value` has the quantity; an attribute is under its key, and the label of a column under the name of the
column, unless there is an attribute of this name. So the row is faithful if no attribute is called like a column and none of
them is called `value` (`C125_violated_value`). -/
theorem C125_read_partial {n : Node} (hr : Reachable n) {cond : List (PyStr × PyStr)} (hk : KeysDiffer cond)
    (hattrs : ∀ a ∈ n.attrs, (a.attrs.map (·.1)).Nodup) :
    ∃ rows, n.readRaw cond = .ok rows ∧
      List.Forall₂ (fun q row => ∃ l ∈ n.locs, l.id = q.loc ∧ ∃ a ∈ n.attrs, a.id = q.ag ∧
          row.lookup ['v', 'a', 'l', 'u', 'e'] = some (.amount q.value) ∧
          ∀ k, k ≠ ['v', 'a', 'l', 'u', 'e'] →
            row.lookup k = ((a.attrs.lookup k).or ((n.cols.zip l.labels).lookup k)).map RawVal.text)
        (n.quants.filter fun q => decide (n.MeetsAll cond q)) rows := by
  obtain ⟨d, hd, hch⟩ := divide_chosen hr hk
  refine ⟨_, by unfold Node.readRaw; rw [hd]; rfl, ?_⟩
  have hall : ∀ q ∈ n.quants, q ∈ n.quants := fun q h => h
  generalize hqs : n.quants = qs at hall
  have hsub : ∀ q ∈ qs, q ∈ n.quants := fun q h => hqs ▸ h
  clear hall hqs
  induction qs with
  | nil => exact List.Forall₂.nil
  | cons q qs ih =>
    have hq := hsub q List.mem_cons_self
    have ih := ih fun x hx => hsub x (List.mem_cons_of_mem _ hx)
    obtain ⟨l, a, hj, hl, e1, ha, e2⟩ := joined_some hr hq
    have hiff := hch q hq (l, a) hj
    by_cases hm : n.MeetsAll cond q
    · rw [List.filter_cons_of_pos (p := fun q => decide (n.MeetsAll cond q)) (decide_eq_true hm)]
      dsimp only
      rw [List.filterMap_cons_some (b := rawRow n.cols (l, a) q.value) (by rw [hj]; simp [hiff.2 hm])]
      refine List.Forall₂.cons ⟨l, hl, e1, a, ha, e2, ?_, ?_⟩ ih
      · unfold rawRow
        dsimp only
        rw [setItem_lookup, if_pos rfl]
      · intro k hk
        unfold rawRow
        dsimp only
        rw [setItem_lookup, if_neg hk, fold_lookup RawVal.text _ _ _ (hattrs a ha), fold_lookup RawVal.text]
        · cases List.lookup k a.attrs <;> simp
        · have : (n.cols.zip l.labels).map (·.1) = n.cols := List.map_fst_zip (hr.inv.locLen l hl).ge
          rw [this]
          exact hr.colsNodup
    · rw [List.filter_cons_of_neg (by simpa using hm)]
      dsimp only
      rw [List.filterMap_cons_none]
      · exact ih
      · rw [hj]
        simp [Bool.eq_false_iff.2 fun e => hm (hiff.1 e)]

theorem joined_used (n : Node) (qs : List Quant) {q : Quant} (hq : q ∈ qs) :
    Node.joined { n with quants := qs, locs := n.locs.filter fun l => qs.any fun q => q.loc == l.id } q = n.joined q := by
  have hfind : ((n.locs.filter fun l => qs.any fun q => q.loc == l.id).find? fun l => l.id == q.loc) =
      n.locs.find? fun l => l.id == q.loc := by
    rw [List.find?_filter]
    congr 1
    funext l
    rw [Bool.eq_iff_iff, decide_eq_true_iff, and_iff_right_iff_imp]
    intro h
    exact List.any_eq_true.2 ⟨q, hq, beq_iff_eq.2 (beq_iff_eq.1 h).symm⟩
  unfold Node.joined
  dsimp only
  rw [hfind]

/-- **C125.** What was deleted is not read again: after deleting, reading with the same conditions gives no row. -/
theorem C125_rest {n n' : Node} {cond : List (PyStr × PyStr)} (h : n.deleteRaw cond = .ok n') :
    n'.readRaw cond = .ok [] := by
  unfold Node.deleteRaw at h
  by_cases hne : cond = []
  · rw [if_pos hne] at h
    cases h
  rw [if_neg hne] at h
  cases hd : divideWhere n.cols [] [] cond with
  | error e =>
    rw [hd] at h
    cases h
  | ok d =>
    rw [hd] at h
    cases h
    unfold Node.readRaw
    dsimp only
    rw [hd]
    show Except.ok _ = Except.ok _
    congr 1
    rw [List.filterMap_eq_nil_iff]
    intro q hq
    rw [joined_used n _ hq]
    rw [List.mem_filter] at hq
    have hq2 := hq.2
    cases hj : n.joined q with
    | none => rfl
    | some x =>
      rw [hj] at hq2
      have : n.chosen d.1 d.2 x = false := by simpa using hq2
      exact if_neg (Bool.eq_false_iff.1 this)

/-- The conditions of a call: one on a column, one on an attribute. -/
theorem demo_keys (v : PyStr) : KeysDiffer [([' ', 'B'], v), (['k'], ['v'])] :=
  ⟨[['B'], ['k']], .cons (show normName [' ', 'B'] = .ok ['B'] by decide +kernel) (.cons (by decide +kernel) .nil), by decide⟩

/-- The hypotheses of `C125_delete_partial` and `C125_read_partial` can be met; the key ` B` stands for the column `B`: one of the
two quantities meets the conditions, its location is deleted too. -/
example : Reachable Demo.counted ∧ KeysDiffer [([' ', 'B'], ['1']), (['k'], ['v'])] ∧
    (∀ a ∈ Demo.counted.attrs, (a.attrs.map (·.1)).Nodup) ∧
    (Demo.counted.readRaw [([' ', 'B'], ['1']), (['k'], ['v'])]).toOption = some
      [[(['A'], .text ['x']), (['B'], .text ['1']), (['k'], .text ['v']), (['v', 'a', 'l', 'u', 'e'], .amount 10)]] ∧
    (Demo.counted.deleteRaw [([' ', 'B'], ['1']), (['k'], ['v'])]).toOption.map (fun n => (n.quants.map (·.value), n.locs.map (·.labels))) =
      some ([5], [[['x'], ['2']]]) :=
  ⟨⟨_, rfl⟩, demo_keys _, by decide +kernel, by decide +kernel, by decide +kernel⟩

/-- The hypothesis of `C125_rest` can be met. -/
example : ∃ n', Demo.counted.deleteRaw [([' ', 'B'], ['1']), (['k'], ['v'])] = .ok n' ∧ n'.quants ≠ [] := by
  have h : (Demo.counted.deleteRaw [([' ', 'B'], ['1']), (['k'], ['v'])]).toOption.map (fun n => n.quants.map (·.value)) = some [5] := by
    decide +kernel
  cases hx : Demo.counted.deleteRaw [([' ', 'B'], ['1']), (['k'], ['v'])] with
  | error e => rw [hx] at h; cases h
  | ok n' =>
    refine ⟨n', rfl, fun e => ?_⟩
    rw [hx] at h
    have h : some (n'.quants.map (·.value)) = some [5] := h
    rw [e] at h
    cases h

/-- **C125, violated.** Two keys that stand for the same column: the first condition is dropped. No quantity is in the county `y`
and also in the county `x`, but the quantities of the county `x` are all deleted. -/
theorem C125_violated_keys : Reachable Demo.counted ∧
    (∀ q, ¬ Demo.counted.MeetsAll [(['A'], ['y']), ([' ', 'A'], ['x'])] q) ∧ Demo.counted.quants.length = 2 ∧
    ∃ n', Demo.counted.deleteRaw [(['A'], ['y']), ([' ', 'A'], ['x'])] = .ok n' ∧ n'.quants = [] := by
  have hr : Reachable Demo.counted := ⟨_, rfl⟩
  refine ⟨hr, ?_, by decide +kernel, ?_⟩
  · rintro q ⟨l, hl, -, a, -, -, h⟩
    have hA : (['A'] : PyStr) ∈ Demo.counted.cols := by decide +kernel
    have h1 := (h (['A'], ['y']) List.mem_cons_self).1 ['A'] ⟨by decide +kernel, hA⟩
    have h2 := (h ([' ', 'A'], ['x']) (List.mem_cons_of_mem _ List.mem_cons_self)).1 ['A'] ⟨by decide +kernel, hA⟩
    rw [← lookup_zip_iff hr.colsNodup] at h1 h2
    rw [h1] at h2
    revert h2
    decide
  · have h : (Demo.counted.deleteRaw [(['A'], ['y']), ([' ', 'A'], ['x'])]).toOption.map (fun n => n.quants.map (·.value)) = some [] := by
      decide +kernel
    cases hx : Demo.counted.deleteRaw [(['A'], ['y']), ([' ', 'A'], ['x'])] with
    | error e => rw [hx] at h; cases h
    | ok n' =>
      refine ⟨n', rfl, ?_⟩
      rw [hx] at h
      have h : some (n'.quants.map (·.value)) = some [] := h
      exact List.map_eq_nil_iff.1 (Option.some_inj.1 h)

/-- A node with a quantity that has an attribute called `value`. -/
def Demo.valued : Node :=
  Node.new.run (Demo.places ++ [.addQuantities [⟨[(['A'], ['x']), (['B'], ['1'])], true, [(['v', 'a', 'l', 'u', 'e'], ['h', 'i'])], some 10⟩]])

/-- **C125, violated.** An attribute called `value` is a condition that can be given and is met, but the row that is read does not
have it: the quantity is in its place. -/
theorem C125_violated_value : Reachable Demo.valued ∧
    Demo.valued.attrs.map (·.attrs) = [[(['v', 'a', 'l', 'u', 'e'], ['h', 'i'])]] ∧
    (Demo.valued.readRaw [(['v', 'a', 'l', 'u', 'e'], ['h', 'i'])]).toOption = some
      [[(['A'], .text ['x']), (['B'], .text ['1']), (['v', 'a', 'l', 'u', 'e'], .amount 10)]] :=
  ⟨⟨_, rfl⟩, by decide +kernel, by decide +kernel⟩

end Toron.Legacy
