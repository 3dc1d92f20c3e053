/-
C115: reading a dataspace and translating what was read to other dataspaces, with floating-point numbers.
-/
import Verif.Lemmas.BinaryReader

namespace Toron.Space

open Toron.Selectors (PyStr Sel CaseMap getGreatestUniqueSpecificity asciiCase)
open Toron.Spec
open Toron.Binary (Near near_fl near_refl)

/-- C115: reading a dataspace and translating what was read to any number of dataspaces, one after the other, with
floating-point numbers gives the same rows, in the same order, as with exact numbers, but for the fraction
`(N + 2 + k * (n + 2)) / 2 ^ 52` of each value, or fails with the same error; for `N` records in the first dataspace, `k`
translations, and at most `n` mappings for a source record. -/
theorem C115_rows {s : Store} (hr : Reachable s) (cm : CaseMap) (sels : List Sel) (sumBy : List PyStr) {n : ℕ}
    (ts : List Store) (ht : ∀ t ∈ ts, Reachable t ∧ t.Refreshed ∧ ∀ l o, (t.findMaps l o).length ≤ n)
    (hN : s.index.length + 2 + ts.length * (n + 2) ≤ 2 ^ 52) :
    (∃ r f, (s.reader cm sels false sumBy >>= Reader.along cm false s ts) = .ok r ∧
      (s.readerF cm sels false sumBy >>= Reader.alongF cm false s (withProps ts)) = .ok f ∧
      r.CloseTo (((s.index.length : ℚ) + 2 + ts.length * (n + 2)) / 2 ^ 52) f) ∨
    ∃ e, (s.reader cm sels false sumBy >>= Reader.along cm false s ts) = .error e ∧
      (s.readerF cm sels false sumBy >>= Reader.alongF cm false s (withProps ts)) = .error e := by
  have := readAlong_near hr cm sels sumBy (n := n + 1) (withProps ts) (by
    intro t h
    obtain ⟨t, htm, rfl⟩ := List.mem_map.1 h
    obtain ⟨a, b, c⟩ := ht t htm
    exact computedProp_near a b c)
  have e1 : (withProps ts).map (·.1) = ts := by
    unfold withProps
    rw [List.map_map]
    exact List.map_id ts
  have e2 : (withProps ts).length = ts.length := List.length_map _
  rw [e1, e2] at this
  rcases this with ⟨r, f, h1, h2, h3⟩ | h
  · refine .inl ⟨r, f, h1, h2, ?_⟩
    have := h3.close hN
    push_cast at this
    rwa [show (ts.length : ℚ) * (n + 1 + 1) = ts.length * (n + 2) by ring] at this
  · exact .inr h

open Classical in
/-- C115, totals: for any condition on the attributes, what arrives in the last dataspace adds up to the stored quantities that
are in a valid combination, are selected and whose attributes satisfy the condition, but for the fraction
`(N + 2 + k * (n + 2)) / 2 ^ 52` of the sum of their absolute values. -/
theorem C115_totals {s : Store} (hr : Reachable s) {cm : CaseMap} {sels : List Sel} {sumBy : List PyStr} {n : ℕ}
    {ts : List Store} (ht : ∀ t ∈ ts, t.GoodTarget n) (hN : s.index.length + 2 + ts.length * (n + 2) ≤ 2 ^ 52)
    {f : Reader} (h : (s.readerF cm sels false sumBy >>= Reader.alongF cm false s (withProps ts)) = .ok f)
    (P : Attrs → Prop) (hP : ∀ a b : Attrs, (∀ kv, kv ∈ a ↔ kv ∈ b) → (P a ↔ P b)) {stored : List Quant}
    (hst : stored = s.quants.filter fun q => s.Counted q ∧ s.Selected cm sels q ∧
        ∃ g ∈ s.agroups, g.id = q.ag ∧ P (s.keepAttrs sumBy (s.withDomain g.attrs))) :
    |amount (f.rows.filter fun x => P x.attrs) - (stored.map (·.value)).sum| ≤
      ((s.index.length : ℚ) + 2 + ts.length * (n + 2)) / 2 ^ 52 * (stored.map fun q => |q.value|).sum := by
  rcases C115_rows hr cm sels sumBy ts (fun t h => ⟨(ht t h).tidy.reachable, (ht t h).refreshed, (ht t h).few⟩) hN with
    ⟨r, f', h1, h2, h3⟩ | ⟨e, _, h2⟩
  swap
  · rw [h] at h2; cases h2
  rw [h] at h2
  cases h2
  simp only [bind, Except.bind] at h1
  rcases hread : s.reader cm sels false sumBy with e | r0
  · rw [hread] at h1; cases h1
  rw [hread] at h1
  obtain ⟨hok, hrows⟩ := reader_ok hr hread
  obtain ⟨k1, k2⟩ := along_keeps ts ht s r0 r hr hok (fun x hx => (hrows x hx).1) h1 fun a => decide (P a)
  have hsum := close_amount h3 fun a => decide (P a)
  rw [k1, k2] at hsum
  obtain ⟨rows, hcall, rfl⟩ := reader_rows hread
  have hkeep : ∀ a b : Attrs, (∀ kv, kv ∈ a ↔ kv ∈ b) → (P (s.keepAttrs sumBy a) ↔ P (s.keepAttrs sumBy b)) := by
    intro a b hab
    refine hP _ _ fun kv => ?_
    rw [mem_keepAttrs, mem_keepAttrs, hab]
  have hfil : ∀ d : Nat × Attrs × ℚ, decide (P (canonAttrs (s.keepAttrs sumBy d.2.1))) =
      decide (P (s.keepAttrs sumBy d.2.1)) := by
    intro d
    rw [Bool.eq_iff_iff]
    simp only [decide_eq_true_eq]
    exact hP _ _ fun kv => (sortedBy_perm _ _).mem_iff
  have e1 : amount ((Reader.new (rows.map fun d => (d.1, s.keepAttrs sumBy d.2.1, some d.2.2))).rows.filter
      fun x => decide (P x.attrs)) = (stored.map (·.value)).sum := by
    rw [hst, ← C14_totals hr hcall (fun a => P (s.keepAttrs sumBy a)) hkeep]
    unfold Reader.new amount
    simp only [List.map_map, List.filter_map]
    congr 2
    exact List.filter_congr fun d _ => hfil d
  have e2 : absAmount ((Reader.new (rows.map fun d => (d.1, s.keepAttrs sumBy d.2.1, some d.2.2))).rows.filter
      fun x => decide (P x.attrs)) = (stored.map fun q => |q.value|).sum := by
    have : absAmount ((Reader.new (rows.map fun d => (d.1, s.keepAttrs sumBy d.2.1, some d.2.2))).rows.filter
        fun x => decide (P x.attrs)) = ((rows.filter fun d => P (s.keepAttrs sumBy d.2.1)).map fun d => |d.2.2|).sum := by
      unfold Reader.new absAmount
      simp only [List.map_map, List.filter_map]
      congr 2
      exact List.filter_congr fun d _ => hfil d
    rw [this]
    obtain ⟨shares, rfl, hacc, hnd, hmem⟩ := C14_read hr hcall
    rw [flatMap_share_abs shares (fun a => P (s.keepAttrs sumBy a)) fun b hb =>
      abs_parts (hacc b hb).within (hacc b hb).sum]
    have hp := (shares_perm hr hacc hnd hmem (fun a => P (s.keepAttrs sumBy a)) hkeep).map fun q : Quant => |q.value|
    rw [← hst, List.map_map] at hp
    exact hp.sum_eq
  rw [e1, e2] at hsum
  exact hsum

open Classical in
/-- C115, whole numbers: if all stored quantities are whole numbers, `b` bounds their absolute values, and `(N + 2) * b` and
`(n + 2) * b` are less than `2 ^ 52`, then reading and translating with `quantize=True` and floating-point numbers fails only
where it fails with exact numbers, and otherwise gives whole numbers for records of the last dataspace that add up to the
stored quantities, exactly, for any condition on the attributes, after any number of translations. -/
theorem C115_whole {s : Store} (hr : Reachable s) {n : ℕ} {b : ℤ} (hN : s.index.length + 2 ≤ 2 ^ 52) (hn : n + 2 ≤ 2 ^ 52)
    (hbN : ((s.index.length : ℤ) + 2) * b < 2 ^ 52) (hbn : ((n : ℤ) + 2) * b < 2 ^ 52)
    (hq : ∀ q ∈ s.quants, ∃ z : ℤ, q.value = z ∧ |z| ≤ b) {ts : List Store} (ht : ∀ t ∈ ts, t.GoodTarget n)
    (cm : CaseMap) (sels : List Sel) (sumBy : List PyStr) :
    (∃ r f, (s.reader cm sels true sumBy >>= Reader.along cm true s ts) = .ok r ∧
      (s.readerF cm sels true sumBy >>= Reader.alongF cm true s (withProps ts)) = .ok f ∧
      (∀ x ∈ f.rows, x.index ∈ (ts.getLastD s).ids ∧ ∃ y : ℤ, x.value = some (y : ℚ)) ∧
      ∀ P : Attrs → Prop, (∀ a b : Attrs, (∀ kv, kv ∈ a ↔ kv ∈ b) → (P a ↔ P b)) →
        amount (f.rows.filter fun x => P x.attrs) =
          ((s.quants.filter fun q => s.Counted q ∧ s.Selected cm sels q ∧
            ∃ g ∈ s.agroups, g.id = q.ag ∧ P (s.keepAttrs sumBy (s.withDomain g.attrs))).map (·.value)).sum) ∨
    ∃ e, (s.reader cm sels true sumBy >>= Reader.along cm true s ts) = .error e ∧
      (s.readerF cm sels true sumBy >>= Reader.alongF cm true s (withProps ts)) = .error e := by
  simp only [bind, Except.bind]
  rcases reader_small hr hN cm sels sumBy hbN hq with ⟨r0, f0, h1, h2, h3⟩ | ⟨e, h1, h2⟩
  swap
  · rw [h1, h2]
    exact .inr ⟨e, rfl, rfl⟩
  rw [h1, h2]
  rcases along_whole hn hbn cm ts ht s r0 f0 hr h3 with ⟨r, f, k1, k2, k3, k4⟩ | ⟨e, k1, k2⟩
  swap
  · exact .inr ⟨e, k1, k2⟩
  refine .inl ⟨r, f, k1, k2, fun x hx => ?_, fun P hP => ?_⟩
  · obtain ⟨a, y, hy, -⟩ := k3.rowsF x hx
    exact ⟨a, y, hy⟩
  · obtain ⟨rows, hcall, rfl⟩ := reader_rows h1
    rw [k4 fun a => decide (P a), h3.totals fun a => decide (P a)]
    rw [← C14_totals hr hcall (fun a => P (s.keepAttrs sumBy a)) (by
      intro a b hab
      refine hP _ _ fun kv => ?_
      rw [mem_keepAttrs, mem_keepAttrs, hab])]
    unfold Reader.new amount
    simp only [List.map_map, List.filter_map]
    congr 2
    apply List.filter_congr
    intro d _
    rw [Bool.eq_iff_iff]
    simp only [Function.comp, decide_eq_true_eq]
    exact hP _ _ fun kv => (sortedBy_perm _ _).mem_iff

/-- The dataspace of the examples can be translated to. -/
theorem Demo.goodTarget : Demo.store.GoodTarget 3 where
  tidy := Demo.reachableFk.tidy
  hashed := Demo.reachableHashed
  refreshed := by
    have h : (Demo.store.maps.all fun m => match m.prop with
        | none => true
        | some p => decide (p = if ((Demo.store.findMaps m.link m.other).map (·.value)).sum = 0
            then 1 / ((Demo.store.findMaps m.link m.other).length : ℚ)
            else m.value / ((Demo.store.findMaps m.link m.other).map (·.value)).sum)) = true := by decide +kernel
    intro m hm _ p hp
    have := List.all_eq_true.1 h m hm
    rw [hp] at this
    exact of_decide_eq_true this
  few := by
    intro l o
    have : Demo.store.maps.length = 3 := by rw [Demo.maps_eq]; rfl
    rw [← this]
    exact List.length_filter_le _ _
  refs := Demo.reachableFk.indexRefs.2

-- the hypotheses of C115_rows and C115_totals; the quotients 10 / 40 and 30 / 40 are exact here
example : Reachable Demo.src ∧ (∀ t ∈ [Demo.store], t.GoodTarget 3) ∧ Demo.src.index.length = 3 ∧
    (Demo.src.readerF asciiCase [] false [] >>= Reader.alongF asciiCase false Demo.src (withProps [Demo.store])) =
      .ok Demo.translated :=
  ⟨Demo.src_reachable, fun t h => List.mem_singleton.1 h ▸ Demo.goodTarget, by decide +kernel,
    ok_of_toOption (by decide +kernel)⟩

-- the hypotheses of C115_whole
example : (∀ q ∈ Demo.src.quants, ∃ z : ℤ, q.value = z ∧ |z| ≤ 100) ∧ ((Demo.src.index.length : ℤ) + 2) * 100 < 2 ^ 52 ∧
    ((3 : ℕ) + 2 : ℤ) * 100 < 2 ^ 52 ∧
    (Demo.src.readerF asciiCase [] true [] >>= Reader.alongF asciiCase true Demo.src (withProps [Demo.store])).toOption =
      some Demo.translated := by
  refine ⟨?_, by decide +kernel, by norm_num, by decide +kernel⟩
  have h : Demo.src.quants.map (·.value) = [100, 7, 2] := by decide +kernel
  intro q hq
  have hm : q.value ∈ Demo.src.quants.map (·.value) := List.mem_map_of_mem hq
  rw [h] at hm
  simp only [List.mem_cons, List.not_mem_nil, or_false] at hm
  rcases hm with h | h | h
  · exact ⟨100, by rw [h]; norm_num, by decide⟩
  · exact ⟨7, by rw [h]; norm_num, by decide⟩
  · exact ⟨2, by rw [h]; norm_num, by decide⟩

end Toron.Space
