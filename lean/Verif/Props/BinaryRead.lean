/-
C110: reading a dataspace with floating-point numbers.
-/
import Verif.Model.BinaryRead
import Verif.Props.BinaryOrder
import Verif.Props.StoreRead

namespace Toron.Space

open Toron.Selectors (PyStr Sel CaseMap getGreatestUniqueSpecificity asciiCase)
open Toron.Spec
open Toron.Binary (Near)

/-- Two computations end alike: with related results or with the same error. -/
def Alike {α : Type} (S : List α → List α → Prop) (a b : Except Err (List α)) : Prop :=
  (∃ x y, a = .ok x ∧ b = .ok y ∧ S x y) ∨ ∃ e, a = .error e ∧ b = .error e

theorem flatMapE_alike {α β : Type} {S : List β → List β → Prop} (hnil : S [] [])
    (happ : ∀ a b a' b', S a b → S a' b' → S (a ++ a') (b ++ b')) {f g : α → Except Err (List β)} (l : List α)
    (h : ∀ x ∈ l, Alike S (f x) (g x)) : Alike S (flatMapE f l) (flatMapE g l) := by
  induction l with
  | nil => exact .inl ⟨[], [], rfl, rfl, hnil⟩
  | cons x xs ih =>
    unfold flatMapE
    rcases h x (by simp) with ⟨a, b, h1, h2, h3⟩ | ⟨e, h1, h2⟩
    · rw [h1, h2]
      rcases ih fun y hy => h y (by simp [hy]) with ⟨a', b', g1, g2, g3⟩ | ⟨e, g1, g2⟩
      · rw [g1, g2]
        exact .inl ⟨a ++ a', b ++ b', rfl, rfl, happ _ _ _ _ h3 g3⟩
      · rw [g1, g2]
        exact .inr ⟨e, rfl, rfl⟩
    · rw [h1, h2]
      exact .inr ⟨e, rfl, rfl⟩

theorem call_alike {s : Store} {cm : CaseMap} {sels : List Sel} {quantize : Bool}
    {S : List (Nat × Attrs × ℚ) → List (Nat × Attrs × ℚ) → Prop} (hnil : S [] [])
    (happ : ∀ a b a' b', S a b → S a' b' → S (a ++ a') (b ++ b'))
    (h : ∀ dflt finest, ∀ l ∈ s.locs, ∀ q ∈ s.quants, q.loc = l.id →
      Alike S (s.disaggOne cm dflt finest quantize l q) (s.disaggOneF cm dflt finest quantize l q)) :
    Alike S (s.call cm sels quantize) (s.callF cm sels quantize) := by
  unfold Store.call Store.callF
  simp only [bind, Except.bind]
  rcases hf : s.attributeFilter cm sels with e | f
  · exact .inr ⟨e, rfl, rfl⟩
  simp only
  rcases hd : s.getDefaultWG with e | dflt
  · exact .inr ⟨e, rfl, rfl⟩
  simp only
  unfold Store.disaggregate Store.disaggregateF
  simp only [bind, Except.bind, hd]
  by_cases hc : (!dflt.complete) = true
  · rw [if_pos hc, if_pos hc]
    exact .inr ⟨_, rfl, rfl⟩
  rw [if_neg hc, if_neg hc]
  rcases hst : s.structsSorted with _ | ⟨first, rest⟩
  · exact .inr ⟨_, rfl, rfl⟩
  simp only
  refine flatMapE_alike hnil happ _ fun st _ => flatMapE_alike hnil happ _ fun lq hlq => ?_
  obtain ⟨hl, -, hqm, hql⟩ := mem_quantsByBits.1 (List.mem_of_mem_filter hlq)
  exact h _ _ _ hl _ hqm hql

theorem matchingIds_length (s : Store) (labels : List PyStr) : (s.matchingIds labels).length ≤ s.index.length := by
  unfold Store.matchingIds Store.filterByLabel
  rw [List.length_map]
  exact List.length_filter_le _ _

/-- The same records and attributes, and values that differ by a small fraction. -/
def Close (ε : ℚ) (rows rowsF : List (Nat × Attrs × ℚ)) : Prop :=
  List.Forall₂ (fun r f => r.1 = f.1 ∧ r.2.1 = f.2.1 ∧ |f.2.2 - r.2.2| ≤ ε * |r.2.2|) rows rowsF

theorem disaggOne_close {s : Store} (hi : IndexInv s) (hw : WeightInv s) (hN : s.index.length + 2 ≤ 2 ^ 52) (cm : CaseMap)
    (dflt : Nat) (finest : Bool) (l : LocRec) (q : Quant) :
    Alike (Close (((s.index.length : ℚ) + 2) / 2 ^ 52)) (s.disaggOne cm dflt finest false l q)
      (s.disaggOneF cm dflt finest false l q) := by
  unfold Store.disaggOne Store.disaggOneF
  have hlen := matchingIds_length s l.labels
  rcases hids : s.matchingIds l.labels with _ | ⟨i, is⟩
  · exact .inr ⟨_, rfl, rfl⟩
  rw [hids] at hlen
  simp only [bind, Except.bind]
  rcases ha : s.getAttrs q.ag with e | attrs
  · exact .inr ⟨_, rfl, rfl⟩
  simp only
  by_cases hfin : finest = true
  · rw [if_pos hfin, if_pos hfin]
    refine .inl ⟨_, _, rfl, rfl, .cons ⟨rfl, rfl, ?_⟩ .nil⟩
    rw [sub_self, abs_zero]
    positivity
  rw [if_neg hfin, if_neg hfin]
  rcases hg : getGreatestUniqueSpecificity cm (s.withDomain attrs) s.selectorDict dflt with e | group
  · exact .inr ⟨_, rfl, rfl⟩
  simp only
  rcases Binary.disagg_near q.value (i :: is) (s.weightOf group) fun i w h => weightOf_nonneg hw h with
    ⟨out, parts, h1, h2, h3, -⟩ | ⟨e, h1, h2⟩
  · rw [h1, h2]
    refine .inl ⟨_, _, rfl, rfl, ?_⟩
    unfold Close
    rw [List.forall₂_map_left_iff, List.forall₂_map_right_iff]
    refine h3.flip.imp fun p o h => ⟨h.1.symm, rfl, ?_⟩
    have h5 := (h.2.mono (l := s.index.length + 2) (by omega)).abs_sub hN
    push_cast at h5
    exact h5
  · rw [h1, h2]
    exact .inr ⟨e, rfl, rfl⟩

/-- C110: reading a dataspace of at most `2 ^ 52 - 2` records with floating-point numbers gives the same rows as with exact
numbers, each with a value that differs by no more than the fraction `(N + 2) / 2 ^ 52` of it, for `N` records, or it
fails with the same error. -/
theorem C110_rows {s : Store} (hr : Reachable s) (hN : s.index.length + 2 ≤ 2 ^ 52) (cm : CaseMap) (sels : List Sel) :
    (∃ rows rowsF, s.call cm sels false = .ok rows ∧ s.callF cm sels false = .ok rowsF ∧
      List.Forall₂ (fun r f => r.1 = f.1 ∧ r.2.1 = f.2.1 ∧
        |f.2.2 - r.2.2| ≤ ((s.index.length : ℚ) + 2) / 2 ^ 52 * |r.2.2|) rows rowsF) ∨
    ∃ e, s.call cm sels false = .error e ∧ s.callF cm sels false = .error e := by
  refine call_alike (S := Close (((s.index.length : ℚ) + 2) / 2 ^ 52)) .nil ?_ ?_
  · intro a b a' b' h h'
    exact forall₂_append _ _ _ _ _ h h'
  · intro dflt finest l _ q _ _
    exact disaggOne_close hr.indexInv hr.weightInv hN cm dflt finest l q

/-! ### Totals -/

open Classical in
/-- The shares whose attributes satisfy a condition are those of the stored quantities that do. -/
theorem shares_perm {s : Store} (hr : Reachable s) {cm : CaseMap} {sels : List Sel} {shares : List Share}
    (hacc : ∀ b ∈ shares, s.Accounts b) (hnd : (shares.map (·.quant)).Nodup)
    (hmem : ∀ q, q ∈ shares.map (·.quant) ↔ q ∈ s.quants ∧ s.Counted q ∧ s.Selected cm sels q) (P : Attrs → Prop)
    (hP : ∀ a b : Attrs, (∀ kv, kv ∈ a ↔ kv ∈ b) → (P a ↔ P b)) :
    ((shares.filter fun b => P b.attrs).map (·.quant)).Perm
      (s.quants.filter fun q => s.Counted q ∧ s.Selected cm sels q ∧
        ∃ g ∈ s.agroups, g.id = q.ag ∧ P (s.withDomain g.attrs)) := by
  have hag := hr.quantInv.agIds
  rw [List.perm_ext_iff_of_nodup (nodup_filter_map _ hnd) (hr.quantInv.ids.of_map.filter _)]
  intro q
  simp only [List.mem_map, List.mem_filter, decide_eq_true_eq]
  have hattrs : ∀ b ∈ shares, ∀ g ∈ s.agroups, g.id = b.quant.ag → (P b.attrs ↔ P (s.withDomain g.attrs)) := by
    intro b hb g hg hgi
    obtain ⟨g', hg', hgi', ha⟩ := (hacc b hb).attrs
    have : g = g' := List.inj_on_of_nodup_map hag hg hg' (hgi.trans hgi'.symm)
    subst this
    refine hP _ _ fun kv => ?_
    rw [ha kv.1 kv.2]
    exact (mem_withDomain s g.attrs kv.1 kv.2).symm
  constructor
  · rintro ⟨b, ⟨hb, hPb⟩, rfl⟩
    obtain ⟨h1, h2, h3⟩ := (hmem b.quant).1 (List.mem_map_of_mem hb)
    obtain ⟨g, hg, hgi, _⟩ := (hacc b hb).attrs
    exact ⟨h1, h2, h3, g, hg, hgi, (hattrs b hb g hg hgi).1 hPb⟩
  · rintro ⟨h1, h2, h3, g, hg, hgi, hPg⟩
    obtain ⟨b, hb, rfl⟩ := List.mem_map.1 ((hmem q).2 ⟨h1, h2, h3⟩)
    exact ⟨b, ⟨hb, (hattrs b hb g hg hgi).2 hPg⟩, rfl⟩

theorem abs_parts {parts : List (Nat × ℚ)} {v : ℚ} (h : ∀ p ∈ parts, PartOf p.2 v) (hs : (parts.map (·.2)).sum = v) :
    (parts.map fun p => |p.2|).sum = |v| := by
  rcases le_total 0 v with hv | hv
  · have : (parts.map fun p => |p.2|) = parts.map (·.2) :=
      List.map_congr_left fun p hp => abs_of_nonneg ((h p hp).1 hv).1
    rw [this, hs, abs_of_nonneg hv]
  · have : (parts.map fun p => |p.2|) = parts.map fun p => -1 * p.2 :=
      List.map_congr_left fun p hp => by rw [abs_of_nonpos ((h p hp).2 hv).2]; ring
    rw [this, List.sum_map_mul_left (f := fun p : Nat × ℚ => p.2), abs_of_nonpos hv, hs]
    ring

theorem flatMap_share_abs (shares : List Share) (P : Attrs → Prop) [DecidablePred P]
    (hsum : ∀ b ∈ shares, (b.parts.map fun p => |p.2|).sum = |b.quant.value|) :
    (((shares.flatMap Share.rows).filter fun r => P r.2.1).map fun r => |r.2.2|).sum =
      ((shares.filter fun b => P b.attrs).map fun b => |b.quant.value|).sum := by
  induction shares with
  | nil => rfl
  | cons b bs ih =>
    rw [List.flatMap_cons, List.filter_append, List.map_append, List.sum_append,
      ih fun c hc => hsum c (by simp [hc])]
    by_cases hP : P b.attrs
    · have : (b.rows.filter fun r => P r.2.1) = b.rows := by
        rw [List.filter_eq_self]
        intro r hr
        obtain ⟨p, _, rfl⟩ := List.mem_map.1 hr
        simpa using hP
      rw [this, List.filter_cons_of_pos (by simpa using hP), List.map_cons, List.sum_cons, ← hsum b (by simp)]
      unfold Share.rows
      rw [List.map_map]
      rfl
    · have : (b.rows.filter fun r => P r.2.1) = [] := by
        rw [List.filter_eq_nil_iff]
        intro r hr
        obtain ⟨p, _, rfl⟩ := List.mem_map.1 hr
        simpa using hP
      rw [this, List.filter_cons_of_neg (by simpa using hP)]
      simp

theorem close_sum {ε : ℚ} {rows rowsF : List (Nat × Attrs × ℚ)} (h : Close ε rows rowsF) (P : Attrs → Prop)
    [DecidablePred P] :
    |((rowsF.filter fun r => P r.2.1).map (·.2.2)).sum - ((rows.filter fun r => P r.2.1).map (·.2.2)).sum| ≤
      ε * ((rows.filter fun r => P r.2.1).map fun r => |r.2.2|).sum := by
  induction h with
  | nil => simp
  | @cons r f rs fs h _ ih =>
    obtain ⟨_, h2, h3⟩ := h
    by_cases hP : P r.2.1
    · have hPf : P f.2.1 := h2 ▸ hP
      rw [List.filter_cons_of_pos (by simpa using hPf), List.filter_cons_of_pos (by simpa using hP),
        List.map_cons, List.map_cons, List.map_cons, List.sum_cons, List.sum_cons, List.sum_cons, mul_add]
      rw [add_sub_add_comm]
      exact (abs_add_le _ _).trans (add_le_add h3 ih)
    · have hPf : ¬ P f.2.1 := h2 ▸ hP
      rw [List.filter_cons_of_neg (by simpa using hPf), List.filter_cons_of_neg (by simpa using hP)]
      exact ih

open Classical in
/-- C110, totals: what is read with floating-point numbers adds up to the stored quantities, for any condition on the
attributes, but for the fraction `(N + 2) / 2 ^ 52` of the sum of their absolute values. -/
theorem C110_totals {s : Store} (hr : Reachable s) (hN : s.index.length + 2 ≤ 2 ^ 52) {cm : CaseMap} {sels : List Sel}
    {rowsF : List (Nat × Attrs × ℚ)} (h : s.callF cm sels false = .ok rowsF) (P : Attrs → Prop)
    (hP : ∀ a b : Attrs, (∀ kv, kv ∈ a ↔ kv ∈ b) → (P a ↔ P b)) {stored : List Quant}
    (hst : stored = s.quants.filter fun q => s.Counted q ∧ s.Selected cm sels q ∧
        ∃ g ∈ s.agroups, g.id = q.ag ∧ P (s.withDomain g.attrs)) :
    |((rowsF.filter fun r => P r.2.1).map (·.2.2)).sum - (stored.map (·.value)).sum| ≤
      ((s.index.length : ℚ) + 2) / 2 ^ 52 * (stored.map fun q => |q.value|).sum := by
  rcases C110_rows hr hN cm sels with ⟨rows, rowsF', h1, h2, h3⟩ | ⟨e, _, h2⟩
  swap
  · rw [h] at h2; cases h2
  rw [h] at h2
  cases h2
  have hsum := close_sum h3 P
  rw [C14_totals hr h1 P hP, ← hst] at hsum
  refine hsum.trans (le_of_eq ?_)
  congr 1
  obtain ⟨shares, rfl, hacc, hnd, hmem⟩ := C14_read hr h1
  rw [flatMap_share_abs shares P fun b hb => abs_parts (hacc b hb).within (hacc b hb).sum]
  have hp := (shares_perm hr hacc hnd hmem P hP).map fun q : Quant => |q.value|
  rw [← hst, List.map_map] at hp
  exact hp.sum_eq

/-! ### Whole numbers -/

/-- The same records with the same attributes, whole numbers, and the same sum for every set of attributes. -/
def SameWhole (rows rowsF : List (Nat × Attrs × ℚ)) : Prop :=
  (rowsF.map fun r => (r.1, r.2.1)).Perm (rows.map fun r => (r.1, r.2.1)) ∧
  (∀ r ∈ rowsF, fracPart r.2.2 = 0) ∧
  ∀ (P : Attrs → Prop) [DecidablePred P], ((rowsF.filter fun r => P r.2.1).map (·.2.2)).sum =
    ((rows.filter fun r => P r.2.1).map (·.2.2)).sum

theorem SameWhole.append {a b a' b' : List (Nat × Attrs × ℚ)} (h : SameWhole a b) (h' : SameWhole a' b') :
    SameWhole (a ++ a') (b ++ b') := by
  refine ⟨?_, ?_, ?_⟩
  · rw [List.map_append, List.map_append]
    exact h.1.append h'.1
  · intro r hr
    rcases List.mem_append.1 hr with hr | hr
    · exact h.2.1 r hr
    · exact h'.2.1 r hr
  · intro P _
    rw [List.filter_append, List.filter_append, List.map_append, List.map_append, List.sum_append, List.sum_append,
      h.2.2 P, h'.2.2 P]

theorem sameWhole_parts {attrs : Attrs} {parts partsF : List (Nat × ℚ)}
    (hp : (partsF.map (·.1)).Perm (parts.map (·.1))) (hw : ∀ p ∈ partsF, fracPart p.2 = 0)
    (hs : (partsF.map (·.2)).sum = (parts.map (·.2)).sum) :
    SameWhole (parts.map fun p => (p.1, attrs, p.2)) (partsF.map fun p => (p.1, attrs, p.2)) := by
  refine ⟨?_, ?_, ?_⟩
  · have := hp.map fun i => (i, attrs)
    rw [List.map_map, List.map_map] at this
    rw [List.map_map, List.map_map]
    exact this
  · intro r hr
    obtain ⟨p, hpm, rfl⟩ := List.mem_map.1 hr
    exact hw p hpm
  · intro P _
    have key : ∀ l : List (Nat × ℚ), (((l.map fun p => (p.1, attrs, p.2)).filter fun r => P r.2.1).map (·.2.2)).sum =
        if P attrs then (l.map (·.2)).sum else 0 := by
      intro l
      by_cases hPa : P attrs
      · rw [if_pos hPa, List.filter_eq_self.2, List.map_map]
        · rfl
        · intro r hr
          obtain ⟨p, _, rfl⟩ := List.mem_map.1 hr
          simpa using hPa
      · rw [if_neg hPa, List.filter_eq_nil_iff.2]
        · rfl
        · intro r hr
          obtain ⟨p, _, rfl⟩ := List.mem_map.1 hr
          simpa using hPa
    rw [key, key, hs]

theorem disaggOne_whole {s : Store} (hi : IndexInv s) (hw : WeightInv s) (hN : s.index.length + 2 ≤ 2 ^ 52) (cm : CaseMap)
    (dflt : Nat) (finest : Bool) (l : LocRec) (q : Quant) {z : ℤ} (hq : q.value = z)
    (hz : ((s.index.length : ℤ) + 2) * |z| < 2 ^ 52) :
    Alike SameWhole (s.disaggOne cm dflt finest true l q) (s.disaggOneF cm dflt finest true l q) := by
  unfold Store.disaggOne Store.disaggOneF
  have hlen := matchingIds_length s l.labels
  have hnd := matchingIds_nodup hi l.labels
  rcases hids : s.matchingIds l.labels with _ | ⟨i, is⟩
  · exact .inr ⟨_, rfl, rfl⟩
  rw [hids] at hlen hnd
  simp only [bind, Except.bind]
  rcases ha : s.getAttrs q.ag with e | attrs
  · exact .inr ⟨_, rfl, rfl⟩
  simp only
  by_cases hfin : finest = true
  · rw [if_pos hfin, if_pos hfin]
    refine .inl ⟨_, _, rfl, rfl, .refl _, ?_, fun _ _ => rfl⟩
    intro r hr
    rw [List.mem_singleton.1 hr, hq]
    exact Binary.fracPart_int z
  rw [if_neg hfin, if_neg hfin]
  rcases hg : getGreatestUniqueSpecificity cm (s.withDomain attrs) s.selectorDict dflt with e | group
  · exact .inr ⟨_, rfl, rfl⟩
  simp only
  have hwn : ∀ i w, s.weightOf group i = some w → 0 ≤ w := fun i w h => weightOf_nonneg hw h
  rcases Binary.disagg_near q.value (i :: is) (s.weightOf group) hwn with ⟨fs, parts, h1, h2, -, -⟩ | ⟨e, h1, h2⟩
  swap
  · rw [h1, h2]
    exact .inr ⟨e, rfl, rfl⟩
  rw [h1, h2]
  have hfair := disagg_fair (List.cons_ne_nil _ _) hnd h2
  have hsome : ∀ k ∈ i :: is, k ≠ 0 → (s.weightOf group k).isSome := by
    intro k hk h0
    by_contra hn
    obtain ⟨t, ht⟩ := C13_missing_weight_is_error q.value (i :: is) (s.weightOf group) k hk h0 (by simpa using hn)
    rw [ht] at h2
    cases h2
  have hz' : (((i :: is).length : ℤ) + 2) * |z| < 2 ^ 52 := by
    refine lt_of_le_of_lt (mul_le_mul_of_nonneg_right ?_ (abs_nonneg z)) hz
    have : ((i :: is).length : ℤ) ≤ s.index.length := by exact_mod_cast hlen
    omega
  obtain ⟨outF, parts', parts'', w1, w2, w3, w4, w5, w6⟩ := Binary.C106_whole z (i :: is) (s.weightOf group)
    (List.cons_ne_nil _ _) hnd hsome hwn (by omega) hz'
  unfold Binary.splitWhole at w1
  rw [← hq, h1] at w1
  change Binary.quantizeValues fs q.value = _ at w1
  rw [← hq, h2] at w4
  cases w4
  obtain ⟨sg, hsg, hsign⟩ := disagg_sign h2 hwn
  obtain ⟨out, hout, htot, -⟩ := quantize_same_sign parts sg hsg hsign
  have htp : total parts = q.value := hfair.1.sum
  rw [htp] at hout htot
  simp only [if_pos, w1, hout]
  refine .inl ⟨_, _, rfl, rfl, sameWhole_parts ?_ w3 ?_⟩
  · have e1 : parts''.map (·.1) = outF.map (·.1) := forall2_fst (w6.imp fun _ _ h => h.1)
    have hf' := quantize_fair hsg hsign hfair.1 hout
    obtain ⟨out', h1', -, ⟨items', hperm, hrel⟩, -⟩ := quantize_same_sign parts sg hsg hsign
    rw [htp, hout] at h1'
    cases h1'
    have e2 : items'.map (·.1) = out.map (·.1) := forall2_fst (hrel.imp fun _ _ h => h.1)
    rw [← e1, ← e2]
    exact (w5.map _).trans (hperm.map _).symm
  · have a1 : (outF.map (·.2)).sum = z := w2
    have a2 : (out.map (·.2)).sum = q.value := htot
    rw [a1, a2, hq]

open Classical in
/-- C110, whole numbers: if all stored quantities are whole numbers `z` with `(N + 2) * |z| < 2 ^ 52`, reading with
`quantize=True` and floating-point numbers fails only where it fails with exact numbers, and otherwise gives whole numbers
that add up to the stored quantities, exactly, for any condition on the attributes. -/
theorem C110_whole {s : Store} (hr : Reachable s) (hN : s.index.length + 2 ≤ 2 ^ 52) (cm : CaseMap) (sels : List Sel)
    (hq : ∀ q ∈ s.quants, ∃ z : ℤ, q.value = z ∧ ((s.index.length : ℤ) + 2) * |z| < 2 ^ 52) :
    (∃ rows rowsF, s.call cm sels true = .ok rows ∧ s.callF cm sels true = .ok rowsF ∧
      (rowsF.map fun r => (r.1, r.2.1)).Perm (rows.map fun r => (r.1, r.2.1)) ∧
      (∀ r ∈ rowsF, fracPart r.2.2 = 0) ∧
      ∀ P : Attrs → Prop, (∀ a b : Attrs, (∀ kv, kv ∈ a ↔ kv ∈ b) → (P a ↔ P b)) →
        ((rowsF.filter fun r => P r.2.1).map (·.2.2)).sum =
          ((s.quants.filter fun q => s.Counted q ∧ s.Selected cm sels q ∧
            ∃ g ∈ s.agroups, g.id = q.ag ∧ P (s.withDomain g.attrs)).map (·.value)).sum) ∨
    ∃ e, s.call cm sels true = .error e ∧ s.callF cm sels true = .error e := by
  have h : Alike SameWhole (s.call cm sels true) (s.callF cm sels true) := by
    refine call_alike ⟨.refl _, by simp, fun _ _ => rfl⟩ (fun a b a' b' h h' => h.append h') ?_
    intro dflt finest l _ q hqm _
    obtain ⟨z, hz, hlt⟩ := hq q hqm
    exact disaggOne_whole hr.indexInv hr.weightInv hN cm dflt finest l q hz hlt
  rcases h with ⟨rows, rowsF, h1, h2, h3, h4, h5⟩ | h
  · refine .inl ⟨rows, rowsF, h1, h2, h3, h4, fun P hP => ?_⟩
    rw [h5 P]
    exact C14_totals hr h1 P hP
  · exact .inr h

/-! The history of `Demo` meets the hypotheses. -/

example : Demo.store.index.length + 2 ≤ 2 ^ 52 := by rw [Demo.index_eq]; decide

example : ∀ q ∈ Demo.store.quants, ∃ z : ℤ, q.value = z ∧ ((Demo.store.index.length : ℤ) + 2) * |z| < 2 ^ 52 := by
  intro q hq
  rw [Demo.quants_eq] at hq
  rw [Demo.index_eq]
  simp only [List.mem_cons, List.not_mem_nil, or_false] at hq
  rcases hq with rfl | rfl
  · exact ⟨100, by norm_num, by decide⟩
  · exact ⟨7, by norm_num, by decide⟩

example : (Demo.store.callF asciiCase [] false).toOption =
    some [(3, [(['c'], ['m'])], 7), (1, [(['c'], ['m'])], 75), (2, [(['c'], ['m'])], 25)] := by
  decide +kernel

example : (Demo.store.callF asciiCase [] true).toOption =
    some [(3, [(['c'], ['m'])], 7), (1, [(['c'], ['m'])], 75), (2, [(['c'], ['m'])], 25)] := by
  decide +kernel

end Toron.Space
