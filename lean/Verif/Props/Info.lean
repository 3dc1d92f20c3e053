/-
C75: the summary of a dataspace.
-/
import Verif.Model.Info
import Verif.Spec.Info
import Verif.Props.Format
import Verif.Lemmas.Info
import Verif.Lemmas.SortDefs
import Verif.Demo
import Verif.Props.StorePartitions

namespace Toron.Info

open Toron.Selectors (PyStr)
open Toron.Space Toron.Spec Toron.Partitions
open Toron.Format

theorem displayOrder_nodup {s : Store} (h : ReachableShown s) : s.displayOrder.Nodup := by
  have hr : Reachable s := by
    obtain ⟨uid, ops, _, rfl⟩ := h
    exact ⟨uid, ops, rfl⟩
  exact (C37_display_order_partial h).nodup_iff.2 (hr.colInv.cols.of_map _)

theorem defs_known {s : Store} (hk : ReachableKeeping s) (hs : ReachableShown s) :
    ∀ d ∈ s.partDefs.getD [], ∀ x ∈ d, x ∈ s.displayOrder := by
  intro d hd x hx
  rw [(C37_display_order_partial hs).mem_iff]
  exact List.mem_toFinset.1 (C38_defs_are_columns_partial hk d hd hx)

theorem display_toFinset {s : Store} (hs : ReachableShown s) : s.displayOrder.toFinset = s.whole := by
  ext x
  rw [List.mem_toFinset, (C37_display_order_partial hs).mem_iff]
  exact List.mem_toFinset.symm

/-- A combination that is shown is a valid one. -/
theorem shown_valid {s : Store} (hk : ReachableKeeping s) (hs : ReachableShown s) (hc : s.cols ≠ []) {d : Finset PyStr}
    (hd : d ∈ withWhole (s.partDefs.getD []) s.displayOrder) : s.Valid d := by
  rw [C53_valid_partial hk]
  refine ⟨hc, ?_⟩
  rcases mem_withWhole hd with hd | rfl
  · exact isUnionOf_self hd
  · rw [display_toFinset hs]
    exact C38_defs_generate_whole_partial hk hc

theorem commas_eq (ts : List PyStr) : commas ts = joined ts := by
  unfold joined
  induction ts with
  | nil => rfl
  | cons t ts ih =>
    cases ts with
    | nil => simp [commas]
    | cons u ts =>
      have h2 : ", ".toList = [',', ' '] := by decide +kernel
      rw [commas, ih, List.intercalate_cons_cons, h2]
      · simp
      · simp

theorem structByLabels_some {s : Store} {d : Finset PyStr} (h : s.Valid d) :
    ∃ r ∈ s.structs, s.structByLabels d = some r ∧ r.bits = s.cols.map fun c => decide (c ∈ d) := by
  obtain ⟨_, r, hr, hb⟩ := h
  unfold Store.structByLabels
  cases hf : s.structs.find? fun r => r.bits == bitsOf s.cols d with
  | none =>
    have := List.find?_eq_none.1 hf r hr
    exact absurd (beq_iff_eq.2 hb) this
  | some r' =>
    have := List.find?_some hf
    exact ⟨r', List.mem_of_find?_eq_some hf, rfl, beq_iff_eq.1 this⟩

theorem mapM_okE {α β : Type} {f : α → Except Err β} {g : α → β} {l : List α} (h : ∀ x ∈ l, f x = .ok (g x)) :
    l.mapM f = .ok (l.map g) := by
  induction l with
  | nil => rfl
  | cons x l ih =>
    obtain ⟨hx, hl⟩ := List.forall_mem_cons.1 h
    rw [List.mapM_cons, hx, ih hl]
    rfl

/-- What is shown for a granularity. -/
def Shows (num : Gran → ℚ) (g : Option Gran) (t : PyStr) : Prop :=
  match g with
  | some g => |value t - num g| ≤ 1 / 2000
  | none => t.dropWhile (· == ' ') = "None".toList

/-- **C75** The summary shows every partition definition once, and the whole space, each with its labels in display order
and with the stored granularity, rounded to at least three places. The first label in which two of them differ belongs
to the one that is shown first. This is for histories in which no column is dropped, or renamed after the display order
was changed, and for granularities that are not too close to each other. -/
theorem C75_partitions_partial {s : Store} (hk : ReachableKeeping s) (hs : ReachableShown s) (num : Gran → ℚ)
    (hnum : ∀ a b : ℚ, (a = 0 ∨ ∃ r ∈ s.structs, r.gran.map num = some a) →
      (b = 0 ∨ ∃ r ∈ s.structs, r.gran.map num = some b) → a ≠ b → 1 / 10 ^ 17 < |a - b|) :
    ∃ shown : List (List PyStr × PyStr),
      partitionLines num s =
        .ok (if shown = [] then ["None".toList] else shown.map fun p => p.2 ++ "  ".toList ++ joined p.1) ∧
      (∀ p ∈ shown, p.1.Sublist s.displayOrder) ∧
      (shown.map fun p => p.1.toFinset).Perm
        (if s.cols ≠ [] ∧ s.whole ∉ s.defs then s.defs ++ [s.whole] else s.defs) ∧
      (shown.Pairwise fun a b => ∀ pre x post, s.displayOrder = pre ++ x :: post →
        (∀ y ∈ pre, y ∈ a.1 ↔ y ∈ b.1) → x ∈ b.1 → x ∈ a.1) ∧
      ∀ p ∈ shown, ∃ r ∈ s.structs, (r.bits = s.cols.map fun c => decide (c ∈ p.1)) ∧ Shows num r.gran p.2 := by
  obtain ⟨defs, hdefs, hsub, hperm, hpair⟩ := C75_sorted (displayOrder_nodup hs) (defs_known hk hs)
  have hne : s.displayOrder ≠ [] ↔ s.cols ≠ [] := by
    rw [ne_eq, ne_eq, ← List.length_eq_zero_iff, ← List.length_eq_zero_iff, (C37_display_order_partial hs).length_eq]
  rw [display_toFinset hs] at hperm
  have hperm : (defs.map List.toFinset).Perm
      (if s.cols ≠ [] ∧ s.whole ∉ s.defs then s.defs ++ [s.whole] else s.defs) := by
    by_cases hc : s.cols ≠ [] ∧ s.whole ∉ s.defs
    · rw [if_pos hc]
      rwa [if_pos ⟨hne.2 hc.1, hc.2⟩] at hperm
    · rw [if_neg hc]
      rwa [if_neg fun h => hc ⟨hne.1 h.1, h.2⟩] at hperm
  have hvalid : ∀ c ∈ defs, ∃ r ∈ s.structs, s.structByLabels c.toFinset = some r ∧
      r.bits = s.cols.map fun x => decide (x ∈ c.toFinset) := by
    intro c hc
    refine structByLabels_some ?_
    have hmem := hperm.mem_iff.1 (List.mem_map.2 ⟨c, hc, rfl⟩)
    have hcols : s.cols ≠ [] := by
      intro h0
      have h1 := hk.parts.1.empty h0
      rw [if_neg (fun h => h.1 h0)] at hmem
      change c.toFinset ∈ s.partDefs.getD [] at hmem
      rw [h1.2] at hmem
      cases hmem
    refine shown_valid hk hs hcols ?_
    unfold withWhole
    rw [display_toFinset hs]
    by_cases hcond : s.cols ≠ [] ∧ s.whole ∉ s.defs
    · rw [if_pos hcond] at hmem
      rw [if_pos]
      · exact hmem
      · refine ⟨?_, hcond.2⟩
        unfold Store.whole
        rw [ne_eq, List.toFinset_eq_empty_iff]
        exact hcond.1
    · rw [if_neg hcond] at hmem
      split
      · exact List.mem_append_left _ hmem
      · exact hmem
  let g : List PyStr → Option ℚ := fun c => (s.structByLabels c.toFinset).bind fun r => r.gran.map num
  have hgrans : defs.mapM (granOf num s) = .ok (defs.map g) := by
    refine mapM_okE fun c hc => ?_
    obtain ⟨r, hr, h1, _⟩ := hvalid c hc
    unfold granOf
    have : g c = r.gran.map num := by dsimp only [g]; rw [h1]; rfl
    rw [if_neg (List.ne_nil_of_mem hr), h1, this]
  have hfrom : ∀ a : ℚ, some a ∈ defs.map g ++ [some 0] → a = 0 ∨ ∃ r ∈ s.structs, r.gran.map num = some a := by
    intro a ha
    rcases List.mem_append.1 ha with ha | ha
    · obtain ⟨c, hc, ha⟩ := List.mem_map.1 ha
      obtain ⟨r, hr, h1, _⟩ := hvalid c hc
      refine .inr ⟨r, hr, ?_⟩
      rw [← ha]
      dsimp only [g]
      rw [h1]
      rfl
    · rw [List.mem_singleton] at ha
      exact .inl (Option.some.inj ha)
  obtain ⟨texts, htexts⟩ := C74_succeeds_partial (vs := defs.map g) fun a b ha hb => hnum a b (hfrom a ha) (hfrom b hb)
  have hlen : texts.length = defs.length := by
    rw [(C74_distinct htexts).1, List.length_map]
  obtain ⟨p, w, h3, _, _, hval⟩ := C74_value htexts
  have hfst : (defs.zip texts).map Prod.fst = defs := by
    rw [List.map_fst_zip]
    omega
  refine ⟨defs.zip texts, ?_, ?_, ?_, ?_, ?_⟩
  · have hline : (texts.zip defs).map (fun p => partLine p.1 p.2) =
        (defs.zip texts).map fun p => p.2 ++ "  ".toList ++ joined p.1 := by
      rw [← List.zip_swap defs texts, List.map_map]
      refine List.map_congr_left fun p _ => ?_
      have h2 : "  ".toList = [' ', ' '] := by decide +kernel
      dsimp only [Function.comp, Prod.swap, partLine]
      rw [commas_eq, h2]
      simp
    have hnil : (texts.zip defs = []) ↔ (defs.zip texts = []) := by
      rw [← List.zip_swap defs texts, List.map_eq_nil_iff]
    have hn : "None".toList = noneText := by decide +kernel
    unfold partitionLines
    rw [hdefs]
    change (defs.mapM (granOf num s) >>= fun grans => _) = _
    rw [hgrans]
    change (formatGranularity (defs.map g) >>= fun texts => _) = _
    rw [htexts]
    change Except.ok _ = _
    rw [hline, hn]
    by_cases h0 : defs.zip texts = []
    · rw [if_pos h0, if_pos (hnil.2 h0)]
    · rw [if_neg h0, if_neg fun h => h0 (hnil.1 h)]
  · intro q hq
    exact hsub q.1 (List.of_mem_zip hq).1
  · have : (defs.zip texts).map (fun p => p.1.toFinset) = defs.map List.toFinset := by
      conv_rhs => rw [← hfst, List.map_map]
      rfl
    rw [this]
    exact hperm
  · rw [← hfst, List.pairwise_map] at hpair
    exact hpair
  · intro q hq
    obtain ⟨i, hi⟩ := List.mem_iff_getElem?.1 hq
    obtain ⟨h1, h2⟩ := List.getElem?_zip_eq_some.1 hi
    obtain ⟨r, hr, hst, hb⟩ := hvalid q.1 (List.mem_of_getElem? h1)
    refine ⟨r, hr, ?_, ?_⟩
    · rw [hb]
      simp only [List.mem_toFinset]
    · have hg : (defs.map g)[i]? = some (r.gran.map num) := by
        rw [List.getElem?_map, h1]
        dsimp only [g, Option.map_some]
        rw [hst]
        rfl
      have := hval i _ _ hg h2
      unfold Shows
      cases hgr : r.gran with
      | none =>
        rw [hgr] at this
        exact this
      | some v =>
        rw [hgr] at this
        refine le_trans this.2 ?_
        rw [div_div]
        refine div_le_div_of_nonneg_left (by norm_num) (by norm_num) ?_
        have : (10 : ℚ) ^ 3 ≤ 10 ^ p := pow_le_pow_right₀ (by norm_num) h3
        linarith


/-- Granularities of the example as floats. -/
def demoNum (g : Gran) : ℚ := g.n - g.k / 8

example : ReachableKeeping Demo.store ∧ ReachableShown Demo.store ∧
    (∀ a b : ℚ, (a = 0 ∨ ∃ r ∈ Demo.store.structs, r.gran.map demoNum = some a) →
      (b = 0 ∨ ∃ r ∈ Demo.store.structs, r.gran.map demoNum = some b) → a ≠ b → 1 / 10 ^ 17 < |a - b|) ∧
    (partitionLines demoNum Demo.store).toOption = some ["2.875  A, B".toList, "2.500  A".toList] := by
  refine ⟨⟨['u'], Demo.ops, by decide, rfl⟩, ⟨['u'], Demo.ops, by decide, rfl⟩, ?_, by decide +kernel⟩
  have h : Demo.store.structs.map (fun r => r.gran.map demoNum) = [none, some (5 / 2), some (23 / 8)] := by
    decide +kernel
  have key : ∀ a : ℚ, (a = 0 ∨ ∃ r ∈ Demo.store.structs, r.gran.map demoNum = some a) → a = 0 ∨ a = 5 / 2 ∨ a = 23 / 8 := by
    rintro a (ha | ⟨r, hr, ha⟩)
    · exact .inl ha
    · have : some a ∈ Demo.store.structs.map (fun r => r.gran.map demoNum) := List.mem_map.2 ⟨r, hr, ha⟩
      rw [h] at this
      simp only [List.mem_cons, reduceCtorEq, Option.some.injEq, List.not_mem_nil, or_false, false_or] at this
      exact .inr this
  intro a b ha hb hab
  rcases key a ha with rfl | rfl | rfl <;> rcases key b hb with rfl | rfl | rfl <;>
    first | exact absurd rfl hab | (norm_num [abs_of_neg, abs_of_pos])

/-! ### Weight groups -/

theorem groupNote_eq (i : Option Nat) (g : WGroup) :
    g.name ++ groupNote i g = groupText (decide (some g.id = i)) g := by
  unfold groupNote groupText
  by_cases h : some g.id = i
  · rw [if_pos h, decide_eq_true h]
    cases g.complete
    · exact congrArg (g.name ++ ·) (by decide +kernel)
    · exact congrArg (g.name ++ ·) (by decide +kernel)
  · rw [if_neg h, decide_eq_false h]
    cases g.complete
    · exact congrArg (g.name ++ ·) (by decide +kernel)
    · exact congrArg (g.name ++ ·) (by decide +kernel)

/-- **C75** The summary names every weight group once, in the order of the names, and says which one is the default and
which ones are incomplete. This is for histories in which only a group that exists is made the default. -/
theorem C75_weights_partial {s : Store} (h : ReachableDefaulted s) (hne : s.wgroups ≠ []) :
    ∃ gs : List WGroup, gs.Perm s.wgroups ∧ gs.Pairwise (fun a b => TextLe a.name b.name) ∧
      weightTexts s = .ok (gs.map fun g => groupText (decide (s.defaultWG = some (some g.id))) g) := by
  refine ⟨sortedBy (fun a b : WGroup => textLe a.name b.name) s.wgroups, sortedBy_perm _ _, ?_, ?_⟩
  · exact (sortedBy_pairwise (fun a b : WGroup => textLe a.name b.name) (fun a b c => text_trans _ _ _)
      (fun a b => text_total _ _) s.wgroups).imp fun h => text_le h
  · have hd : ∃ i, defaultId s = .ok i ∧ ∀ g : WGroup, decide (some g.id = i) = decide (s.defaultWG = some (some g.id)) := by
      unfold defaultId Store.getDefaultWG
      cases hdef : s.defaultWG with
      | none =>
        refine ⟨none, rfl, fun g => ?_⟩
        simp
      | some d =>
        obtain ⟨w, hw, rfl⟩ := h.defaultOk d hdef
        dsimp only
        cases hf : s.wgroups.find? fun g => g.id == w.id with
        | none => exact absurd (beq_iff_eq.2 rfl) (List.find?_eq_none.1 hf w hw)
        | some g =>
          have hg : g.id = w.id := by simpa using List.find?_some hf
          refine ⟨some g.id, rfl, fun g' => ?_⟩
          simp only [hg, Option.some.injEq, eq_comm]
    obtain ⟨i, hi, hdec⟩ := hd
    unfold weightTexts
    rw [if_neg (by simpa using hne), hi]
    change Except.ok _ = _
    refine congrArg _ (List.map_congr_left fun g _ => ?_)
    rw [groupNote_eq, hdec]

example : ReachableDefaulted Demo.store ∧ Demo.store.wgroups ≠ [] ∧
    (weightTexts Demo.store).toOption = some ["w (default)".toList] := by
  refine ⟨⟨['u'], Demo.ops, fun pre g post h => ?_, rfl⟩, by decide +kernel, by decide +kernel⟩
  have h1 : Op.setDefaultWeightGroup g ∈ Demo.ops := by rw [h]; simp
  simp [Demo.ops] at h1

/-! ### Links -/

theorem linkNote_eq (l : Link) : l.name ++ linkNote l = linkText l := by
  unfold linkNote linkText
  cases l.isDefault <;> cases l.complete <;> exact congrArg (l.name ++ ·) (by decide +kernel)

theorem spaceRef_eq (l : Link) : spaceRef l = originText l := by
  have h1 : "[".toList = ['['] := by decide +kernel
  have h2 : "]".toList = [']'] := by decide +kernel
  unfold spaceRef originText
  rw [h1, h2]
  rcases l.hint with _ | _ | ⟨c, t⟩
  · rfl
  · rfl
  · rfl

/-- **C75** The summary has one line for each dataspace that links come from, in the order of their ids. The line begins
with the origin that is recorded for the oldest of these links, and then names each of the links from this dataspace, in
the order of the texts, with the notes that it is the default and that it is incomplete. -/
theorem C75_links {s : Store} (hne : s.links ≠ []) :
    ∃ os : List PyStr, os.Nodup ∧ (∀ o, o ∈ os ↔ ∃ l ∈ s.links, l.other = o) ∧ os.Pairwise TextLe ∧
      List.Forall₂ (fun o line => ∃ first ∈ s.links, first.other = o ∧
        (∀ l ∈ s.links, l.other = o → first.id ≤ l.id) ∧
        ∃ texts : List PyStr, texts.Perm ((s.links.filter fun l => decide (l.other = o)).map linkText) ∧
          texts.Pairwise TextLe ∧ line = originText first ++ ": ".toList ++ joined texts) os (linkLines s) := by
  have hpair := sortedBy_pairwise linkLe linkLe_trans linkLe_total s.links
  have hperm := sortedBy_perm linkLe s.links
  unfold linkLines
  rw [if_neg (by simpa using hne)]
  dsimp only
  generalize sortedBy linkLe s.links = sorted at hpair hperm
  refine ⟨distinct (sorted.map (·.other)), nodup_distinct _, fun o => ?_, ?_, ?_⟩
  · rw [mem_distinct, List.mem_map]
    exact exists_congr fun l => and_congr_left fun _ => hperm.mem_iff
  · refine List.Pairwise.sublist (distinct_sublist _) ?_
    rw [List.pairwise_map]
    refine hpair.imp fun {a b} h => ?_
    unfold linkLe at h
    by_cases hab : a.other = b.other
    · rw [hab]
      rcases text_total b.other b.other with h | h <;> exact text_le h
    · rw [if_neg hab] at h
      exact text_le h
  · refine forall₂_filterMap fun o ho => ?_
    rw [mem_distinct, List.mem_map] at ho
    obtain ⟨l0, hl0, rfl⟩ := ho
    have hmem : ∀ l, l ∈ sorted.filter (fun l => decide (l.other = l0.other)) ↔ l ∈ s.links ∧ l.other = l0.other := by
      intro l
      rw [List.mem_filter, hperm.mem_iff, decide_eq_true_eq]
    have hp2 := List.Pairwise.sublist (List.filter_sublist (p := fun l => decide (l.other = l0.other))) hpair
    have hperm2 := hperm.filter fun l => decide (l.other = l0.other)
    have h0 : l0 ∈ sorted.filter (fun l => decide (l.other = l0.other)) :=
      (hmem l0).2 ⟨hperm.mem_iff.1 hl0, rfl⟩
    generalize sorted.filter (fun l => decide (l.other = l0.other)) = ls at hmem hp2 hperm2 h0
    cases ls with
    | nil => cases h0
    | cons f rest =>
      obtain ⟨hf1, hf2⟩ := (hmem f).1 List.mem_cons_self
      refine ⟨_, rfl, f, hf1, hf2, ?_, sortedBy textLe ((f :: rest).map fun x => x.name ++ linkNote x), ?_, ?_, ?_⟩
      · intro l hl hlo
        rcases List.mem_cons.1 ((hmem l).2 ⟨hl, hlo⟩) with rfl | hr
        · exact Nat.le_refl _
        · have := (List.pairwise_cons.1 hp2).1 l hr
          unfold linkLe at this
          rw [if_pos (hf2.trans hlo.symm)] at this
          exact of_decide_eq_true this
      · refine (sortedBy_perm _ _).trans ?_
        rw [List.map_congr_left fun l _ => linkNote_eq l]
        exact hperm2.map _
      · exact (sortedBy_pairwise textLe text_trans text_total _).imp fun h => text_le h
      · have h2 : ": ".toList = [':', ' '] := by decide +kernel
        rw [commas_eq, spaceRef_eq, h2]
        simp

example : Demo.store.links ≠ [] ∧ linkLines Demo.store = ["[other]: l (default)".toList] := by
  exact ⟨by decide +kernel, by decide +kernel⟩

/-- **C75** If there is no weight group, or no link, then the summary says so. -/
theorem C75_none {s : Store} : (s.wgroups = [] → weightTexts s = .ok ["None".toList]) ∧
    (s.links = [] → linkLines s = ["None".toList]) := by
  have hn : "None".toList = noneText := by decide +kernel
  rw [hn]
  refine ⟨fun h => ?_, fun h => ?_⟩
  · unfold weightTexts
    rw [h]
    rfl
  · unfold linkLines
    rw [h]
    rfl

/-- **C75** There is a summary, made of the domain, the lines about partitions (`C75_partitions_partial`), those about weight
groups (`C75_weights_partial`, `C75_none`) and those about links (`C75_links`, `C75_none`). -/
theorem C75_summary_partial {s : Store} (hk : ReachableKeeping s) (hs : ReachableShown s) (hd : ReachableDefaulted s)
    (num : Gran → ℚ)
    (hnum : ∀ a b : ℚ, (a = 0 ∨ ∃ r ∈ s.structs, r.gran.map num = some a) →
      (b = 0 ∨ ∃ r ∈ s.structs, r.gran.map num = some b) → a ≠ b → 1 / 10 ^ 17 < |a - b|) :
    ∃ i, infoText num s = .ok i ∧ i.domain = (if s.getDomain = [] then "None".toList else s.getDomain) ∧
      partitionLines num s = .ok i.partitions ∧ weightTexts s = .ok i.weights ∧ i.links = linkLines s := by
  obtain ⟨shown, hp, _⟩ := C75_partitions_partial hk hs num hnum
  have hw : ∃ w, weightTexts s = .ok w := by
    by_cases h : s.wgroups = []
    · exact ⟨_, C75_none.1 h⟩
    · obtain ⟨_, _, _, h⟩ := C75_weights_partial hd h
      exact ⟨_, h⟩
  obtain ⟨w, hw⟩ := hw
  have hn : "None".toList = noneText := by decide +kernel
  unfold infoText
  rw [hp, hw, hn]
  exact ⟨_, rfl, rfl, rfl, rfl, rfl⟩

/-! ### What goes wrong -/

/-- After a column is dropped, there may be no summary: the stored definitions still name the column. -/
theorem C75_violated_dropped : ∃ s, Reachable s ∧ ∀ num, ∃ e, infoText num s = .error (.valueError e) := by
  refine ⟨run [.addIndexColumns [['A'], ['B']], .dropIndexColumns [['B']]] (Store.new ['u']), ⟨_, _, rfl⟩, fun num => ?_⟩
  generalize hs : run [.addIndexColumns [['A'], ['B']], .dropIndexColumns [['B']]] (Store.new ['u']) = s
  have hd : ∃ d ∈ s.partDefs.getD [], ['B'] ∈ d := by
    rw [← hs]
    decide +kernel
  have hn : ['B'] ∉ s.displayOrder := by
    rw [← hs]
    decide +kernel
  obtain ⟨d, hd, hB⟩ := hd
  refine ⟨"partition label missing from given labels", ?_⟩
  unfold infoText partitionLines
  rw [sortDefinitions_error hd hB hn]
  rfl

/-- After a weight group that was dropped is made the default, there is no summary. -/
theorem C75_violated_default : ∃ s, Reachable s ∧ s.wgroups ≠ [] ∧
    weightTexts s = .error (.keyError "no weight group with id") ∧
    ∀ num, ∃ e, infoText num s = .error e := by
  refine ⟨run [.addWeightGroup ['v'] [] false none, .addWeightGroup ['w'] [] false none, .dropWeightGroup ['w'],
    .setDefaultWeightGroup (some 2)] (Store.new ['u']), ⟨_, _, rfl⟩, by decide +kernel, ?_⟩
  generalize hs : run [.addWeightGroup ['v'] [] false none, .addWeightGroup ['w'] [] false none, .dropWeightGroup ['w'],
    .setDefaultWeightGroup (some 2)] (Store.new ['u']) = s
  have h1 : s.defaultWG = some (some 2) := by rw [← hs]; decide +kernel
  have h2 : s.wgroups.find? (fun g => g.id == 2) = none := by rw [← hs]; decide +kernel
  have h3 : s.wgroups.isEmpty = false := by rw [← hs]; decide +kernel
  have hw : weightTexts s = .error (.keyError "no weight group with id") := by
    unfold weightTexts defaultId Store.getDefaultWG
    rw [h1]
    dsimp only
    rw [h2, h3]
    rfl
  refine ⟨hw, fun num => ?_⟩
  unfold infoText
  rw [hw]
  cases partitionLines num s with
  | error e => exact ⟨e, rfl⟩
  | ok l => exact ⟨_, rfl⟩

/-- Links from two dataspaces that were recorded with the same file name cannot be told apart: their lines are the
same. -/
theorem C75_violated_hint : ∃ s, Reachable s ∧ (s.links.map (·.other)).Nodup ∧ ¬ (linkLines s).Nodup := by
  exact ⟨run [.addLink ['o', '1'] ['l'] (some ['f']) [] none none false,
    .addLink ['o', '2'] ['l'] (some ['f']) [] none none false] (Store.new ['u']), ⟨_, _, rfl⟩, by decide +kernel,
    by decide +kernel⟩

end Toron.Info
